import Verif.Model.Basic

/-!
Model of the program `/repo/src/bin/manual_futures.rs`: a producer that counts with a timer and a consumer that waits for the count,
joined in one task.

The two counts (`PRODUCER_COUNT`, `CONSUMER_COUNT`, lines 1-2) are parameters. A poll of the task comes with the number of times
`sleep(…).await` (21) is found to be over in it; usually that is one, but a thread that was held up may find more than one over.
-/
namespace Ngfs.Producer

/-- What is printed. -/
inductive Line where
  /-- `producer: count = …`, 25 -/
  | counted (n : Nat)
  /-- `ConsumerFuture::poll: count = …`, 50 -/
  | looked (n : Nat)
  /-- `consumer: res = …`, 67 -/
  | result (n : Nat)
deriving DecidableEq

/-- `Shared` (14-17), whether each of the two futures has returned, and what has been printed. -/
structure State where
  count : Nat
  consumerWaker : Bool
  producerDone : Bool
  consumerDone : Bool
  log : List Line
deriving DecidableEq

/-- `main`, 72-77: nothing has been polled. -/
def State.init : State := ⟨0, false, false, false, []⟩

/-- `producer`, 19-31, polled when its timer is over `k` times in a row. -/
def State.produce (goal : Nat) : Nat → State → State
  | 0, s => s
  | k + 1, s =>
    let s := { s with count := s.count + 1, log := s.log ++ [Line.counted (s.count + 1)] }
    if s.count ≥ goal then { s with producerDone := true } else s.produce goal k

/-- `ConsumerFuture::poll`, 48-58, inside `consumer`, 65-68. -/
def State.consume (wanted : Nat) (s : State) : State :=
  let s := { s with log := s.log ++ [Line.looked s.count] }
  if s.count ≥ wanted then { s with consumerDone := true, log := s.log ++ [Line.result s.count] }
  else { s with consumerWaker := true }

/-- `Join::poll` of futures 0.3: it polls each of its two futures that has not returned. -/
def State.poll (goal wanted : Nat) (s : State) (k : Nat) : State :=
  let s := if s.producerDone then s else s.produce goal k
  if s.consumerDone then s else s.consume wanted

/-- `join(…).await` is over, 78. -/
def State.ended (s : State) : Bool := s.producerDone && s.consumerDone

/-- The polls of the task, each with the number of times the timer was over. -/
def run (goal wanted : Nat) (polls : List Nat) : State := polls.foldl (State.poll goal wanted) State.init

end Ngfs.Producer
