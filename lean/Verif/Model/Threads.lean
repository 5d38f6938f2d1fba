import Verif.Model.Basic

/-!
Model of `/repo/src/bin/threads.rs`: two threads that send texts through one channel (`std::sync::mpsc`), and the main thread that prints
what arrives. The texts (17-22, 31-36) are parameters; the sleeps (26, 40) only delay.
-/
namespace Ngfs.Threads

/-- One of the two threads. -/
inductive Who where
  | one | two
deriving DecidableEq

/-- A sending thread: the texts it has still to send, or finished, its `Sender` dropped. -/
inductive Thread where
  | running (left : List String)
  | finished
  /-- panicked in `unwrap`, 25 or 39 -/
  | panicked
deriving DecidableEq

/-- The threads, what is in the channel, what was printed (45), and whether `for received in rx` (44) is over. -/
structure State where
  one : Thread
  two : Thread
  queue : List String
  got : List String
  ended : Bool
deriving DecidableEq

def State.init (vals1 vals2 : List String) : State := ⟨.running vals1, .running vals2, [], [], false⟩

def State.thread (s : State) : Who → Thread
  | .one => s.one
  | .two => s.two

def State.set (s : State) (w : Who) (t : Thread) : State :=
  match w with
  | .one => { s with one := t }
  | .two => { s with two := t }

/-- The next operation of a sending thread, 24-27 and 38-41: `send` the next text, which fails if the receiver is gone, or return, which
drops its sender. -/
def State.advance (s : State) (w : Who) : State :=
  match s.thread w with
  | .running (v :: left) =>
    if s.ended then s.set w .panicked else { s.set w (.running left) with queue := s.queue ++ [v] }
  | .running [] => s.set w .finished
  | _ => s

/-- Whether the sender of a thread still exists. -/
def Thread.alive : Thread → Bool
  | .running _ => true
  | _ => false

/-- One round of `for received in rx`, 44-46: print a text, or end if there are no more senders, or wait. -/
def State.receive (s : State) : State :=
  if s.ended then s
  else
    match s.queue with
    | v :: queue => { s with queue := queue, got := s.got ++ [v] }
    | [] => if s.one.alive || s.two.alive then s else { s with ended := true }

/-- What may happen next. -/
inductive Action where
  | thread (w : Who)
  | main
deriving DecidableEq

def State.step (s : State) : Action → State
  | .thread w => s.advance w
  | .main => s.receive

def run (vals1 vals2 : List String) (as : List Action) : State := as.foldl State.step (State.init vals1 vals2)

end Ngfs.Threads
