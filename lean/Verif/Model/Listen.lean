import Verif.Model.Basic

/-!
Model of the accept loops of the programs that listen: `main` of `/repo/src/bin/chatserver.rs` 238-249, `/repo/src/bin/sock.rs` 108-120,
`/repo/src/bin/iotest.rs` 136-153, `/repo/src/bin/server.rs` 61-106 and `/repo/src/bin/proxy.rs` 105-139, and `accept_loop` of
`/repo/src/bin/ipfs.rs` 127-155.

What a task does with its connection is modelled in `Chat`, `Sock`, `Echo`, `Proxy` and `Handler`; here a task runs until it ends. The
numbers are unbounded (`usize` in the code). Binding and the options are left out.
-/
namespace Ngfs.Listen

/-- The programs. `echo` is server.rs, which does not number its connections; they are numbered here in the same way as by the others. -/
inductive Program where
  | chat | sock | iotest | echo | proxy | ipfs
deriving DecidableEq

/-- Where the loop is. -/
inductive Place where
  /-- in `accept` -/
  | accepting
  /-- in `TcpStream::connect` for the connection with this number, proxy.rs 112 -/
  | connecting (id : Nat)
  /-- the loop of ipfs.rs has returned, 147 or 151; it is a task of its own, so that the other tasks go on -/
  | stopped
  /-- `main` has returned an error; the runtime is dropped, and with it every task -/
  | exited
deriving DecidableEq

/-- One of the two directions of a proxied connection, proxy.rs 127-132. The other programs have one task for a connection, `up`. -/
inductive Side where
  | up | down
deriving DecidableEq

/-- Where the loop is, the number of the next connection, and the tasks that run. -/
structure State where
  place : Place
  next : Nat
  tasks : List (Nat × Side)
deriving DecidableEq

def State.init : State := ⟨.accepting, 0, []⟩

/-- What may happen. -/
inductive Event where
  | accepted
  /-- `accept` gives an error -/
  | acceptFails
  /-- `Ok(None)`, ipfs.rs 144: the transport below the streams is closed -/
  | closed
  /-- the connection of the proxy to its server is made, 112 -/
  | connected
  | connectFails
  /-- a task ends -/
  | ends (id : Nat) (side : Side)
deriving DecidableEq

/-- One round of a loop, or of a part of it; `none` if the event cannot happen now. -/
def step (p : Program) (s : State) : Event → Option State
  | .accepted =>
    if s.place = .accepting then
      match p with
      | .proxy => some ⟨.connecting s.next, s.next + 1, s.tasks⟩
      | _ => some ⟨.accepting, s.next + 1, s.tasks ++ [(s.next, .up)]⟩
    else none
  | .acceptFails =>
    if s.place = .accepting then
      match p with
      | .ipfs => some ⟨.stopped, s.next, s.tasks⟩
      | _ => some ⟨.exited, s.next, []⟩
    else none
  | .closed =>
    if s.place = .accepting ∧ p = .ipfs then some ⟨.stopped, s.next, s.tasks⟩ else none
  | .connected =>
    match s.place with
    | .connecting id => some ⟨.accepting, s.next, s.tasks ++ [(id, .up), (id, .down)]⟩
    | _ => none
  | .connectFails =>
    match s.place with
    | .connecting _ => some ⟨.exited, s.next, []⟩
    | _ => none
  | .ends id side => if (id, side) ∈ s.tasks then some { s with tasks := s.tasks.erase (id, side) } else none

/-- The state after a history, if that history is possible. -/
def run (p : Program) : State → List Event → Option State
  | s, [] => some s
  | s, e :: es =>
    match step p s e with
    | none => none
    | some s' => run p s' es

end Ngfs.Listen
