import Verif.Model.Basic

/-!
Model of the echo server, `/repo/src/bin/server.rs` 43-106.

Every connection is a task of its own and the tasks run in parallel, so the model is a transition system: one `Action` is
one operation on a socket or one critical section, and the actions of all tasks may follow each other in any order. The
counters are unbounded (`usize` in the code). Listening and the printed address (45-55) are left out.
-/
namespace Ngfs.Echo

/-- Where the task of a connection (74-104) is. -/
inductive TaskState where
  /-- in `read`, 79-82 -/
  | reading
  /-- before the critical section 83-87, with the bytes read (`buf[0..n]`) -/
  | countReceived (buf : Bytes)
  /-- in `write_all`, 93-96: the bytes not yet written, and `n` -/
  | writing (left : Bytes) (n : Nat)
  /-- before the critical section 98-102, with `n` -/
  | countSent (n : Nat)
  /-- returned, 90 -/
  | finished
  /-- panicked in `expect`, 82 or 96 -/
  | panicked
deriving DecidableEq

/-- A connection: where its task is and what was written to its socket. -/
structure Conn where
  task : TaskState
  out : Bytes
deriving DecidableEq

/-- `Stats`, server.rs 33-36, the connections in the order in which they were accepted, and what was printed by the two
`println!` (86, 101): received and sent, the latest first. -/
structure State where
  conns : List Conn
  received : Nat
  sent : Nat
  printed : List (Nat × Nat)
deriving DecidableEq

/-- `Stats::new`, server.rs 39-41, and no connection. -/
def State.init : State := ⟨[], 0, 0, []⟩

/-- What may happen; the number names the connection. -/
inductive Action where
  /-- `accept`, 61, and `spawn`, 74 -/
  | accept
  /-- `read` gives these bytes, at least one and at most the size of `buf`, or, if there are none, the end -/
  | read (i : Nat) (data : Bytes)
  | readFails (i : Nat)
  /-- a critical section: 83-87 or 98-102 -/
  | count (i : Nat)
  /-- the socket takes the next `k` bytes, at least one, of `write_all` -/
  | write (i : Nat) (k : Nat)
  | writeFails (i : Nat)
deriving DecidableEq

/-- The state after a change of connection `i`. -/
def State.put (s : State) (i : Nat) (c : Conn) : State := { s with conns := s.conns.set i c }

/-- One action, server.rs 59-105; `none` if it cannot happen now. -/
def step (s : State) : Action → Option State
  | .accept => some { s with conns := s.conns ++ [⟨.reading, []⟩] }
  | .read i data =>
    match s.conns[i]? with
    | some ⟨.reading, out⟩ => if data.length ≤ 1024 then some (s.put i ⟨.countReceived data, out⟩) else none
    | _ => none
  | .readFails i =>
    match s.conns[i]? with
    | some ⟨.reading, out⟩ => some (s.put i ⟨.panicked, out⟩)
    | _ => none
  | .count i =>
    match s.conns[i]? with
    | some ⟨.countReceived buf, out⟩ =>
      let s := { s with received := s.received + buf.length, printed := (s.received + buf.length, s.sent) :: s.printed }
      some (s.put i ⟨if buf.length = 0 then .finished else .writing buf buf.length, out⟩)
    | some ⟨.countSent n, out⟩ =>
      let s := { s with sent := s.sent + n, printed := (s.received, s.sent + n) :: s.printed }
      some (s.put i ⟨.reading, out⟩)
    | _ => none
  | .write i k =>
    match s.conns[i]? with
    | some ⟨.writing left n, out⟩ =>
      if 0 < k ∧ k ≤ left.length then
        some (s.put i ⟨if left.drop k = [] then .countSent n else .writing (left.drop k) n, out ++ left.take k⟩)
      else none
    | _ => none
  | .writeFails i =>
    match s.conns[i]? with
    | some ⟨.writing _ _, out⟩ => some (s.put i ⟨.panicked, out⟩)
    | _ => none

/-- Some actions one after the other. -/
def run (s : State) : List Action → Option State
  | [] => some s
  | a :: as => (step s a).bind fun s => run s as

end Ngfs.Echo
