import Verif.Model.MplexWake

/-!
What it means that nobody is left waiting for ever on a multiplexed connection. From the model, only the
state of the tasks (who waits for what, who has been woken), the transport, and the answer that a
poll would get are used.
-/
namespace Ngfs.Spec.MplexWake
open Ngfs.Mplex

/-- A poll that waits for something to arrive. -/
def Incoming : Op → Prop
  | .accept => True
  | .read _ _ => True
  | _ => False

/-- A poll that waits until something can be sent. -/
def Outgoing : Op → Prop
  | .connect _ => True
  | .reconnect _ => True
  | .write _ _ => True
  | .flush _ => True
  | .shutdown _ => True
  | _ => False

/-- Nothing more will happen by itself: no waiting task has been woken, and the transport has no news for a
task that it has promised to wake. -/
structure Quiet (s : Sys) : Prop where
  tasks : ∀ p ∈ s.waits, p.1 ∉ s.awake
  reading : s.wakers.transport ≠ none → s.conn.shared.frames.transport.reads = []
  writing : s.writeWaker ≠ none → s.conn.shared.frames.transport.writes = [] ∧ s.conn.shared.frames.transport.flushes = []

/-- The poll would be answered if it were made now. -/
def Answered (s : Sys) (op : Op) : Prop := (s.conn.step op).1 ≠ .pending

/-- A task waits for something that is there, and nobody will tell it. -/
def Stranded (s : Sys) (op : Op) : Prop := Quiet s ∧ (∃ t, (t, op) ∈ s.waits) ∧ Answered s op

/-- A poll failed. -/
def Failed (a : Answer) : Prop := a = .panicked ∨ ∃ k, a = .failed k

/-- The numbers of the streams that the other side has opened. -/
def opened (fs : List Frame) : List StreamId := (fs.filter (·.op = .new)).map (·.streamId)

/-- How many streams the actions try to open. -/
def openings (as : List Action) : Nat :=
  as.countP fun
    | .poll _ (.connect _) => true
    | _ => false

end Ngfs.Spec.MplexWake
