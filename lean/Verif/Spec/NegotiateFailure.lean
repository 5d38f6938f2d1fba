import Verif.Spec.Failure
import Verif.Spec.Io

/-! Why negotiating a protocol may fail (C206), independently of the code. -/
namespace Ngfs.Spec.Io
open Ngfs.Io

/-- Sending a request may fail in this way: writing to the transport or flushing it does, or the transport accepts no more
bytes. -/
def SendingFails (t : Transport) (k : IoKind) : Prop :=
  WriteEvent.error k ∈ t.writes ∨ DoneEvent.error k ∈ t.flushes ∨ (k = .writeZero ∧ WriteEvent.accept 0 ∈ t.writes)

/-- No answer can be taken from what arrives, or not one of those that are expected: the stream breaks or ends before a whole
message has come, the length of the message has more than ten bytes, or the message is another. -/
inductive AnswerFails (expected : List Bytes) : Bytes × End → IoKind → Prop
  | broken {bs k} : Unfinished bs → AnswerFails expected (bs, .error k) k
  | ended {bs} : Unfinished bs → AnswerFails expected (bs, .eof) .unexpectedEof
  | tooLong {p} (rest e) : (∀ b ∈ p, 128 ≤ b.toNat) → p.length = 10 → rest ≠ [] → AnswerFails expected (p ++ rest, e) .invalidData
  | other {m data} (rest e) : Prefixed m data → data ∉ expected → AnswerFails expected (m ++ rest, e) .invalidData

/-- Between these states of a reader, its transport has not failed: nothing but answers that are no failures were used for
writing and flushing; and what has arrived has been taken in part, or in full with nothing more to come. -/
structure WentWell (before after : Reader) : Prop where
  writes : UsedWell WriteEvent.error before.t.writes after.t.writes
  flushes : UsedWell DoneEvent.error before.t.flushes after.t.flushes
  reads : ∃ taken rest e, view before = (taken ++ rest, e) ∧ (view after = (rest, e) ∨ e = .silent)

end Ngfs.Spec.Io
