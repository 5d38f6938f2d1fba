import Verif.Model.Transport

/-!
Vocabulary for the claims that failures of a transport are reported, and only those (C203, C204, C206).
-/
namespace Ngfs

/-- Failing in this way is among the answers of the transport. -/
def Transport.CanFail (t : Transport) (k : IoKind) : Prop :=
  ReadEvent.error k ∈ t.reads ∨ WriteEvent.error k ∈ t.writes ∨ DoneEvent.error k ∈ t.flushes ∨ DoneEvent.error k ∈ t.shutdowns

/-- Of these answers some were used, none of them a failure. -/
def UsedWell {E : Type} (fail : IoKind → E) (before after : List E) : Prop :=
  ∃ used, before = used ++ after ∧ ∀ k, fail k ∉ used

/-- Between these states of the transport, it has not failed. -/
structure NoFailure (before after : Transport) : Prop where
  reads : UsedWell ReadEvent.error before.reads after.reads
  writes : UsedWell WriteEvent.error before.writes after.writes
  flushes : UsedWell DoneEvent.error before.flushes after.flushes
  shutdowns : UsedWell DoneEvent.error before.shutdowns after.shutdowns

end Ngfs
