import Verif.Spec.Mplex

/-! What a multiplexed connection keeps of what it has received (C185). -/
namespace Ngfs.Spec.Mplex
open Ngfs.Mplex

/-- The bytes that a connection has received and keeps: those not yet taken apart into frames, and the data of the one frame that waits for
its reader. -/
def kept (c : Conn) : Nat :=
  c.shared.frames.incoming.length + (match c.shared.incoming with | some f => f.data.length | none => 0)

/-- A transport that answers with at most 1024 bytes at a time: the size of the buffer it is given (`frame.rs` 185). -/
def SmallReads (reads : List ReadEvent) : Prop := ∀ data, .ready data ∈ reads → data.length ≤ 1024

/-- The beginning of a sequence of frames that take at most `n` bytes each. -/
def ShortFrames (n : Nat) (bs : Bytes) : Prop :=
  ∃ (ext : Bytes) (bl : List Bytes), bs ++ ext = bl.flatten ∧ ∀ b ∈ bl, b.length ≤ n ∧ ∃ f, IsFrame b f

end Ngfs.Spec.Mplex
