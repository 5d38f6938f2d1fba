import Verif.Model.Binary
import Mathlib.Data.Nat.Digits.Defs

/-!
Vocabulary for the claims about the binary reader and writer (C18-C21).
-/
namespace Ngfs.Spec

open Ngfs.Binary

/-- The number written by bytes, most significant first: base-256 positional notation. -/
def bigEndian (bs : Bytes) : Nat := Nat.ofDigits 256 (bs.reverse.map UInt8.toNat)

/-- Reading with `p` where the bytes `enc` lie, after any bytes and before any bytes, yields `v`
and stops right behind `enc`. (Buffers fit in the address space.) -/
def ReadsAs {α : Type} (p : RM α) (enc : Bytes) (v : α) : Prop :=
  ∀ pre post : Bytes, (pre ++ enc ++ post).length < 2 ^ 64 →
    p ⟨pre ++ enc ++ post, pre.length⟩
      = (.ok v, ⟨pre ++ enc ++ post, pre.length + enc.length⟩)

/-- Reading with `p` where `enc` are the last bytes of the buffer yields `v`. -/
def ReadsToEnd {α : Type} (p : RM α) (enc : Bytes) (v : α) : Prop :=
  ∀ pre : Bytes, (pre ++ enc).length < 2 ^ 64 → (p ⟨pre ++ enc, pre.length⟩).1 = .ok v

/-- The writer `w` appends exactly `enc`, whatever was written before. -/
def Appends (w : WM Unit) (enc : Bytes) : Prop := ∀ s : Bytes, w s = (.ok (), s ++ enc)

/-- A reader in a legal state. -/
def InBounds (r : Reader) : Prop := r.offset ≤ r.buf.length

/-- What a well-behaved reading operation may do from a legal state, whether it succeeds or fails:
leave the buffer alone, move forward only, stay inside the buffer, and never panic or loop. -/
def Safe {α : Type} (p : RM α) : Prop :=
  ∀ r : Reader, InBounds r →
    (p r).2.buf = r.buf ∧ r.offset ≤ (p r).2.offset ∧ InBounds (p r).2
      ∧ (p r).1 ≠ .error .panic ∧ (p r).1 ≠ .error .fuel

end Ngfs.Spec
