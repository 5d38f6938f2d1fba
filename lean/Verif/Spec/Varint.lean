import Verif.Model.Basic

/-! What a base-128 varint is, independently of any encoder or decoder. -/
namespace Ngfs.Spec

/-- The number a byte string denotes in little-endian base 128: seven bits from each byte, the first byte
the least significant. -/
def base128 : Bytes → Nat
  | [] => 0
  | b :: bs => b.toNat % 128 + 128 * base128 bs

/-- The top bit says "more bytes follow": set on every byte but the last, clear on the last. -/
def IsVarint (bs : Bytes) : Prop :=
  ∃ init last, bs = init ++ [last] ∧ (∀ b ∈ init, 128 ≤ b.toNat) ∧ last.toNat < 128

end Ngfs.Spec
