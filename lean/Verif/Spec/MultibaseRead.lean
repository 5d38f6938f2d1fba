import Verif.Spec.Multibase

/-! What a text in a base stands for, also if it is not the standard text of any bytes. -/
namespace Ngfs.Spec
open Ngfs.Multibase

/-- The text stands for the data. With `k` bits per digit (RFC 4648): the data are the bits of the digits, as many as make up whole bytes;
in a padded base only the digits before the first `=` count. Base 58: the text is the standard text of the data. -/
def StandsFor (base : Base) (text : List Char) (data : Bytes) : Prop :=
  match bitsPerDigit base with
  | some k => ∃ ds, (∀ d ∈ ds, d < 2 ^ k) ∧ digitsPart base text = written base ds ∧ data.length = k * ds.length / 8 ∧
      number 256 (data.map (·.toNat)) = number (2 ^ k) ds / 2 ^ (k * ds.length % 8)
  | none => Base58Text base data text

/-- Nothing of the text is superfluous: no digit, no bit of the last digit, and no padding is missing or too much. -/
def Exact (base : Base) (k : Nat) (text : List Char) : Prop :=
  ∃ ds pads, (∀ d ∈ ds, d < 2 ^ k) ∧ text = written base ds ++ List.replicate pads '=' ∧
    k * ds.length % 8 < k ∧ 2 ^ (k * ds.length % 8) ∣ number (2 ^ k) ds ∧
    k * pads < Nat.lcm 8 k ∧ (padded base = true → Nat.lcm 8 k ∣ k * (ds.length + pads)) ∧ (padded base = false → pads = 0)

end Ngfs.Spec
