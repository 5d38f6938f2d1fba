import Verif.Model.Multibase

/-!
What the multibase properties mean: the base codes of the multibase table, and the alphabets of RFC 4648 and of base 58
(Bitcoin and Flickr).
-/
namespace Ngfs.Spec
open Ngfs.Multibase

/-- The character that introduces each base, from the multibase table. -/
def baseCodes : List (Char × Base) :=
  [('f', .base16), ('F', .base16Upper), ('b', .base32), ('B', .base32Upper), ('c', .base32Pad),
   ('C', .base32PadUpper), ('Z', .base58Flickr), ('z', .base58BTC), ('m', .base64), ('M', .base64Pad),
   ('u', .base64URL), ('U', .base64URLPad)]

/-- The digits of each base in order. -/
def alphabet : Base → String
  | .base16 => "0123456789abcdef"
  | .base16Upper => "0123456789ABCDEF"
  | .base32 | .base32Pad => "abcdefghijklmnopqrstuvwxyz234567"
  | .base32Upper | .base32PadUpper => "ABCDEFGHIJKLMNOPQRSTUVWXYZ234567"
  | .base58BTC => "123456789ABCDEFGHJKLMNPQRSTUVWXYZabcdefghijkmnopqrstuvwxyz"
  | .base58Flickr => "123456789abcdefghijkmnopqrstuvwxyzABCDEFGHJKLMNPQRSTUVWXYZ"
  | .base64 | .base64Pad => "ABCDEFGHIJKLMNOPQRSTUVWXYZabcdefghijklmnopqrstuvwxyz0123456789+/"
  | .base64URL | .base64URLPad => "ABCDEFGHIJKLMNOPQRSTUVWXYZabcdefghijklmnopqrstuvwxyz0123456789-_"

/-- The bases whose text is padded with `=`. -/
def padded : Base → Bool
  | .base32Pad | .base32PadUpper | .base64Pad | .base64URLPad => true
  | _ => false

/-- The part of the text that must consist of digits: everything, or everything before the first `=`. -/
def digitsPart (base : Base) (text : List Char) : List Char :=
  if padded base then text.takeWhile (· ≠ '=') else text

/-- The number with the given digits, most significant first. -/
def number (B : Nat) (ds : List Nat) : Nat := ds.foldl (fun n d => n * B + d) 0

/-- The digits written in the base. -/
def written (base : Base) (ds : List Nat) : List Char := ds.map fun d => (alphabet base).toList.getD d '\x00'

/-- Bits per digit (RFC 4648), or none for base 58. -/
def bitsPerDigit : Base → Option Nat
  | .base16 | .base16Upper => some 4
  | .base32 | .base32Upper | .base32Pad | .base32PadUpper => some 5
  | .base64 | .base64Pad | .base64URL | .base64URLPad => some 6
  | .base58BTC | .base58Flickr => none

/-- The text of a base with `k` bits per digit, RFC 4648: the bits of the data followed by as few zero bits as make up whole
digits; then, in a padded base, as few `=` as make up whole groups of `lcm 8 k` bits. -/
def Rfc4648 (base : Base) (k : Nat) (data : Bytes) (text : List Char) : Prop :=
  ∃ ds zeros pads, (∀ d ∈ ds, d < 2 ^ k) ∧ zeros < k ∧ k * ds.length = 8 * data.length + zeros ∧
    number (2 ^ k) ds = number 256 (data.map (·.toNat)) * 2 ^ zeros ∧
    k * pads < Nat.lcm 8 k ∧ (padded base = true → Nat.lcm 8 k ∣ k * (ds.length + pads)) ∧ (padded base = false → pads = 0) ∧
    text = written base ds ++ List.replicate pads '='

/-- The text in base 58: one first digit for each leading zero byte, then the number without leading zeros. -/
def Base58Text (base : Base) (data : Bytes) (text : List Char) : Prop :=
  ∃ zeros rest ds, data = List.replicate zeros 0 ++ rest ∧ rest.head? ≠ some 0 ∧ (∀ d ∈ ds, d < 58) ∧ ds.head? ≠ some 0 ∧
    number 58 ds = number 256 (rest.map (·.toNat)) ∧ text = written base (List.replicate zeros 0 ++ ds)

/-- The text of the data by the standard of the base. -/
def StandardText (base : Base) (data : Bytes) (text : List Char) : Prop :=
  match bitsPerDigit base with
  | some k => Rfc4648 base k data text
  | none => Base58Text base data text

end Ngfs.Spec
