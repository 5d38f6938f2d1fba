import Verif.Model.Utf8
import Mathlib.Data.Nat.Bitwise

/-!
Model of `/repo/src/ipfs/types/multibase.rs`.

A Rust `&str` is the list of its characters; `as_bytes` is the UTF-8 encoding of that list (`asBytes`).
Indexing an alphabet, `alphabet[i]`, is `pick`: an index out of range (a panic in Rust) gives the character `\0`, which
belongs to no alphabet; `C13_output_characters` shows it never appears, so the panic is unreachable.
-/
namespace Ngfs.Multibase

/-- `BASE16_LOWER`, multibase.rs 51-52. -/
def BASE16_LOWER : List Char :=
  ['0', '1', '2', '3', '4', '5', '6', '7', '8', '9', 'a', 'b', 'c', 'd', 'e', 'f']

/-- `BASE16_UPPER`, multibase.rs 54-55. -/
def BASE16_UPPER : List Char :=
  ['0', '1', '2', '3', '4', '5', '6', '7', '8', '9', 'A', 'B', 'C', 'D', 'E', 'F']

/-- `BASE32_UPPER`, multibase.rs 57-59. -/
def BASE32_UPPER : List Char :=
  ['A', 'B', 'C', 'D', 'E', 'F', 'G', 'H', 'I', 'J', 'K', 'L', 'M', 'N', 'O', 'P', 'Q', 'R', 'S', 'T',
   'U', 'V', 'W', 'X', 'Y', 'Z', '2', '3', '4', '5', '6', '7']

/-- `BASE32_LOWER`, multibase.rs 61-63. -/
def BASE32_LOWER : List Char :=
  ['a', 'b', 'c', 'd', 'e', 'f', 'g', 'h', 'i', 'j', 'k', 'l', 'm', 'n', 'o', 'p', 'q', 'r', 's', 't',
   'u', 'v', 'w', 'x', 'y', 'z', '2', '3', '4', '5', '6', '7']

/-- `BASE58_BTC`, multibase.rs 65-69. -/
def BASE58_BTC : List Char :=
  ['1', '2', '3', '4', '5', '6', '7', '8', '9', 'A', 'B', 'C', 'D', 'E', 'F', 'G', 'H', 'J', 'K', 'L',
   'M', 'N', 'P', 'Q', 'R', 'S', 'T', 'U', 'V', 'W', 'X', 'Y', 'Z', 'a', 'b', 'c', 'd', 'e', 'f', 'g',
   'h', 'i', 'j', 'k', 'm', 'n', 'o', 'p', 'q', 'r', 's', 't', 'u', 'v', 'w', 'x', 'y', 'z']

/-- `BASE58_FLICKR`, multibase.rs 71-75. -/
def BASE58_FLICKR : List Char :=
  ['1', '2', '3', '4', '5', '6', '7', '8', '9', 'a', 'b', 'c', 'd', 'e', 'f', 'g', 'h', 'i', 'j', 'k',
   'm', 'n', 'o', 'p', 'q', 'r', 's', 't', 'u', 'v', 'w', 'x', 'y', 'z', 'A', 'B', 'C', 'D', 'E', 'F',
   'G', 'H', 'J', 'K', 'L', 'M', 'N', 'P', 'Q', 'R', 'S', 'T', 'U', 'V', 'W', 'X', 'Y', 'Z']

/-- `BASE64_ALPHABET`, multibase.rs 77-81. -/
def BASE64_ALPHABET : List Char :=
  ['A', 'B', 'C', 'D', 'E', 'F', 'G', 'H', 'I', 'J', 'K', 'L', 'M', 'N', 'O', 'P', 'Q', 'R', 'S', 'T',
   'U', 'V', 'W', 'X', 'Y', 'Z', 'a', 'b', 'c', 'd', 'e', 'f', 'g', 'h', 'i', 'j', 'k', 'l', 'm', 'n',
   'o', 'p', 'q', 'r', 's', 't', 'u', 'v', 'w', 'x', 'y', 'z', '0', '1', '2', '3', '4', '5', '6', '7',
   '8', '9', '+', '/']

/-- `BASE64_URL_ALPHABET`, multibase.rs 83-87. -/
def BASE64_URL_ALPHABET : List Char :=
  ['A', 'B', 'C', 'D', 'E', 'F', 'G', 'H', 'I', 'J', 'K', 'L', 'M', 'N', 'O', 'P', 'Q', 'R', 'S', 'T',
   'U', 'V', 'W', 'X', 'Y', 'Z', 'a', 'b', 'c', 'd', 'e', 'f', 'g', 'h', 'i', 'j', 'k', 'l', 'm', 'n',
   'o', 'p', 'q', 'r', 's', 't', 'u', 'v', 'w', 'x', 'y', 'z', '0', '1', '2', '3', '4', '5', '6', '7',
   '8', '9', '-', '_']

/-- `BASE16_LOWER_INV`, multibase.rs 518-526. -/
def BASE16_LOWER_INV : List UInt8 := [
   0xff, 0xff, 0xff, 0xff, 0xff, 0xff, 0xff, 0xff, 0xff, 0xff, 0xff, 0xff, 0xff, 0xff, 0xff, 0xff,
   0xff, 0xff, 0xff, 0xff, 0xff, 0xff, 0xff, 0xff, 0xff, 0xff, 0xff, 0xff, 0xff, 0xff, 0xff, 0xff,
   0xff, 0xff, 0xff, 0xff, 0xff, 0xff, 0xff, 0xff, 0xff, 0xff, 0xff, 0xff, 0xff, 0xff, 0xff, 0xff,
   0x00, 0x01, 0x02, 0x03, 0x04, 0x05, 0x06, 0x07, 0x08, 0x09, 0xff, 0xff, 0xff, 0xff, 0xff, 0xff,
   0xff, 0xff, 0xff, 0xff, 0xff, 0xff, 0xff, 0xff, 0xff, 0xff, 0xff, 0xff, 0xff, 0xff, 0xff, 0xff,
   0xff, 0xff, 0xff, 0xff, 0xff, 0xff, 0xff, 0xff, 0xff, 0xff, 0xff, 0xff, 0xff, 0xff, 0xff, 0xff,
   0xff, 0x0a, 0x0b, 0x0c, 0x0d, 0x0e, 0x0f, 0xff, 0xff, 0xff, 0xff, 0xff, 0xff, 0xff, 0xff, 0xff,
   0xff, 0xff, 0xff, 0xff, 0xff, 0xff, 0xff, 0xff, 0xff, 0xff, 0xff, 0xff, 0xff, 0xff, 0xff, 0xff]

/-- `BASE16_UPPER_INV`, multibase.rs 528-536. -/
def BASE16_UPPER_INV : List UInt8 := [
   0xff, 0xff, 0xff, 0xff, 0xff, 0xff, 0xff, 0xff, 0xff, 0xff, 0xff, 0xff, 0xff, 0xff, 0xff, 0xff,
   0xff, 0xff, 0xff, 0xff, 0xff, 0xff, 0xff, 0xff, 0xff, 0xff, 0xff, 0xff, 0xff, 0xff, 0xff, 0xff,
   0xff, 0xff, 0xff, 0xff, 0xff, 0xff, 0xff, 0xff, 0xff, 0xff, 0xff, 0xff, 0xff, 0xff, 0xff, 0xff,
   0x00, 0x01, 0x02, 0x03, 0x04, 0x05, 0x06, 0x07, 0x08, 0x09, 0xff, 0xff, 0xff, 0xff, 0xff, 0xff,
   0xff, 0x0a, 0x0b, 0x0c, 0x0d, 0x0e, 0x0f, 0xff, 0xff, 0xff, 0xff, 0xff, 0xff, 0xff, 0xff, 0xff,
   0xff, 0xff, 0xff, 0xff, 0xff, 0xff, 0xff, 0xff, 0xff, 0xff, 0xff, 0xff, 0xff, 0xff, 0xff, 0xff,
   0xff, 0xff, 0xff, 0xff, 0xff, 0xff, 0xff, 0xff, 0xff, 0xff, 0xff, 0xff, 0xff, 0xff, 0xff, 0xff,
   0xff, 0xff, 0xff, 0xff, 0xff, 0xff, 0xff, 0xff, 0xff, 0xff, 0xff, 0xff, 0xff, 0xff, 0xff, 0xff]

/-- `BASE32_UPPER_INV`, multibase.rs 538-546. -/
def BASE32_UPPER_INV : List UInt8 := [
   0xff, 0xff, 0xff, 0xff, 0xff, 0xff, 0xff, 0xff, 0xff, 0xff, 0xff, 0xff, 0xff, 0xff, 0xff, 0xff,
   0xff, 0xff, 0xff, 0xff, 0xff, 0xff, 0xff, 0xff, 0xff, 0xff, 0xff, 0xff, 0xff, 0xff, 0xff, 0xff,
   0xff, 0xff, 0xff, 0xff, 0xff, 0xff, 0xff, 0xff, 0xff, 0xff, 0xff, 0xff, 0xff, 0xff, 0xff, 0xff,
   0xff, 0xff, 0x1a, 0x1b, 0x1c, 0x1d, 0x1e, 0x1f, 0xff, 0xff, 0xff, 0xff, 0xff, 0xff, 0xff, 0xff,
   0xff, 0x00, 0x01, 0x02, 0x03, 0x04, 0x05, 0x06, 0x07, 0x08, 0x09, 0x0a, 0x0b, 0x0c, 0x0d, 0x0e,
   0x0f, 0x10, 0x11, 0x12, 0x13, 0x14, 0x15, 0x16, 0x17, 0x18, 0x19, 0xff, 0xff, 0xff, 0xff, 0xff,
   0xff, 0xff, 0xff, 0xff, 0xff, 0xff, 0xff, 0xff, 0xff, 0xff, 0xff, 0xff, 0xff, 0xff, 0xff, 0xff,
   0xff, 0xff, 0xff, 0xff, 0xff, 0xff, 0xff, 0xff, 0xff, 0xff, 0xff, 0xff, 0xff, 0xff, 0xff, 0xff]

/-- `BASE32_LOWER_INV`, multibase.rs 548-556. -/
def BASE32_LOWER_INV : List UInt8 := [
   0xff, 0xff, 0xff, 0xff, 0xff, 0xff, 0xff, 0xff, 0xff, 0xff, 0xff, 0xff, 0xff, 0xff, 0xff, 0xff,
   0xff, 0xff, 0xff, 0xff, 0xff, 0xff, 0xff, 0xff, 0xff, 0xff, 0xff, 0xff, 0xff, 0xff, 0xff, 0xff,
   0xff, 0xff, 0xff, 0xff, 0xff, 0xff, 0xff, 0xff, 0xff, 0xff, 0xff, 0xff, 0xff, 0xff, 0xff, 0xff,
   0xff, 0xff, 0x1a, 0x1b, 0x1c, 0x1d, 0x1e, 0x1f, 0xff, 0xff, 0xff, 0xff, 0xff, 0xff, 0xff, 0xff,
   0xff, 0xff, 0xff, 0xff, 0xff, 0xff, 0xff, 0xff, 0xff, 0xff, 0xff, 0xff, 0xff, 0xff, 0xff, 0xff,
   0xff, 0xff, 0xff, 0xff, 0xff, 0xff, 0xff, 0xff, 0xff, 0xff, 0xff, 0xff, 0xff, 0xff, 0xff, 0xff,
   0xff, 0x00, 0x01, 0x02, 0x03, 0x04, 0x05, 0x06, 0x07, 0x08, 0x09, 0x0a, 0x0b, 0x0c, 0x0d, 0x0e,
   0x0f, 0x10, 0x11, 0x12, 0x13, 0x14, 0x15, 0x16, 0x17, 0x18, 0x19, 0xff, 0xff, 0xff, 0xff, 0xff]

/-- `BASE58_BTC_INV`, multibase.rs 558-566. -/
def BASE58_BTC_INV : List UInt8 := [
   0xff, 0xff, 0xff, 0xff, 0xff, 0xff, 0xff, 0xff, 0xff, 0xff, 0xff, 0xff, 0xff, 0xff, 0xff, 0xff,
   0xff, 0xff, 0xff, 0xff, 0xff, 0xff, 0xff, 0xff, 0xff, 0xff, 0xff, 0xff, 0xff, 0xff, 0xff, 0xff,
   0xff, 0xff, 0xff, 0xff, 0xff, 0xff, 0xff, 0xff, 0xff, 0xff, 0xff, 0xff, 0xff, 0xff, 0xff, 0xff,
   0xff, 0x00, 0x01, 0x02, 0x03, 0x04, 0x05, 0x06, 0x07, 0x08, 0xff, 0xff, 0xff, 0xff, 0xff, 0xff,
   0xff, 0x09, 0x0a, 0x0b, 0x0c, 0x0d, 0x0e, 0x0f, 0x10, 0xff, 0x11, 0x12, 0x13, 0x14, 0x15, 0xff,
   0x16, 0x17, 0x18, 0x19, 0x1a, 0x1b, 0x1c, 0x1d, 0x1e, 0x1f, 0x20, 0xff, 0xff, 0xff, 0xff, 0xff,
   0xff, 0x21, 0x22, 0x23, 0x24, 0x25, 0x26, 0x27, 0x28, 0x29, 0x2a, 0x2b, 0xff, 0x2c, 0x2d, 0x2e,
   0x2f, 0x30, 0x31, 0x32, 0x33, 0x34, 0x35, 0x36, 0x37, 0x38, 0x39, 0xff, 0xff, 0xff, 0xff, 0xff]

/-- `BASE58_FLICKR_INV`, multibase.rs 568-576. -/
def BASE58_FLICKR_INV : List UInt8 := [
   0xff, 0xff, 0xff, 0xff, 0xff, 0xff, 0xff, 0xff, 0xff, 0xff, 0xff, 0xff, 0xff, 0xff, 0xff, 0xff,
   0xff, 0xff, 0xff, 0xff, 0xff, 0xff, 0xff, 0xff, 0xff, 0xff, 0xff, 0xff, 0xff, 0xff, 0xff, 0xff,
   0xff, 0xff, 0xff, 0xff, 0xff, 0xff, 0xff, 0xff, 0xff, 0xff, 0xff, 0xff, 0xff, 0xff, 0xff, 0xff,
   0xff, 0x00, 0x01, 0x02, 0x03, 0x04, 0x05, 0x06, 0x07, 0x08, 0xff, 0xff, 0xff, 0xff, 0xff, 0xff,
   0xff, 0x22, 0x23, 0x24, 0x25, 0x26, 0x27, 0x28, 0x29, 0xff, 0x2a, 0x2b, 0x2c, 0x2d, 0x2e, 0xff,
   0x2f, 0x30, 0x31, 0x32, 0x33, 0x34, 0x35, 0x36, 0x37, 0x38, 0x39, 0xff, 0xff, 0xff, 0xff, 0xff,
   0xff, 0x09, 0x0a, 0x0b, 0x0c, 0x0d, 0x0e, 0x0f, 0x10, 0x11, 0x12, 0x13, 0xff, 0x14, 0x15, 0x16,
   0x17, 0x18, 0x19, 0x1a, 0x1b, 0x1c, 0x1d, 0x1e, 0x1f, 0x20, 0x21, 0xff, 0xff, 0xff, 0xff, 0xff]

/-- `BASE64_ALPHABET_INV`, multibase.rs 578-586. -/
def BASE64_ALPHABET_INV : List UInt8 := [
   0xff, 0xff, 0xff, 0xff, 0xff, 0xff, 0xff, 0xff, 0xff, 0xff, 0xff, 0xff, 0xff, 0xff, 0xff, 0xff,
   0xff, 0xff, 0xff, 0xff, 0xff, 0xff, 0xff, 0xff, 0xff, 0xff, 0xff, 0xff, 0xff, 0xff, 0xff, 0xff,
   0xff, 0xff, 0xff, 0xff, 0xff, 0xff, 0xff, 0xff, 0xff, 0xff, 0xff, 0x3e, 0xff, 0xff, 0xff, 0x3f,
   0x34, 0x35, 0x36, 0x37, 0x38, 0x39, 0x3a, 0x3b, 0x3c, 0x3d, 0xff, 0xff, 0xff, 0xff, 0xff, 0xff,
   0xff, 0x00, 0x01, 0x02, 0x03, 0x04, 0x05, 0x06, 0x07, 0x08, 0x09, 0x0a, 0x0b, 0x0c, 0x0d, 0x0e,
   0x0f, 0x10, 0x11, 0x12, 0x13, 0x14, 0x15, 0x16, 0x17, 0x18, 0x19, 0xff, 0xff, 0xff, 0xff, 0xff,
   0xff, 0x1a, 0x1b, 0x1c, 0x1d, 0x1e, 0x1f, 0x20, 0x21, 0x22, 0x23, 0x24, 0x25, 0x26, 0x27, 0x28,
   0x29, 0x2a, 0x2b, 0x2c, 0x2d, 0x2e, 0x2f, 0x30, 0x31, 0x32, 0x33, 0xff, 0xff, 0xff, 0xff, 0xff]

/-- `BASE64_URL_ALPHABET_INV`, multibase.rs 588-596. -/
def BASE64_URL_ALPHABET_INV : List UInt8 := [
   0xff, 0xff, 0xff, 0xff, 0xff, 0xff, 0xff, 0xff, 0xff, 0xff, 0xff, 0xff, 0xff, 0xff, 0xff, 0xff,
   0xff, 0xff, 0xff, 0xff, 0xff, 0xff, 0xff, 0xff, 0xff, 0xff, 0xff, 0xff, 0xff, 0xff, 0xff, 0xff,
   0xff, 0xff, 0xff, 0xff, 0xff, 0xff, 0xff, 0xff, 0xff, 0xff, 0xff, 0xff, 0xff, 0x3e, 0xff, 0xff,
   0x34, 0x35, 0x36, 0x37, 0x38, 0x39, 0x3a, 0x3b, 0x3c, 0x3d, 0xff, 0xff, 0xff, 0xff, 0xff, 0xff,
   0xff, 0x00, 0x01, 0x02, 0x03, 0x04, 0x05, 0x06, 0x07, 0x08, 0x09, 0x0a, 0x0b, 0x0c, 0x0d, 0x0e,
   0x0f, 0x10, 0x11, 0x12, 0x13, 0x14, 0x15, 0x16, 0x17, 0x18, 0x19, 0xff, 0xff, 0xff, 0xff, 0x3f,
   0xff, 0x1a, 0x1b, 0x1c, 0x1d, 0x1e, 0x1f, 0x20, 0x21, 0x22, 0x23, 0x24, 0x25, 0x26, 0x27, 0x28,
   0x29, 0x2a, 0x2b, 0x2c, 0x2d, 0x2e, 0x2f, 0x30, 0x31, 0x32, 0x33, 0xff, 0xff, 0xff, 0xff, 0xff]

/-- `Base`, multibase.rs 91-113. -/
inductive Base where
  | base16 | base16Upper | base32 | base32Upper | base32Pad | base32PadUpper
  | base58Flickr | base58BTC | base64 | base64Pad | base64URL | base64URLPad
deriving DecidableEq, Repr

/-- `Base::for_code`, multibase.rs 135-151. -/
def Base.forCode : Char → Option Base
  | 'f' => some .base16
  | 'F' => some .base16Upper
  | 'b' => some .base32
  | 'B' => some .base32Upper
  | 'c' => some .base32Pad
  | 'C' => some .base32PadUpper
  | 'Z' => some .base58Flickr
  | 'z' => some .base58BTC
  | 'm' => some .base64
  | 'M' => some .base64Pad
  | 'u' => some .base64URL
  | 'U' => some .base64URLPad
  | _ => none

/-- `Base::code`, multibase.rs 171-186. -/
def Base.code : Base → Char
  | .base16 => 'f'
  | .base16Upper => 'F'
  | .base32 => 'b'
  | .base32Upper => 'B'
  | .base32Pad => 'c'
  | .base32PadUpper => 'C'
  | .base58Flickr => 'Z'
  | .base58BTC => 'z'
  | .base64 => 'm'
  | .base64Pad => 'M'
  | .base64URL => 'u'
  | .base64URLPad => 'U'

/-- `DecodeError`, multibase.rs 7-12 (`InvalidLength` is never constructed). -/
inductive DecodeError where
  | emptyString
  | unsupportedEncoding (c : Char)
  | invalidChar (offset : Nat) (b : UInt8)
deriving DecidableEq, Repr

/-- `alphabet[i as usize]` (see the note at the top of the file). -/
def pick (alphabet : List Char) (i : UInt8) : Char := alphabet.getD i.toNat '\x00'

/-- `str::as_bytes` of a list of characters. -/
def asBytes (s : List Char) : Bytes := s.flatMap String.utf8EncodeChar

/-! ### Base 58 -/

/-- The inner loop of `encode_base58`, multibase.rs 287-292: one pass of long division of the byte string by 58,
returning the quotient's bytes and the remainder. -/
def divPass : Nat → Bytes → Bytes × Nat
  | carry, [] => ([], carry)
  | carry, b :: bs =>
    let c := carry <<< 8 ||| b.toNat
    let r := divPass (c % 58) bs
    (UInt8.ofNat (c / 58) :: r.1, r.2)

/-- The number of leading zero bytes: the `while` loop at multibase.rs 273-276. -/
def leadingZeros (bytes : Bytes) : Nat := (bytes.takeWhile (· == 0)).length

/-- A byte string read as a big-endian number; used here only to show that the loop below terminates. -/
def beVal : Bytes → Nat
  | [] => 0
  | b :: bs => b.toNat * 256 ^ bs.length + beVal bs

theorem divPass_length (c : Nat) (bs : Bytes) : (divPass c bs).1.length = bs.length := by
  induction bs generalizing c with
  | nil => rfl
  | cons b bs ih => simp [divPass, ih]

theorem shl8_or (c : Nat) (b : UInt8) : c <<< 8 ||| b.toNat = c * 256 + b.toNat := by
  have := Nat.shiftLeft_add_eq_or_of_lt (show b.toNat < 2 ^ 8 from UInt8.toNat_lt b) c
  rw [← this, Nat.shiftLeft_eq]

theorem divPass_value (c : Nat) (bs : Bytes) (hc : c < 58) :
    beVal (divPass c bs).1 * 58 + (divPass c bs).2 = c * 256 ^ bs.length + beVal bs ∧ (divPass c bs).2 < 58 := by
  induction bs generalizing c with
  | nil => simpa [divPass, beVal] using hc
  | cons b bs ih =>
    have hb := UInt8.toNat_lt b
    have ih := ih ((c * 256 + b.toNat) % 58) (Nat.mod_lt _ (by decide))
    simp only [divPass, shl8_or, beVal, divPass_length]
    refine ⟨?_, ih.2⟩
    have hq : (UInt8.ofNat ((c * 256 + b.toNat) / 58)).toNat = (c * 256 + b.toNat) / 58 := by
      simp only [UInt8.toNat_ofNat']; apply Nat.mod_eq_of_lt; omega
    rw [hq, Nat.add_mul, Nat.add_assoc, ih.1, List.length_cons, Nat.pow_succ]
    have hd := Nat.div_add_mod (c * 256 + b.toNat) 58
    generalize (c * 256 + b.toNat) / 58 = q at hd
    generalize (c * 256 + b.toNat) % 58 = r at hd
    generalize 256 ^ bs.length = P
    calc q * P * 58 + (r * P + beVal bs) = (58 * q + r) * P + beVal bs := by
          rw [Nat.add_mul, ← Nat.add_assoc]; congr 2; rw [Nat.mul_comm 58 q, Nat.mul_assoc, Nat.mul_assoc, Nat.mul_comm P 58]
      _ = (c * 256 + b.toNat) * P + beVal bs := by rw [hd]
      _ = _ := by rw [Nat.add_mul, Nat.mul_comm P 256, ← Nat.mul_assoc, Nat.add_assoc]

theorem beVal_pos_of_leadingZeros {bs : Bytes} (h : leadingZeros bs ≠ bs.length) : 0 < beVal bs := by
  induction bs with
  | nil => simp [leadingZeros] at h
  | cons b bs ih =>
    by_cases hb : b = 0
    · subst hb
      simp only [beVal]
      have := ih (by
        intro h2; apply h; simp [leadingZeros] at h2 ⊢; exact h2)
      omega
    · have : 0 < b.toNat := by
        rcases Nat.eq_zero_or_pos b.toNat with h0 | h0
        · exact absurd (UInt8.toNat_inj.mp (by simpa using h0)) hb
        · exact h0
      simp only [beVal]
      have := Nat.mul_pos this (Nat.pow_pos (n := bs.length) (show 0 < 256 by decide))
      omega

/-- The outer loop of `encode_base58`, multibase.rs 272-294: the base-58 digits, least significant first. -/
def encodeBase58Loop (bytes : Bytes) (digits : Bytes) : Bytes :=
  if leadingZeros bytes = bytes.length then digits
  else
    let r := divPass 0 bytes
    encodeBase58Loop r.1 (digits ++ [UInt8.ofNat r.2])
termination_by beVal bytes
decreasing_by
  rename_i h
  have h1 := beVal_pos_of_leadingZeros h
  have h2 := (divPass_value 0 bytes (by decide)).1
  omega

/-- `encode_base58`, multibase.rs 267-302. -/
def encodeBase58 (data : Bytes) (alphabet : List Char) : List Char :=
  List.replicate (leadingZeros data) (pick alphabet 0) ++
    (encodeBase58Loop data []).reverse.map (pick alphabet)

/-- The loop at multibase.rs 318-322: multiply the little-endian byte string by 58 and add `carry`. -/
def mulAdd : Nat → Bytes → Bytes × Nat
  | carry, [] => ([], carry)
  | carry, b :: bs =>
    let c := carry + b.toNat * 58
    let r := mulAdd (c >>> 8) bs
    (UInt8.ofNat (c &&& 0xff) :: r.1, r.2)

/-- The loop at multibase.rs 324-327: append the remaining carry, least significant byte first. -/
def pushCarry (carry : Nat) : Bytes :=
  if 0 < carry then UInt8.ofNat (carry &&& 0xff) :: pushCarry (carry >>> 8) else []
termination_by carry
decreasing_by rw [Nat.shiftRight_eq_div_pow]; omega

/-- The table lookup at multibase.rs 312-316 and 407-410: `None` and `0xff` are both invalid. -/
def lookup (inv : List UInt8) (ch : UInt8) : Option UInt8 :=
  match inv[ch.toNat]? with
  | none => none
  | some b => if b = 0xff then none else some b

/-- The loop at multibase.rs 311-328. -/
def decodeBase58Loop (inv : List UInt8) : Nat → Bytes → Bytes → Except DecodeError Bytes
  | _, [], decoded => .ok decoded
  | offset, ch :: rest, decoded =>
    match lookup inv ch with
    | none => .error (.invalidChar offset ch)
    | some b =>
      let r := mulAdd b.toNat decoded
      decodeBase58Loop inv (offset + 1) rest (r.1 ++ pushCarry r.2)

/-- `decode_base58`, multibase.rs 304-334. -/
def decodeBase58 (encoded : Bytes) (inv : List UInt8) : Except DecodeError Bytes := do
  let zeroCount := (encoded.takeWhile (· == 0x31)).length
  let decoded ← decodeBase58Loop inv 0 encoded []
  .ok (decoded ++ List.replicate zeroCount 0).reverse

/-! ### Bases 16, 32 and 64 -/

/-- `encode_base16`, multibase.rs 338-343. -/
def encodeBase16 (data : Bytes) (alphabet : List Char) : List Char :=
  data.flatMap fun b => [pick alphabet (b >>> (4 : UInt8)), pick alphabet (b &&& (0xf : UInt8))]

/-- The outputs of one group of `encode_base32`, multibase.rs 370-379. -/
def group32 (i0 i1 i2 i3 i4 : UInt8) : List UInt8 :=
  [i0 >>> (3 : UInt8),
   ((i0 <<< (2 : UInt8)) &&& (0x1f : UInt8)) ||| (i1 >>> (6 : UInt8)),
   (i1 >>> (1 : UInt8)) &&& (0x1f : UInt8),
   ((i1 <<< (4 : UInt8)) &&& (0x1f : UInt8)) ||| (i2 >>> (4 : UInt8)),
   ((i2 <<< (1 : UInt8)) &&& (0x1f : UInt8)) ||| (i3 >>> (7 : UInt8)),
   (i3 >>> (2 : UInt8)) &&& (0x1f : UInt8),
   ((i3 <<< (3 : UInt8)) &&& (0x1f : UInt8)) ||| (i4 >>> (5 : UInt8)),
   i4 &&& (0x1f : UInt8)]

/-- The characters of one group: the first `include` outputs, then `=` up to eight if padding (multibase.rs 383-390). -/
def emit32 (alphabet : List Char) (padding : Bool) (outputs : List UInt8) (include_ : Nat) : List Char :=
  (outputs.take include_).map (pick alphabet) ++ if padding then List.replicate (8 - include_) '=' else []

/-- `encode_base32`, multibase.rs 347-393. The loop over `offset` in steps of five is recursion on the list; missing
bytes of the last group are zero and `last` outputs of it are kept. -/
def encodeBase32 (alphabet : List Char) (padding : Bool) : Bytes → List Char
  | [] => []
  | [a] => emit32 alphabet padding (group32 a 0 0 0 0) 2
  | [a, b] => emit32 alphabet padding (group32 a b 0 0 0) 4
  | [a, b, c] => emit32 alphabet padding (group32 a b c 0 0) 5
  | [a, b, c, d] => emit32 alphabet padding (group32 a b c d 0) 7
  | a :: b :: c :: d :: e :: rest =>
    emit32 alphabet padding (group32 a b c d e) 8 ++ encodeBase32 alphabet padding rest

/-- `encode_base64`, multibase.rs 430-474; `padding` says whether the padding character `=` was passed. -/
def encodeBase64 (alphabet : List Char) (padding : Bool) : Bytes → List Char
  | [] => []
  | [a] =>
    [a >>> (2 : UInt8), (a <<< (4 : UInt8)) &&& (0x30 : UInt8)].map (pick alphabet) ++ if padding then ['=', '='] else []
  | [a, b] =>
    [a >>> (2 : UInt8), ((a <<< (4 : UInt8)) &&& (0x30 : UInt8)) ||| (b >>> (4 : UInt8)), (b <<< (2 : UInt8)) &&& (0x3c : UInt8)].map (pick alphabet)
      ++ if padding then ['='] else []
  | a :: b :: c :: rest =>
    [a >>> (2 : UInt8), ((a <<< (4 : UInt8)) &&& (0x30 : UInt8)) ||| (b >>> (4 : UInt8)), ((b <<< (2 : UInt8)) &&& (0x3c : UInt8)) ||| (c >>> (6 : UInt8)), c &&& (0x3f : UInt8)].map (pick alphabet)
      ++ encodeBase64 alphabet padding rest

/-- The variables of `decode_basen`, multibase.rs 397-399. -/
structure BitState where
  out : Bytes
  byte : UInt8
  shift : Nat
deriving DecidableEq, Repr

/-- The body of the bit loop, multibase.rs 412-418, for one bit. -/
def pushBit (s : BitState) (bit : UInt8) : BitState :=
  let byte := s.byte ||| (bit <<< UInt8.ofNat (7 - s.shift))
  let shift := (s.shift + 1) % 8
  if shift = 0 then ⟨s.out ++ [byte], 0, shift⟩ else ⟨s.out, byte, shift⟩

/-- The bit loop, multibase.rs 411-419: `for i in (8 - pow2)..8`. -/
def pushDigit (pow2 : Nat) (s : BitState) (b : UInt8) : BitState :=
  (List.range' (8 - pow2) pow2).foldl (fun s i => pushBit s ((b >>> UInt8.ofNat (7 - i)) &&& (0x1 : UInt8))) s

/-- The loop of `decode_basen`, multibase.rs 402-423. -/
def decodeBasenLoop (pow2 : Nat) (inv : List UInt8) (padding : Bool) :
    Nat → Bytes → BitState → Except DecodeError Bytes
  | _, [], s => .ok s.out
  | offset, eb :: rest, s =>
    if padding && eb == 0x3d then .ok s.out
    else match lookup inv eb with
      | none => .error (.invalidChar offset eb)
      | some b => decodeBasenLoop pow2 inv padding (offset + 1) rest (pushDigit pow2 s b)

/-- `decode_basen`, multibase.rs 395-426. -/
def decodeBasen (encoded : Bytes) (pow2 : Nat) (inv : List UInt8) (padding : Bool) : Except DecodeError Bytes :=
  decodeBasenLoop pow2 inv padding 0 encoded ⟨[], 0, 0⟩

/-! ### Entry points -/

/-- `encode_noprefix`, multibase.rs 216-219 (with `encode_inner`, 221-237). -/
def encodeNoprefix (data : Bytes) : Base → List Char
  | .base16 => encodeBase16 data BASE16_LOWER
  | .base16Upper => encodeBase16 data BASE16_UPPER
  | .base32 => encodeBase32 BASE32_LOWER false data
  | .base32Upper => encodeBase32 BASE32_UPPER false data
  | .base32Pad => encodeBase32 BASE32_LOWER true data
  | .base32PadUpper => encodeBase32 BASE32_UPPER true data
  | .base58Flickr => encodeBase58 data BASE58_FLICKR
  | .base58BTC => encodeBase58 data BASE58_BTC
  | .base64 => encodeBase64 BASE64_ALPHABET false data
  | .base64Pad => encodeBase64 BASE64_ALPHABET true data
  | .base64URL => encodeBase64 BASE64_URL_ALPHABET false data
  | .base64URLPad => encodeBase64 BASE64_URL_ALPHABET true data

/-- `encode`, multibase.rs 211-214. -/
def encode (data : Bytes) (base : Base) : List Char := base.code :: encodeNoprefix data base

/-- `decode_noprefix`, multibase.rs 248-263. -/
def decodeNoprefix (s : List Char) : Base → Except DecodeError Bytes
  | .base16 => decodeBasen (asBytes s) 4 BASE16_LOWER_INV false
  | .base16Upper => decodeBasen (asBytes s) 4 BASE16_UPPER_INV false
  | .base32 => decodeBasen (asBytes s) 5 BASE32_LOWER_INV false
  | .base32Upper => decodeBasen (asBytes s) 5 BASE32_UPPER_INV false
  | .base32Pad => decodeBasen (asBytes s) 5 BASE32_LOWER_INV true
  | .base32PadUpper => decodeBasen (asBytes s) 5 BASE32_UPPER_INV true
  | .base64 => decodeBasen (asBytes s) 6 BASE64_ALPHABET_INV false
  | .base64Pad => decodeBasen (asBytes s) 6 BASE64_ALPHABET_INV true
  | .base64URL => decodeBasen (asBytes s) 6 BASE64_URL_ALPHABET_INV false
  | .base64URLPad => decodeBasen (asBytes s) 6 BASE64_URL_ALPHABET_INV true
  | .base58Flickr => decodeBase58 (asBytes s) BASE58_FLICKR_INV
  | .base58BTC => decodeBase58 (asBytes s) BASE58_BTC_INV

/-- `decode`, multibase.rs 239-246. -/
def decode (s : List Char) : Except DecodeError Bytes :=
  match s with
  | [] => .error .emptyString
  | code :: rest =>
    match Base.forCode code with
    | none => .error (.unsupportedEncoding code)
    | some base =>
      match rest with
      | [] => .ok []
      | _ :: _ => decodeNoprefix rest base

end Ngfs.Multibase
