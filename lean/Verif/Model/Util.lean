import Verif.Model.Multibase

/-! `src/util/util.rs` (hex text) and `src/bittorrent/data.rs` (bit fields). A text is a list of characters. -/
namespace Ngfs.Util
open Ngfs.Multibase (asBytes)

/-- `hex_from_byte`, util.rs 60-67. -/
def hexFromByte (b : UInt8) : Option UInt8 :=
  if 0x30 ≤ b ∧ b ≤ 0x39 then some (b - 0x30)
  else if 0x61 ≤ b ∧ b ≤ 0x66 then some (b - 0x61 + 10)
  else if 0x41 ≤ b ∧ b ≤ 0x46 then some (b - 0x41 + 10)
  else none

/-- The loop of `from_hex`, util.rs 46-57, on the bytes from position `i` on. -/
def fromHexLoop : Bytes → Option Bytes
  | hi :: lo :: rest =>
    match hexFromByte hi, hexFromByte lo with
    | some hi, some lo => (fromHexLoop rest).map ((hi <<< 4 ||| lo) :: ·)
    | _, _ => none
  | _ => some []

/-- `from_hex`, util.rs 39-68. -/
def fromHex (s : List Char) : Option Bytes :=
  if (asBytes s).length % 2 ≠ 0 then none else fromHexLoop (asBytes s)

/-- A digit of `{:02x}`. -/
def lowerHex (n : Nat) : Char := "0123456789abcdef".toList.getD n '0'

/-- `BinaryData`'s `Display`, util.rs 5-12: `{:02x}` of each byte. -/
def toHex (bytes : Bytes) : List Char := bytes.flatMap fun b => [lowerHex (b.toNat / 16), lowerHex (b.toNat % 16)]

/-- `BitField`, data.rs 3-5. -/
structure BitField where
  entries : List Bool
deriving DecidableEq, Repr

/-- `BitField::new`, data.rs 8-16. -/
def BitField.new (size : Nat) : BitField := ⟨List.replicate size false⟩

/-- `BitField::num_set`, data.rs 18-26. -/
def BitField.numSet (f : BitField) : Nat := f.entries.foldl (fun count have' => if have' then count + 1 else count) 0

/-- `BitField::num_clear`, data.rs 28-36. -/
def BitField.numClear (f : BitField) : Nat := f.entries.foldl (fun count have' => if !have' then count + 1 else count) 0

/-- The loop of `update_from_bytes`, data.rs 39-51, from index `i` on; the list is `entries[i..]`. -/
def updateLoop (bytes : Bytes) (i : Nat) : List Bool → List Bool
  | [] => []
  | e :: es =>
    match bytes[i / 8]? with
    | none => e :: es
    | some byte => (byte &&& (1 <<< (7 - UInt8.ofNat (i % 8))) != 0) :: updateLoop bytes (i + 1) es

/-- `BitField::update_from_bytes`, data.rs 38-52. -/
def BitField.updateFromBytes (f : BitField) (bytes : Bytes) : BitField := ⟨updateLoop bytes 0 f.entries⟩

end Ngfs.Util
