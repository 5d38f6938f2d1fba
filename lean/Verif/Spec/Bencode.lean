import Verif.Model.Bencode
import Mathlib.Data.Nat.Digits.Defs

/-!
Bencoding (BEP 3) as a relation between values and bytes. Of the model only the data types `Value` and `Loc` are used.
`strict` is the standard encoding: no leading zeros, and the keys of a dictionary in ascending order, each once.
-/
namespace Ngfs.Spec
open Ngfs.Bencode

/-- Decimal digits of a 64-bit number. -/
def Digits (strict : Bool) (n : Nat) (ds : Bytes) : Prop :=
  ds ≠ [] ∧ (∀ d ∈ ds, 48 ≤ d.toNat ∧ d.toNat ≤ 57) ∧ Nat.ofDigits 10 (ds.reverse.map fun d => d.toNat - 48) = n ∧
  n < 2 ^ 64 ∧ (strict = true → ds.head? = some 48 → ds = [48])

/-- The keys ascend. -/
def Ascending (es : List (String × Value)) : Prop := es.Pairwise fun a b => a.1 < b.1

/-- `m` is the map one gets from the entries, where a later entry replaces an earlier one with the same key. -/
def IsMap (es m : List (String × Value)) : Prop := Ascending m ∧ ∀ k, m.lookup k = es.reverse.lookup k

mutual
/-- `Enc strict o path v bs`: `bs`, lying at position `o`, is an encoding of `v`, the positions recorded in `v` are those
of the encodings, and the paths are the indexes and keys on the way from the root. -/
inductive Enc (strict : Bool) : Nat → String → Value → Bytes → Prop
  | bytes {o path data ds} : Digits strict data.length ds →
      Enc strict o path (.bytes ⟨o, o + (ds ++ 0x3a :: data).length, path⟩ data) (ds ++ 0x3a :: data)
  | integer {o path n ds} : Digits strict n ds →
      Enc strict o path (.integer ⟨o, o + (0x69 :: (ds ++ [0x65])).length, path⟩ n) (0x69 :: (ds ++ [0x65]))
  | list {o path items bs} : EncItems strict (o + 1) path 0 items bs →
      Enc strict o path (.list ⟨o, o + (0x6c :: (bs ++ [0x65])).length, path⟩ items) (0x6c :: (bs ++ [0x65]))
  | dict {o path es m bs} : EncEntries strict (o + 1) path es bs → IsMap es m → (strict = true → Ascending es) →
      Enc strict o path (.dict ⟨o, o + (0x64 :: (bs ++ [0x65])).length, path⟩ m) (0x64 :: (bs ++ [0x65]))
/-- Elements one after the other, the first with the given index. -/
inductive EncItems (strict : Bool) : Nat → String → Nat → List Value → Bytes → Prop
  | nil {o path i} : EncItems strict o path i [] []
  | cons {o path i v vs b bs} : Enc strict o (path ++ "/" ++ toString i) v b →
      EncItems strict (o + b.length) path (i + 1) vs bs → EncItems strict o path i (v :: vs) (b ++ bs)
/-- Keys and values one after the other. -/
inductive EncEntries (strict : Bool) : Nat → String → List (String × Value) → Bytes → Prop
  | nil {o path} : EncEntries strict o path [] []
  | cons {o path k v es ds kb b bs} : Digits strict (utf8Encode k).length ds → kb = ds ++ 0x3a :: utf8Encode k →
      Enc strict (o + kb.length) (path ++ "/" ++ k) v b → EncEntries strict (o + kb.length + b.length) path es bs →
      EncEntries strict o path ((k, v) :: es) (kb ++ (b ++ bs))
end

/-- `c` is `v` or a value nested in it. -/
inductive Within (c : Value) : Value → Prop
  | here : Within c c
  | list {loc items i} : i ∈ items → Within c i → Within c (.list loc items)
  | dict {loc entries k i} : (k, i) ∈ entries → Within c i → Within c (.dict loc entries)

/-- `bs` lies in `data` at position `o`. -/
def At (data : Bytes) (o : Nat) (bs : Bytes) : Prop := o ≤ data.length ∧ bs <+: data.drop o

/-- A bencode value without positions. -/
inductive Plain where
  | bytes (data : Bytes)
  | integer (n : Nat)
  | list (items : List Plain)
  | dict (entries : List (String × Plain))

/-- Decimal digits, most significant first. -/
def decimal (n : Nat) : Bytes := if n = 0 then [48] else (Nat.digits 10 n).reverse.map fun d => UInt8.ofNat (48 + d)

mutual
/-- The standard encoding, BEP 3. -/
def encode : Plain → Bytes
  | .bytes data => decimal data.length ++ 0x3a :: data
  | .integer n => 0x69 :: (decimal n ++ [0x65])
  | .list items => 0x6c :: (encodeItems items ++ [0x65])
  | .dict entries => 0x64 :: (encodeEntries entries ++ [0x65])
def encodeItems : List Plain → Bytes
  | [] => []
  | v :: vs => encode v ++ encodeItems vs
def encodeEntries : List (String × Plain) → Bytes
  | [] => []
  | (k, v) :: es => (decimal (utf8Encode k).length ++ 0x3a :: utf8Encode k) ++ (encode v ++ encodeEntries es)
end

mutual
/-- Integers have 64 bits and the keys of dictionaries ascend. -/
def Plain.Ok : Plain → Prop
  | .bytes _ => True
  | .integer n => n < 2 ^ 64
  | .list items => okItems items
  | .dict entries => entries.Pairwise (fun a b => a.1 < b.1) ∧ okEntries entries
def okItems : List Plain → Prop
  | [] => True
  | v :: vs => v.Ok ∧ okItems vs
def okEntries : List (String × Plain) → Prop
  | [] => True
  | (_, v) :: es => v.Ok ∧ okEntries es
end

mutual
/-- A parsed value without its positions. -/
def plain : Value → Plain
  | .bytes _ data => .bytes data
  | .integer _ n => .integer n
  | .list _ items => .list (plainItems items)
  | .dict _ entries => .dict (plainEntries entries)
def plainItems : List Value → List Plain
  | [] => []
  | v :: vs => plain v :: plainItems vs
def plainEntries : List (String × Value) → List (String × Plain)
  | [] => []
  | (k, v) :: es => (k, plain v) :: plainEntries es
end

end Ngfs.Spec
