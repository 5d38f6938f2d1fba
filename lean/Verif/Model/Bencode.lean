import Verif.Model.Slice
import Verif.Model.Utf8

/-! `src/formats/bencoding/mod.rs`. -/
namespace Ngfs.Bencode

/-- `Location`, mod.rs 38-43. -/
structure Loc where
  start : Nat
  stop : Nat
  path : String
deriving DecidableEq, Repr

/-- `Value`, mod.rs 99-104, with the structs of 51-81. A `BTreeMap` is the list of its entries in the order of the keys. -/
inductive Value where
  | bytes (loc : Loc) (data : Bytes)
  | integer (loc : Loc) (value : Nat)
  | list (loc : Loc) (items : List Value)
  | dict (loc : Loc) (entries : List (String × Value))

/-- `Value::loc`, mod.rs 107-114. -/
def Value.loc : Value → Loc
  | .bytes l _ | .integer l _ | .list l _ | .dict l _ => l

/-- `ParseError`, mod.rs 213-218; the texts are shortened. `fuel` marks a bounded loop of the model that was too short. -/
inductive PErr where
  | parse (offset : Nat) (path : String) (msg : String)
  | fuel
deriving DecidableEq, Repr

/-- A method of `Parser` (mod.rs 208-211): the input, and the offset before and after. After an error the parser is dropped. -/
abbrev P (α : Type) := Bytes → Nat → Except PErr (α × Nat)

/-- `BTreeMap::insert`: an existing key keeps its place and gets the new value. Rust compares strings by their UTF-8 bytes,
which is the order of their code points. -/
def mapInsert (k : String) (v : Value) : List (String × Value) → List (String × Value)
  | [] => [(k, v)]
  | (k', v') :: rest =>
    if k = k' then (k, v) :: rest
    else if k < k' then (k, v) :: (k', v') :: rest
    else (k', v') :: mapInsert k v rest

/-- `Some(b'0'..=b'9')`. -/
def isDigit (b : UInt8) : Bool := 0x30 ≤ b && b ≤ 0x39

/-- `str::parse::<usize>` of decimal digits, before the check for overflow. -/
def digitsValue (ds : Bytes) : Nat := ds.foldl (fun a d => a * 10 + (d.toNat - 48)) 0

/-- `parse_usize`, mod.rs 263-284. The bytes are digits, so `from_utf8` succeeds; `parse` fails on 2^64 and more. -/
def parseUsize (path : String) : P Nat := fun data start =>
  let ds := (data.drop start).takeWhile isDigit
  let stop := start + ds.length
  if stop = start then .error (.parse start path "Expected a digit")
  else if digitsValue ds < 2 ^ 64 then .ok (digitsValue ds, stop)
  else .error (.parse start path "number too large")

/-- `expect_byte`, mod.rs 286-299. -/
def expectByte (path : String) (byte : UInt8) : P Unit := fun data offset =>
  match data[offset]? with
  | none => .error (.parse offset path "end of file")
  | some b => if b ≠ byte then .error (.parse offset path "unexpected byte") else .ok ((), offset + 1)

/-- `parse_byte_string`, mod.rs 301-314. -/
def parseByteString (path : String) : P Bytes := fun data offset => do
  let (size, offset) ← parseUsize path data offset
  let ((), start) ← expectByte path 0x3a data offset
  if start + size ≥ 2 ^ 64 then .error (.parse start path "Integer overflow")
  else if start + size > data.length then .error (.parse start path "String goes beyond end of file")
  else .ok (slice data start (start + size), start + size)

/-- The loop of `parse_list`, mod.rs 320-334, with `parse_node` as `node`. -/
def listLoop (node : String → P Value) (path : String) : Nat → Nat → P (List Value)
  | 0, _ => fun _ _ => .error .fuel
  | n + 1, index => fun data offset =>
    match data[offset]? with
    | none => .error (.parse offset path "Premature end of file")
    | some b =>
      if b = 0x65 then .ok ([], offset + 1)
      else
        match node (path ++ "/" ++ toString index) data offset with
        | .error e => .error e
        | .ok (v, offset) =>
          match listLoop node path n (index + 1) data offset with
          | .error e => .error e
          | .ok (vs, offset) => .ok (v :: vs, offset)

/-- `parse_list`, mod.rs 316-336. -/
def parseList (node : String → P Value) (path : String) : P (List Value) := fun data offset => do
  let ((), offset) ← expectByte path 0x6c data offset
  listLoop node path (data.length + 1) 0 data offset

/-- `parse_utf8_string`, mod.rs 338-343. -/
def parseUtf8String (path : String) : P String := fun data start => do
  let (bytes, offset) ← parseByteString path data start
  match utf8Decode bytes with
  | some s => .ok (s, offset)
  | none => .error (.parse start path "invalid utf-8")

/-- The loop of `parse_dict`, mod.rs 348-361, with `parse_node` as `node`. -/
def dictLoop (node : String → P Value) (path : String) : Nat → List (String × Value) → P (List (String × Value))
  | 0, _ => fun _ _ => .error .fuel
  | n + 1, elements => fun data offset =>
    match data[offset]? with
    | none => .error (.parse offset path "Premature end of file")
    | some b =>
      if b = 0x65 then .ok (elements, offset + 1)
      else
        match parseUtf8String path data offset with
        | .error e => .error e
        | .ok (key, offset) =>
          match node (path ++ "/" ++ key) data offset with
          | .error e => .error e
          | .ok (value, offset) => dictLoop node path n (mapInsert key value elements) data offset

/-- `parse_dict`, mod.rs 345-363. -/
def parseDict (node : String → P Value) (path : String) : P (List (String × Value)) := fun data offset => do
  let ((), offset) ← expectByte path 0x64 data offset
  dictLoop node path (data.length + 1) [] data offset

/-- `parse_integer`, mod.rs 365-370. -/
def parseInteger (path : String) : P Nat := fun data offset => do
  let ((), offset) ← expectByte path 0x69 data offset
  let (value, offset) ← parseUsize path data offset
  let ((), offset) ← expectByte path 0x65 data offset
  .ok (value, offset)

/-- `parse_value` and `parse_node`, mod.rs 372-398, with at most `n` levels of nesting. -/
def parseValueN : Nat → String → P Value
  | 0, _ => fun _ _ => .error .fuel
  | n + 1, path => fun data start =>
    match data[start]? with
    | none => .error (.parse start path "Premature end of file")
    | some b =>
      if b = 0x69 then
        (parseInteger path data start).map fun (i, offset) => (.integer ⟨start, offset, path⟩ i, offset)
      else if b = 0x6c then
        (parseList (parseValueN n) path data start).map fun (l, offset) => (.list ⟨start, offset, path⟩ l, offset)
      else if b = 0x64 then
        (parseDict (parseValueN n) path data start).map fun (d, offset) => (.dict ⟨start, offset, path⟩ d, offset)
      else if isDigit b then
        (parseByteString path data start).map fun (s, offset) => (.bytes ⟨start, offset, path⟩ s, offset)
      else .error (.parse start path "Unknown value type")

/-- `parse`, mod.rs 410-413. Each level of nesting takes a byte, so the bound on the nesting is none. -/
def parse (data : Bytes) : Except PErr Value :=
  (parseValueN (data.length + 1) "" data 0).map Prod.fst

end Ngfs.Bencode
