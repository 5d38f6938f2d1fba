import Verif.Model.Binary

/-!
Model of `/repo/src/formats/asn1/{value,reader,writer}.rs`.

The reader's `Error` (reader.rs 42-46) is `BinErr` with the `Error::Binary` wrapper dropped: `Plain` is `.plain`,
`InvalidUTF8String` is `.invalidUtf8`. The call stack is unlimited.
-/
namespace Ngfs.Asn1
open Ngfs.Binary

/-- `Class`, value.rs 10-15. -/
inductive Class where
  | universal | application | contextSpecific | priv
deriving DecidableEq, Repr

/-- `Form`, value.rs 18-21. -/
inductive Form where
  | primitive | constructed
deriving DecidableEq, Repr

/-- `Identifier`, value.rs 24-28. -/
structure Identifier where
  cls : Class
  form : Form
  tag : Nat
deriving DecidableEq, Repr

mutual
/-- `Item`, value.rs 89-92: the byte range `start..stop` and the value. -/
inductive Item where
  | mk (start stop : Nat) (value : Value)
/-- `Value`, value.rs 64-86. `Integer` is its bytes, `ObjectIdentifier` its components. -/
inductive Value where
  | boolean (b : Bool)
  | integer (bytes : Bytes)
  | bitString (unusedBits : UInt8) (bytes : Bytes)
  | octetString (bytes : Bytes)
  | null
  | objectIdentifier (parts : List Nat)
  | printableString (s : String)
  | utf8String (s : String)
  | utcTime (s : String)
  | generalizedTime (s : String)
  | sequence (items : List Item)
  | set (items : List Item)
  | application (tag : Nat) (child : Item)
  | contextSpecific (tag : Nat) (child : Item)
  | priv (tag : Nat) (child : Item)
  | unknown (id : Identifier) (length : Nat)
end

/-- `item.value`. -/
def Item.value : Item → Value
  | .mk _ _ v => v
/-- `item.range.start`. -/
def Item.start : Item → Nat
  | .mk s _ _ => s
/-- `item.range.end`. -/
def Item.stop : Item → Nat
  | .mk _ e _ => e

/-- `From<Value> for Item`, value.rs 94-98. -/
def Item.ofValue (v : Value) : Item := .mk 0 0 v

/-! ### Reader -/

/-- The match of `read_identifier`, reader.rs 69-76. -/
def classOf (first : UInt8) : Class :=
  match first &&& 0x80 == 0x80, first &&& 0x40 == 0x40 with
  | false, false => .universal
  | false, true => .application
  | true, false => .contextSpecific
  | true, true => .priv

/-- reader.rs 77-81. -/
def formOf (first : UInt8) : Form :=
  match first &&& 0x20 == 0x20 with
  | false => .primitive
  | true => .constructed

/-- `read_identifier`, reader.rs 67-93. -/
def readIdentifier : RM Identifier := do
  let first ← readU8
  let bits51 := first &&& 0x1f
  if bits51 = 0x1f then throw (.plain "Unsupported: tag >= 31")
  else pure ⟨classOf first, formOf first, bits51.toNat⟩

/-- The loop of `read_length`, reader.rs 115-118; `length` is a `u32`. -/
def lengthLoop : Nat → Nat → RM Nat
  | 0, length => pure length
  | n + 1, length => do
    let byte ← readU8
    lengthLoop n ((length <<< 8) % 2 ^ 32 ||| byte.toNat)

/-- `read_length`, reader.rs 95-122. -/
def readLength : RM Nat := do
  let first ← readU8
  if first &&& 0x80 = 0 then pure (first &&& 0x7f).toNat
  else
    let noctets := first &&& 0x7f
    if noctets = 0x7f then throw (.plain "noctets is 127")
    else if noctets = 0 then throw (.plain "Unsupported: Indefinite form")
    else if noctets > 4 then throw (.plain "noctets cannot fit in u32")
    else lengthLoop noctets.toNat 0

/-- `read_item_list`, reader.rs 124-137, with `read_item` as `item`. -/
def itemListLoop {α : Type} (item : RM α) : Nat → RM (List α)
  | 0 => throw .fuel
  | n + 1 => fun r =>
    if r.remaining > 0 then
      match item r with
      | (.error e, r') => (.error e, r')
      | (.ok a, r') =>
        if r'.remaining = r.remaining then (.error (.plain "Value consumed 0 bytes"), r')
        else
          match itemListLoop item n r' with
          | (.error e, r'') => (.error e, r'')
          | (.ok as, r'') => (.ok (a :: as), r'')
    else (.ok [], r)

/-- The loop of `read_var_u64`, reader.rs 141-147. Shifting a `u64` left drops the bits above 64. -/
def varLoop : Nat → Nat → RM Nat
  | 0, _ => throw .fuel
  | n + 1, value => do
    let b ← readU8
    let value := (value <<< 7) % 2 ^ 64 ||| (b &&& 0x7f).toNat
    if b &&& 0x80 = 0 then pure value else varLoop n value

/-- `read_var_u64`, reader.rs 139-149. -/
def readVarU64 : RM Nat := fun r => varLoop (r.remaining + 1) 0 r

/-- The loop of `read_object_identifier`, reader.rs 153-183. -/
def oidLoop : Nat → List Nat → RM (List Nat)
  | 0, _ => throw .fuel
  | n + 1, parts => fun r =>
    if r.remaining > 0 then
      match readVarU64 r with
      | (.error e, r') => (.error e, r')
      | (.ok part, r') =>
        if r'.remaining = r.remaining then (.error (.plain "Value consumed 0 bytes"), r')
        else oidLoop n (if parts.isEmpty then [part / 40, part % 40] else parts ++ [part]) r'
    else (.ok parts, r)

/-- `read_object_identifier`, reader.rs 151-184. -/
def readObjectIdentifier : RM (List Nat) := fun r => oidLoop (r.remaining + 1) [] r

/-- `String::from_utf8(contents.remaining_data().to_vec())`, e.g. reader.rs 268-269. -/
def readText : RM String := do
  let data ← remainingData
  match utf8Decode data with
  | some s => pure s
  | none => throw .invalidUtf8

/-- The match of `read_value` on a universal tag, reader.rs 205-320, run on the contents, with `read_item` as `item`. -/
def readUniversal (item : RM Item) (id : Identifier) (length : Nat) : RM Value := fun contents =>
  match id.tag with
  | 1 =>
    if id.form ≠ .primitive then (.error (.plain "Boolean: incorrect form"), contents)
    else if contents.remaining ≠ 1 then (.error (.plain "Boolean: incorrect length"), contents)
    else (do
      let byte ← readU8
      if byte = 0 then pure (.boolean false)
      else if byte = 0xff then pure (.boolean true)
      else throw (.plain "Boolean value must be all zeros or ones") : RM Value) contents
  | 2 =>
    match id.form with
    | .constructed => (.error (.plain "Integer: incorrect form"), contents)
    | .primitive => (do let d ← remainingData; pure (.integer d) : RM Value) contents
  | 3 =>
    match id.form with
    | .constructed => (.error (.plain "BitString: incorrect form"), contents)
    | .primitive => (do
        let unusedBits ← readU8
        let d ← remainingData
        pure (.bitString unusedBits d) : RM Value) contents
  | 4 =>
    match id.form with
    | .constructed => (.error (.plain "Octet string: incorrect form"), contents)
    | .primitive => (do let d ← remainingData; pure (.octetString d) : RM Value) contents
  | 5 =>
    if id.form ≠ .primitive then (.error (.plain "Null: incorrect form"), contents)
    else if contents.remaining ≠ 0 then (.error (.plain "Null: incorrect length"), contents)
    else (.ok .null, contents)
  | 6 =>
    if id.form ≠ .primitive then (.error (.plain "Object identifier: incorrect form"), contents)
    else (do let p ← readObjectIdentifier; pure (.objectIdentifier p) : RM Value) contents
  | 12 =>
    match id.form with
    | .constructed => (.error (.plain "UTF8String: incorrect form"), contents)
    | .primitive => (do let s ← readText; pure (.utf8String s) : RM Value) contents
  | 16 =>
    match id.form with
    | .primitive => (.error (.plain "Sequence: incorrect form"), contents)
    | .constructed => (do
        let items ← itemListLoop item (contents.remaining + 1)
        pure (.sequence items) : RM Value) contents
  | 17 =>
    match id.form with
    | .primitive => (.error (.plain "Set: incorrect form"), contents)
    | .constructed => (do
        let items ← itemListLoop item (contents.remaining + 1)
        pure (.set items) : RM Value) contents
  | 19 =>
    match id.form with
    | .constructed => (.error (.plain "PrintableString: incorrect form"), contents)
    | .primitive => (do let s ← readText; pure (.printableString s) : RM Value) contents
  | 23 =>
    match id.form with
    | .constructed => (.error (.plain "UTCTime: incorrect form"), contents)
    | .primitive => (do let s ← readText; pure (.utcTime s) : RM Value) contents
  | 24 =>
    match id.form with
    | .constructed => (.error (.plain "GeneralizedTime: incorrect form"), contents)
    | .primitive => (do let s ← readText; pure (.generalizedTime s) : RM Value) contents
  | _ => (.ok (.unknown id length), contents)

/-- The cases of `read_value` for the other classes, reader.rs 324-344. -/
def readTagged (mk : Nat → Item → Value) (item : RM Item) (id : Identifier) (length : Nat) : RM Value :=
  match id.form with
  | .primitive => pure (.unknown id length)
  | .constructed => do let child ← item; pure (mk id.tag child)

/-- The match of `read_value` on the class, reader.rs 203-345. -/
def readContents (item : RM Item) (id : Identifier) (length : Nat) : RM Value :=
  match id.cls with
  | .universal => readUniversal item id length
  | .application => readTagged .application item id length
  | .contextSpecific => readTagged .contextSpecific item id length
  | .priv => readTagged .priv item id length

/-- `read_value`, reader.rs 196-361, with `read_item` as `item`. -/
def readValue (item : RM Item) : RM Value := do
  let id ← readIdentifier
  let length ← readLength
  let contents ← readNested length
  onReader contents (readContents item id length)

/-- `read_item`, reader.rs 186-194, with at most `n` levels of nesting. -/
def readItemN : Nat → RM Item
  | 0 => throw .fuel
  | n + 1 => fun r =>
    match readValue (readItemN n) r with
    | (.error e, r') => (.error e, r')
    | (.ok value, r') => (.ok (.mk r.offset r'.offset value), r')

/-- `read_item`, reader.rs 186-194. Every level of nesting takes two bytes, so there is no limit on it. -/
def readItem : RM Item := fun r => readItemN (r.remaining + 1) r

/-! ### Writer

The output is a `Vec<u8>`, whose `Write` cannot fail. -/

/-- What `encode_item` can end with: `InvalidData`, or an overflow of `u64` arithmetic. -/
inductive WErr where
  | invalidData
  | panic
deriving DecidableEq, Repr

/-- `encode_length`, writer.rs 10-40. -/
def encodeLength (length : Nat) : Bytes :=
  if length < 128 then [UInt8.ofNat length]
  else
    let enclen := (beBytes 8 length).dropWhile (· = 0)
    if enclen.length = 0 then [1 ||| 0x80, 0]
    else (UInt8.ofNat enclen.length ||| 0x80) :: enclen

/-- The class bits, writer.rs 51-56. -/
def Class.bits : Class → UInt8
  | .universal => 0
  | .application => 1
  | .contextSpecific => 2
  | .priv => 3

/-- The form bit, writer.rs 57-60. -/
def Form.bit : Form → UInt8
  | .primitive => 0
  | .constructed => 1

/-- `encode_identifier`, writer.rs 42-65. -/
def encodeIdentifier (cls : Class) (form : Form) (tag : Nat) : Except WErr Bytes :=
  if tag > 30 then .error .invalidData
  else .ok [(cls.bits <<< 6) ||| (form.bit <<< 5) ||| UInt8.ofNat tag]

/-- `encode_raw`, writer.rs 67-78. -/
def encodeRaw (cls : Class) (form : Form) (tag : Nat) (data : Bytes) : Except WErr Bytes := do
  let id ← encodeIdentifier cls form tag
  pure (id ++ encodeLength data.length ++ data)

/-- The loop of `write_var_u64`, writer.rs 83-88: the bytes in the order they are pushed. -/
def varTemp (value : Nat) (highbit : UInt8) : Bytes :=
  if value ≥ 128 then (UInt8.ofNat (value &&& 0x7f) ||| highbit) :: varTemp (value >>> 7) 0x80
  else [UInt8.ofNat value ||| highbit]
termination_by value
decreasing_by rw [Nat.shiftRight_eq_div_pow]; omega

/-- `write_var_u64`, writer.rs 80-91. -/
def writeVarU64 (value : Nat) : Bytes := (varTemp value 0).reverse

/-- The contents of an object identifier, writer.rs 124-135. `first * 40 + second` overflows (a panic with overflow
checks) when it does not fit in a `u64`. -/
def encodeOid (parts : List Nat) : Except WErr Bytes :=
  match parts with
  | first :: second :: rest =>
    if first * 40 + second ≥ 2 ^ 64 then .error .panic
    else .ok (writeVarU64 (first * 40 + second) ++ rest.flatMap writeVarU64)
  | _ => .ok []

mutual
/-- `encode_item`, writer.rs 100-178. -/
def encodeItem : Item → Except WErr Bytes
  | .mk _ _ v => encodeValue v
/-- The match of `encode_item`, writer.rs 101-177. -/
def encodeValue : Value → Except WErr Bytes
  | .boolean _ => encodeRaw .universal .primitive 1 [0]
  | .integer bytes => encodeRaw .universal .primitive 2 bytes
  | .bitString unusedBits bytes => encodeRaw .universal .primitive 3 (unusedBits :: bytes)
  | .octetString bytes => encodeRaw .universal .primitive 4 bytes
  | .null => encodeRaw .universal .primitive 5 []
  | .objectIdentifier parts => do
    let data ← encodeOid parts
    encodeRaw .universal .primitive 6 data
  | .printableString s => encodeRaw .universal .primitive 19 (utf8Encode s)
  | .utf8String s => encodeRaw .universal .primitive 12 (utf8Encode s)
  | .utcTime s => encodeRaw .universal .primitive 23 (utf8Encode s)
  | .generalizedTime s => encodeRaw .universal .primitive 24 (utf8Encode s)
  | .sequence items => do
    let data ← encodeItemList items
    encodeRaw .universal .constructed 16 data
  | .set items => do
    let data ← encodeItemList items
    encodeRaw .universal .constructed 17 data
  | .application tag child => do
    let data ← encodeItem child
    encodeRaw .application .constructed tag data
  | .contextSpecific tag child => do
    let data ← encodeItem child
    encodeRaw .contextSpecific .constructed tag data
  | .priv tag child => do
    let data ← encodeItem child
    encodeRaw .priv .constructed tag data
  | .unknown _ _ => .error .invalidData
/-- `encode_item_list`, writer.rs 93-98. -/
def encodeItemList : List Item → Except WErr Bytes
  | [] => .ok []
  | item :: items => do
    let a ← encodeItem item
    let b ← encodeItemList items
    pure (a ++ b)
end

end Ngfs.Asn1
