import Verif.Model.Varint
import Verif.Model.Utf8
import Verif.Model.Slice

/-!
Model of `/repo/src/formats/protobuf/protobuf.rs`.

* `i32`/`i64` values are `Int`; `as u64`, `as i32`, `as i64` are the two's complement conversions below.
* Floating point values (`to_float`, `to_double`, `write_float`, `write_double`) are represented by their bit
  patterns: `to_be_bytes`/`from_le_bytes` of an `f64` act on the bit pattern exactly as those of a `u64`.
-/
namespace Ngfs.Protobuf
open Varint

/-! ### Integer casts -/

/-- `x as u64` for a signed `x`: two's complement. -/
def asU64 (x : Int) : Nat := (x % 2 ^ 64).toNat

/-- `x as u32` for a signed `x`: two's complement. -/
def asU32 (x : Int) : Nat := (x % 2 ^ 32).toNat

/-- `n as i64` for a `u64`. -/
def asI64 (n : Nat) : Int := if n % 2 ^ 64 < 2 ^ 63 then (n % 2 ^ 64 : Nat) else (n % 2 ^ 64 : Nat) - 2 ^ 64

/-- `n as i32` for a `u64` or `u32`: the low 32 bits, signed. -/
def asI32 (n : Nat) : Int := if n % 2 ^ 32 < 2 ^ 31 then (n % 2 ^ 32 : Nat) else (n % 2 ^ 32 : Nat) - 2 ^ 32

/-! ### `VarInt` (protobuf.rs 4, 9-50); `v` is the slice the struct wraps -/

/-- `VarInt::to_u64`, 10-12. -/
def VarInt.toU64 (v : Bytes) : Except DecodeError Nat := decodeU64 v

/-- `VarInt::to_u32`, 14-22. -/
def VarInt.toU32 (v : Bytes) : Except DecodeError Nat := do
  let v ← decodeU64 v
  if v > 2 ^ 32 - 1 then .error .overflow else .ok v

/-- `VarInt::to_i64`, 24-27. -/
def VarInt.toI64 (v : Bytes) : Except DecodeError Int := do
  let v ← decodeU64 v
  .ok (asI64 v)

/-- `VarInt::to_i32`, 29-32. -/
def VarInt.toI32 (v : Bytes) : Except DecodeError Int := do
  let v ← decodeU64 v
  .ok (asI32 v)

/-- `((v >> 1) as i64) ^ -((v & 1) as i64)`, line 36, on 64-bit words. -/
def zigzag64 (v : Nat) : Int := (BitVec.ofNat 64 (v >>> 1) ^^^ -(BitVec.ofNat 64 (v &&& 1))).toInt

/-- `((v >> 1) as i32) ^ -((v & 1) as i32)`, line 41, on 32-bit words. -/
def zigzag32 (v : Nat) : Int := (BitVec.ofNat 32 (v >>> 1) ^^^ -(BitVec.ofNat 32 (v &&& 1))).toInt

/-- `VarInt::to_i64_zigzag`, 34-37. -/
def VarInt.toI64Zigzag (v : Bytes) : Except DecodeError Int := do
  let v ← VarInt.toU64 v
  .ok (zigzag64 v)

/-- `VarInt::to_i32_zigzag`, 39-42. -/
def VarInt.toI32Zigzag (v : Bytes) : Except DecodeError Int := do
  let v ← VarInt.toU32 v
  .ok (zigzag32 v)

/-- `VarInt::to_usize`, 44-46 (64-bit target: the cast keeps the value). -/
def VarInt.toUsize (v : Bytes) : Except DecodeError Nat := decodeU64 v

/-- `VarInt::to_bool`, 48-50. -/
def VarInt.toBool (v : Bytes) : Except DecodeError Bool := do
  let v ← VarInt.toU64 v
  .ok (v != 0)

/-! ### Fixed-width values -/

/-- `uN::from_le_bytes`: the first byte is the least significant. -/
def fromLE : Bytes → Nat
  | [] => 0
  | b :: bs => b.toNat + 256 * fromLE bs

/-- `u64::to_be_bytes` / `i64::to_be_bytes` / `f64::to_be_bytes` on the 64-bit pattern `n`. -/
def toBE64 (n : Nat) : Bytes :=
  [UInt8.ofNat (n >>> 56), UInt8.ofNat (n >>> 48), UInt8.ofNat (n >>> 40), UInt8.ofNat (n >>> 32),
   UInt8.ofNat (n >>> 24), UInt8.ofNat (n >>> 16), UInt8.ofNat (n >>> 8), UInt8.ofNat n]

/-- `i32::to_be_bytes` / `f32::to_be_bytes` on the 32-bit pattern `n`. -/
def toBE32 (n : Nat) : Bytes :=
  [UInt8.ofNat (n >>> 24), UInt8.ofNat (n >>> 16), UInt8.ofNat (n >>> 8), UInt8.ofNat n]

/-! ### Field values -/

/-- `FieldData`, 141-146. `bits32`/`bits64` hold the four/eight raw bytes. -/
inductive FieldData where
  | varInt (v : Bytes)
  | bits32 (v : Bytes)
  | bits64 (v : Bytes)
  | bytes (v : Bytes)
deriving DecidableEq, Repr

/-- `FieldDataError`, 116-120 (the UTF-8 error carries no detail here). -/
inductive FieldDataError where
  | plain (s : String)
  | decode (e : DecodeError)
  | invalidUTF8String
deriving DecidableEq, Repr

/-- `map_err(FieldDataError::Decode)`. -/
def liftDecode {α} : Except DecodeError α → Except FieldDataError α
  | .ok a => .ok a
  | .error e => .error (.decode e)

/-- `FieldData::to_bool`, 170-175. -/
def FieldData.toBool : FieldData → Except FieldDataError Bool
  | .varInt v => liftDecode (VarInt.toBool v)
  | _ => .error (.plain "Not a varint")

/-- `FieldData::to_bytes`, 177-179 with `as_bytes` 149-154. -/
def FieldData.toBytes : FieldData → Except FieldDataError Bytes
  | .bytes v => .ok v
  | _ => .error (.plain "Not a byte array")

/-- `FieldData::to_fixed32`, 189-194 (also the bit pattern of `to_float`, 181-183). -/
def FieldData.toFixed32 : FieldData → Except FieldDataError Nat
  | .bits32 v => .ok (fromLE v)
  | _ => .error (.plain "Not a bits32")

/-- `FieldData::to_fixed64`, 196-201 (also the bit pattern of `to_double`, 185-187). -/
def FieldData.toFixed64 : FieldData → Except FieldDataError Nat
  | .bits64 v => .ok (fromLE v)
  | _ => .error (.plain "Not a bits64")

/-- `FieldData::to_sfixed32`, 217-222. -/
def FieldData.toSfixed32 : FieldData → Except FieldDataError Int
  | .bits32 v => .ok (asI32 (fromLE v))
  | _ => .error (.plain "Not a bits32")

/-- `FieldData::to_sfixed64`, 224-229. -/
def FieldData.toSfixed64 : FieldData → Except FieldDataError Int
  | .bits64 v => .ok (asI64 (fromLE v))
  | _ => .error (.plain "Not a bits64")

/-- `FieldData::to_int32`, 203-208. -/
def FieldData.toInt32 : FieldData → Except FieldDataError Int
  | .varInt v => liftDecode (VarInt.toI32 v)
  | _ => .error (.plain "Not a varint")

/-- `FieldData::to_int64`, 210-215. -/
def FieldData.toInt64 : FieldData → Except FieldDataError Int
  | .varInt v => liftDecode (VarInt.toI64 v)
  | _ => .error (.plain "Not a varint")

/-- `FieldData::to_sint32`, 231-236. -/
def FieldData.toSint32 : FieldData → Except FieldDataError Int
  | .varInt v => liftDecode (VarInt.toI32Zigzag v)
  | _ => .error (.plain "Not a varint")

/-- `FieldData::to_sint64`, 238-243. -/
def FieldData.toSint64 : FieldData → Except FieldDataError Int
  | .varInt v => liftDecode (VarInt.toI64Zigzag v)
  | _ => .error (.plain "Not a varint")

/-- `FieldData::to_string`, 245-247. -/
def FieldData.toStr : FieldData → Except FieldDataError String
  | .bytes v => match utf8Decode v with
    | some s => .ok s
    | none => .error .invalidUTF8String
  | _ => .error (.plain "Not a byte array")

/-- `FieldData::to_uint32`, 249-254. -/
def FieldData.toUint32 : FieldData → Except FieldDataError Nat
  | .varInt v => liftDecode (VarInt.toU32 v)
  | _ => .error (.plain "Not a varint")

/-- `FieldData::to_uint64`, 256-261. -/
def FieldData.toUint64 : FieldData → Except FieldDataError Nat
  | .varInt v => liftDecode (VarInt.toU64 v)
  | _ => .error (.plain "Not a varint")

/-! ### Writer -/

/-- A failed `assert!` in the writer. -/
inductive Panic where
  | assertion
deriving DecidableEq, Repr

/-- `VARINT_TYPE` .. `BITS32_TYPE`, 347-350. -/
def VARINT_TYPE : Nat := 0
def BITS64_TYPE : Nat := 1
def LENGTH_TYPE : Nat := 2
def BITS32_TYPE : Nat := 5

/-- `PBufWriter`, 343-345: `w` is `self.data`; a writer method maps the old data to the new.
`write_tag`, 357-361. `field_type & !3 == 0` (on `u64`) is written with the 64-bit complement of 3. -/
def writeTag (w : Bytes) (fieldNumber fieldType : Nat) : Except Panic Bytes :=
  if fieldType &&& (2 ^ 64 - 1 - 3) = 0 then
    let tag := (fieldNumber <<< 3) ||| fieldType
    .ok (w ++ encodeU64 tag)
  else .error .assertion

/-- `write_uint64`, 376-379. -/
def writeUint64 (w : Bytes) (fieldNumber value : Nat) : Except Panic Bytes := do
  let w ← writeTag w fieldNumber VARINT_TYPE
  .ok (w ++ encodeU64 value)

/-- `write_int32`, 364-366. -/
def writeInt32 (w : Bytes) (fieldNumber : Nat) (value : Int) : Except Panic Bytes :=
  writeUint64 w fieldNumber (asU64 value)

/-- `write_int64`, 368-370. -/
def writeInt64 (w : Bytes) (fieldNumber : Nat) (value : Int) : Except Panic Bytes :=
  writeUint64 w fieldNumber (asU64 value)

/-- `write_uint32`, 372-374. -/
def writeUint32 (w : Bytes) (fieldNumber value : Nat) : Except Panic Bytes :=
  writeUint64 w fieldNumber value

/-- `write_bool`, 391-393. -/
def writeBool (w : Bytes) (fieldNumber : Nat) (value : Bool) : Except Panic Bytes :=
  writeUint64 w fieldNumber (if value then 1 else 0)

/-- `write_fixed64`, 395-398; `write_double`, 405-408, is the same on bit patterns. -/
def writeFixed64 (w : Bytes) (fieldNumber value : Nat) : Except Panic Bytes := do
  let w ← writeTag w fieldNumber BITS64_TYPE
  .ok (w ++ toBE64 value)

/-- `write_sfixed64`, 400-403. -/
def writeSfixed64 (w : Bytes) (fieldNumber : Nat) (value : Int) : Except Panic Bytes := do
  let w ← writeTag w fieldNumber BITS64_TYPE
  .ok (w ++ toBE64 (asU64 value))

/-- `write_fixed32`, 410-413 and `write_sfixed32`, 415-418 (identical bodies; both take an `i32`). -/
def writeFixed32 (w : Bytes) (fieldNumber : Nat) (value : Int) : Except Panic Bytes := do
  let w ← writeTag w fieldNumber BITS32_TYPE
  .ok (w ++ toBE32 (asU32 value))

/-- `write_float`, 420-423, on the 32-bit pattern of the value. -/
def writeFloat (w : Bytes) (fieldNumber bits : Nat) : Except Panic Bytes := do
  let w ← writeTag w fieldNumber BITS32_TYPE
  .ok (w ++ toBE32 bits)

/-- `write_usize`, 426-428. -/
def writeUsize (w : Bytes) (fieldNumber value : Nat) : Except Panic Bytes :=
  writeUint64 w fieldNumber value

/-- `write_bytes`, 430-434. -/
def writeBytes (w : Bytes) (fieldNumber : Nat) (bytes : Bytes) : Except Panic Bytes := do
  let w ← writeTag w fieldNumber LENGTH_TYPE
  let w := w ++ encodeU64 bytes.length
  .ok (w ++ bytes)

/-- `write_string`, 436-438. -/
def writeString (w : Bytes) (fieldNumber : Nat) (s : String) : Except Panic Bytes :=
  writeBytes w fieldNumber (utf8Encode s)

/-! ### Reader -/

/-- `ReadCase`, 107-114. -/
inductive ReadCase where
  | fieldTag | varInt | bits32 | bits64 | bytesLength | bytes
deriving DecidableEq, Repr

/-- `ReadError`, 323-329. -/
inductive ReadError where
  | endOfFile (offset : Nat) (c : ReadCase)
  | invalidTag
  | invalidLength
  | lengthOverflow (offset : Nat)
  | unknownWireType (offset : Nat) (wireType : Nat)
deriving DecidableEq, Repr

/-- `PBufReader`, 447-450. -/
structure Reader where
  offset : Nat
  data : Bytes
deriving DecidableEq, Repr

/-- `PBufReader::new`, 453-455. -/
def Reader.new (data : Bytes) : Reader := ⟨0, data⟩

/-- The loop of `read_varint`, 487-499: the offset after the first byte with a clear top bit. -/
def scanVarint (data : Bytes) (offset : Nat) : Option Nat :=
  match h : data[offset]? with
  | some b => if b &&& 0x80 == 0 then some (offset + 1) else scanVarint data (offset + 1)
  | none => none
termination_by data.length - offset
decreasing_by
  have := (List.getElem?_eq_some_iff.mp h).1
  omega

/-- `read_varint`, 485-501. -/
def Reader.readVarint (r : Reader) (c : ReadCase) : Except ReadError (Bytes × Reader) :=
  match scanVarint r.data r.offset with
  | some e => .ok (slice r.data r.offset e, { r with offset := e })
  | none => .error (.endOfFile r.offset c)

/-- `read`, 524-539. `checked_add` fails at 2^64; `data.get(a..b)` fails beyond the end. -/
def Reader.read (r : Reader) (nbytes : Nat) (c : ReadCase) : Except ReadError (Bytes × Reader) :=
  if r.offset + nbytes ≥ usizeLimit then .error (.lengthOverflow r.offset)
  else
    let e := r.offset + nbytes
    if e ≤ r.data.length then .ok (slice r.data r.offset e, { r with offset := e })
    else .error (.endOfFile r.offset c)

/-- `read_length_delimited`, 503-508. -/
def Reader.readLengthDelimited (r : Reader) : Except ReadError (Bytes × Reader) := do
  let (v, r) ← r.readVarint .bytesLength
  match VarInt.toUsize v with
  | .error _ => .error .invalidLength
  | .ok nbytes => r.read nbytes .bytes

/-- `FieldRef`, 296-302. -/
structure FieldRef where
  offset : Nat
  tag : Nat
  fieldNumber : Nat
  wireType : Nat
  data : FieldData
deriving DecidableEq, Repr

/-- The `match wire_type` of `read_field`, 468-474 (with `read_64bit` 517-522, `read_32bit` 510-515). -/
def Reader.readData (r : Reader) (start wireType : Nat) : Except ReadError (FieldData × Reader) :=
  match wireType with
  | 0 => do let (v, r) ← r.readVarint .varInt; .ok (.varInt v, r)
  | 1 => do let (v, r) ← r.read 8 .bits64; .ok (.bits64 v, r)
  | 2 => do let (v, r) ← r.readLengthDelimited; .ok (.bytes v, r)
  | 5 => do let (v, r) ← r.read 4 .bits32; .ok (.bits32 v, r)
  | _ => .error (.unknownWireType start wireType)

/-- `read_field`, 457-483. -/
def Reader.readField (r : Reader) : Except ReadError (Option FieldRef × Reader) :=
  if r.offset ≥ r.data.length then .ok (none, r)
  else do
    let start := r.offset
    let (v, r) ← r.readVarint .fieldTag
    match VarInt.toU64 v with
    | .error _ => .error .invalidTag
    | .ok tag =>
      let fieldNumber := tag >>> 3
      let wireType := tag &&& 0x7
      let (data, r) ← r.readData start wireType
      .ok (some { offset := start, tag, fieldNumber, wireType, data }, r)

/-! ### The reading loop shared by the `from_pb` functions -/

/-- `FromPBError`, 551-558 (with the two conversions of 575-589). -/
inductive FromPBError where
  | plain (s : String)
  | read (e : ReadError)
  | decode (e : DecodeError)
  | invalidUTF8String
  | missingField (s : String)
  | duplicateField (s : String)
deriving DecidableEq, Repr

/-- `From<FieldDataError> for FromPBError`, 581-589. -/
def FromPBError.ofField : FieldDataError → FromPBError
  | .plain s => .plain s
  | .decode e => .decode e
  | .invalidUTF8String => .invalidUTF8String

/-- `?` on a field accessor inside a `from_pb`. -/
def ok? {α} : Except FieldDataError α → Except FromPBError α
  | .ok a => .ok a
  | .error e => .error (.ofField e)

theorem scanVarint_bounds {data : Bytes} {o e : Nat} (h : scanVarint data o = some e) :
    o < e ∧ e ≤ data.length := by
  induction n : data.length - o using Nat.strongRecOn generalizing o with
  | _ n ih =>
    rw [scanVarint] at h
    split at h
    · rename_i b hb
      have hlt := (List.getElem?_eq_some_iff.mp hb).1
      split at h
      · cases h; omega
      · have := ih (data.length - (o + 1)) (by omega) h rfl
        omega
    · cases h

theorem readVarint_bounds {r r' : Reader} {c : ReadCase} {v : Bytes} (h : r.readVarint c = .ok (v, r')) :
    r'.data = r.data ∧ r.offset < r'.offset ∧ r'.offset ≤ r.data.length := by
  unfold Reader.readVarint at h
  split at h
  · rename_i e he
    have := scanVarint_bounds he
    cases h; exact ⟨rfl, this.1, this.2⟩
  · cases h

theorem read_bounds {r r' : Reader} {n : Nat} {c : ReadCase} {v : Bytes} (h : r.read n c = .ok (v, r')) :
    r'.data = r.data ∧ r'.offset = r.offset + n ∧ r'.offset ≤ r.data.length := by
  unfold Reader.read at h
  split at h
  · cases h
  · simp only at h
    split at h
    · cases h; simp; assumption
    · cases h

theorem readData_bounds {r r' : Reader} {s w : Nat} {d : FieldData} (h : r.readData s w = .ok (d, r')) :
    r'.data = r.data ∧ r.offset ≤ r'.offset := by
  unfold Reader.readData at h
  split at h
  · simp only [bind, Except.bind] at h
    split at h
    · cases h
    · rename_i x hx; cases h; have := readVarint_bounds hx; exact ⟨this.1, by omega⟩
  · simp only [bind, Except.bind] at h
    split at h
    · cases h
    · rename_i x hx; cases h; have := read_bounds hx; exact ⟨this.1, by omega⟩
  · simp only [bind, Except.bind, Reader.readLengthDelimited] at h
    split at h
    · cases h
    · rename_i x hx
      split at hx
      · cases hx
      · rename_i y hy
        split at hx
        · cases hx
        · cases h
          have h1 := readVarint_bounds hy; have h2 := read_bounds hx
          exact ⟨h2.1.trans h1.1, by omega⟩
  · simp only [bind, Except.bind] at h
    split at h
    · cases h
    · rename_i x hx; cases h; have := read_bounds hx; exact ⟨this.1, by omega⟩
  · cases h

/-- Every field read consumes at least one byte; this is why the reading loop terminates. -/
theorem readField_progress {r r' : Reader} {f : FieldRef} (h : r.readField = .ok (some f, r')) :
    r'.data = r.data ∧ r.offset < r'.offset ∧ r.offset < r.data.length := by
  unfold Reader.readField at h
  split at h
  · cases h
  · simp only [bind, Except.bind] at h
    split at h
    · cases h
    · rename_i x hx
      have h1 := readVarint_bounds hx
      split at h
      · cases h
      · split at h
        · cases h
        · rename_i y hy
          cases h
          have h2 := readData_bounds hy
          exact ⟨h2.1.trans h1.1, by omega, by omega⟩

/-- `while let Some(field) = reader.read_field()? { ... }`, the loop of every `from_pb`: `step` is the body. -/
def forFields {σ : Type} (step : σ → FieldRef → Except FromPBError σ) (s : σ) (r : Reader) :
    Except FromPBError σ :=
  match h : r.readField with
  | .error e => .error (.read e)
  | .ok (none, _) => .ok s
  | .ok (some f, r') =>
    match step s f with
    | .error e => .error e
    | .ok s' => forFields step s' r'
termination_by r.data.length - r.offset
decreasing_by
  have := readField_progress h
  rw [this.1]; omega

/-- All fields of a message, in order: the loop with a body that collects. -/
def readFields (data : Bytes) : Except FromPBError (List FieldRef) :=
  forFields (fun acc f => .ok (acc ++ [f])) [] (Reader.new data)

end Ngfs.Protobuf
