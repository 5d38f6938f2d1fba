import Verif.Model.Slice
import Verif.Model.Utf8

/-!
Model of `src/util/binary.rs`: the bounds-checked binary reader and the binary writer used by the
TLS and QUIC message types.

Both are state machines whose state survives an error (a `&mut self` method that returns `Err`
may already have moved the offset or appended bytes), so an operation is a function
`σ → Except BinErr α × σ`.
-/
namespace Ngfs.Binary

/-- `BinaryError`, binary.rs:13-23. Two values are not Rust errors: `panic` stands for a Rust
panic (an out-of-range slice, `unimplemented!()`), and `fuel` for a loop that has run more times
than the model allows for; the theorems show where these cannot occur.
Message texts are kept only for `Plain`. -/
inductive BinErr where
  | plain (msg : String)
  | string
  | invalidUtf8
  | unexpectedEof (offset expected : Nat)
  | sizeOverflow (offset requested : Nat)
  | expectedEof (offset remaining : Nat)
  | nothingConsumed (offset : Nat)
  | valueTooLarge
  | panic
  | fuel
  deriving DecidableEq, Repr

/-- A method `fn m(&mut self, ..) -> Result<α, BinaryError>` on a state `σ`. -/
def M (σ α : Type) : Type := σ → Except BinErr α × σ

instance {σ : Type} : Monad (M σ) where
  pure a := fun s => (.ok a, s)
  bind m f := fun s =>
    match m s with
    | (.ok a, s') => f a s'
    | (.error e, s') => (.error e, s')

/-- A step given directly by its effect on the state. -/
def act {σ α : Type} (f : σ → Except BinErr α × σ) : M σ α := f

/-- `return Err(e)`. -/
def throw {σ α : Type} (e : BinErr) : M σ α := fun s => (.error e, s)

/-- Big-endian bytes of the low `8 * w` bits: `to_be_bytes` (`u16`: `w = 2`, `u32`: 4, `u64`: 8),
and `to_be_bytes()[1..4]` of a `u32` for `w = 3`. -/
def beBytes : Nat → Nat → Bytes
  | 0, _ => []
  | w + 1, n => UInt8.ofNat (n >>> (8 * w)) :: beBytes w n

/-- `from_be_bytes`. -/
def beNat (bs : Bytes) : Nat := bs.foldl (fun a b => (a <<< 8) ||| b.toNat) 0

/-! ### Reader -/

/-- `BinaryReader`, binary.rs:69-72. -/
structure Reader where
  buf : Bytes
  offset : Nat
  deriving DecidableEq, Repr

/-- A method of `BinaryReader`. -/
abbrev RM (α : Type) := M Reader α

/-- `BinaryReader::new`, binary.rs:75-77. -/
def Reader.new (buf : Bytes) : Reader := ⟨buf, 0⟩

/-- `BinaryReader::remaining`, binary.rs:87-89 (`saturating_sub`). -/
def Reader.remaining (r : Reader) : Nat := r.buf.length - r.offset

/-- `BinaryReader::remaining_data`, binary.rs:91-93. Slicing `buf[offset..]` panics when the
offset is beyond the end. It does not move the offset. -/
def remainingData : RM Bytes := fun r =>
  if r.offset ≤ r.buf.length then (.ok (r.buf.drop r.offset), r) else (.error .panic, r)

/-- `BinaryReader::expect_eof`, binary.rs:95-103. -/
def expectEof : RM Unit := fun r =>
  if r.remaining > 0 then (.error (.expectedEof r.offset r.remaining), r) else (.ok (), r)

/-- `BinaryReader::check_available`, binary.rs:105-111. -/
def checkAvailable (size : Nat) : RM Nat := fun r =>
  if r.offset + size < usizeLimit then
    if r.offset + size ≤ r.buf.length then (.ok (r.offset + size), r)
    else (.error (.unexpectedEof r.offset size), r)
  else (.error (.sizeOverflow r.offset size), r)

/-- `BinaryReader::read_nested`, binary.rs:113-118: a reader over `buf[0..end]`. -/
def readNested (size : Nat) : RM Reader := do
  let e ← checkAvailable size
  act fun r => (.ok ⟨r.buf.take e, r.offset⟩, { r with offset := e })

/-- `BinaryReader::read_fixed`, binary.rs:120-125. -/
def readFixed (size : Nat) : RM Bytes := do
  let e ← checkAvailable size
  act fun r => (.ok (slice r.buf r.offset e), { r with offset := e })

/-- `BinaryReader::read_u8`, binary.rs:145-150. The index is in range by `check_available`; an
out-of-range index would be a panic. -/
def readU8 : RM UInt8 := do
  let next ← checkAvailable 1
  act fun r =>
    match r.buf[r.offset]? with
    | some b => (.ok b, { r with offset := next })
    | none => (.error .panic, r)

/-- `read_u16`, `read_u24`, `read_u32`, `read_u64` (binary.rs:152-185) for `w = 2, 3, 4, 8`. -/
def readUint (w : Nat) : RM Nat := do
  let next ← checkAvailable w
  act fun r => (.ok (beNat (slice r.buf r.offset next)), { r with offset := next })

/-- `read_u16`, binary.rs:152-158. -/
def readU16 : RM Nat := readUint 2
/-- `read_u24`, binary.rs:160-169. -/
def readU24 : RM Nat := readUint 3
/-- `read_u32`, binary.rs:171-177. -/
def readU32 : RM Nat := readUint 4
/-- `read_u64`, binary.rs:179-185. -/
def readU64 : RM Nat := readUint 8

/-- The loop of `read_quic_varint`, binary.rs:139-141. -/
def varintLoop : Nat → Nat → RM Nat
  | 0, v => pure v
  | n + 1, v => do
    let b ← readU8
    varintLoop n ((v <<< 8) + b.toNat)

/-- `read_quic_varint`, binary.rs:127-143. -/
def readQuicVarint : RM Nat := do
  let v ← readU8
  let prefix_ := v >>> (6 : UInt8)
  let length := 1 <<< prefix_.toNat
  varintLoop (length - 1) (v.toNat &&& 0x3f)

/-- `read_len8_bytes`, binary.rs:187-190. -/
def readLen8Bytes : RM Bytes := do
  let len ← readU8
  readFixed len.toNat

/-- `read_len16_bytes`, binary.rs:192-195. -/
def readLen16Bytes : RM Bytes := do
  let len ← readU16
  readFixed len

/-- `read_len24_bytes`, binary.rs:197-200. -/
def readLen24Bytes : RM Bytes := do
  let len ← readU24
  readFixed len

/-- Run operations on a separate (nested) reader, keeping only their result. -/
def onReader {α : Type} (inner : Reader) (p : RM α) : RM α := fun r => ((p inner).1, r)

/-- The loop `while inner.remaining() > 0 { .. }` of `read_fixed_list`, binary.rs:224-231, run on
the nested reader. -/
def listLoop {α : Type} (item : RM α) : Nat → RM (List α)
  | 0 => throw .fuel
  | n + 1 => fun r =>
    if r.remaining > 0 then
      match item r with
      | (.error e, r') => (.error e, r')
      | (.ok a, r') =>
        if r.offset = r'.offset then (.error (.nothingConsumed r.offset), r')
        else
          match listLoop item n r' with
          | (.error e, r'') => (.error e, r'')
          | (.ok as, r'') => (.ok (a :: as), r'')
    else (.ok [], r)

/-- `read_fixed_list`, binary.rs:221-233. -/
def readFixedList {α : Type} (item : RM α) (len : Nat) : RM (List α) := do
  let inner ← readNested len
  onReader inner (listLoop item (inner.remaining + 1))

/-- `read_len8_list`, binary.rs:206-209. -/
def readLen8List {α : Type} (item : RM α) : RM (List α) := do
  let len ← readU8
  readFixedList item len.toNat

/-- `read_len16_list`, binary.rs:211-214. -/
def readLen16List {α : Type} (item : RM α) : RM (List α) := do
  let len ← readU16
  readFixedList item len

/-- `read_len24_list`, binary.rs:216-219. -/
def readLen24List {α : Type} (item : RM α) : RM (List α) := do
  let len ← readU24
  readFixedList item len

/-! ### Writer -/

/-- A method of `BinaryWriter` (binary.rs:236-238); the state is `data`. -/
abbrev WM (α : Type) := M Bytes α

/-- `write_raw`, binary.rs:291-293. -/
def writeRaw (d : Bytes) : WM Unit := fun s => (.ok (), s ++ d)

/-- `write_u8`, binary.rs:251-253. -/
def writeU8 (b : UInt8) : WM Unit := fun s => (.ok (), s ++ [b])

/-- `write_u16`, binary.rs:255-257. -/
def writeU16 (n : Nat) : WM Unit := fun s => (.ok (), s ++ beBytes 2 n)
/-- `write_u24`, binary.rs:259-261: the top byte of the `u32` is dropped. -/
def writeU24 (n : Nat) : WM Unit := fun s => (.ok (), s ++ beBytes 3 n)
/-- `write_u32`, binary.rs:263-265. -/
def writeU32 (n : Nat) : WM Unit := fun s => (.ok (), s ++ beBytes 4 n)
/-- `write_u64`, binary.rs:267-269. -/
def writeU64 (n : Nat) : WM Unit := fun s => (.ok (), s ++ beBytes 8 n)

/-- `bytes[i] |= m`. -/
def orAt (bs : Bytes) (i : Nat) (m : UInt8) : Bytes := bs.set i (bs.getD i 0 ||| m)

/-- The bytes appended by `write_quic_varint`, binary.rs:271-289. -/
def quicVarintBytes (value : Nat) : Bytes :=
  let valueBytes := beBytes 8 value
  if value ≤ 63 then slice valueBytes 7 8
  else if value ≤ 16383 then slice (orAt valueBytes 6 0x40) 6 8
  else if value ≤ 1073741823 then slice (orAt valueBytes 4 0x80) 4 8
  else slice (orAt valueBytes 0 0xc0) 0 8

/-- `write_quic_varint`, binary.rs:271-289. -/
def writeQuicVarint (value : Nat) : WM Unit := writeRaw (quicVarintBytes value)

/-- `write_len8_bytes`, binary.rs:295-304. -/
def writeLen8Bytes (d : Bytes) : WM Unit :=
  if d.length > 255 then throw .valueTooLarge
  else do
    writeU8 (UInt8.ofNat d.length)
    writeRaw d

/-- `write_len16_bytes`, binary.rs:306-315. -/
def writeLen16Bytes (d : Bytes) : WM Unit :=
  if d.length > 65535 then throw .valueTooLarge
  else do
    writeU16 d.length
    writeRaw d

/-- `write_len24_bytes`, binary.rs:317-326. -/
def writeLen24Bytes (d : Bytes) : WM Unit :=
  if d.length ≥ 1 <<< 24 then throw .valueTooLarge
  else do
    writeU24 d.length
    writeRaw d

/-- The loop of `write_list_inner`, binary.rs:396-398. -/
def writeItems {α : Type} (item : α → WM Unit) : List α → WM Unit
  | [] => pure ()
  | a :: as => do
    item a
    writeItems item as

/-- `write_list_inner`, binary.rs:394-401. -/
def writeListInner {α : Type} (item : α → WM Unit) (items : List α) : WM Nat := fun s =>
  match writeItems item items s with
  | (.error e, s') => (.error e, s')
  | (.ok (), s') => (.ok (s'.length - s.length), s')

/-- `write_len8_list`, binary.rs:328-345. -/
def writeLen8List {α : Type} (item : α → WM Unit) (items : List α) : WM Unit := fun s =>
  let lenOffset := s.length
  match writeListInner item items (s ++ [0]) with
  | (.error e, s') => (.error e, s'.take lenOffset)
  | (.ok len, s') =>
    if len > 255 then (.error .valueTooLarge, s'.take lenOffset)
    else (.ok (), s'.set lenOffset (UInt8.ofNat len))

/-- `write_len16_list`, binary.rs:347-367. -/
def writeLen16List {α : Type} (item : α → WM Unit) (items : List α) : WM Unit := fun s =>
  let lenOffset := s.length
  match writeListInner item items (s ++ [0, 0]) with
  | (.error e, s') => (.error e, s'.take lenOffset)
  | (.ok len, s') =>
    if len > 65535 then (.error .valueTooLarge, s'.take lenOffset)
    else
      let lenBytes := beBytes 2 len
      (.ok (), (s'.set lenOffset (lenBytes.getD 0 0)).set (lenOffset + 1) (lenBytes.getD 1 0))

/-- `write_len24_list`, binary.rs:369-392. -/
def writeLen24List {α : Type} (item : α → WM Unit) (items : List α) : WM Unit := fun s =>
  let lenOffset := s.length
  match writeListInner item items (s ++ [0, 0, 0]) with
  | (.error e, s') => (.error e, s'.take lenOffset)
  | (.ok len, s') =>
    if len ≥ 1 <<< 24 then (.error .valueTooLarge, s'.take lenOffset)
    else
      let lenBytes := beBytes 4 len
      (.ok (), ((s'.set lenOffset (lenBytes.getD 1 0)).set (lenOffset + 1) (lenBytes.getD 2 0)).set
        (lenOffset + 2) (lenBytes.getD 3 0))

/-- `write_u16_nested`, binary.rs:407-429. There is no check that the content fits: `len as u16`
keeps the low 16 bits, as does `beBytes 2`. -/
def writeU16Nested (f : WM Unit) : WM Unit := fun s =>
  let lenOffset := s.length
  let s0 := s ++ [0, 0]
  match f s0 with
  | (.ok (), s') =>
    let len := s'.length - s0.length
    let lenBytes := beBytes 2 len
    (.ok (), (s'.set lenOffset (lenBytes.getD 0 0)).set (lenOffset + 1) (lenBytes.getD 1 0))
  | (.error e, s') => (.error e, s'.take lenOffset)

end Ngfs.Binary
