import Verif.Lemmas.ProtobufWrite
import Mathlib.Tactic.Ring

/-! Properties C04–C08: protobuf fields and scalars. -/
namespace Ngfs.Protobuf
open Varint Spec

/-- A call of one of the writer's methods (those that never hit its assertion). -/
inductive WriteOp where
  | uint64 (n v : Nat)
  | uint32 (n v : Nat)
  | int64 (n : Nat) (v : Int)
  | int32 (n : Nat) (v : Int)
  | bool (n : Nat) (v : Bool)
  | usize (n v : Nat)
  | bytes (n : Nat) (v : Bytes)
  | string (n : Nat) (v : String)

/-- Performing the call on a writer holding `w`. -/
def WriteOp.run (w : Bytes) : WriteOp → Except Panic Bytes
  | .uint64 n v => writeUint64 w n v
  | .uint32 n v => writeUint32 w n v
  | .int64 n v => writeInt64 w n v
  | .int32 n v => writeInt32 w n v
  | .bool n v => writeBool w n v
  | .usize n v => writeUsize w n v
  | .bytes n v => writeBytes w n v
  | .string n v => writeString w n v

/-- The arguments are values of the Rust parameter types: the field number is a `u32`, and the value fits its type
(a byte string has fewer than 2^64 bytes). -/
def WriteOp.Typed : WriteOp → Prop
  | .uint64 n v => n < 2 ^ 32 ∧ v < 2 ^ 64
  | .uint32 n v => n < 2 ^ 32 ∧ v < 2 ^ 32
  | .int64 n v => n < 2 ^ 32 ∧ -2 ^ 63 ≤ v ∧ v < 2 ^ 63
  | .int32 n v => n < 2 ^ 32 ∧ -2 ^ 31 ≤ v ∧ v < 2 ^ 31
  | .bool n _ => n < 2 ^ 32
  | .usize n v => n < 2 ^ 32 ∧ v < 2 ^ 64
  | .bytes n v => n < 2 ^ 32 ∧ v.length < 2 ^ 64
  | .string n v => n < 2 ^ 32 ∧ (utf8Encode v).length < 2 ^ 64

/-- The field read back has the number that was written and gives the value that was written, through the reader's
accessor of the same type. -/
def WriteOp.ReadBack : WriteOp → FieldRef → Prop
  | .uint64 n v, f => f.fieldNumber = n ∧ f.data.toUint64 = .ok v
  | .uint32 n v, f => f.fieldNumber = n ∧ f.data.toUint32 = .ok v
  | .int64 n v, f => f.fieldNumber = n ∧ f.data.toInt64 = .ok v
  | .int32 n v, f => f.fieldNumber = n ∧ f.data.toInt32 = .ok v
  | .bool n v, f => f.fieldNumber = n ∧ f.data.toBool = .ok v
  | .usize n v, f => f.fieldNumber = n ∧ f.data.toUint64 = .ok v
  | .bytes n v, f => f.fieldNumber = n ∧ f.data.toBytes = .ok v
  | .string n v, f => f.fieldNumber = n ∧ f.data.toStr = .ok v

private def WriteOp.field : WriteOp → Nat × FieldData
  | .uint64 n v => (n, .varInt (encodeU64 v))
  | .uint32 n v => (n, .varInt (encodeU64 v))
  | .int64 n v => (n, .varInt (encodeU64 (asU64 v)))
  | .int32 n v => (n, .varInt (encodeU64 (asU64 v)))
  | .bool n v => (n, .varInt (encodeU64 (if v then 1 else 0)))
  | .usize n v => (n, .varInt (encodeU64 v))
  | .bytes n v => (n, .bytes v)
  | .string n v => (n, .bytes (utf8Encode v))

private theorem run_eq (w : Bytes) (op : WriteOp) : op.run w = .ok (w ++ encField op.field) := by
  cases op <;> simp [WriteOp.run, WriteOp.field, writeUint32, writeInt64, writeInt32, writeBool, writeUsize,
    writeUint64_ok, writeBytes_ok, writeString_ok]

private theorem runs_eq (ops : List WriteOp) (w : Bytes) :
    ops.foldlM WriteOp.run w = .ok (w ++ encFields (ops.map WriteOp.field)) := by
  induction ops generalizing w with
  | nil => simp [pure, Except.pure]
  | cons op ops ih => simp [List.foldlM_cons, run_eq, bind, Except.bind, ih]

private theorem wf_field (op : WriteOp) (h : op.Typed) : WFField op.field := by
  cases op <;> simp only [WriteOp.Typed] at h <;>
    first
    | exact ⟨h.1, isVarint_encode _⟩
    | exact ⟨h, isVarint_encode _⟩
    | exact ⟨h.1, h.2⟩

private theorem readBack (op : WriteOp) (o : Nat) (h : op.Typed) : op.ReadBack (mkRef o op.field) := by
  cases op with
  | uint64 n v => exact ⟨rfl, by simp [mkRef, WriteOp.field, FieldData.toUint64, VarInt.toU64, decode_encode h.2, liftDecode]⟩
  | usize n v => exact ⟨rfl, by simp [mkRef, WriteOp.field, FieldData.toUint64, VarInt.toU64, decode_encode h.2, liftDecode]⟩
  | uint32 n v =>
    have h2 : v < 2 ^ 32 := h.2
    have : ¬ v > 2 ^ 32 - 1 := by omega
    refine ⟨rfl, ?_⟩
    simp only [mkRef, WriteOp.field, FieldData.toUint32, VarInt.toU32,
      decode_encode (show v < 2 ^ 64 by omega), liftDecode, bind, Except.bind, if_neg this]
  | int64 n v => exact ⟨rfl, by simp [mkRef, WriteOp.field, FieldData.toInt64, VarInt.toI64,
      decode_encode (asU64_lt v), liftDecode, bind, Except.bind, asI64_asU64 h.2.1 h.2.2]⟩
  | int32 n v => exact ⟨rfl, by simp [mkRef, WriteOp.field, FieldData.toInt32, VarInt.toI32,
      decode_encode (asU64_lt v), liftDecode, bind, Except.bind, asI32_asU64 h.2.1 h.2.2]⟩
  | bool n v => exact ⟨rfl, by cases v <;> simp [mkRef, WriteOp.field, FieldData.toBool, VarInt.toBool, VarInt.toU64,
      decode_encode, liftDecode, bind, Except.bind]⟩
  | bytes n v => exact ⟨rfl, rfl⟩
  | string n v => exact ⟨rfl, by simp [mkRef, WriteOp.field, FieldData.toStr]⟩

private theorem readBacks (ops : List WriteOp) (h : ∀ op ∈ ops, op.Typed) (o : Nat) :
    List.Forall₂ WriteOp.ReadBack ops (mkRefs o (ops.map WriteOp.field)) := by
  induction ops generalizing o with
  | nil => exact .nil
  | cons op ops ih =>
    exact .cons (readBack op o (h op (by simp))) (ih (fun p hp => h p (by simp [hp])) _)

/-- **C04**: any sequence of writer calls succeeds, and reading the result yields one field per call, in order, with
the same field number and the same value, and then the end of input. -/
theorem C04_field_sequence_round_trip (ops : List WriteOp) (h : ∀ op ∈ ops, op.Typed) :
    ∃ data, ops.foldlM WriteOp.run [] = .ok data ∧
      (data.length < 2 ^ 64 →
        ∃ fs, readFields data = .ok fs ∧ List.Forall₂ WriteOp.ReadBack ops fs) := by
  refine ⟨_, runs_eq ops [], ?_⟩
  intro hlen
  simp only [List.nil_append] at hlen ⊢
  refine ⟨mkRefs 0 (ops.map WriteOp.field), ?_, readBacks ops h 0⟩
  rw [readFields_iff _ hlen]
  apply isMessage_encFields
  intro f hf
  obtain ⟨op, hop, rfl⟩ := List.mem_map.mp hf
  exact wf_field op (h op hop)

example : ∀ op ∈ [WriteOp.uint64 1 300, .string 2 "hi", .int32 15 (-1), .bool 16 true, .bytes 3 []], op.Typed := by
  simp [WriteOp.Typed]
  decide +kernel
example : [WriteOp.uint64 1 300, .string 2 "hi"].foldlM WriteOp.run [] =
    .ok [0x08, 0xac, 0x02, 0x12, 0x02, 0x68, 0x69] := by decide +kernel

/-- **C04**, wire format: what the two basic writers append, byte for byte: the varint of `8 * number + type`, then
the varint value (type 0), or the length and the bytes (type 2). -/
theorem C04_writer_wire_format (w : Bytes) (n : Nat) :
    (∀ v, ∃ tag val, writeUint64 w n v = .ok (w ++ tag ++ val) ∧
      (8 * n < 2 ^ 64 → Denotes tag (8 * n)) ∧ (v < 2 ^ 64 → Denotes val v)) ∧
    (∀ bs : Bytes, ∃ tag len, writeBytes w n bs = .ok (w ++ tag ++ len ++ bs) ∧
      (8 * n + 2 < 2 ^ 64 → Denotes tag (8 * n + 2)) ∧ (bs.length < 2 ^ 64 → Denotes len bs.length)) := by
  constructor
  · intro v
    refine ⟨encodeU64 (8 * n), encodeU64 v, ?_, denotes_encode, denotes_encode⟩
    rw [writeUint64_ok]; simp [encField, wireTypeOf, payloadOf]
  · intro bs
    refine ⟨encodeU64 (8 * n + 2), encodeU64 bs.length, ?_, denotes_encode, denotes_encode⟩
    rw [writeBytes_ok]; simp [encField, wireTypeOf, payloadOf]

/-- **C05**: on every byte string, reading all fields succeeds exactly when the string is a concatenation of
well-formed fields, and then returns exactly those fields: their offsets, numbers and payload bytes tile the input in
order with nothing left over. Every other string is refused with an error. (The reader is a total function whose only
outcomes are fields and errors, and its slices are within the buffer: `C05_payload_in_bounds`.) -/
theorem C05_reader_exact (data : Bytes) (hlen : data.length < 2 ^ 64) (fs : List FieldRef) :
    readFields data = .ok fs ↔ IsMessage 0 data fs :=
  readFields_iff data hlen fs

/-- **C05**, one step from any position: a successful read of a field moves strictly forward, not beyond the end of the
buffer, and the bytes between the two positions are exactly that field. -/
theorem C05_payload_in_bounds (r r' : Reader) (f : FieldRef) (h : r.readField = .ok (some f, r')) :
    r'.data = r.data ∧ r.offset < r'.offset ∧ r'.offset ≤ r.data.length ∧ f.offset = r.offset ∧
    ∃ pre bs post, r.data = pre ++ bs ++ post ∧ pre.length = r.offset ∧
      pre.length + bs.length = r'.offset ∧ IsField bs f := by
  have hs := readField_sound h
  refine ⟨hs.1, hs.2.2.1, hs.2.1, hs.2.2.2.1, r.data.take r.offset, slice r.data r.offset r'.offset,
    r.data.drop r'.offset, split_at_slice (Nat.le_of_lt hs.2.2.1), ?_, ?_, hs.2.2.2.2⟩
  · simp; omega
  · rw [slice_length hs.2.1]; simp; omega

/-- **C05**, the end of input is reported exactly at the end. -/
theorem C05_end_exactly (r : Reader) :
    (∃ r', r.readField = .ok (none, r')) ↔ r.data.length ≤ r.offset := by
  constructor
  · rintro ⟨r', h⟩
    by_contra hc
    unfold Reader.readField at h
    rw [if_neg (by omega)] at h
    simp only [bind, Except.bind] at h
    split at h
    · cases h
    · split at h
      · cases h
      · split at h
        · cases h
        · cases h
  · intro h
    exact ⟨r, by rw [Reader.readField, if_pos h]⟩

example : readFields [0x08, 0xac, 0x02, 0x12, 0x02, 0x68, 0x69] = .ok
    [⟨0, 8, 1, 0, .varInt [0xac, 0x02]⟩, ⟨3, 18, 2, 2, .bytes [0x68, 0x69]⟩] := by
  rw [readFields_iff _ (by decide)]
  have h := isMessage_encFields [(1, .varInt (encodeU64 300)), (2, .bytes [0x68, 0x69])]
    (by simp [WFField]; exact isVarint_encode _) 0
  have e1 : encFields [(1, .varInt (encodeU64 300)), (2, .bytes [0x68, 0x69])] =
    [0x08, 0xac, 0x02, 0x12, 0x02, 0x68, 0x69] := by decide +kernel
  have e2 : mkRefs 0 [(1, .varInt (encodeU64 300)), (2, .bytes [0x68, 0x69])] =
    [⟨0, 8, 1, 0, .varInt [0xac, 0x02]⟩, ⟨3, 18, 2, 2, .bytes [0x68, 0x69]⟩] := by decide +kernel
  rwa [e1, e2] at h

/-- The full statement of **C06**: a value written as fixed64 is read back as the same value. -/
def C06_statement : Prop :=
  ∀ n v, n < 2 ^ 32 → v < 2 ^ 64 → ∃ data f, writeFixed64 [] n v = .ok data ∧
    readFields data = .ok [f] ∧ f.fieldNumber = n ∧ f.data.toFixed64 = .ok v

private theorem fixed64_read (n v : Nat) (hn : n < 2 ^ 32) :
    readFields (encField (n, .bits64 (toBE64 v))) = .ok [mkRef 0 (n, .bits64 (toBE64 v))] := by
  have hl : (encodeU64 (8 * n + 1)).length ≤ 10 :=
    encode_length_le (Nat.lt_trans (show 8 * n + 1 < 2 ^ 64 by omega) (by decide)) (by decide)
  rw [readFields_iff]
  · have := isMessage_encFields [(n, .bits64 (toBE64 v))] (by simp [WFField, toBE64_length]; omega) 0
    simpa [mkRefs] using this
  · simp [encField, wireTypeOf, payloadOf, toBE64_length]; omega

/-- The value whose eight bytes are those of `v` in the opposite order. -/
def byteSwapped (v : Nat) : Nat :=
  (v / 256 ^ 7 % 256) + (v / 256 ^ 6 % 256) * 256 + (v / 256 ^ 5 % 256) * 256 ^ 2 + (v / 256 ^ 4 % 256) * 256 ^ 3
  + (v / 256 ^ 3 % 256) * 256 ^ 4 + (v / 256 ^ 2 % 256) * 256 ^ 5 + (v / 256 % 256) * 256 ^ 6 + (v % 256) * 256 ^ 7

private theorem fromLE_toBE64 (v : Nat) : fromLE (toBE64 v) = byteSwapped v := by
  simp only [toBE64, fromLE, byteSwapped, UInt8.toNat_ofNat', Nat.shiftRight_eq_div_pow]
  norm_num
  ring

/-- **C06**, what the code does: the writer emits the bytes most significant first, the reader takes them least
significant first, so the value comes back byte-swapped. Missing from the full claim: equality with `v`, which holds
only for values that equal their own byte-swap (`C06_fixed64_false`). -/
theorem C06_fixed64_byte_swapped_partial (n v : Nat) (hn : n < 2 ^ 32) :
    ∃ data f, writeFixed64 [] n v = .ok data ∧ readFields data = .ok [f] ∧ f.fieldNumber = n ∧
      f.data.toFixed64 = .ok (byteSwapped v) := by
  refine ⟨_, _, writeFixed64_ok [] n v, fixed64_read n v hn, rfl, ?_⟩
  simp [mkRef, FieldData.toFixed64, fromLE_toBE64]

/-- **C06** is false of the code: 1 comes back as 2^56. -/
theorem C06_fixed64_false : ¬ C06_statement := by
  intro h
  obtain ⟨data, f, hw, hr, _, hf⟩ := h 1 1 (by decide) (by decide)
  obtain ⟨data', f', hw', hr', _, hf'⟩ := C06_fixed64_byte_swapped_partial 1 1 (by decide)
  rw [hw] at hw'; cases hw'
  rw [hr] at hr'; cases hr'
  rw [hf] at hf'
  exact absurd hf' (by decide)

/-- **C06**, the same for `sfixed64`: the 64-bit pattern comes back byte-swapped. -/
theorem C06_sfixed64_byte_swapped_partial (n : Nat) (v : Int) (hn : n < 2 ^ 32) :
    ∃ data f, writeSfixed64 [] n v = .ok data ∧ readFields data = .ok [f] ∧ f.fieldNumber = n ∧
      f.data.toSfixed64 = .ok (asI64 (byteSwapped (asU64 v))) := by
  refine ⟨_, _, writeSfixed64_ok [] n v, fixed64_read n _ hn, rfl, ?_⟩
  simp [mkRef, FieldData.toSfixed64, fromLE_toBE64]

/-- **C06**, the reading half follows the protobuf standard: eight bytes are taken least significant first. -/
theorem C06_reader_little_endian (b0 b1 b2 b3 b4 b5 b6 b7 : UInt8) :
    FieldData.toFixed64 (.bits64 [b0, b1, b2, b3, b4, b5, b6, b7]) =
      .ok (b0.toNat + b1.toNat * 256 + b2.toNat * 256 ^ 2 + b3.toNat * 256 ^ 3 + b4.toNat * 256 ^ 4
        + b5.toNat * 256 ^ 5 + b6.toNat * 256 ^ 6 + b7.toNat * 256 ^ 7) := by
  simp only [FieldData.toFixed64, fromLE, Except.ok.injEq]
  ring

example : byteSwapped 0x0102030405060708 = 0x0807060504030201 := by decide

/-- The full statement of **C07**. -/
def C07_statement : Prop :=
  ∀ (n : Nat) (v : Int), n < 2 ^ 32 → -2 ^ 31 ≤ v → v < 2 ^ 31 → ∃ data f, writeFixed32 [] n v = .ok data ∧
    readFields data = .ok [f] ∧ f.fieldNumber = n ∧ f.data.toSfixed32 = .ok v

/-- **C07** is false of the code: every call of a 32-bit writer, with any field number and value and whatever has been
written before, fails the writer's own assertion (a panic). -/
theorem C07_fixed32_always_panics (w : Bytes) (n : Nat) (v : Int) (bits : Nat) :
    writeFixed32 w n v = .error .assertion ∧ writeFloat w n bits = .error .assertion := by
  constructor <;> rfl

theorem C07_fixed32_false : ¬ C07_statement := by
  intro h
  obtain ⟨data, f, hw, _⟩ := h 1 0 (by decide) (by decide) (by decide)
  rw [(C07_fixed32_always_panics [] 1 0 0).1] at hw
  cases hw

/-- **C07**, partial: the reading half works. A 32-bit field laid out as the standard says (tag type 5, four bytes
least significant first) is read as its value. Missing: nothing can be written. -/
theorem C07_fixed32_read_partial (n : Nat) (hn : n < 2 ^ 32) (b0 b1 b2 b3 : UInt8) (tag : Bytes)
    (htag : Denotes tag (8 * n + 5)) :
    ∃ f, readFields (tag ++ [b0, b1, b2, b3]) = .ok [f] ∧ f.fieldNumber = n ∧
      f.data.toFixed32 = .ok (b0.toNat + b1.toNat * 256 + b2.toNat * 256 ^ 2 + b3.toNat * 256 ^ 3) := by
  refine ⟨mkRef 0 (n, .bits32 [b0, b1, b2, b3]), ?_, rfl, ?_⟩
  · rw [readFields_iff]
    · have := IsMessage.cons (o := 0) (bs := tag ++ [b0, b1, b2, b3])
        (f := mkRef 0 (n, .bits32 [b0, b1, b2, b3])) (rest := []) (fs := [])
        ⟨tag, _, rfl, htag, rfl, by simp [mkRef, wireTypeOf], rfl, rfl, rfl⟩ rfl (.nil _)
      simpa using this
    · have := htag.2.1; simp; omega
  · simp only [mkRef, FieldData.toFixed32, fromLE, Except.ok.injEq]; ring

example : Denotes (encodeU64 (8 * 28 + 5)) (8 * 28 + 5) := denotes_encode (by decide)

/-- **C08**, unsigned, boolean and two's complement scalars: a value of each type, encoded as the writers encode it
(sign-extended to 64 bits), is decoded to itself; `uint32` refuses values that do not fit. -/
theorem C08_scalar_round_trip :
    (∀ v, v < 2 ^ 64 → VarInt.toU64 (encodeU64 v) = .ok v) ∧
    (∀ v, v < 2 ^ 64 → VarInt.toUsize (encodeU64 v) = .ok v) ∧
    (∀ v, v < 2 ^ 32 → VarInt.toU32 (encodeU64 v) = .ok v) ∧
    (∀ v, 2 ^ 32 ≤ v → v < 2 ^ 64 → VarInt.toU32 (encodeU64 v) = .error .overflow) ∧
    (∀ x : Int, -2 ^ 63 ≤ x → x < 2 ^ 63 → VarInt.toI64 (encodeU64 (asU64 x)) = .ok x) ∧
    (∀ x : Int, -2 ^ 31 ≤ x → x < 2 ^ 31 → VarInt.toI32 (encodeU64 (asU64 x)) = .ok x) ∧
    (∀ v, v < 2 ^ 64 → VarInt.toBool (encodeU64 v) = .ok (decide (v ≠ 0))) := by
  refine ⟨fun v h => decode_encode h, fun v h => decode_encode h, ?_, ?_, ?_, ?_, ?_⟩
  · intro v h
    simp only [VarInt.toU32, decode_encode (show v < 2 ^ 64 by omega), bind, Except.bind]
    rw [if_neg (by omega)]
  · intro v h1 h2
    simp only [VarInt.toU32, decode_encode h2, bind, Except.bind]
    rw [if_pos (by omega)]
  · intro x h1 h2
    simp only [VarInt.toI64, decode_encode (asU64_lt x), bind, Except.bind, asI64_asU64 h1 h2]
  · intro x h1 h2
    simp only [VarInt.toI32, decode_encode (asU64_lt x), bind, Except.bind, asI32_asU64 h1 h2]
  · intro v h
    simp only [VarInt.toBool, VarInt.toU64, decode_encode h, bind, Except.bind]
    by_cases hv : v = 0 <;> simp [hv]

/-- **C08**, zigzag: the `sint64`/`sint32` decoder takes the zigzag code of a number (0, -1, 1, -2, … ↦ 0, 1, 2, 3, …)
to the number. -/
theorem C08_zigzag_decode :
    (∀ x : Int, -2 ^ 63 ≤ x → x < 2 ^ 63 →
      zigzagCode x < 2 ^ 64 ∧ VarInt.toI64Zigzag (encodeU64 (zigzagCode x)) = .ok x) ∧
    (∀ x : Int, -2 ^ 31 ≤ x → x < 2 ^ 31 →
      zigzagCode x < 2 ^ 32 ∧ VarInt.toI32Zigzag (encodeU64 (zigzagCode x)) = .ok x) := by
  constructor
  · intro x h1 h2
    have hlt : zigzagCode x < 2 ^ 64 := by unfold zigzagCode; split <;> omega
    refine ⟨hlt, ?_⟩
    simp only [VarInt.toI64Zigzag, VarInt.toU64, decode_encode hlt, bind, Except.bind, zigzag64_spec hlt]
    congr 1
    unfold zigzagCode; split <;> split <;> omega
  · intro x h1 h2
    have hlt : zigzagCode x < 2 ^ 32 := by unfold zigzagCode; split <;> omega
    refine ⟨hlt, ?_⟩
    have hn : ¬ zigzagCode x > 2 ^ 32 - 1 := by omega
    simp only [VarInt.toI32Zigzag, VarInt.toU32, decode_encode (show zigzagCode x < 2 ^ 64 by omega), bind, Except.bind,
      if_neg hn, zigzag32_spec hlt]
    congr 1
    unfold zigzagCode; split <;> split <;> omega

/-- **C08**, zigzag is a bijection: every 64-bit word is the code of exactly the number it decodes to, and that number
is in range. -/
theorem C08_zigzag_bijective (v : Nat) (hv : v < 2 ^ 64) :
    zigzagCode (zigzag64 v) = v ∧ -2 ^ 63 ≤ zigzag64 v ∧ zigzag64 v < 2 ^ 63 := by
  rw [zigzag64_spec hv]
  unfold zigzagCode
  split <;> split <;> omega

example : [0, -1, 1, -2, 2].map zigzagCode = [0, 1, 2, 3, 4] := by decide
example : zigzag64 (2 ^ 64 - 1) = -2 ^ 63 ∧ zigzag32 (2 ^ 32 - 2) = 2 ^ 31 - 1 := by decide +kernel

end Ngfs.Protobuf
