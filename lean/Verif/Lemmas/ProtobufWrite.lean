import Verif.Lemmas.Protobuf

/-! Helper lemmas: what the protobuf writers append, and reading it back. -/
namespace Ngfs.Protobuf
open Varint Spec

/-- The wire type of each kind of payload. -/
def wireTypeOf : FieldData → Nat
  | .varInt _ => 0
  | .bits64 _ => 1
  | .bytes _ => 2
  | .bits32 _ => 5

def payloadOf : FieldData → Bytes
  | .varInt v => v
  | .bits64 v => v
  | .bytes v => encodeU64 v.length ++ v
  | .bits32 v => v

/-- A field as the writers lay it out. -/
def encField (f : Nat × FieldData) : Bytes := encodeU64 (8 * f.1 + wireTypeOf f.2) ++ payloadOf f.2

def WFField (f : Nat × FieldData) : Prop :=
  f.1 < 2 ^ 32 ∧ match f.2 with
    | .varInt v => IsVarint v
    | .bits64 v => v.length = 8
    | .bytes v => v.length < 2 ^ 64
    | .bits32 v => v.length = 4

def mkRef (o : Nat) (f : Nat × FieldData) : FieldRef :=
  { offset := o, tag := 8 * f.1 + wireTypeOf f.2, fieldNumber := f.1, wireType := wireTypeOf f.2, data := f.2 }

def mkRefs : Nat → List (Nat × FieldData) → List FieldRef
  | _, [] => []
  | o, f :: fs => mkRef o f :: mkRefs (o + (encField f).length) fs

def encFields (l : List (Nat × FieldData)) : Bytes := l.flatMap encField

@[simp] theorem encFields_nil : encFields [] = [] := rfl
@[simp] theorem encFields_cons (f) (l) : encFields (f :: l) = encField f ++ encFields l := rfl
@[simp] theorem encFields_append (a b) : encFields (a ++ b) = encFields a ++ encFields b := by
  simp [encFields]

theorem wireTypeOf_lt (d : FieldData) : wireTypeOf d < 8 := by cases d <;> simp [wireTypeOf]

theorem isField_encField (o : Nat) (f : Nat × FieldData) (h : WFField f) :
    IsField (encField f) (mkRef o f) := by
  obtain ⟨n, d⟩ := f
  obtain ⟨hn, hd⟩ := h
  have hw := wireTypeOf_lt d
  refine ⟨_, _, rfl, ?_, rfl, hw, ?_⟩
  · apply denotes_encode; simp only [mkRef]; simp only at hn; omega
  · cases d with
    | varInt v => exact ⟨rfl, rfl, hd⟩
    | bits64 v => exact ⟨rfl, rfl, hd⟩
    | bits32 v => exact ⟨rfl, rfl, hd⟩
    | bytes v => exact ⟨rfl, _, rfl, denotes_encode hd⟩

theorem isMessage_encFields (l : List (Nat × FieldData)) (h : ∀ f ∈ l, WFField f) (o : Nat) :
    IsMessage o (encFields l) (mkRefs o l) := by
  induction l generalizing o with
  | nil => exact .nil o
  | cons f l ih =>
    exact .cons (isField_encField o f (h f (by simp))) rfl (ih (fun g hg => h g (by simp [hg])) _)

/-- The reading loop over what the writers wrote. -/
theorem forFields_encFields {σ : Type} (step : σ → FieldRef → Except FromPBError σ) (s : σ)
    (l : List (Nat × FieldData)) (h : ∀ f ∈ l, WFField f) (hlen : (encFields l).length < 2 ^ 64) :
    forFields step s (Reader.new (encFields l)) = (mkRefs 0 l).foldlM step s := by
  have := forFields_message step [] (isMessage_encFields l h 0) (by simpa using hlen) s
  simpa [Reader.new] using this

theorem writeTag_ok (w : Bytes) (n t : Nat) (ht : t < 4) :
    writeTag w n t = .ok (w ++ encodeU64 (8 * n + t)) := by
  have h0 : t &&& (2 ^ 64 - 1 - 3) = 0 := by
    have : t = 0 ∨ t = 1 ∨ t = 2 ∨ t = 3 := by omega
    rcases this with rfl | rfl | rfl | rfl <;> decide +kernel
  have h1 : (n <<< 3) ||| t = 8 * n + t := by
    rw [shift_or_add (by omega)]; omega
  simp only [writeTag, if_pos h0, h1]

theorem writeUint64_ok (w : Bytes) (n v : Nat) :
    writeUint64 w n v = .ok (w ++ encField (n, .varInt (encodeU64 v))) := by
  simp [writeUint64, writeTag_ok w n 0 (by decide), bind, Except.bind, encField, wireTypeOf,
    VARINT_TYPE, payloadOf]

theorem writeBytes_ok (w : Bytes) (n : Nat) (b : Bytes) :
    writeBytes w n b = .ok (w ++ encField (n, .bytes b)) := by
  simp [writeBytes, writeTag_ok w n 2 (by decide), bind, Except.bind, encField, wireTypeOf,
    LENGTH_TYPE, payloadOf]

theorem writeString_ok (w : Bytes) (n : Nat) (s : String) :
    writeString w n s = .ok (w ++ encField (n, .bytes (utf8Encode s))) := writeBytes_ok w n _

theorem toBE64_length (v : Nat) : (toBE64 v).length = 8 := rfl

theorem writeFixed64_ok (w : Bytes) (n v : Nat) :
    writeFixed64 w n v = .ok (w ++ encField (n, .bits64 (toBE64 v))) := by
  simp [writeFixed64, writeTag_ok w n 1 (by decide), bind, Except.bind, encField, wireTypeOf,
    BITS64_TYPE, payloadOf]

theorem writeSfixed64_ok (w : Bytes) (n : Nat) (v : Int) :
    writeSfixed64 w n v = .ok (w ++ encField (n, .bits64 (toBE64 (asU64 v)))) := by
  simp [writeSfixed64, writeTag_ok w n 1 (by decide), bind, Except.bind, encField, wireTypeOf,
    BITS64_TYPE, payloadOf]

theorem wf_varint {n v : Nat} (hn : n < 2 ^ 32) : WFField (n, .varInt (encodeU64 v)) :=
  ⟨hn, isVarint_encode v⟩

theorem asU64_lt (x : Int) : asU64 x < 2 ^ 64 := by
  unfold asU64; omega

theorem asI64_asU64 {x : Int} (h1 : -2 ^ 63 ≤ x) (h2 : x < 2 ^ 63) : asI64 (asU64 x) = x := by
  unfold asI64 asU64; split <;> omega

theorem asI32_asU64 {x : Int} (h1 : -2 ^ 31 ≤ x) (h2 : x < 2 ^ 31) : asI32 (asU64 x) = x := by
  unfold asI32 asU64; split <;> omega

theorem zigzag64_spec {v : Nat} (hv : v < 2 ^ 64) :
    zigzag64 v = if v % 2 = 0 then ((v / 2 : Nat) : Int) else -((v / 2 : Nat) : Int) - 1 := by
  have hs : v >>> 1 = v / 2 := by rw [Nat.shiftRight_eq_div_pow]
  unfold zigzag64
  rw [hs, and_1]
  rcases Nat.mod_two_eq_zero_or_one v with h | h
  · rw [h]
    simp only [BitVec.ofNat_eq_ofNat, BitVec.neg_zero, BitVec.xor_zero, if_true]
    rw [BitVec.toInt_eq_toNat_cond, BitVec.toNat_ofNat]
    have : v / 2 % 2 ^ 64 = v / 2 := Nat.mod_eq_of_lt (by omega)
    rw [this, if_pos (by omega)]
  · rw [h]
    have h1 : -(BitVec.ofNat 64 1) = BitVec.allOnes 64 := by decide
    rw [h1, BitVec.xor_allOnes, BitVec.toInt_not, BitVec.toNat_ofNat]
    have : v / 2 % 2 ^ 64 = v / 2 := Nat.mod_eq_of_lt (by omega)
    rw [this, if_neg (by omega), Int.bmod_def]
    split <;> omega

theorem zigzag32_spec {v : Nat} (hv : v < 2 ^ 32) :
    zigzag32 v = if v % 2 = 0 then ((v / 2 : Nat) : Int) else -((v / 2 : Nat) : Int) - 1 := by
  have hs : v >>> 1 = v / 2 := by rw [Nat.shiftRight_eq_div_pow]
  unfold zigzag32
  rw [hs, and_1]
  rcases Nat.mod_two_eq_zero_or_one v with h | h
  · rw [h]
    simp only [BitVec.ofNat_eq_ofNat, BitVec.neg_zero, BitVec.xor_zero, if_true]
    rw [BitVec.toInt_eq_toNat_cond, BitVec.toNat_ofNat]
    have : v / 2 % 2 ^ 32 = v / 2 := Nat.mod_eq_of_lt (by omega)
    rw [this, if_pos (by omega)]
  · rw [h]
    have h1 : -(BitVec.ofNat 32 1) = BitVec.allOnes 32 := by decide
    rw [h1, BitVec.xor_allOnes, BitVec.toInt_not, BitVec.toNat_ofNat]
    have : v / 2 % 2 ^ 32 = v / 2 := Nat.mod_eq_of_lt (by omega)
    rw [this, if_neg (by omega), Int.bmod_def]
    split <;> omega

end Ngfs.Protobuf
