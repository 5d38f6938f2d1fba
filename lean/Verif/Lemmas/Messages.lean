import Verif.Lemmas.ProtobufWrite
import Verif.Lemmas.Slice
import Verif.Model.Dagpb

/-! Helper lemmas: reading back a message made of given fields. -/
namespace Ngfs.Protobuf
open Varint Spec

/-- What is asked of a field apart from the length of its bytes. -/
def WFShape (f : Nat × FieldData) : Prop :=
  f.1 < 2 ^ 32 ∧ match f.2 with
    | .varInt v => IsVarint v
    | .bits64 v => v.length = 8
    | .bytes _ => True
    | .bits32 v => v.length = 4

theorem encField_length_ge (f : Nat × FieldData) (v : Bytes) (h : f.2 = .bytes v) :
    v.length ≤ (encField f).length := by
  obtain ⟨n, d⟩ := f
  simp only at h; subst h
  simp [encField, payloadOf]; omega

theorem encFields_length_ge {l : List (Nat × FieldData)} {f : Nat × FieldData} (hf : f ∈ l) :
    (encField f).length ≤ (encFields l).length := by
  induction l with
  | nil => cases hf
  | cons g l ih =>
    simp only [encFields_cons, List.length_append]
    rcases List.mem_cons.mp hf with rfl | h
    · omega
    · have := ih h; omega

theorem wf_of_shape {l : List (Nat × FieldData)} (hl : ∀ f ∈ l, WFShape f) (hlen : (encFields l).length < 2 ^ 64) :
    ∀ f ∈ l, WFField f := by
  intro f hf
  obtain ⟨h1, h2⟩ := hl f hf
  refine ⟨h1, ?_⟩
  have := encFields_length_ge hf
  obtain ⟨n, d⟩ := f
  cases d with
  | bytes v =>
    have := encField_length_ge (n, .bytes v) v rfl
    simp only; omega
  | varInt v => exact h2
  | bits32 v => exact h2
  | bits64 v => exact h2

theorem foldlM_mkRefs {σ : Type} (step : σ → FieldRef → Except FromPBError σ)
    (step' : σ → Nat × FieldData → Except FromPBError σ) (h : ∀ s o f, step s (mkRef o f) = step' s f)
    (l : List (Nat × FieldData)) (o : Nat) (s : σ) :
    (mkRefs o l).foldlM step s = l.foldlM step' s := by
  induction l generalizing o s with
  | nil => rfl
  | cons f l ih =>
    simp only [mkRefs, List.foldlM_cons, h]
    cases step' s f with
    | error e => rfl
    | ok t => simp only [bind, Except.bind]; exact ih _ _

/-- The reading loop over written fields, with a step that looks only at the number and the data. -/
theorem parse_encFields {σ : Type} (step : σ → FieldRef → Except FromPBError σ) (s : σ)
    (l : List (Nat × FieldData)) (hl : ∀ f ∈ l, WFShape f) (hlen : (encFields l).length < 2 ^ 64)
    (h : ∀ s o f, step s (mkRef o f) = step s (mkRef 0 f)) :
    forFields step s (Reader.new (encFields l)) = l.foldlM (fun s f => step s (mkRef 0 f)) s := by
  rw [forFields_encFields step s l (wf_of_shape hl hlen) hlen]
  exact foldlM_mkRefs step _ h l 0 s

@[simp] theorem shape_varint {n v : Nat} (hn : n < 2 ^ 32) : WFShape (n, .varInt (encodeU64 v)) :=
  ⟨hn, isVarint_encode v⟩
@[simp] theorem shape_bytes {n : Nat} {v : Bytes} (hn : n < 2 ^ 32) : WFShape (n, .bytes v) := ⟨hn, trivial⟩

theorem toUint64_enc {v : Nat} (h : v < 2 ^ 64) : FieldData.toUint64 (.varInt (encodeU64 v)) = .ok v := by
  simp [FieldData.toUint64, VarInt.toU64, decode_encode h, liftDecode]

theorem toUint32_enc {v : Nat} (h : v < 2 ^ 32) : FieldData.toUint32 (.varInt (encodeU64 v)) = .ok v := by
  have : ¬ v > 2 ^ 32 - 1 := by omega
  simp only [FieldData.toUint32, VarInt.toU32,
      decode_encode (show v < 2 ^ 64 by omega), liftDecode, bind, Except.bind, if_neg this]

theorem toInt32_enc {x : Int} (h1 : -2 ^ 31 ≤ x) (h2 : x < 2 ^ 31) :
    FieldData.toInt32 (.varInt (encodeU64 (asU64 x))) = .ok x := by
  simp [FieldData.toInt32, VarInt.toI32, decode_encode (asU64_lt x), liftDecode, bind, Except.bind, asI32_asU64 h1 h2]

theorem toBool_enc (b : Bool) : FieldData.toBool (.varInt (encodeU64 (if b then 1 else 0))) = .ok b := by
  cases b <;> simp [FieldData.toBool, VarInt.toBool, VarInt.toU64, decode_encode, liftDecode, bind, Except.bind]

theorem toStr_enc (s : String) : FieldData.toStr (.bytes (utf8Encode s)) = .ok s := by simp [FieldData.toStr]
theorem toBytes_enc (b : Bytes) : FieldData.toBytes (.bytes b) = .ok b := rfl

theorem ok?_ok {α} (a : α) : ok? (.ok a) = .ok a := rfl

theorem toBytes_iff (d : FieldData) (b : Bytes) : ok? d.toBytes = .ok b ↔ d = .bytes b := by
  cases d <;> simp [FieldData.toBytes, ok?]

theorem toUint64_iff (d : FieldData) (n : Nat) : ok? d.toUint64 = .ok n ↔ ∃ v, d = .varInt v ∧ Denotes v n := by
  cases d with
  | varInt v =>
    simp only [FieldData.toUint64, VarInt.toU64, FieldData.varInt.injEq, exists_eq_left', ← toU64_iff]
    cases decodeU64 v <;> simp [liftDecode, ok?]
  | _ => simp [FieldData.toUint64, ok?]

theorem toStr_iff (d : FieldData) (s : String) : ok? d.toStr = .ok s ↔ d = .bytes (utf8Encode s) := by
  cases d with
  | bytes v =>
    simp only [FieldData.toStr, FieldData.bytes.injEq]
    cases h : utf8Decode v with
    | none =>
      simp only [ok?, reduceCtorEq, false_iff]
      rintro rfl; simp at h
    | some t =>
      have := utf8_decode_some h
      simp only [ok?, Except.ok.injEq]
      constructor
      · rintro rfl; exact this.symm
      · rintro rfl; simpa using h.symm
  | _ => simp [FieldData.toStr, ok?]

end Ngfs.Protobuf

namespace Ngfs.Protobuf
open Spec

theorem field_bytes_le {bs : Bytes} {f : FieldRef} (h : IsField bs f) {b : Bytes} (hb : f.data = .bytes b) :
    b.length ≤ bs.length := by
  obtain ⟨tag, payload, rfl, _, _, _, hp⟩ := h
  rw [hb] at hp
  obtain ⟨_, len, rfl, _⟩ := hp
  simp only [List.length_append]; omega

theorem message_bytes_le {o : Nat} {bs : Bytes} {fs : List FieldRef} (h : IsMessage o bs fs) :
    ∀ f ∈ fs, ∀ b, f.data = .bytes b → b.length ≤ bs.length := by
  induction h with
  | nil o => simp
  | @cons o bs rest f fs hf ha hm ih =>
    intro g hg b hb
    rcases List.mem_cons.mp hg with rfl | hg
    · have := field_bytes_le hf hb; simp; omega
    · have := ih g hg b hb; simp; omega

end Ngfs.Protobuf

namespace Ngfs.Protobuf

/-- A loop over written list elements, each of which the step appends to the state. -/
theorem foldlM_map_push {α σ : Type} (step : σ → Nat × FieldData → Except FromPBError σ) (g : α → Nat × FieldData)
    (push : σ → α → σ) (l : List α) (h : ∀ s, ∀ a ∈ l, step s (g a) = .ok (push s a)) (s : σ) :
    (l.map g).foldlM step s = .ok (l.foldl push s) := by
  induction l generalizing s with
  | nil => rfl
  | cons a l ih =>
    simp only [List.map_cons, List.foldlM_cons, h s a (by simp), bind, Except.bind, List.foldl_cons]
    exact ih (fun s b hb => h s b (by simp [hb])) _

theorem nested_length {l : List (Nat × FieldData)} {n : Nat} {b : Bytes} (h : (n, FieldData.bytes b) ∈ l)
    (hlen : (encFields l).length < 2 ^ 64) : b.length < 2 ^ 64 := by
  have h1 := encFields_length_ge h
  have h2 := encField_length_ge (n, .bytes b) b rfl
  omega

end Ngfs.Protobuf
