import Verif.Lemmas.Schema

/-! C08 (and the reading half of C07) for whole fields: what each reader of a field accepts, whoever wrote the field. -/
namespace Ngfs.Protobuf
open Varint Spec Spec.Schema

theorem ok?_iff {α : Type} {x : Except FieldDataError α} {a : α} : ok? x = .ok a ↔ x = .ok a := by
  cases x <;> simp [ok?]

/-- **C08**, the readers of fields: a field is read as a scalar exactly if it is of the wire type of the scalar and its varint, in whatever
length it is written, denotes the code of the value that is returned. -/
theorem C08_fields_exact (d : FieldData) :
    (∀ n, d.toUint64 = .ok n ↔ Uint d n) ∧ (∀ n, d.toUint32 = .ok n ↔ Uint32 d n) ∧
    (∀ x, d.toInt64 = .ok x ↔ Signed64 d x) ∧ (∀ x, d.toInt32 = .ok x ↔ Signed32 d x) ∧
    (∀ x, d.toSint64 = .ok x ↔ Zigzag64 d x) ∧ (∀ x, d.toSint32 = .ok x ↔ Zigzag32 d x) ∧
    (∀ b, d.toBool = .ok b ↔ Boolean d b) := by
  refine ⟨fun n => ?_, fun n => ?_, fun n => ?_, fun n => ?_, fun x => ?_, fun x => ?_, fun n => ?_⟩
  · rw [← ok?_iff]; exact uint_iff d n
  · rw [← ok?_iff]; exact uint32_iff d n
  · rw [← ok?_iff]; exact int64_iff d n
  · rw [← ok?_iff]; exact int32_iff d n
  · cases d with
    | varInt v =>
      simp only [FieldData.toSint64, VarInt.toI64Zigzag, VarInt.toU64, Zigzag64, Uint, FieldData.varInt.injEq, exists_eq_left', ← toU64_iff]
      cases h : decodeU64 v with
      | error e => simp [liftDecode, bind, Except.bind]
      | ok m =>
        have hm : m < 2 ^ 64 := ((toU64_iff v m).mp h).2.2.2
        simp only [bind, Except.bind, liftDecode, Except.ok.injEq, exists_eq_left', zigzag64_spec hm]
        split <;> omega
    | _ => simp [FieldData.toSint64, Zigzag64, Uint]
  · have h32 := uint32_iff d
    cases d with
    | varInt v =>
      simp only [Zigzag32, ← h32, FieldData.toSint32, VarInt.toI32Zigzag, FieldData.toUint32]
      cases h : VarInt.toU32 v with
      | error e => simp [liftDecode, bind, Except.bind, ok?]
      | ok m =>
        have hm : m < 2 ^ 32 := ((h32 m).mp (by simp [FieldData.toUint32, h, liftDecode, ok?])).2
        simp only [bind, Except.bind, liftDecode, Except.ok.injEq, exists_eq_left', zigzag32_spec hm, ok?]
        split <;> omega
    | _ => simp [FieldData.toSint32, Zigzag32, Uint32, Uint]
  · rw [← ok?_iff]; exact boolean_iff d n

/-- The value -2 as a `sint64`, in two bytes where one would do. -/
example : FieldData.toSint64 (.varInt [0x83, 0]) = .ok (-2) ∧ FieldData.toSint32 (.varInt [0x83, 0]) = .ok (-2) := by decide +kernel

/-- **C07**, the readers of fields of four bytes: what they return is what the bytes say, for all fields of a message. -/
theorem C07_fields_partial {bs : Bytes} {fs : List FieldRef} (hm : IsMessage 0 bs fs) (f : FieldRef) (hf : f ∈ fs) :
    (∀ n, f.data.toFixed32 = .ok n ↔ Fixed32 f.data n) ∧ (∀ x, f.data.toSfixed32 = .ok x ↔ Sfixed32 f.data x) := by
  have h := fixed32_iff f (small_of_message hm f hf)
  simp only [ok?_iff] at h
  refine ⟨h, fun x => ?_⟩
  simp only [Sfixed32, ← h]
  have hlt : ∀ n, f.data.toFixed32 = .ok n → n < 2 ^ 32 := by
    intro n hn
    obtain ⟨b0, b1, b2, b3, -, rfl⟩ := (h n).mp hn
    have := b0.toNat_lt; have := b1.toNat_lt; have := b2.toNat_lt; have := b3.toNat_lt
    omega
  generalize f.data = d at hlt
  cases d with
  | bits32 v =>
    have hv := hlt (fromLE v) rfl
    simp only [FieldData.toSfixed32, FieldData.toFixed32, Except.ok.injEq, exists_eq_left', asI32]
    split <;> omega
  | _ => simp [FieldData.toSfixed32, FieldData.toFixed32]

example : ∃ fs, IsMessage 0 [0x0d, 0xfe, 0xff, 0xff, 0xff] fs ∧ ∃ f ∈ fs, f.data.toSfixed32 = .ok (-2) := by
  refine ⟨[⟨0, 13, 1, 5, .bits32 [0xfe, 0xff, 0xff, 0xff]⟩], (readFields_iff _ (by decide) _).mp (by decide +kernel), _, List.mem_singleton_self _, by decide +kernel⟩

end Ngfs.Protobuf
