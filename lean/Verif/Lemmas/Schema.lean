import Mathlib.Data.List.Induction
import Mathlib.Data.List.Forall2
import Verif.Lemmas.Messages
import Verif.Spec.Schema

/-! Helper lemmas: a loop over the fields of a message computes what the schema says. -/
namespace Ngfs.Protobuf
open Varint Spec Spec.Schema

/-- Bytes in a field are not longer than their length can say, and a field of four bytes has four. -/
def Small (f : FieldRef) : Prop := (∀ v, f.data = .bytes v → v.length < 2 ^ 64) ∧ ∀ v, f.data = .bits32 v → v.length = 4

theorem small_of_message {o : Nat} {bs : Bytes} {fs : List FieldRef} (h : IsMessage o bs fs) : ∀ f ∈ fs, Small f := by
  induction h with
  | nil => simp
  | cons field _ _ ih =>
    intro g hg
    rcases List.mem_cons.mp hg with rfl | hg
    · obtain ⟨tag, payload, -, -, -, -, hp⟩ := field
      refine ⟨fun v hv => ?_, fun v hv => ?_⟩ <;> rw [hv] at hp
      · obtain ⟨-, len, -, hd⟩ := hp
        exact hd.2.2.2
      · exact hp.2.2
    · exact ih g hg

theorem fold_iff {σ : Type} {step : σ → FieldRef → Except FromPBError σ} {init : σ} {Inv : List FieldRef → σ → Prop}
    (h0 : ∀ s, Inv [] s ↔ s = init)
    (hs : ∀ fs f s', Small f → (Inv (fs ++ [f]) s' ↔ ∃ s, Inv fs s ∧ step s f = .ok s'))
    (fs : List FieldRef) (hf : ∀ f ∈ fs, Small f) (s : σ) : fs.foldlM step init = .ok s ↔ Inv fs s := by
  induction fs using List.reverseRecOn generalizing s with
  | nil => simp only [List.foldlM_nil, pure, Except.pure, Except.ok.injEq]; rw [h0]; exact eq_comm
  | append_singleton fs f ih =>
    have ih' := fun s => ih (fun g hg => hf g (by simp [hg])) s
    rw [hs fs f s (hf f (by simp)), List.foldlM_append]
    constructor
    · intro h
      cases hfs : fs.foldlM step init with
      | error e => simp [hfs, bind, Except.bind] at h
      | ok s0 =>
        refine ⟨s0, (ih' s0).mp hfs, ?_⟩
        simp only [hfs, bind, Except.bind, List.foldlM_cons, List.foldlM_nil, pure, Except.pure] at h
        cases hst : step s0 f with
        | error e => simp [hst] at h
        | ok u => simpa [hst] using h
    · rintro ⟨s0, h1, h2⟩
      simp [(ih' s0).mpr h1, bind, Except.bind, h2, pure, Except.pure]

theorem parsed_iff {σ : Type} {step : σ → FieldRef → Except FromPBError σ} {init : σ} {Inv : List FieldRef → σ → Prop}
    (h0 : ∀ s, Inv [] s ↔ s = init)
    (hs : ∀ fs f s', Small f → (Inv (fs ++ [f]) s' ↔ ∃ s, Inv fs s ∧ step s f = .ok s'))
    (bs : Bytes) (hb : bs.length < 2 ^ 64) (s : σ) :
    forFields step init (Reader.new bs) = .ok s ↔ ∃ fs, IsMessage 0 bs fs ∧ Inv fs s := by
  constructor
  · intro h
    obtain ⟨fs, hm, hf⟩ := forFields_ok _ _ _ _ (by simp [Reader.new]) h
    have hm : IsMessage 0 bs fs := by simpa [Reader.new] using hm
    exact ⟨fs, hm, (fold_iff h0 hs fs (small_of_message hm) s).mp hf⟩
  · rintro ⟨fs, hm, hk⟩
    have := forFields_message step [] hm (by simpa using hb) init
    simp only [List.length_nil, List.nil_append] at this
    rw [Reader.new, this]
    exact (fold_iff h0 hs fs (small_of_message hm) s).mpr hk

/-! ### Values -/

theorem values_nil (n : Nat) : values n [] = [] := rfl

theorem values_same {n : Nat} {fs : List FieldRef} {f : FieldRef} (h : f.fieldNumber = n) :
    values n (fs ++ [f]) = values n fs ++ [f.data] := by
  simp [values, List.filter_append, h]

theorem values_other {n : Nat} {fs : List FieldRef} {f : FieldRef} (h : f.fieldNumber ≠ n) :
    values n (fs ++ [f]) = values n fs := by
  simp [values, List.filter_append, h]

theorem values_snoc (n : Nat) (fs : List FieldRef) (f : FieldRef) :
    values n (fs ++ [f]) = if f.fieldNumber = n then values n fs ++ [f.data] else values n fs := by
  split
  · rename_i h; exact values_same h
  · rename_i h; exact values_other h

theorem bind_ok {ε α β : Type} {x : Except ε α} {g : α → Except ε β} {b : β} :
    (x >>= g) = .ok b ↔ ∃ a, x = .ok a ∧ g a = .ok b := by
  cases x <;> simp [bind, Except.bind]

theorem okOr_iff {α : Type} {o : Option α} {e : FromPBError} {a : α} : okOr o e = .ok a ↔ o = some a := by
  cases o <;> simp [okOr]

/-! ### Types -/

theorem uint_iff (d : FieldData) (n : Nat) : ok? d.toUint64 = .ok n ↔ Uint d n := toUint64_iff d n
theorem raw_iff (d : FieldData) (b : Bytes) : ok? d.toBytes = .ok b ↔ Raw d b := toBytes_iff d b
theorem text_iff (d : FieldData) (s : String) : ok? d.toStr = .ok s ↔ Text d s := toStr_iff d s

theorem uint32_iff (d : FieldData) (n : Nat) : ok? d.toUint32 = .ok n ↔ Uint32 d n := by
  cases d with
  | varInt v =>
    simp only [FieldData.toUint32, VarInt.toU32, Uint32, Uint, FieldData.varInt.injEq, exists_eq_left', ← toU64_iff]
    cases h : decodeU64 v with
    | error e => simp [liftDecode, ok?, bind, Except.bind]
    | ok m =>
      simp only [bind, Except.bind]
      by_cases hm : m > 2 ^ 32 - 1
      · rw [if_pos hm]
        simp only [liftDecode, ok?, reduceCtorEq, Except.ok.injEq, false_iff]
        omega
      · rw [if_neg hm]
        simp only [liftDecode, ok?, Except.ok.injEq]
        omega
  | _ => simp [FieldData.toUint32, ok?, Uint32, Uint]

theorem int64_iff (d : FieldData) (x : Int) : ok? d.toInt64 = .ok x ↔ Signed64 d x := by
  cases d with
  | varInt v =>
    simp only [FieldData.toInt64, VarInt.toI64, Signed64, Uint, FieldData.varInt.injEq, exists_eq_left', ← toU64_iff]
    cases h : decodeU64 v with
    | error e => simp [liftDecode, ok?, bind, Except.bind]
    | ok m =>
      have hm : m < 2 ^ 64 := ((toU64_iff v m).mp h).2.2.2
      simp only [bind, Except.bind, liftDecode, ok?, Except.ok.injEq, exists_eq_left', asI64]
      split <;> omega
  | _ => simp [FieldData.toInt64, ok?, Signed64, Uint]

theorem int32_iff (d : FieldData) (x : Int) : ok? d.toInt32 = .ok x ↔ Signed32 d x := by
  cases d with
  | varInt v =>
    simp only [FieldData.toInt32, VarInt.toI32, Signed32, Uint, FieldData.varInt.injEq, exists_eq_left', ← toU64_iff]
    cases h : decodeU64 v with
    | error e => simp [liftDecode, ok?, bind, Except.bind]
    | ok m =>
      simp only [bind, Except.bind, liftDecode, ok?, Except.ok.injEq, exists_eq_left', asI32]
      split <;> omega
  | _ => simp [FieldData.toInt32, ok?, Signed32, Uint]

theorem boolean_iff (d : FieldData) (b : Bool) : ok? d.toBool = .ok b ↔ Boolean d b := by
  cases d with
  | varInt v =>
    simp only [FieldData.toBool, VarInt.toBool, VarInt.toU64, Boolean, Uint, FieldData.varInt.injEq, exists_eq_left', ← toU64_iff]
    cases h : decodeU64 v with
    | error e => simp [liftDecode, ok?, bind, Except.bind]
    | ok m =>
      simp only [bind, Except.bind, liftDecode, ok?, Except.ok.injEq, exists_eq_left']
      by_cases hm : m = 0 <;> cases b <;> simp [hm]
  | _ => simp [FieldData.toBool, ok?, Boolean, Uint]

theorem fixed32_iff (f : FieldRef) (hf : Small f) (n : Nat) : ok? f.data.toFixed32 = .ok n ↔ Fixed32 f.data n := by
  have h4 := hf.2
  generalize f.data = d at h4
  cases d with
  | bits32 v =>
    have h4 := h4 v rfl
    obtain ⟨b0, b1, b2, b3, rfl⟩ : ∃ b0 b1 b2 b3, v = [b0, b1, b2, b3] := by
      match v, h4 with
      | [b0, b1, b2, b3], _ => exact ⟨b0, b1, b2, b3, rfl⟩
    simp only [FieldData.toFixed32, fromLE, ok?, Except.ok.injEq, Fixed32, FieldData.bits32.injEq, List.cons.injEq, and_true]
    constructor
    · intro h; exact ⟨b0, b1, b2, b3, ⟨rfl, rfl, rfl, rfl⟩, by omega⟩
    · rintro ⟨c0, c1, c2, c3, ⟨rfl, rfl, rfl, rfl⟩, h⟩; omega
  | _ => simp [FieldData.toFixed32, ok?, Fixed32]

/-! ### How often -/

theorem atMostOnce_nil {α : Type} {P : FieldData → α → Prop} {o : Option α} : AtMostOnce P [] o ↔ o = none := by
  cases o <;> simp [AtMostOnce]

theorem atMostOnce_none {α : Type} {P : FieldData → α → Prop} {l : List FieldData} : AtMostOnce P l none ↔ l = [] := by
  simp [AtMostOnce]

theorem atMostOnce_some {α : Type} {P : FieldData → α → Prop} {l : List FieldData} {a : α} :
    AtMostOnce P l (some a) ↔ Once P l a := by
  simp only [AtMostOnce, Option.toList_some, Once]
  constructor
  · intro h
    cases h with
    | cons h1 h2 => cases h2; exact ⟨_, rfl, h1⟩
  · rintro ⟨d, rfl, h⟩; exact .cons h .nil

theorem atMostOnce_snoc {α : Type} {P : FieldData → α → Prop} {l : List FieldData} {d : FieldData} {o : Option α} :
    AtMostOnce P (l ++ [d]) o ↔ l = [] ∧ ∃ a, P d a ∧ o = some a := by
  cases o with
  | none => simp [atMostOnce_none]
  | some a =>
    rw [atMostOnce_some]
    constructor
    · rintro ⟨x, h1, h2⟩
      have : l = [] := by
        cases l with
        | nil => rfl
        | cons y ys => simp at h1
      subst this
      simp only [List.nil_append, List.cons.injEq, and_true] at h1
      subst h1
      exact ⟨rfl, a, h2, rfl⟩
    · rintro ⟨rfl, b, h, hb⟩
      cases hb
      exact ⟨d, rfl, h⟩

theorem each_nil {α : Type} {P : FieldData → α → Prop} {as : List α} : Each P [] as ↔ as = [] := by simp [Each]

theorem each_snoc {α : Type} {P : FieldData → α → Prop} {l : List FieldData} {d : FieldData} {as : List α} :
    Each P (l ++ [d]) as ↔ ∃ bs a, Each P l bs ∧ P d a ∧ as = bs ++ [a] := by
  unfold Each
  constructor
  · induction l generalizing as with
    | nil =>
      intro h
      cases h with
      | cons h1 h2 => cases h2; exact ⟨[], _, .nil, h1, rfl⟩
    | cons x l ih =>
      intro h
      cases h with
      | cons h1 h2 =>
        obtain ⟨bs, a, h3, h4, rfl⟩ := ih h2
        exact ⟨_ :: bs, a, .cons h1 h3, h4, rfl⟩
  · rintro ⟨bs, a, h1, h2, rfl⟩
    induction h1 with
    | nil => exact .cons h2 .nil
    | cons h _ ih => exact .cons h ih

theorem last_nil {α : Type} {P : FieldData → α → Prop} {df a : α} : Last P df [] a ↔ a = df := by simp [Last]

theorem last_snoc {α : Type} {P : FieldData → α → Prop} {df : α} {l : List FieldData} {d : FieldData} {a : α} :
    Last P df (l ++ [d]) a ↔ (∃ b, Last P df l b) ∧ P d a := by
  simp only [Last, List.getLast?_append, List.getLast?_singleton, Option.some_or, List.mem_append, List.mem_singleton]
  constructor
  · rintro ⟨h1, h2⟩
    refine ⟨?_, h2⟩
    cases hl : l.getLast? with
    | none => exact ⟨df, fun e he => h1 e (.inl he), rfl⟩
    | some e =>
      obtain ⟨x, hx⟩ := h1 e (.inl (List.mem_of_getLast? hl))
      exact ⟨x, fun e he => h1 e (.inl he), hx⟩
  · rintro ⟨⟨b, h1, -⟩, h2⟩
    refine ⟨?_, h2⟩
    rintro e (he | rfl)
    · exact h1 e he
    · exact ⟨a, h2⟩

/-- The state of a slot that is overwritten each time: nothing yet, or the last value. -/
def OptLast {α : Type} (P : FieldData → α → Prop) (l : List FieldData) (o : Option α) : Prop :=
  Last (fun d o => ∃ a, o = some a ∧ P d a) none l o

theorem optLast_some {α : Type} {P : FieldData → α → Prop} {l : List FieldData} {a : α} :
    OptLast P l (some a) ↔ l ≠ [] ∧ Last P a l a := by
  unfold OptLast Last
  have hx : (∀ d ∈ l, ∃ x, ∃ b, x = some b ∧ P d b) ↔ ∀ d ∈ l, ∃ x, P d x := by
    constructor
    · intro h d hd
      obtain ⟨x, b, -, h⟩ := h d hd
      exact ⟨b, h⟩
    · intro h d hd
      obtain ⟨b, h⟩ := h d hd
      exact ⟨some b, b, rfl, h⟩
  rw [hx]
  cases hl : l.getLast? with
  | none =>
    have : l = [] := by simpa using hl
    simp [this]
  | some e =>
    have : l ≠ [] := by rintro rfl; simp at hl
    simp [this]

end Ngfs.Protobuf
