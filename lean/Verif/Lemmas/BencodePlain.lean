import Verif.Lemmas.BencodeParse
import Mathlib.Data.Nat.Digits.Lemmas

/-! Helper lemmas: the standard encoding as a function. No claims here. -/
namespace Ngfs.Bencode
open Ngfs.Spec

theorem digit_byte {d : Nat} (h : d < 10) : (UInt8.ofNat (48 + d)).toNat = 48 + d := by
  rw [UInt8.toNat_ofNat']
  omega

theorem decimal_digits {n : Nat} (hn : n < 2 ^ 64) : Digits true n (decimal n) := by
  unfold decimal
  split
  · rename_i h
    subst h
    exact ⟨by simp, by simp, by decide, by decide, fun _ _ => rfl⟩
  · rename_i h
    have hd : ∀ d ∈ Nat.digits 10 n, d < 10 := fun d hd => Nat.digits_lt_base (by decide) hd
    have hne := Nat.digits_ne_nil_iff_ne_zero (b := 10) |>.mpr h
    refine ⟨by simpa using hne, ?_, ?_, hn, ?_⟩
    · intro b hb
      obtain ⟨d, hdm, rfl⟩ := List.mem_map.mp hb
      have := hd d (List.mem_reverse.mp hdm)
      rw [digit_byte this]
      omega
    · have : ((List.map (fun d => UInt8.ofNat (48 + d)) (Nat.digits 10 n).reverse).reverse.map fun d => d.toNat - 48) =
          Nat.digits 10 n := by
        rw [← List.map_reverse, List.reverse_reverse, List.map_map]
        conv_rhs => rw [← List.map_id (Nat.digits 10 n)]
        apply List.map_congr_left
        intro d hdm
        simp only [Function.comp, digit_byte (hd d hdm), id]
        omega
      rw [this]
      exact Nat.ofDigits_digits 10 n
    · intro _ hh
      exfalso
      rw [List.head?_map, List.head?_reverse, List.getLast?_eq_some_getLast hne] at hh
      simp only [Option.map_some, Option.some.injEq] at hh
      have h0 := Nat.getLast_digit_ne_zero 10 h
      have hlt := hd _ (List.getLast_mem hne)
      have := congrArg UInt8.toNat hh
      rw [digit_byte hlt] at this
      apply h0
      have e : (48 : UInt8).toNat = 48 := rfl
      rw [e] at this
      omega

theorem digits_unique {n : Nat} {ds : Bytes} (h : Digits true n ds) : ds = decimal n := by
  obtain ⟨h1, h2, h3, h4, h5⟩ := h
  have hinj : ∀ d ∈ ds, UInt8.ofNat (48 + (d.toNat - 48)) = d := by
    intro d hd
    have := h2 d hd
    rw [show 48 + (d.toNat - 48) = d.toNat by omega]
    simp
  unfold decimal
  split
  · rename_i h0
    rcases hh : ds with - | ⟨d, t⟩
    · exact absurd hh h1
    · subst hh
      have hz : ∀ x ∈ d :: t, x = 48 := by
        intro x hx
        have hx2 := h2 x hx
        have hall : ∀ l : List Nat, Nat.ofDigits 10 l = 0 → ∀ y ∈ l, y = 0 := by
          intro l
          induction l with
          | nil => simp
          | cons a l ih =>
            intro hl y hy
            rw [Nat.ofDigits_cons] at hl
            rcases List.mem_cons.mp hy with rfl | hy
            · simp at hl; omega
            · exact ih (by simp at hl; omega) y hy
        have := hall _ (h3.trans h0) (x.toNat - 48) (List.mem_map.mpr ⟨x, List.mem_reverse.mpr hx, rfl⟩)
        apply u8_ext
        rw [show (48 : UInt8).toNat = 48 from rfl]
        omega
      exact h5 rfl (by rw [List.head?_cons, hz d List.mem_cons_self])
  · rename_i h0
    have hl : Nat.digits 10 n = ds.reverse.map fun d => d.toNat - 48 := by
      rw [← h3]
      refine Nat.digits_ofDigits 10 (by decide) _ ?_ ?_
      · intro x hx
        obtain ⟨d, hd, rfl⟩ := List.mem_map.mp hx
        have := h2 d (List.mem_reverse.mp hd)
        omega
      · intro hne hlast
        rw [List.getLast_map, List.getLast_reverse] at hlast
        have hm := h2 _ (List.head_mem h1)
        have h48 : ds.head h1 = 48 := by
          apply u8_ext
          rw [show (48 : UInt8).toNat = 48 from rfl]
          omega
        have := h5 rfl (by rw [List.head?_eq_some_head h1, h48])
        subst this
        apply h0
        rw [← h3]
        decide
    rw [hl, ← List.map_reverse, List.reverse_reverse, List.map_map]
    conv_lhs => rw [← List.map_id ds]
    apply List.map_congr_left
    intro d hd
    simp only [id, Function.comp]
    exact (hinj d hd).symm

theorem plainItems_eq (vs : List Value) : plainItems vs = vs.map plain := by
  induction vs with
  | nil => rfl
  | cons v vs ih => simp [plainItems, ih]

theorem plainEntries_eq (es : List (String × Value)) : plainEntries es = es.map fun p => (p.1, plain p.2) := by
  induction es with
  | nil => rfl
  | cons p es ih => obtain ⟨k, v⟩ := p; simp [plainEntries, ih]

/-- A standard encoding is the one the function gives. -/
theorem enc_encode {o : Nat} {path : String} {v : Value} {bs : Bytes} (h : Enc true o path v bs) : bs = encode (plain v) := by
  refine Enc.rec (motive_1 := fun _ _ v bs _ => bs = encode (plain v))
    (motive_2 := fun _ _ _ vs bs _ => bs = encodeItems (plainItems vs))
    (motive_3 := fun _ _ es bs _ => bs = encodeEntries (plainEntries es)) ?_ ?_ ?_ ?_ ?_ ?_ ?_ ?_ h
  · intro _ _ _ _ hd
    rw [plain, encode, ← digits_unique hd]
  · intro _ _ _ _ hd
    rw [plain, encode, ← digits_unique hd]
  · intro _ _ _ _ _ ih
    rw [plain, encode, ← ih]
  · intro _ _ es m _ _ hm hs ih
    rw [plain, encode, ← isMap_unique (isMap_self (hs rfl)) hm, ← ih]
  · intros; rfl
  · intro _ _ _ _ _ _ _ _ _ ih1 ih2
    rw [plainItems, encodeItems, ← ih1, ← ih2]
  · intros; rfl
  · intro _ _ _ _ _ _ _ _ _ hd hk _ _ ih1 ih2
    rw [plainEntries, encodeEntries, ← ih1, ← ih2, ← digits_unique hd, hk]

theorem pairwise_keys : ∀ {es : List (String × Value)}, (plainEntries es).Pairwise (fun a b => a.1 < b.1) → Ascending es := by
  intro es h
  rw [plainEntries_eq, List.pairwise_map] at h
  exact h

mutual
/-- Every value has a standard encoding at every place. -/
theorem encode_enc : ∀ (p : Plain) (o : Nat) (path : String), p.Ok → (encode p).length < 2 ^ 64 →
    ∃ v, Enc true o path v (encode p) ∧ plain v = p
  | .bytes data, o, path, _, hl => by
    rw [encode] at hl ⊢
    simp only [List.length_append, List.length_cons] at hl
    exact ⟨_, .bytes (decimal_digits (by omega)), rfl⟩
  | .integer n, o, path, h, _ => by
    rw [Plain.Ok] at h
    rw [encode]
    exact ⟨_, .integer (decimal_digits h), rfl⟩
  | .list items, o, path, h, hl => by
    rw [Plain.Ok] at h
    rw [encode] at hl ⊢
    simp only [List.length_append, List.length_cons] at hl
    obtain ⟨vs, h1, h2⟩ := encodeItems_enc items (o + 1) path 0 h (by omega)
    exact ⟨_, .list h1, by rw [plain, h2]⟩
  | .dict es, o, path, h, hl => by
    rw [Plain.Ok] at h
    rw [encode] at hl ⊢
    simp only [List.length_append, List.length_cons] at hl
    obtain ⟨vs, h1, h2⟩ := encodeEntries_enc es (o + 1) path h.2 (by omega)
    have ha : Ascending vs := pairwise_keys (by rw [h2]; exact h.1)
    exact ⟨_, .dict h1 (isMap_self ha) (fun _ => ha), by rw [plain, h2]⟩
theorem encodeItems_enc : ∀ (ps : List Plain) (o : Nat) (path : String) (i : Nat), okItems ps → (encodeItems ps).length < 2 ^ 64 →
    ∃ vs, EncItems true o path i vs (encodeItems ps) ∧ plainItems vs = ps
  | [], o, path, i, _, _ => ⟨[], .nil, rfl⟩
  | p :: ps, o, path, i, h, hl => by
    rw [okItems] at h
    rw [encodeItems] at hl ⊢
    simp only [List.length_append] at hl
    obtain ⟨v, h1, h2⟩ := encode_enc p o (path ++ "/" ++ toString i) h.1 (by omega)
    obtain ⟨vs, h3, h4⟩ := encodeItems_enc ps (o + (encode p).length) path (i + 1) h.2 (by omega)
    exact ⟨v :: vs, .cons h1 h3, by rw [plainItems, h2, h4]⟩
theorem encodeEntries_enc : ∀ (ps : List (String × Plain)) (o : Nat) (path : String), okEntries ps →
    (encodeEntries ps).length < 2 ^ 64 → ∃ vs, EncEntries true o path vs (encodeEntries ps) ∧ plainEntries vs = ps
  | [], o, path, _, _ => ⟨[], .nil, rfl⟩
  | (k, p) :: ps, o, path, h, hl => by
    rw [okEntries] at h
    rw [encodeEntries] at hl ⊢
    simp only [List.length_append, List.length_cons] at hl
    obtain ⟨v, h1, h2⟩ := encode_enc p (o + (decimal (utf8Encode k).length ++ 0x3a :: utf8Encode k).length)
      (path ++ "/" ++ k) h.1 (by omega)
    obtain ⟨vs, h3, h4⟩ := encodeEntries_enc ps
      (o + (decimal (utf8Encode k).length ++ 0x3a :: utf8Encode k).length + (encode p).length) path h.2 (by omega)
    exact ⟨(k, v) :: vs, .cons (decimal_digits (by omega)) rfl h1 h3, by rw [plainEntries, h2, h4]⟩
end

end Ngfs.Bencode
