import Verif.Spec.Bencode
import Verif.Lemmas.Slice
import Verif.Lemmas.Basic
import Mathlib.Data.String.Basic
import Mathlib.Data.List.TakeWhile

/-! Helper lemmas about the bencode parser. No claims here. -/
namespace Ngfs.Bencode
open Ngfs.Spec

/-! ### Positions -/

theorem at_append {data a b : Bytes} {o : Nat} : At data o (a ++ b) ↔ At data o a ∧ At data (o + a.length) b := by
  constructor
  · rintro ⟨h1, c, hc⟩
    have hl := congrArg List.length hc
    simp only [List.length_append, List.length_drop] at hl
    refine ⟨⟨h1, b ++ c, by rw [← hc]; simp⟩, by omega, c, ?_⟩
    rw [← List.drop_drop, ← hc, List.append_assoc, List.drop_left]
  · rintro ⟨⟨h1, c, hc⟩, h2, d, hd⟩
    refine ⟨h1, d, ?_⟩
    rw [← hc, List.append_assoc, hd, ← List.drop_drop, ← hc, List.drop_left]

theorem at_cons {data : Bytes} {b : UInt8} {bs : Bytes} {o : Nat} :
    At data o (b :: bs) ↔ data[o]? = some b ∧ At data (o + 1) bs := by
  have h1 : At data o [b] ↔ data[o]? = some b := by
    constructor
    · rintro ⟨h1, c, hc⟩
      have : (data.drop o)[0]? = some b := by rw [← hc]; rfl
      simpa using this
    · intro h
      obtain ⟨hlt, hb⟩ := List.getElem?_eq_some_iff.mp h
      exact ⟨by omega, data.drop (o + 1), by rw [List.drop_eq_getElem_cons hlt, hb]; rfl⟩
  rw [← h1]
  exact at_append (a := [b])

theorem at_nil {data : Bytes} {o : Nat} : At data o [] ↔ o ≤ data.length := by simp [At]

theorem at_slice {data : Bytes} {o n : Nat} (h : o + n ≤ data.length) :
    At data o (slice data o (o + n)) ∧ (slice data o (o + n)).length = n := by
  refine ⟨⟨by omega, ?_⟩, ?_⟩
  · rw [slice]; exact List.take_prefix _ _
  · simp [slice]; omega

theorem at_eq_slice {data bs : Bytes} {o : Nat} (h : At data o bs) :
    slice data o (o + bs.length) = bs ∧ o + bs.length ≤ data.length := by
  obtain ⟨h1, c, hc⟩ := h
  have hl := congrArg List.length hc
  simp only [List.length_append, List.length_drop] at hl
  exact ⟨by rw [slice, ← hc, Nat.add_sub_cancel_left, List.take_left], by omega⟩

/-! ### Numbers -/

theorem isDigit_iff (b : UInt8) : isDigit b = true ↔ 48 ≤ b.toNat ∧ b.toNat ≤ 57 := by
  simp only [isDigit, Bool.and_eq_true, decide_eq_true_eq, UInt8.le_iff_toNat_le]; rfl

theorem digitsValue_eq (ds : Bytes) : digitsValue ds = Nat.ofDigits 10 (ds.reverse.map fun d => d.toNat - 48) := by
  have : ∀ (ds : Bytes) (a : Nat), ds.foldl (fun a d => a * 10 + (d.toNat - 48)) a =
      a * 10 ^ ds.length + Nat.ofDigits 10 (ds.reverse.map fun d => d.toNat - 48) := by
    intro ds
    induction ds with
    | nil => intro a; simp
    | cons d ds ih =>
      intro a
      simp only [List.foldl_cons, ih, List.length_cons, List.reverse_cons, List.map_append, Nat.ofDigits_append,
        List.map_cons, List.map_nil, Nat.ofDigits_singleton, List.length_map, List.length_reverse, Nat.pow_succ]
      ring
  simpa [digitsValue] using this ds 0

theorem parseUsize_sound {path : String} {data : Bytes} {o n o' : Nat} (h : parseUsize path data o = .ok (n, o')) :
    ∃ ds, Digits false n ds ∧ At data o ds ∧ o' = o + ds.length := by
  simp only [parseUsize] at h
  split at h
  · cases h
  · rename_i hne
    split at h
    · rename_i hlt
      simp only [Except.ok.injEq, Prod.mk.injEq] at h
      obtain ⟨rfl, rfl⟩ := h
      have hpos : (data.drop o).takeWhile isDigit ≠ [] := by intro hc; rw [hc] at hne; simp at hne
      refine ⟨_, ⟨hpos, ?_, (digitsValue_eq _).symm, hlt, fun hc => by cases hc⟩, ⟨?_, List.takeWhile_prefix _⟩, rfl⟩
      · intro d hd
        exact (isDigit_iff d).mp (List.mem_takeWhile_imp hd)
      · by_contra hc
        apply hpos
        rw [List.drop_of_length_le (by omega)]
        rfl
    · cases h

theorem takeWhile_at {data ds : Bytes} {o : Nat} (hat : At data o ds) (hd : ∀ d ∈ ds, isDigit d = true)
    (hn : ∀ b, data[o + ds.length]? = some b → isDigit b = false) : (data.drop o).takeWhile isDigit = ds := by
  obtain ⟨h1, c, hc⟩ := hat
  rw [← hc, List.takeWhile_append_of_pos hd]
  cases c with
  | nil => simp
  | cons b c =>
    have : data[o + ds.length]? = some b := by
      rw [← List.getElem?_drop, ← hc]; simp
    rw [List.takeWhile_cons_of_neg (by rw [hn b this]; simp)]
    simp

theorem parseUsize_complete {s : Bool} (path : String) {data ds : Bytes} {o n : Nat} (hd : Digits s n ds) (hat : At data o ds)
    (hn : ∀ b, data[o + ds.length]? = some b → isDigit b = false) :
    parseUsize path data o = .ok (n, o + ds.length) := by
  obtain ⟨h1, h2, h3, h4, -⟩ := hd
  have : (data.drop o).takeWhile isDigit = ds := takeWhile_at hat (fun d h => (isDigit_iff d).mpr (h2 d h)) hn
  simp only [parseUsize, this]
  have hpos : 0 < ds.length := List.length_pos_iff.mpr h1
  rw [if_neg (by omega), if_pos (by rw [digitsValue_eq, h3]; exact h4), digitsValue_eq, h3]

theorem expectByte_iff {path : String} {b : UInt8} {data : Bytes} {o o' : Nat} :
    expectByte path b data o = .ok ((), o') ↔ data[o]? = some b ∧ o' = o + 1 := by
  simp only [expectByte]
  split
  · rename_i h; simp [h]
  · rename_i c h
    split
    · rename_i hne; simp [h, hne]
    · rename_i heq
      simp only [ne_eq, not_not] at heq
      subst heq
      simp [h, eq_comm]

theorem except_ok_bind {ε α β : Type} (a : α) (f : α → Except ε β) : (Except.ok a >>= f) = f a := rfl

theorem except_bind_inv {ε α β : Type} {x : Except ε α} {f : α → Except ε β} {b : β} (h : (x >>= f) = .ok b) :
    ∃ a, x = .ok a ∧ f a = .ok b := by
  cases x with
  | error e => cases h
  | ok a => exact ⟨a, rfl, h⟩

theorem parseByteString_sound {path : String} {data bs : Bytes} {o o' : Nat} (h : parseByteString path data o = .ok (bs, o')) :
    ∃ ds, Digits false bs.length ds ∧ At data o (ds ++ 0x3a :: bs) ∧ o' = o + (ds ++ 0x3a :: bs).length := by
  obtain ⟨⟨n, o1⟩, e1, h⟩ := except_bind_inv h
  obtain ⟨ds, hd, hat, rfl⟩ := parseUsize_sound e1
  obtain ⟨⟨⟨⟩, o2⟩, e2, h⟩ := except_bind_inv h
  obtain ⟨hb, rfl⟩ := expectByte_iff.mp e2
  simp only at h
  split at h
  · cases h
  · split at h
    · cases h
    · rename_i hle
      simp only [Except.ok.injEq, Prod.mk.injEq] at h
      obtain ⟨rfl, rfl⟩ := h
      obtain ⟨a1, a2⟩ := at_slice (data := data) (o := o + ds.length + 1) (n := n) (by omega)
      refine ⟨ds, by rw [a2]; exact hd, at_append.mpr ⟨hat, at_cons.mpr ⟨hb, a1⟩⟩, ?_⟩
      simp only [List.length_append, List.length_cons, a2]
      omega

theorem parseByteString_complete {s : Bool} (path : String) {data ds bs : Bytes} {o : Nat} (hd : Digits s bs.length ds)
    (hat : At data o (ds ++ 0x3a :: bs)) (hl : data.length < 2 ^ 64) :
    parseByteString path data o = .ok (bs, o + (ds ++ 0x3a :: bs).length) := by
  obtain ⟨h1, h2⟩ := at_append.mp hat
  obtain ⟨h3, h4⟩ := at_cons.mp h2
  have e1 := parseUsize_complete path hd h1 (by rw [h3]; intro b hb; simp at hb; subst hb; rfl)
  have e2 := (expectByte_iff (path := path)).mpr ⟨h3, rfl⟩
  obtain ⟨e3, e4⟩ := at_eq_slice h4
  simp only [parseByteString, e1, e2, bind, Except.bind]
  rw [if_neg (by omega), if_neg (by omega), e3]
  simp only [List.length_append, List.length_cons]
  congr 2
  omega

theorem parseUtf8String_sound {path : String} {data : Bytes} {k : String} {o o' : Nat}
    (h : parseUtf8String path data o = .ok (k, o')) : ∃ ds, Digits false (utf8Encode k).length ds ∧
      At data o (ds ++ 0x3a :: utf8Encode k) ∧ o' = o + (ds ++ 0x3a :: utf8Encode k).length := by
  obtain ⟨⟨bs, o1⟩, e1, h⟩ := except_bind_inv h
  simp only at h
  split at h
  · rename_i s hs
    simp only [Except.ok.injEq, Prod.mk.injEq] at h
    obtain ⟨rfl, rfl⟩ := h
    rw [utf8_decode_some hs]
    exact parseByteString_sound e1
  · cases h

theorem parseUtf8String_complete {s : Bool} (path : String) {data ds : Bytes} {k : String} {o : Nat}
    (hd : Digits s (utf8Encode k).length ds) (hat : At data o (ds ++ 0x3a :: utf8Encode k)) (hl : data.length < 2 ^ 64) :
    parseUtf8String path data o = .ok (k, o + (ds ++ 0x3a :: utf8Encode k).length) := by
  simp only [parseUtf8String, parseByteString_complete path hd hat hl, bind, Except.bind, utf8_round_trip]

/-! ### Maps -/

theorem look_cons (x k : String) (v : Value) (m : List (String × Value)) :
    ((k, v) :: m).lookup x = if x = k then some v else m.lookup x := by
  rw [List.lookup_cons]
  by_cases h : x = k
  · simp [h]
  · rw [show (x == k) = false by simpa using h]; simp [h]

theorem lookup_none_of_lt {m : List (String × Value)} {k : String} (h : ∀ p ∈ m, k < p.1) : m.lookup k = none := by
  induction m with
  | nil => rfl
  | cons p m ih =>
    obtain ⟨k', v⟩ := p
    have h0 : k < k' := h (k', v) (by simp)
    rw [look_cons, if_neg (ne_of_lt h0)]
    exact ih fun q hq => h q (by simp [hq])

theorem mapInsert_lookup {m : List (String × Value)} (hm : Ascending m) (k : String) (v : Value) (x : String) :
    (mapInsert k v m).lookup x = if x = k then some v else m.lookup x := by
  induction m with
  | nil => simp only [mapInsert, look_cons, List.lookup_nil]
  | cons p m ih =>
    obtain ⟨k', v'⟩ := p
    simp only [mapInsert]
    split
    · rename_i h
      subst h
      simp only [look_cons]
      by_cases hx : x = k <;> simp [hx]
    · rename_i hne
      split
      · simp only [look_cons]
      · simp only [look_cons, ih (List.Pairwise.of_cons hm)]
        by_cases hx : x = k
        · subst hx; simp [hne]
        · simp [hx]

theorem mapInsert_mem {m : List (String × Value)} {k : String} {v : Value} {p : String × Value} (h : p ∈ mapInsert k v m) :
    p = (k, v) ∨ p ∈ m := by
  induction m with
  | nil => simpa [mapInsert] using h
  | cons q m ih =>
    obtain ⟨k', v'⟩ := q
    simp only [mapInsert] at h
    split at h
    · simp only [List.mem_cons] at h ⊢; tauto
    · split at h
      · simp only [List.mem_cons] at h ⊢; tauto
      · simp only [List.mem_cons] at h ⊢
        rcases h with h | h
        · tauto
        · rcases ih h with h | h <;> tauto

theorem mapInsert_ascending {m : List (String × Value)} (hm : Ascending m) (k : String) (v : Value) :
    Ascending (mapInsert k v m) := by
  induction m with
  | nil => simp [mapInsert, Ascending]
  | cons q m ih =>
    obtain ⟨k', v'⟩ := q
    have h1 := List.pairwise_cons.mp hm
    simp only [mapInsert]
    split
    · rename_i h; subst h; exact List.pairwise_cons.mpr h1
    · rename_i hne
      split
      · rename_i hlt
        refine List.pairwise_cons.mpr ⟨fun p hp => ?_, hm⟩
        rcases List.mem_cons.mp hp with rfl | hp
        · exact hlt
        · exact lt_trans hlt (h1.1 p hp)
      · rename_i hnlt
        refine List.pairwise_cons.mpr ⟨fun p hp => ?_, ih h1.2⟩
        rcases mapInsert_mem hp with rfl | hp
        · exact lt_of_le_of_ne (not_lt.mp hnlt) fun h => hne h.symm
        · exact h1.1 p hp

theorem isMap_unique {es m m' : List (String × Value)} (h : IsMap es m) (h' : IsMap es m') : m = m' := by
  have key : ∀ (m m' : List (String × Value)), Ascending m → Ascending m' → (∀ k, m.lookup k = m'.lookup k) → m = m' := by
    intro m
    induction m with
    | nil =>
      intro m' _ _ h
      cases m' with
      | nil => rfl
      | cons p m' => obtain ⟨k, v⟩ := p; have := h k; simp [look_cons] at this
    | cons p m ih =>
      intro m' hm hm' h
      cases m' with
      | nil => obtain ⟨k, v⟩ := p; have := h k; simp [look_cons] at this
      | cons q m' =>
        obtain ⟨k, v⟩ := p
        obtain ⟨k', v'⟩ := q
        have a1 := List.pairwise_cons.mp hm
        have a2 := List.pairwise_cons.mp hm'
        have hk : k = k' := by
          rcases lt_trichotomy k k' with hlt | heq | hgt
          · have := h k
            rw [lookup_none_of_lt (m := (k', v') :: m') (k := k) (fun p hp => by
              rcases List.mem_cons.mp hp with rfl | hp
              · exact hlt
              · exact lt_trans hlt (a2.1 p hp))] at this
            simp [look_cons] at this
          · exact heq
          · have := h k'
            rw [lookup_none_of_lt (m := (k, v) :: m) (k := k') (fun p hp => by
              rcases List.mem_cons.mp hp with rfl | hp
              · exact hgt
              · exact lt_trans hgt (a1.1 p hp))] at this
            simp [look_cons] at this
        subst hk
        have hv : v = v' := by have := h k; simpa [look_cons] using this
        subst hv
        rw [ih m' a1.2 a2.2 fun x => ?_]
        by_cases hx : x = k
        · subst hx
          rw [lookup_none_of_lt a1.1, lookup_none_of_lt a2.1]
        · have := h x
          simpa [look_cons, hx] using this
  exact key m m' h.1 h'.1 fun k => by rw [h.2, h'.2]

theorem lookup_append (l1 l2 : List (String × Value)) (k : String) :
    (l1 ++ l2).lookup k = (l1.lookup k).or (l2.lookup k) := by
  induction l1 with
  | nil => simp
  | cons p l1 ih =>
    obtain ⟨k', v⟩ := p
    simp only [List.cons_append, look_cons]
    split <;> simp [ih]

theorem isMap_insert {es m : List (String × Value)} (h : IsMap es m) (k : String) (v : Value) :
    IsMap (es ++ [(k, v)]) (mapInsert k v m) := by
  refine ⟨mapInsert_ascending h.1 k v, fun x => ?_⟩
  rw [mapInsert_lookup h.1, List.reverse_append, lookup_append, h.2]
  by_cases hx : x = k <;> simp [look_cons, hx]

theorem isMap_nil : IsMap [] [] := ⟨List.Pairwise.nil, fun _ => rfl⟩

theorem mem_lookup {m : List (String × Value)} (hm : Ascending m) {k : String} {v : Value} (h : (k, v) ∈ m) :
    m.lookup k = some v := by
  induction m with
  | nil => simp at h
  | cons p m ih =>
    obtain ⟨k', v'⟩ := p
    have a1 := List.pairwise_cons.mp hm
    rcases List.mem_cons.mp h with h | h
    · simp only [Prod.mk.injEq] at h; simp [look_cons, h]
    · have : k' < k := a1.1 _ h
      rw [look_cons, if_neg (ne_of_lt this).symm]
      exact ih a1.2 h

theorem lookup_mem {m : List (String × Value)} {k : String} {v : Value} (h : m.lookup k = some v) : (k, v) ∈ m := by
  induction m with
  | nil => simp at h
  | cons p m ih =>
    obtain ⟨k', v'⟩ := p
    rw [look_cons] at h
    by_cases hk : k = k'
    · subst hk; simp at h; simp [h]
    · rw [if_neg hk] at h
      exact List.mem_cons_of_mem _ (ih h)

/-- Every entry of the map is one of the entries it was made from. -/
theorem isMap_mem {es m : List (String × Value)} (h : IsMap es m) {p : String × Value} (hp : p ∈ m) : p ∈ es := by
  have h1 := mem_lookup (k := p.1) (v := p.2) h.1 hp
  rw [h.2] at h1
  have := lookup_mem h1
  simpa using this

/-- Ascending entries are their own map. -/
theorem isMap_self {es : List (String × Value)} (h : Ascending es) : IsMap es es := by
  refine ⟨h, fun k => ?_⟩
  induction es with
  | nil => rfl
  | cons p es ih =>
    obtain ⟨k', v⟩ := p
    have a := List.pairwise_cons.mp h
    rw [List.reverse_cons, lookup_append, ← ih a.2]
    by_cases hk : k = k'
    · subst hk
      rw [lookup_none_of_lt a.1]
      simp [look_cons]
    · rw [look_cons, if_neg hk]
      simp [look_cons, hk]

end Ngfs.Bencode
