import Verif.Spec.Id
import Mathlib.Data.List.Basic

/-! C181: identifiers (`util/id.rs`). -/
namespace Ngfs.Id

open Ngfs.Spec.Id

/-! ### Hexadecimal numbers are different -/

theorem lowerHex_inj {a b : Nat} (ha : a < 16) (hb : b < 16) (h : Util.lowerHex a = Util.lowerHex b) : a = b := by
  have : ∀ a b : Fin 16, Util.lowerHex a = Util.lowerHex b → a = b := by decide +kernel
  exact congrArg Fin.val (this ⟨a, ha⟩ ⟨b, hb⟩ h)

theorem hex_ne_nil (n : Nat) : hex n ≠ [] := by
  rw [hex]; split <;> simp

theorem hex_inj : ∀ a b : Nat, hex a = hex b → a = b := by
  intro a
  induction a using Nat.strong_induction_on with
  | _ a ih =>
    intro b h
    rw [hex, hex.eq_def b] at h
    split at h <;> split at h
    · exact lowerHex_inj ‹_› ‹_› (by simpa using h)
    · have := congrArg List.length h
      have hn := List.length_pos_iff.mpr (hex_ne_nil (b / 16))
      simp only [List.length_append, List.length_singleton] at this; omega
    · have := congrArg List.length h
      have hn := List.length_pos_iff.mpr (hex_ne_nil (a / 16))
      simp only [List.length_append, List.length_singleton] at this; omega
    · have h' := List.append_inj' h rfl
      have h1 := ih (a / 16) (by omega) _ h'.1
      have h2 := lowerHex_inj (Nat.mod_lt a (by decide)) (Nat.mod_lt b (by decide)) (by simpa using h'.2)
      omega

/-! ### The invariant -/

/-- How the handles of the program go with those of the specification. -/
structure Good (s : State) (os : List (Option Nat)) : Prop where
  length : s.handles.length = os.length
  live : ∀ i : Nat, s.addr i = none ↔ (os[i]?).join = none
  same : ∀ i j a b o p : Nat, s.addr i = some a → s.addr j = some b → (os[i]?).join = some o → (os[j]?).join = some p →
    (a = b ↔ o = p)
  below : ∀ i o : Nat, (os[i]?).join = some o → o < os.length
  counted : ∀ a, s.strong a = s.handles.count (some a)
  nonzero : ∀ i a, s.addr i = some a → a ≠ 0

theorem addr_eq {s : State} {i a : Nat} : s.addr i = some a ↔ s.handles[i]? = some (some a) := by
  unfold State.addr
  cases h : s.handles[i]? with
  | none => simp
  | some x => simp

theorem join_eq {os : List (Option Nat)} {i a : Nat} : (os[i]?).join = some a ↔ os[i]? = some (some a) := by
  cases h : os[i]? with
  | none => simp
  | some x => simp

theorem counted_pos {s : State} {os : List (Option Nat)} (h : Good s os) {i a : Nat} (hi : s.addr i = some a) :
    0 < s.strong a := by
  rw [h.counted]
  exact List.count_pos_iff.mpr (List.mem_of_getElem? (addr_eq.mp hi))

theorem getElem?_append_one (l : List (Option Nat)) (x : Option Nat) (i : Nat) :
    ((l ++ [x])[i]?).join = if i < l.length then (l[i]?).join else if i = l.length then x else none := by
  rw [List.getElem?_append]
  split
  · rfl
  · split
    · subst_vars; simp
    · have : i - l.length ≠ 0 := by omega
      rw [List.getElem?_singleton, if_neg this]; rfl

theorem getElem?_set_none (l : List (Option Nat)) (k i : Nat) :
    ((l.set k none)[i]?).join = if i = k then none else (l[i]?).join := by
  rw [List.getElem?_set]
  by_cases h : k = i
  · subst h; simp; split <;> rfl
  · simp [h, Ne.symm h]

theorem good_empty : Good State.empty [] := by
  constructor <;> simp [State.empty, State.addr]

theorem good_step {s t : State} {os : List (Option Nat)} {op : Op} (h : Good s os) (hs : s.step op = some t) :
    Good t (after os op) := by
  cases op with
  | new a =>
    simp only [State.step] at hs
    split at hs
    · rename_i ha
      cases hs
      have hfree : ∀ i, s.addr i ≠ some a := fun i hi => by
        have := counted_pos h hi; omega
      constructor
      · simp [after, h.length]
      · intro i
        have := h.live i
        simp only [State.addr] at this
        simp only [State.addr, after, getElem?_append_one, h.length]
        split
        · exact this
        · split <;> simp
      · intro i j b c o p hi hj ho hp
        simp only [State.addr, after, getElem?_append_one, h.length] at hi hj ho hp
        have hne : ∀ i, i < os.length → ∀ o, (os[i]?).join = some o → o ≠ os.length := fun i _ o ho => by
          have := h.below i o ho; omega
        by_cases h1 : i < os.length <;> by_cases h2 : j < os.length
        · simp only [h1, h2, if_true] at hi hj ho hp
          exact h.same i j b c o p hi hj ho hp
        · simp only [h1, h2, if_true, if_false] at hi hj ho hp
          split at hj
          · rename_i hj'
            rw [if_pos hj'] at hp
            cases hj; cases hp
            have e1 : b ≠ a := fun e => hfree i (e ▸ hi)
            have e2 := hne i h1 o ho
            exact ⟨fun e => absurd e e1, fun e => absurd e e2⟩
          · cases hj
        · simp only [h1, h2, if_true, if_false] at hi hj ho hp
          split at hi
          · rename_i hi'
            rw [if_pos hi'] at ho
            cases hi; cases ho
            have e1 : c ≠ a := fun e => hfree j (e ▸ hj)
            have e2 := hne j h2 p hp
            exact ⟨fun e => absurd e.symm e1, fun e => absurd e.symm e2⟩
          · cases hi
        · simp only [h1, h2, if_false] at hi hj ho hp
          split at hi
          · split at hj
            · rename_i e1 e2
              rw [if_pos e1] at ho; rw [if_pos e2] at hp
              cases hi; cases hj; cases ho; cases hp
              simp
            · cases hj
          · cases hi
      · intro i o ho
        simp only [after, getElem?_append_one] at ho
        simp only [after, List.length_append, List.length_singleton]
        split at ho
        · have := h.below i o ho; omega
        · split at ho
          · cases ho; omega
          · cases ho
      · intro b
        simp only [State.setStrong, List.count_append, List.count_singleton, ← h.counted]
        by_cases hb : b = a
        · subst hb; simp [ha.2]
        · have : ¬ a = b := fun e => hb e.symm
          simp [hb, this]
      · intro i b hi
        simp only [State.addr, getElem?_append_one] at hi
        split at hi
        · exact h.nonzero i b hi
        · split at hi
          · cases hi; exact ha.1
          · cases hi
    · cases hs
  | clone k =>
    simp only [State.step] at hs
    split at hs
    · rename_i a hk
      cases hs
      have hka : s.addr k = some a := addr_eq.mpr hk
      obtain ⟨o', ho'⟩ : ∃ o', (os[k]?).join = some o' := by
        cases ho : (os[k]?).join with
        | none => rw [(h.live k).mpr ho] at hka; cases hka
        | some o' => exact ⟨o', rfl⟩
      constructor
      · simp [after, h.length]
      · intro i
        have := h.live i
        simp only [State.addr] at this
        simp only [State.addr, after, getElem?_append_one, h.length]
        split
        · exact this
        · split
          · simp [ho']
          · simp
      · intro i j b c o p hi hj ho hp
        simp only [State.addr, after, getElem?_append_one, h.length, ho'] at hi hj ho hp
        by_cases h1 : i < os.length <;> by_cases h2 : j < os.length
        · simp only [h1, h2, if_true] at hi hj ho hp
          exact h.same i j b c o p hi hj ho hp
        · simp only [h1, h2, if_true, if_false] at hi hj ho hp
          split at hj
          · rename_i hj'
            rw [if_pos hj'] at hp
            cases hj; cases hp
            exact h.same i k b a o o' hi hka ho ho'
          · cases hj
        · simp only [h1, h2, if_true, if_false] at hi hj ho hp
          split at hi
          · rename_i hi'
            rw [if_pos hi'] at ho
            cases hi; cases ho
            exact h.same k j a c o' p hka hj ho' hp
          · cases hi
        · simp only [h1, h2, if_false] at hi hj ho hp
          split at hi
          · split at hj
            · rename_i e1 e2
              rw [if_pos e1] at ho; rw [if_pos e2] at hp
              cases hi; cases hj; cases ho; cases hp
              simp
            · cases hj
          · cases hi
      · intro i o ho
        simp only [after, getElem?_append_one, ho'] at ho
        simp only [after, List.length_append, List.length_singleton]
        split at ho
        · have := h.below i o ho; omega
        · split at ho
          · cases ho; have := h.below k _ ho'; omega
          · cases ho
      · intro b
        simp only [State.setStrong, List.count_append, List.count_singleton]
        by_cases hb : b = a
        · subst hb; simp [h.counted]
        · have : ¬ a = b := fun e => hb e.symm
          simp [hb, this, h.counted]
      · intro i b hi
        simp only [State.addr, getElem?_append_one] at hi
        split at hi
        · exact h.nonzero i b hi
        · split at hi
          · cases hi; exact h.nonzero k _ hka
          · cases hi
    · cases hs
  | drop k =>
    simp only [State.step] at hs
    split at hs
    · rename_i a hk
      cases hs
      constructor
      · simp [after, h.length]
      · intro i
        have := h.live i
        simp only [State.addr] at this
        simp only [State.addr, after, getElem?_set_none]
        split
        · simp
        · exact this
      · intro i j b c o p hi hj ho hp
        simp only [State.addr, after, getElem?_set_none] at hi hj ho hp
        split at hi
        · cases hi
        · rename_i e1
          split at hj
          · cases hj
          · rename_i e2
            rw [if_neg e1] at ho; rw [if_neg e2] at hp
            exact h.same i j b c o p hi hj ho hp
      · intro i o ho
        simp only [after, getElem?_set_none] at ho
        split at ho
        · cases ho
        · simpa [after] using h.below i o ho
      · intro b
        obtain ⟨hlt, hget⟩ := List.getElem?_eq_some_iff.mp hk
        simp only [State.setStrong]
        rw [List.count_set hlt, hget, ← h.counted]
        by_cases hb : b = a
        · subst hb; simp
        · have : ¬ a = b := fun e => hb e.symm
          simp [hb, this]
      · intro i b hi
        simp only [State.addr, getElem?_set_none] at hi
        split at hi
        · cases hi
        · exact h.nonzero i b hi
    · cases hs

theorem run_append (ops ops' : List Op) : ∀ s : State, s.run (ops ++ ops') = (s.run ops).bind fun t => t.run ops' := by
  induction ops with
  | nil => intro s; simp [State.run]
  | cons op rest ih =>
    intro s
    simp only [List.cons_append, State.run]
    cases s.step op with
    | none => rfl
    | some t => exact ih t

theorem good_run_from : ∀ (ops : List Op) {s t : State} {os : List (Option Nat)}, Good s os → s.run ops = some t →
    Good t (ops.foldl after os)
  | [], s, t, os, h, hr => by cases hr; exact h
  | op :: rest, s, t, os, h, hr => by
    simp only [State.run] at hr
    cases hs : s.step op with
    | none => rw [hs] at hr; cases hr
    | some u =>
      rw [hs] at hr
      exact good_run_from rest (good_step h hs) hr

theorem good_run {ops : List Op} {s : State} (hr : State.empty.run ops = some s) : Good s (origins ops) :=
  good_run_from ops good_empty hr

theorem from_addr {ops : List Op} {s : State} (hr : State.empty.run ops = some s) {i o : Nat} (hi : From ops i o) :
    ∃ a, s.addr i = some a := by
  have h := good_run hr
  cases ha : s.addr i with
  | none =>
    have := (h.live i).mp ha
    rw [join_eq.mpr hi] at this; cases this
  | some a => exact ⟨a, rfl⟩

theorem same_addr {ops : List Op} {s : State} (hr : State.empty.run ops = some s) {i j o p : Nat} (hi : From ops i o)
    (hj : From ops j p) : ∃ a b, s.addr i = some a ∧ s.addr j = some b ∧ (a = b ↔ o = p) := by
  obtain ⟨a, ha⟩ := from_addr hr hi
  obtain ⟨b, hb⟩ := from_addr hr hj
  exact ⟨a, b, ha, hb, (good_run hr).same i j a b o p ha hb (join_eq.mpr hi) (join_eq.mpr hj)⟩

/-! ### The properties -/

/-- **C181.** Whatever a program does with its identifiers and wherever the allocator puts them: two that are alive are equal
exactly if they go back to the same one by copying. -/
theorem C181_equal {ops : List Op} {s : State} (hr : State.empty.run ops = some s) {i j o p : Nat} (hi : From ops i o)
    (hj : From ops j p) : s.eq i j = some (decide (o = p)) := by
  obtain ⟨a, b, ha, hb, h⟩ := same_addr hr hi hj
  simp [State.eq, ha, hb, h]

/-- **C181.** Their order is a linear order of the things that they stand for: it is "equal" exactly for the same thing, the other
way round for the other way round, and transitive. -/
theorem C181_order {ops : List Op} {s : State} (hr : State.empty.run ops = some s) :
    (∀ i j o p, From ops i o → From ops j p → ∃ c, s.cmp i j = some c ∧ s.cmp j i = some c.swap ∧ (c = .eq ↔ o = p)) ∧
    (∀ i j k o p q, From ops i o → From ops j p → From ops k q → s.cmp i j = some .lt → s.cmp j k = some .lt →
      s.cmp i k = some .lt) ∧
    (∀ i i' j j' o p, From ops i o → From ops i' o → From ops j p → From ops j' p → s.cmp i j = s.cmp i' j') := by
  refine ⟨?_, ?_, ?_⟩
  · intro i j o p hi hj
    obtain ⟨a, b, ha, hb, h⟩ := same_addr hr hi hj
    refine ⟨compare a b, by simp [State.cmp, ha, hb], ?_, ?_⟩
    · simp [State.cmp, ha, hb, Nat.compare_swap]
    · rw [← h]; exact Nat.compare_eq_eq
  · intro i j k o p q hi hj hk h1 h2
    obtain ⟨a, ha⟩ := from_addr hr hi
    obtain ⟨b, hb⟩ := from_addr hr hj
    obtain ⟨c, hc⟩ := from_addr hr hk
    simp [State.cmp, ha, hb, hc, Nat.compare_eq_lt] at h1 h2 ⊢
    omega
  · intro i i' j j' o p hi hi' hj hj'
    obtain ⟨a, a', ha, ha', h⟩ := same_addr hr hi hi'
    obtain ⟨b, b', hb, hb', h'⟩ := same_addr hr hj hj'
    simp [State.cmp, ha, ha', hb, hb', h.mpr rfl, h'.mpr rfl]

/-- **C181.** They are shown alike exactly if they stand for the same thing. -/
theorem C181_text {ops : List Op} {s : State} (hr : State.empty.run ops = some s) {i j o p : Nat} (hi : From ops i o)
    (hj : From ops j p) : (∃ t, s.text i = some t) ∧ (s.text i = s.text j ↔ o = p) := by
  obtain ⟨a, b, ha, hb, h⟩ := same_addr hr hi hj
  refine ⟨⟨_, by rw [State.text, ha]; rfl⟩, ?_⟩
  rw [← h, State.text, State.text, ha, hb]
  constructor
  · intro e
    have e' : '0' :: 'x' :: hex a = '0' :: 'x' :: hex b := Option.some.inj e
    exact hex_inj a b (by simpa using e')
  · rintro rfl; rfl

theorem addr_step {s t : State} {op : Op} (hs : s.step op = some t) {i a : Nat} (hi : i < s.handles.length)
    (ht : t.addr i = some a) : s.addr i = some a := by
  cases op with
  | new b =>
    simp only [State.step] at hs
    split at hs
    · cases hs
      simp only [State.addr, getElem?_append_one, hi, if_true] at ht
      exact ht
    · cases hs
  | clone k =>
    simp only [State.step] at hs
    split at hs
    · cases hs
      simp only [State.addr, getElem?_append_one, hi, if_true] at ht
      exact ht
    · cases hs
  | drop k =>
    simp only [State.step] at hs
    split at hs
    · cases hs
      simp only [State.addr, getElem?_set_none] at ht
      split at ht
      · cases ht
      · exact ht
    · cases hs

theorem length_step {s t : State} {op : Op} (hs : s.step op = some t) : s.handles.length ≤ t.handles.length := by
  cases op <;> simp only [State.step] at hs <;> split at hs <;> cases hs <;> simp

theorem addr_run : ∀ (ops : List Op) {s t : State}, s.run ops = some t → ∀ {i a : Nat}, i < s.handles.length →
    t.addr i = some a → s.addr i = some a
  | [], s, t, hr, i, a, hi, ht => by cases hr; exact ht
  | op :: rest, s, t, hr, i, a, hi, ht => by
    simp only [State.run] at hr
    cases hs : s.step op with
    | none => rw [hs] at hr; cases hr
    | some u =>
      rw [hs] at hr
      exact addr_step hs hi (addr_run rest hr (Nat.lt_of_lt_of_le hi (length_step hs)) ht)

/-- **C181.** As long as two identifiers live, the answers about them do not change, whatever else the program makes, copies and
drops (so they can be the keys of an ordered map). -/
theorem C181_stable {ops more : List Op} {s t : State} (hr : State.empty.run ops = some s)
    (ht : State.empty.run (ops ++ more) = some t) {i j o p o' p' : Nat} (hi : From ops i o) (hj : From ops j p)
    (hi' : From (ops ++ more) i o') (hj' : From (ops ++ more) j p') :
    t.eq i j = s.eq i j ∧ t.cmp i j = s.cmp i j ∧ t.text i = s.text i := by
  rw [run_append, hr] at ht
  have hrun : s.run more = some t := ht
  have hfull : State.empty.run (ops ++ more) = some t := by rw [run_append, hr]; exact ht
  have key : ∀ k o o', From ops k o → From (ops ++ more) k o' → t.addr k = s.addr k := by
    intro k o o' hk hk'
    obtain ⟨a, ha⟩ := from_addr hfull hk'
    have hlt : k < s.handles.length := by
      rw [(good_run hr).length]
      exact (List.getElem?_eq_some_iff.mp hk).1
    rw [ha, addr_run more hrun hlt ha]
  simp only [State.eq, State.cmp, State.text, key i o o' hi hi', key j p p' hj hj', and_self]

/-- **C181.** What an identifier stands for is released exactly when the last copy is dropped: the number of references to the
allocation of a live handle is the number of live handles that stand for the same. -/
theorem C181_counted {ops : List Op} {s : State} (hr : State.empty.run ops = some s) :
    (∀ i a o, From ops i o → s.addr i = some a → s.strong a = (origins ops).count (some o)) ∧
    (∀ a, 0 < s.strong a → ∃ i o, From ops i o ∧ s.addr i = some a) := by
  have h := good_run hr
  constructor
  · intro i a o hi ha
    rw [h.counted]
    have hpt : ∀ k : Nat, s.handles[k]? = some (some a) ↔ (origins ops)[k]? = some (some o) := by
      intro k
      rw [← addr_eq, ← join_eq]
      constructor
      · intro hk
        cases hp : ((origins ops)[k]?).join with
        | none => rw [(h.live k).mpr hp] at hk; cases hk
        | some p => rw [(h.same k i a a p o hk ha hp (join_eq.mpr hi)).mp rfl]
      · intro hk
        cases hb : s.addr k with
        | none => rw [(h.live k).mp hb] at hk; cases hk
        | some b => rw [(h.same k i b a o o hb ha hk (join_eq.mpr hi)).mpr rfl]
    have gen : ∀ (l l' : List (Option Nat)), l.length = l'.length →
        (∀ k : Nat, l[k]? = some (some a) ↔ l'[k]? = some (some o)) → l.count (some a) = l'.count (some o) := by
      intro l
      induction l with
      | nil => intro l' hl _; cases l' with
        | nil => rfl
        | cons _ _ => cases hl
      | cons x l ih =>
        intro l' hl hk
        cases l' with
        | nil => cases hl
        | cons y l' =>
          have h0 := hk 0
          simp only [List.getElem?_cons_zero, Option.some.injEq] at h0
          have ht := ih l' (by simpa using hl) (fun k => by simpa using hk (k + 1))
          rw [List.count_cons, List.count_cons, ht]
          simp only [beq_iff_eq, h0]
    exact gen _ _ h.length hpt
  · intro a ha
    rw [h.counted] at ha
    obtain ⟨i, hi⟩ := List.getElem?_of_mem (List.count_pos_iff.mp ha)
    have hia := addr_eq.mpr hi
    cases ho : ((origins ops)[i]?).join with
    | none => rw [(h.live i).mpr ho] at hia; cases hia
    | some o => exact ⟨i, o, join_eq.mp ho, hia⟩

/-- **C181.** Only while it lives: once the last copy of an identifier is dropped, the next one made may be shown exactly as it
was (the allocator may use the address again). -/
theorem C181_reused {ops : List Op} {s : State} (hr : State.empty.run ops = some s) {i o : Nat} (hi : From ops i o)
    (hlast : ∀ j, From ops j o → j = i) :
    ∃ a t, State.empty.run (ops ++ [.drop i, .new a]) = some t ∧ t.text (origins ops).length = s.text i ∧
      From (ops ++ [.drop i, .new a]) (origins ops).length (origins ops).length := by
  obtain ⟨a, ha⟩ := from_addr hr hi
  have h := good_run hr
  have hone : s.strong a = 1 := by
    rw [(C181_counted hr).1 i a o hi ha]
    have hlt := (List.getElem?_eq_some_iff.mp hi).1
    have hget := (List.getElem?_eq_some_iff.mp hi).2
    have hz : ((origins ops).set i none).count (some o) = 0 := by
      rw [List.count_eq_zero]
      intro hm
      obtain ⟨j, hj⟩ := List.getElem?_of_mem hm
      have hj' := join_eq.mpr hj
      rw [getElem?_set_none] at hj'
      split at hj'
      · cases hj'
      · rename_i hne
        exact hne (hlast j (join_eq.mp hj'))
    rw [List.count_set hlt, hget] at hz
    have hp : 0 < (origins ops).count (some o) := List.count_pos_iff.mpr (List.mem_of_getElem? hi)
    simp at hz
    omega
  have hd : s.step (.drop i) = some { s.setStrong a (s.strong a - 1) with handles := s.handles.set i none } := by
    simp only [State.step, addr_eq.mp ha]
  have hn := h.nonzero i a ha
  refine ⟨a, ⟨fun b => if b = a then 1 else if b = a then 0 else s.strong b, s.handles.set i none ++ [some a]⟩, ?_, ?_, ?_⟩
  · rw [run_append, hr]
    simp only [Option.bind_some, State.run, hd]
    simp [State.step, State.setStrong, hone, hn]
  · have : ({ strong := fun b => if b = a then 1 else if b = a then 0 else s.strong b, handles := s.handles.set i none ++ [some a] } : State).addr
        (origins ops).length = some a := by
      simp [State.addr, getElem?_append_one, ← h.length]
    simp only [State.text, this, ha]
  · simp [From, origins, after, List.foldl_append]

/-- Two identifiers, a copy of the first; the first dropped; a new one; the second dropped, and its address used again. -/
def someOps : List Op := [.new 48, .new 16, .clone 0, .drop 0, .new 80, .drop 1, .new 16]

example : ∃ s, State.empty.run someOps = some s ∧ From someOps 2 0 ∧ From someOps 3 3 ∧ From someOps 4 4 ∧
    s.eq 2 3 = some false ∧ s.cmp 4 2 = some .lt ∧ s.text 3 = some "0x50".toList := by
  refine ⟨((State.empty.run someOps).get (by decide +kernel)), by simp, ?_⟩
  unfold From
  decide +kernel

end Ngfs.Id
