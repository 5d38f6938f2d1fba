import Verif.Lemmas.Asn1Parts

/-! Helper lemmas: the ASN.1 reader behaves the same wherever the bytes lie. No claims here. -/
namespace Ngfs.Asn1
open Ngfs.Binary Ngfs.Spec

/-- What `p` reads behind `pre`, `q` reads without it, with a related result. -/
def Shift {α β : Type} (pre : Bytes) (R : α → β → Prop) (p : RM α) (q : RM β) : Prop :=
  ∀ bs o a r', o ≤ bs.length → p ⟨pre ++ bs, pre.length + o⟩ = (.ok a, r') →
    ∃ b o', R a b ∧ o' ≤ bs.length ∧ r' = ⟨pre ++ bs, pre.length + o'⟩ ∧ q ⟨bs, o⟩ = (.ok b, ⟨bs, o'⟩)

theorem shift_bind {α β γ δ : Type} {pre : Bytes} {R : α → β → Prop} {S : γ → δ → Prop} {p : RM α} {q : RM β}
    {f : α → RM γ} {g : β → RM δ} (h1 : Shift pre R p q) (h2 : ∀ a b, R a b → Shift pre S (f a) (g b)) :
    Shift pre S (p >>= f) (q >>= g) := by
  intro bs o c r'' ho h
  obtain ⟨a, r', e1, e2⟩ := bind_ok_inv h
  obtain ⟨b, o', hR, ho', rfl, e3⟩ := h1 bs o a r' ho e1
  obtain ⟨d, o'', hS, ho'', rfl, e4⟩ := h2 a b hR bs o' c r'' ho' e2
  exact ⟨d, o'', hS, ho'', rfl, by rw [bind_ok e3, e4]⟩

theorem shift_pure {α β : Type} {pre : Bytes} {R : α → β → Prop} {a : α} {b : β} (h : R a b) :
    Shift pre R (pure a) (pure b) := by
  intro bs o c r' ho e
  simp only [pure_def, Prod.mk.injEq, Except.ok.injEq] at e
  obtain ⟨rfl, rfl⟩ := e
  exact ⟨b, o, h, ho, rfl, rfl⟩

theorem shift_throw {α β : Type} {pre : Bytes} {R : α → β → Prop} {e : BinErr} {q : RM β} :
    Shift pre R (throw e : RM α) q := by
  intro bs o c r' ho e
  simp [Binary.throw] at e

theorem shift_ite {α β : Type} {pre : Bytes} {R : α → β → Prop} {c : Prop} [Decidable c] {p p' : RM α} {q q' : RM β}
    (h1 : Shift pre R p q) (h2 : Shift pre R p' q') : Shift pre R (if c then p else p') (if c then q else q') := by
  split
  · exact h1
  · exact h2

theorem shift_check (pre : Bytes) (n : Nat) :
    Shift pre (fun a b => a = pre.length + b) (checkAvailable n) (checkAvailable n) := by
  intro bs o a r' ho h
  simp only [checkAvailable, List.length_append] at h ⊢
  split at h
  · split at h
    · simp only [Prod.mk.injEq, Except.ok.injEq] at h
      obtain ⟨rfl, rfl⟩ := h
      rw [if_pos (by omega), if_pos (by omega)]
      exact ⟨_, o, by omega, ho, rfl, rfl⟩
    · simp at h
  · simp at h

theorem shift_u8 (pre : Bytes) : Shift pre Eq readU8 readU8 := by
  intro bs o a r' ho h
  obtain ⟨n, s, h1, h2⟩ := bind_ok_inv h
  rcases checkAvailable_cases 1 ⟨pre ++ bs, pre.length + o⟩ with ⟨hc, hl⟩ | ⟨e, hc, -⟩
  · rw [hc] at h1
    simp only [Prod.mk.injEq, Except.ok.injEq] at h1
    obtain ⟨rfl, rfl⟩ := h1
    obtain ⟨b, o', hb, -, e1, e2⟩ := shift_check pre 1 bs o _ _ ho hc
    simp only [Reader.mk.injEq, true_and] at e1
    have : o' = o := by omega
    subst this
    simp only [act_apply, List.getElem?_append_right (Nat.le_add_right _ _), Nat.add_sub_cancel_left] at h2
    rw [readU8, bind_ok e2]
    simp only [act_apply]
    simp only [List.length_append] at hl hb
    have hlt : o' < bs.length := by omega
    rw [List.getElem?_eq_getElem hlt] at h2 ⊢
    simp only [Prod.mk.injEq, Except.ok.injEq] at h2 ⊢
    exact ⟨_, o' + 1, h2.1.symm, by omega, by rw [← h2.2]; simp; omega, rfl, by simp only [Reader.mk.injEq, true_and]; omega⟩
  · rw [hc] at h1; simp at h1

theorem shift_remainingData (pre : Bytes) : Shift pre Eq remainingData remainingData := by
  intro bs o a r' ho h
  simp only [remainingData, List.length_append] at h ⊢
  rw [if_pos (by omega)] at h
  rw [if_pos (by omega)]
  simp only [Prod.mk.injEq, Except.ok.injEq] at h ⊢
  obtain ⟨rfl, rfl⟩ := h
  exact ⟨_, o, by simp [List.drop_append], ho, rfl, rfl, rfl⟩

theorem shift_nested {α β : Type} {pre : Bytes} {R : α → β → Prop} (n : Nat) {p : RM α} {q : RM β}
    (h : Shift pre R p q) : Shift pre R (readNested n >>= fun i => onReader i p) (readNested n >>= fun i => onReader i q) := by
  intro bs o a r' ho he
  rcases checkAvailable_cases n ⟨pre ++ bs, pre.length + o⟩ with ⟨hc, hl⟩ | ⟨e, hc, -⟩
  · obtain ⟨b, o', hb, -, e1, e2⟩ := shift_check pre n bs o _ _ ho hc
    simp only [Reader.mk.injEq, true_and] at e1
    have : o' = o := by omega
    subst this
    simp only [List.length_append] at hl hb
    have hbn : b = o' + n := by omega
    subst hbn
    have n1 : readNested n ⟨pre ++ bs, pre.length + o'⟩ =
        (.ok ⟨pre ++ bs.take (o' + n), pre.length + o'⟩, ⟨pre ++ bs, pre.length + (o' + n)⟩) := by
      rw [readNested, bind_ok hc]
      simp only [act_apply]
      rw [Nat.add_assoc, List.take_length_add_append]
    have n2 : readNested n ⟨bs, o'⟩ = (.ok ⟨bs.take (o' + n), o'⟩, ⟨bs, o' + n⟩) := by
      rw [readNested, bind_ok e2]; rfl
    rw [bind_ok n1] at he
    rw [bind_ok n2]
    simp only [onReader, Prod.mk.injEq] at he ⊢
    rcases hp : p ⟨pre ++ bs.take (o' + n), pre.length + o'⟩ with ⟨res, r2⟩
    rw [hp] at he
    obtain ⟨rfl, rfl⟩ := he
    obtain ⟨b, o2, hR, -, -, e3⟩ := h (bs.take (o' + n)) o' a r2 (by simp; omega) hp
    exact ⟨b, o' + n, hR, by omega, rfl, by rw [e3], rfl⟩
  · rw [readNested] at he
    rw [bind_error (bind_error hc)] at he
    simp at he

theorem shift_identifier (pre : Bytes) : Shift pre Eq readIdentifier readIdentifier :=
  shift_bind (shift_u8 pre) fun a b h => by subst h; exact shift_ite shift_throw (shift_pure rfl)

theorem shift_lengthLoop (pre : Bytes) (n l : Nat) : Shift pre Eq (lengthLoop n l) (lengthLoop n l) := by
  induction n generalizing l with
  | zero => exact shift_pure rfl
  | succ n ih => exact shift_bind (shift_u8 pre) fun a b h => by subst h; exact ih _

theorem shift_length (pre : Bytes) : Shift pre Eq readLength readLength :=
  shift_bind (shift_u8 pre) fun a b h => by
    subst h
    exact shift_ite (shift_pure rfl) <| shift_ite shift_throw <| shift_ite shift_throw <| shift_ite shift_throw <|
      shift_lengthLoop _ _ _

theorem shift_varLoop (pre : Bytes) (n v : Nat) : Shift pre Eq (varLoop n v) (varLoop n v) := by
  induction n generalizing v with
  | zero => exact shift_throw
  | succ n ih =>
    exact shift_bind (shift_u8 pre) fun a b h => by
      subst h
      exact shift_ite (shift_pure rfl) (ih _)

theorem remaining_shift (pre bs : Bytes) (o : Nat) :
    (⟨pre ++ bs, pre.length + o⟩ : Reader).remaining = (⟨bs, o⟩ : Reader).remaining := by
  simp only [Reader.remaining, List.length_append]; omega

theorem shift_varU64 (pre : Bytes) : Shift pre Eq readVarU64 readVarU64 := by
  intro bs o a r' ho h
  simp only [readVarU64, remaining_shift] at h ⊢
  exact shift_varLoop pre _ _ bs o a r' ho h

theorem shift_oidLoop (pre : Bytes) (n : Nat) (ps : List Nat) : Shift pre Eq (oidLoop n ps) (oidLoop n ps) := by
  induction n generalizing ps with
  | zero => exact shift_throw
  | succ n ih =>
    intro bs o a r' ho h
    simp only [oidLoop, remaining_shift] at h ⊢
    split at h
    · rename_i hr
      rw [if_pos hr]
      rcases hv : readVarU64 ⟨pre ++ bs, pre.length + o⟩ with ⟨res, r1⟩
      rw [hv] at h
      cases res with
      | error e => simp at h
      | ok part =>
        obtain ⟨b, o1, rfl, ho1, rfl, e1⟩ := shift_varU64 pre bs o part r1 ho hv
        rw [e1]
        simp only [remaining_shift] at h ⊢
        split at h
        · simp at h
        · rename_i hne
          rw [if_neg hne]
          exact ih _ bs o1 a r' ho1 h
    · rename_i hr
      rw [if_neg hr]
      simp only [Prod.mk.injEq, Except.ok.injEq] at h
      obtain ⟨rfl, rfl⟩ := h
      exact ⟨_, o, rfl, ho, rfl, rfl⟩

theorem shift_oid (pre : Bytes) : Shift pre Eq readObjectIdentifier readObjectIdentifier := by
  intro bs o a r' ho h
  simp only [readObjectIdentifier, remaining_shift] at h ⊢
  exact shift_oidLoop pre _ _ bs o a r' ho h

theorem shift_text (pre : Bytes) : Shift pre Eq readText readText :=
  shift_bind (shift_remainingData pre) fun a b h => by
    subst h
    split
    · exact shift_pure rfl
    · exact shift_throw

theorem shift_itemList {pre : Bytes} {item item' : RM Item} (hi : Shift pre SameItem item item') (n : Nat) :
    Shift pre SameItems (itemListLoop item n) (itemListLoop item' n) := by
  induction n with
  | zero => exact shift_throw
  | succ n ih =>
    intro bs o a r' ho h
    simp only [itemListLoop, remaining_shift] at h ⊢
    split at h
    · rename_i hr
      rw [if_pos hr]
      rcases hv : item ⟨pre ++ bs, pre.length + o⟩ with ⟨res, r1⟩
      rw [hv] at h
      cases res with
      | error e => simp at h
      | ok part =>
        obtain ⟨b, o1, hsame, ho1, rfl, e1⟩ := hi bs o part r1 ho hv
        rw [e1]
        simp only [remaining_shift] at h ⊢
        split at h
        · simp at h
        · rename_i hne
          rw [if_neg hne]
          rcases hl : itemListLoop item n ⟨pre ++ bs, pre.length + o1⟩ with ⟨res2, r2⟩
          rw [hl] at h
          cases res2 with
          | error e => simp at h
          | ok as =>
            obtain ⟨cs, o2, hs2, ho2, rfl, e2⟩ := ih bs o1 as r2 ho1 hl
            simp only [Prod.mk.injEq, Except.ok.injEq] at h
            obtain ⟨rfl, rfl⟩ := h
            rw [e2]
            exact ⟨_, o2, .cons hsame hs2, ho2, rfl, rfl⟩
    · rename_i hr
      rw [if_neg hr]
      simp only [Prod.mk.injEq, Except.ok.injEq] at h
      obtain ⟨rfl, rfl⟩ := h
      exact ⟨_, o, .nil, ho, rfl, rfl⟩

theorem shift_map {α : Type} {pre : Bytes} {p : RM α} (f : α → Value) (h : Shift pre Eq p p) :
    Shift pre SameValue (p >>= fun a => pure (f a)) (p >>= fun a => pure (f a)) :=
  shift_bind h fun a b h => by subst h; exact shift_pure .refl

theorem shift_universal {pre : Bytes} {item item' : RM Item} (hi : Shift pre SameItem item item') (id : Identifier)
    (len : Nat) : Shift pre SameValue (readUniversal item id len) (readUniversal item' id len) := by
  intro bs o a r' ho h
  unfold readUniversal at h ⊢
  split at h
  case h_1 =>
    split at h
    · simp at h
    · rename_i hf
      rw [if_neg hf]
      simp only [remaining_shift] at h
      split at h
      · simp at h
      · rename_i hr
        rw [if_neg hr]
        exact shift_bind (shift_u8 pre) (fun a b h => by
          subst h
          exact shift_ite (shift_pure .refl) (shift_ite (shift_pure .refl) shift_throw)) bs o a r' ho h
  case h_2 =>
    split at h
    · simp at h
    · exact shift_map _ (shift_remainingData pre) bs o a r' ho h
  case h_3 =>
    split at h
    · simp at h
    · exact shift_bind (shift_u8 pre) (fun a b h => by
        subst h; exact shift_map _ (shift_remainingData pre)) bs o a r' ho h
  case h_4 =>
    split at h
    · simp at h
    · exact shift_map _ (shift_remainingData pre) bs o a r' ho h
  case h_5 =>
    split at h
    · simp at h
    · rename_i hf
      rw [if_neg hf]
      simp only [remaining_shift] at h
      split at h
      · simp at h
      · rename_i hr
        rw [if_neg hr]
        simp only [Prod.mk.injEq, Except.ok.injEq] at h
        obtain ⟨rfl, rfl⟩ := h
        exact ⟨_, o, .refl, ho, rfl, rfl⟩
  case h_6 =>
    split at h
    · simp at h
    · rename_i hf
      rw [if_neg hf]
      exact shift_map _ (shift_oid pre) bs o a r' ho h
  case h_8 =>
    split at h
    · simp at h
    · simp only [remaining_shift] at h
      exact shift_bind (shift_itemList hi _) (fun a b h => shift_pure (.sequence h)) bs o a r' ho h
  case h_9 =>
    split at h
    · simp at h
    · simp only [remaining_shift] at h
      exact shift_bind (shift_itemList hi _) (fun a b h => shift_pure (.set h)) bs o a r' ho h
  case h_13 =>
    simp only [Prod.mk.injEq, Except.ok.injEq] at h
    obtain ⟨rfl, rfl⟩ := h
    exact ⟨_, o, .refl, ho, rfl, rfl⟩
  all_goals
    split at h
    · simp at h
    · exact shift_map _ (shift_text pre) bs o a r' ho h

theorem shift_contents {pre : Bytes} {item item' : RM Item} (hi : Shift pre SameItem item item') (id : Identifier)
    (len : Nat) : Shift pre SameValue (readContents item id len) (readContents item' id len) := by
  unfold readContents
  split
  · exact shift_universal hi id len
  all_goals
    unfold readTagged
    split
    · exact shift_pure .refl
    · exact shift_bind hi fun a b h => shift_pure (by constructor; exact h)

theorem shift_value {pre : Bytes} {item item' : RM Item} (hi : Shift pre SameItem item item') :
    Shift pre SameValue (readValue item) (readValue item') :=
  shift_bind (shift_identifier pre) fun a b h => by
    subst h
    exact shift_bind (shift_length pre) fun c d h => by
      subst h
      exact shift_nested c (shift_contents hi a c)

theorem shift_itemN (pre : Bytes) (n : Nat) : Shift pre SameItem (readItemN n) (readItemN n) := by
  induction n with
  | zero => exact shift_throw
  | succ n ih =>
    intro bs o a r' ho h
    simp only [readItemN] at h ⊢
    rcases hv : readValue (readItemN n) ⟨pre ++ bs, pre.length + o⟩ with ⟨res, r1⟩
    rw [hv] at h
    cases res with
    | error e => simp at h
    | ok v =>
      obtain ⟨w, o1, hs, ho1, rfl, e1⟩ := shift_value ih bs o v r1 ho hv
      rw [e1]
      simp only [Prod.mk.injEq, Except.ok.injEq] at h
      obtain ⟨rfl, rfl⟩ := h
      exact ⟨_, o1, .mk hs, ho1, rfl, rfl⟩

/-- The bytes of a part, taken out of the input, are read as the same item. -/
theorem alone {buf : Bytes} {c : Item} {n : Nat} (h1 : c.start + 2 ≤ c.stop) (h2 : c.stop ≤ buf.length)
    (h : readItemN n ⟨buf, c.start⟩ = (.ok c, ⟨buf, c.stop⟩)) :
    ∃ d, SameItem c d ∧ readItem ⟨slice buf c.start c.stop, 0⟩ =
      (.ok d, ⟨slice buf c.start c.stop, c.stop - c.start⟩) := by
  have e1 := noPeek_itemN n buf (buf.take c.stop) c.start c _ (by omega) h (by simp [List.take_take]) (by simp; omega)
  have hsplit : buf.take c.stop = buf.take c.start ++ slice buf c.start c.stop := by
    rw [slice]
    conv_lhs => rw [← List.take_append_drop c.start (buf.take c.stop)]
    rw [List.take_take, Nat.min_eq_left (by omega), List.drop_take]
  have hpl : (buf.take c.start).length = c.start := by simp; omega
  rw [hsplit] at e1
  conv at e1 => lhs; arg 2; arg 2; rw [← hpl, ← Nat.add_zero (List.length _)]
  obtain ⟨d, o', hs, -, e2, e3⟩ := shift_itemN (buf.take c.start) n _ 0 c _ (by omega) e1
  simp only [Reader.mk.injEq, true_and] at e2
  refine ⟨d, hs, ?_⟩
  rw [itemN_item (by simp [InBounds]) e3]
  congr 2
  omega

end Ngfs.Asn1
