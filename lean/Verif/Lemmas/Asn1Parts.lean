import Verif.Lemmas.Asn1Safe

/-! Helper lemmas about the positions the ASN.1 reader records. No claims here. -/
namespace Ngfs.Asn1
open Ngfs.Binary Ngfs.Spec

/-! ### A longer input gives the same item -/

theorem noPeek_bind' {α β : Type} {n m : Nat} {p : RM α} {f : α → RM β} (hs : SafeUpTo n p) (hsf : ∀ a, SafeUpTo m (f a))
    (h1 : NoPeek p) (h2 : ∀ a, NoPeek (f a)) : NoPeek (p >>= f) := by
  intro buf buf' o v r2 ho h ht hl
  obtain ⟨a, r1, hp, hf⟩ := bind_ok_inv h
  obtain ⟨a1, a2, a3, _, _⟩ := hs ⟨buf, o⟩ ho
  rw [hp] at a1 a2 a3
  obtain ⟨b1, b2, b3, _, _⟩ := hsf a r1 a3
  rw [hf] at b1 b2 b3
  simp only at a1 a2 b1 b2
  have e1 := h1 buf buf' o a r1 ho hp (take_mono b2 ht) (by omega)
  rw [bind_ok e1]
  have hr1 : r1 = ⟨buf, r1.offset⟩ := by cases r1; simp_all
  rw [hr1] at hf
  exact h2 a buf buf' r1.offset v r2 (by have : r1.offset ≤ r1.buf.length := a3; rw [a1] at this; exact this) hf ht hl

theorem noPeek_ite {α : Type} {c : Prop} [Decidable c] {p q : RM α} (h1 : c → NoPeek p) (h2 : ¬ c → NoPeek q) :
    NoPeek (if c then p else q) := by
  split
  · exact h1 ‹_›
  · exact h2 ‹_›

theorem noPeek_identifier : NoPeek readIdentifier :=
  noPeek_bind safe_u8 (fun _ => safe_ite (fun _ => safe_plain _) (fun _ => safe_pure _)) noPeek_u8
    fun _ => noPeek_ite (fun _ => noPeek_throw _) (fun _ => noPeek_pure _)

theorem noPeek_lengthLoop (n l : Nat) : NoPeek (lengthLoop n l) := by
  induction n generalizing l with
  | zero => exact noPeek_pure _
  | succ n ih => exact noPeek_bind safe_u8 (fun _ => safe_lengthLoop _ _) noPeek_u8 fun _ => ih _

theorem noPeek_length : NoPeek readLength :=
  noPeek_bind safe_u8 (fun first => safe_lengthBody first) noPeek_u8 fun _ =>
    noPeek_ite (fun _ => noPeek_pure _) fun _ => noPeek_ite (fun _ => noPeek_throw _) fun _ =>
    noPeek_ite (fun _ => noPeek_throw _) fun _ => noPeek_ite (fun _ => noPeek_throw _) fun _ => noPeek_lengthLoop _ _

theorem noPeek_value {n : Nat} {item : RM Item} (hi : SafeUpTo n item) : NoPeek (readValue item) := by
  have h3 : ∀ (id : Identifier) (len : Nat), SafeUpTo n (readNested len >>= fun inner =>
      onReader inner (readContents item id len)) := fun id len => upTo_nested len (upTo_contents hi id len)
  exact noPeek_bind' (n := 0) (m := n + 1) (safe_upTo _ safe_identifier)
    (fun id => upTo_bind safe_length moves_length fun len => h3 id len) noPeek_identifier
    fun id => noPeek_bind' (n := 0) (safe_upTo _ safe_length) (fun len => h3 id len) noPeek_length
      fun len => noPeek_nested len fun _ => readContents item id len

theorem noPeek_itemN (n : Nat) : NoPeek (readItemN n) := by
  intro buf buf' o v r' ho h ht hl
  cases n with
  | zero => simp [readItemN, Binary.throw] at h
  | succ n =>
    simp only [readItemN] at h ⊢
    rcases hp : readValue (readItemN n) ⟨buf, o⟩ with ⟨res, r1⟩
    rw [hp] at h
    cases res with
    | error e => simp at h
    | ok w =>
      simp only [Prod.mk.injEq, Except.ok.injEq] at h
      obtain ⟨rfl, rfl⟩ := h
      rw [noPeek_value (upTo_itemN n) buf buf' o w r1 ho hp ht hl]

/-! ### What a successful read consists of -/

theorem readValue_ok {item : RM Item} {buf : Bytes} {o : Nat} {v : Value} {r' : Reader} (ho : o ≤ buf.length)
    (h : readValue item ⟨buf, o⟩ = (.ok v, r')) : ∃ id len k, o + 2 ≤ k ∧ k + len ≤ buf.length ∧ r' = ⟨buf, k + len⟩ ∧
      (readContents item id len ⟨buf.take (k + len), k⟩).1 = .ok v := by
  obtain ⟨id, r1, e1, h⟩ := bind_ok_inv h
  obtain ⟨len, r2, e2, h⟩ := bind_ok_inv h
  obtain ⟨inner, r3, e3, h⟩ := bind_ok_inv h
  have hb0 : InBounds (⟨buf, o⟩ : Reader) := ho
  have m1 := moves_identifier _ _ _ hb0 e1
  obtain ⟨b1, -, i1⟩ := safe_ok safe_identifier hb0 e1
  have m2 := moves_length _ _ _ i1 e2
  obtain ⟨b2, -, i2⟩ := safe_ok safe_length i1 e2
  have hb : r2.buf = buf := b2.trans b1
  rcases checkAvailable_cases len r2 with ⟨hc, hl⟩ | ⟨e, hc, -⟩
  · have : readNested len r2 = (.ok ⟨r2.buf.take (r2.offset + len), r2.offset⟩, { r2 with offset := r2.offset + len }) := by
      rw [readNested, bind_ok hc]; rfl
    rw [this] at e3
    simp only [Prod.mk.injEq, Except.ok.injEq] at e3
    obtain ⟨rfl, rfl⟩ := e3
    simp only [onReader, Prod.mk.injEq] at h
    simp only at m1
    refine ⟨id, len, r2.offset, by omega, by rw [← hb]; exact hl, by rw [← h.2, hb], by rw [← hb]; exact h.1⟩
  · rw [readNested, bind_error hc] at e3
    simp at e3

/-- Values without parts. -/
def Leaf : Value → Prop
  | .sequence _ | .set _ | .application .. | .contextSpecific .. | .priv .. => False
  | _ => True

theorem bind_pure_fst {α β : Type} {p : RM α} {g : α → β} {r : Reader} {b : β}
    (h : ((p >>= fun a => pure (g a)) r).1 = .ok b) : ∃ a, (p r).1 = .ok a ∧ b = g a := by
  rw [bind_def] at h
  rcases hp : p r with ⟨res, r'⟩
  rw [hp] at h
  cases res with
  | error e => simp at h
  | ok a => simp [pure_def] at h; exact ⟨a, rfl, h.symm⟩

theorem contents_cases {item : RM Item} {id : Identifier} {len : Nat} {r : Reader} {v : Value}
    (h : (readContents item id len r).1 = .ok v) :
    Leaf v ∨ (∃ items, (v = .sequence items ∨ v = .set items) ∧ (itemListLoop item (r.remaining + 1) r).1 = .ok items) ∨
    ∃ tag child, (v = .application tag child ∨ v = .contextSpecific tag child ∨ v = .priv tag child) ∧
      (item r).1 = .ok child := by
  simp only [readContents] at h
  cases hcl : id.cls <;> simp only [hcl] at h
  case universal =>
    unfold readUniversal at h
    split at h
    case h_1 =>
      left
      split at h
      · simp at h
      · split at h
        · simp at h
        · rw [bind_def] at h
          split at h
          · split at h
            · simp [pure_def] at h; subst h; trivial
            · split at h
              · simp [pure_def] at h; subst h; trivial
              · simp [Binary.throw] at h
          · simp at h
    case h_2 =>
      left
      split at h
      · simp at h
      · obtain ⟨a, -, rfl⟩ := bind_pure_fst h; trivial
    case h_3 =>
      left
      split at h
      · simp at h
      · rw [bind_def] at h
        split at h
        · obtain ⟨a, -, rfl⟩ := bind_pure_fst h; trivial
        · simp at h
    case h_4 =>
      left
      split at h
      · simp at h
      · obtain ⟨a, -, rfl⟩ := bind_pure_fst h; trivial
    case h_5 =>
      left
      split at h
      · simp at h
      · split at h
        · simp at h
        · simp at h; subst h; trivial
    case h_6 =>
      left
      split at h
      · simp at h
      · obtain ⟨a, -, rfl⟩ := bind_pure_fst h; trivial
    case h_8 =>
      right; left
      split at h
      · simp at h
      · obtain ⟨a, ha, rfl⟩ := bind_pure_fst h; exact ⟨a, .inl rfl, ha⟩
    case h_9 =>
      right; left
      split at h
      · simp at h
      · obtain ⟨a, ha, rfl⟩ := bind_pure_fst h; exact ⟨a, .inr rfl, ha⟩
    case h_13 => left; simp at h; subst h; trivial
    all_goals
      left
      split at h
      · simp at h
      · obtain ⟨a, -, rfl⟩ := bind_pure_fst h; trivial
  all_goals
    simp only [readTagged] at h
    cases hf : id.form <;> simp only [hf] at h
    · left; simp [pure_def] at h; subst h; trivial
    · obtain ⟨a, ha, rfl⟩ := bind_pure_fst h
      exact .inr (.inr ⟨id.tag, a, by simp, ha⟩)

theorem list_placed {item : RM Item} {B : Bytes}
    (H : ∀ o i r', o ≤ B.length → item ⟨B, o⟩ = (.ok i, r') → r' = ⟨B, i.stop⟩ ∧ i.start = o ∧ o + 2 ≤ i.stop ∧ i.stop ≤ B.length)
    (fuel o : Nat) (items : List Item) (ho : o ≤ B.length) (h : (itemListLoop item fuel ⟨B, o⟩).1 = .ok items) :
    Tiles o B.length items ∧ ∀ i ∈ items, o ≤ i.start ∧ i.start ≤ B.length ∧ item ⟨B, i.start⟩ = (.ok i, ⟨B, i.stop⟩) := by
  induction fuel generalizing o items with
  | zero => simp [itemListLoop, Binary.throw] at h
  | succ fuel ih =>
    simp only [itemListLoop] at h
    split at h
    · rcases hp : item ⟨B, o⟩ with ⟨res, r'⟩
      rw [hp] at h
      cases res with
      | error e => simp at h
      | ok a =>
        obtain ⟨rfl, hs, hlt, hle⟩ := H o a r' ho hp
        simp only at h
        split at h
        · simp at h
        · rcases hl : itemListLoop item fuel ⟨B, a.stop⟩ with ⟨res2, r2⟩
          rw [hl] at h
          cases res2 with
          | error e => simp at h
          | ok as =>
            simp only [Except.ok.injEq] at h
            subst h
            obtain ⟨t, ht⟩ := ih a.stop as hle (by rw [hl])
            refine ⟨⟨hs, by omega, t⟩, ?_⟩
            intro i hi
            rcases List.mem_cons.mp hi with rfl | hi
            · exact ⟨by omega, by omega, by rw [hs]; exact hp⟩
            · obtain ⟨h1, h2, h3⟩ := ht i hi
              exact ⟨by omega, h2, h3⟩
    · rename_i hz
      simp only [Except.ok.injEq] at h
      subst h
      simp only [Reader.remaining] at hz
      exact ⟨show o = B.length by omega, fun i hi => absurd hi (by simp)⟩

/-- What is known about an item read at a position. -/
def Placed (n : Nat) (buf : Bytes) (i : Item) : Prop :=
  i.start + 2 ≤ i.stop ∧ i.stop ≤ buf.length ∧ ∀ c, Part c i → i.start ≤ c.start ∧ c.start + 2 ≤ c.stop ∧ c.stop ≤ i.stop ∧
    WellPlaced c ∧ ∃ m, m ≤ n ∧ readItemN m ⟨buf, c.start⟩ = (.ok c, ⟨buf, c.stop⟩)

theorem tiles_le : ∀ {items : List Item} {a b : Nat}, Tiles a b items → a ≤ b ∧ ∀ i ∈ items, i.stop ≤ b
  | [], a, b, h => ⟨Nat.le_of_eq h, fun i hi => absurd hi (by simp)⟩
  | i :: is, a, b, h => by
    obtain ⟨h1, h2, h3⟩ := h
    obtain ⟨k1, k2⟩ := tiles_le h3
    refine ⟨by omega, fun j hj => ?_⟩
    rcases List.mem_cons.mp hj with rfl | hj
    · exact k1
    · exact k2 j hj

theorem readItemN_placed (n : Nat) : ∀ (buf : Bytes) (o : Nat) (i : Item) (r' : Reader), o ≤ buf.length →
    readItemN n ⟨buf, o⟩ = (.ok i, r') → r' = ⟨buf, i.stop⟩ ∧ i.start = o ∧ Placed n buf i := by
  induction n with
  | zero => intro buf o i r' _ h; simp [readItemN, Binary.throw] at h
  | succ n ih =>
    intro buf o i r' ho h
    have hfull := h
    simp only [readItemN] at h
    rcases hp : readValue (readItemN n) ⟨buf, o⟩ with ⟨res, r1⟩
    rw [hp] at h
    cases res with
    | error e => simp at h
    | ok v =>
      simp only [Prod.mk.injEq, Except.ok.injEq] at h
      obtain ⟨rfl, rfl⟩ := h
      obtain ⟨id, len, k, hk, hl, rfl, hv⟩ := readValue_ok ho hp
      refine ⟨rfl, rfl, by simp only [Item.start, Item.stop]; omega, hl, ?_⟩
      have hlen : (buf.take (k + len)).length = k + len := by simp; omega
      -- a part of a child is a part, seen from the longer buffer
      have lift : ∀ child : Item, k ≤ child.start → child.start ≤ k + len →
          readItemN n ⟨buf.take (k + len), child.start⟩ = (.ok child, ⟨buf.take (k + len), child.stop⟩) →
          (child.start + 2 ≤ child.stop ∧ child.stop ≤ k + len) ∧ ∀ c, Part c child → o ≤ c.start ∧ c.start + 2 ≤ c.stop ∧
            c.stop ≤ k + len ∧ WellPlaced c ∧ ∃ m, m ≤ n + 1 ∧ readItemN m ⟨buf, c.start⟩ = (.ok c, ⟨buf, c.stop⟩) := by
        intro child h0 h1 h2
        obtain ⟨-, -, p1, p2, p3⟩ := ih _ _ _ _ (by rw [hlen]; exact h1) h2
        rw [hlen] at p2
        refine ⟨⟨p1, p2⟩, fun c hc => ?_⟩
        obtain ⟨q1, q2, q3, q4, m, hm, q5⟩ := p3 c hc
        refine ⟨by omega, q2, by omega, q4, m, by omega, ?_⟩
        exact noPeek_itemN m _ buf _ _ _ (by rw [hlen]; omega) q5
          (by rw [List.take_take]; congr 1; simp only; omega) (by simp only; omega)
      have hH : ∀ o i r', o ≤ (buf.take (k + len)).length → readItemN n ⟨buf.take (k + len), o⟩ = (.ok i, r') →
          r' = ⟨buf.take (k + len), i.stop⟩ ∧ i.start = o ∧ o + 2 ≤ i.stop ∧ i.stop ≤ (buf.take (k + len)).length := by
        intro o i r' ho h
        obtain ⟨a, b, c, d, -⟩ := ih _ _ _ _ ho h
        exact ⟨a, b, by omega, d⟩
      intro c hc
      rcases contents_cases hv with hleaf | ⟨items, hs, hit⟩ | ⟨tag, child, hs, hit⟩
      · cases hc with
        | here => exact ⟨Nat.le_refl _, by simp only [Item.start, Item.stop]; omega, Nat.le_refl _,
            (by cases v <;> first | exact hleaf.elim | (simp only [WellPlaced]; omega)), n + 1, Nat.le_refl _, hfull⟩
        | _ => exact hleaf.elim
      · obtain ⟨ht, hm⟩ := list_placed hH _ k items (by rw [hlen]; omega) hit
        rw [hlen] at ht hm
        have mem : ∀ j, j ∈ items → Part c j → o ≤ c.start ∧ c.start + 2 ≤ c.stop ∧ c.stop ≤ k + len ∧ WellPlaced c ∧
            ∃ m, m ≤ n + 1 ∧ readItemN m ⟨buf, c.start⟩ = (.ok c, ⟨buf, c.stop⟩) := by
          intro j hj hpart
          obtain ⟨a, b, c'⟩ := hm j hj
          exact (lift j a b c').2 c hpart
        rcases hs with rfl | rfl
        · cases hc with
          | here => exact ⟨Nat.le_refl _, by simp only [Item.start, Item.stop]; omega, Nat.le_refl _, ⟨k, hk, ht⟩, n + 1,
              Nat.le_refl _, hfull⟩
          | sequence hj hpart => exact mem _ hj hpart
        · cases hc with
          | here => exact ⟨Nat.le_refl _, by simp only [Item.start, Item.stop]; omega, Nat.le_refl _, ⟨k, hk, ht⟩, n + 1,
              Nat.le_refl _, hfull⟩
          | set hj hpart => exact mem _ hj hpart
      · rcases hr : readItemN n ⟨buf.take (k + len), k⟩ with ⟨res, r2⟩
        rw [hr] at hit
        simp only at hit
        subst hit
        obtain ⟨rfl, hst, h3, h4⟩ := hH k child r2 (by rw [hlen]; omega) hr
        rw [hlen] at h4
        have hl' := lift child (by omega) (by omega) (by rw [hst]; exact hr)
        rcases hs with rfl | rfl | rfl
        · cases hc with
          | here => exact ⟨Nat.le_refl _, by simp only [Item.start, Item.stop]; omega, Nat.le_refl _,
              (by simp only [WellPlaced]; omega), n + 1, Nat.le_refl _, hfull⟩
          | application hpart => exact hl'.2 c hpart
        · cases hc with
          | here => exact ⟨Nat.le_refl _, by simp only [Item.start, Item.stop]; omega, Nat.le_refl _,
              (by simp only [WellPlaced]; omega), n + 1, Nat.le_refl _, hfull⟩
          | contextSpecific hpart => exact hl'.2 c hpart
        · cases hc with
          | here => exact ⟨Nat.le_refl _, by simp only [Item.start, Item.stop]; omega, Nat.le_refl _,
              (by simp only [WellPlaced]; omega), n + 1, Nat.le_refl _, hfull⟩
          | priv hpart => exact hl'.2 c hpart

end Ngfs.Asn1
