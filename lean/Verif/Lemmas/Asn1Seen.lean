import Verif.Lemmas.Asn1Oid

/-! What the reader makes of any distinguished encoding, also of one whose object identifiers it cannot represent. No claims here. -/
namespace Ngfs.Asn1
open Ngfs.Binary Ngfs.Spec

theorem itemListLoop_seen {item : RM Item} (o : Nat) (items : List Item) (d : Bytes) (h : DerItems o items d)
    (hi : ∀ i ∈ items, ∀ o b, DerItem o i b → b.length ≤ d.length → 0 < b.length ∧ ∀ pre post : Bytes, pre.length = o →
      (pre ++ b ++ post).length < 2 ^ 64 → item ⟨pre ++ b ++ post, o⟩ = (.ok (seenItem i), ⟨pre ++ b ++ post, o + b.length⟩))
    (fuel : Nat) (hf : d.length < fuel) (pre : Bytes) (ho : pre.length = o) (hl : (pre ++ d).length < 2 ^ 64) :
    (itemListLoop item fuel ⟨pre ++ d, o⟩).1 = .ok (seenItems items) := by
  induction items generalizing o d fuel pre with
  | nil =>
    cases h
    obtain ⟨m, rfl⟩ : ∃ m, fuel = m + 1 := ⟨fuel - 1, by omega⟩
    subst ho
    simp [itemListLoop, Reader.remaining, seenItems]
  | cons i items ih =>
    cases h with
    | @cons _ _ _ b bs h1 h2 =>
      obtain ⟨m, rfl⟩ : ∃ m, fuel = m + 1 := ⟨fuel - 1, by omega⟩
      obtain ⟨hpos, hr⟩ := hi i (by simp) _ _ h1 (by simp)
      have hl' := hl
      simp only [List.length_append] at hl' hf
      have g := hr pre bs ho (by simp only [List.length_append]; omega)
      have ee : pre ++ (b ++ bs) = pre ++ b ++ bs := by simp
      have g2 := ih (o + b.length) bs h2
        (fun j hj o' b' hb' hl => hi j (by simp [hj]) o' b' hb' (by simp; omega))
        m (by omega) (pre ++ b) (by simp [ho]) (by simp only [List.length_append]; omega)
      rw [ee]
      simp only [itemListLoop]
      rw [if_pos (by simp only [Reader.remaining, List.length_append]; omega), g]
      simp only
      rw [if_neg (by simp only [Reader.remaining, List.length_append]; omega)]
      rcases hx : itemListLoop item m ⟨pre ++ b ++ bs, o + b.length⟩ with ⟨r, s⟩
      rw [hx] at g2
      simp only at g2
      subst g2
      rfl

theorem readItemN_seen (n : Nat) : ∀ (o : Nat) (item : Item) (bs : Bytes), DerItem o item bs →
    bs.length < 2 ^ 32 → bs.length ≤ n → 0 < bs.length ∧
    ∀ pre post : Bytes, pre.length = o → (pre ++ bs ++ post).length < 2 ^ 64 →
      readItemN n ⟨pre ++ bs ++ post, o⟩ = (.ok (seenItem item), ⟨pre ++ bs ++ post, o + bs.length⟩) := by
  induction n with
  | zero =>
    intro o item bs h h32 hn
    exfalso
    cases h with
    | mk hv =>
      have : bs = [] := by simpa using hn
      subst this
      have : ∀ c con tag d, ¬ Tlv c con tag d [] := by rintro _ _ _ _ ⟨_, _, _, hh⟩; simp at hh
      cases hv <;> exact this _ _ _ _ (by assumption)
  | succ n ih =>
    intro o item bs h h32 hn
    cases h with
    | @mk _ v _ hv =>
      -- it is enough to read the contents
      have key : ∀ (c tag : Nat) (con : Bool) (d : Bytes), Tlv c con tag d bs → c < 4 →
          (∀ hdr : Bytes, bs = hdr ++ d → 2 ≤ hdr.length → ∀ pre : Bytes, pre.length = o →
            (pre ++ hdr ++ d).length < 2 ^ 64 →
            (readContents (readItemN n) ⟨clsOf c, formFor con, tag⟩ d.length
              ⟨(pre ++ hdr) ++ d, (pre ++ hdr).length⟩).1 = .ok (seenValue v)) →
          0 < bs.length ∧ ∀ pre post : Bytes, pre.length = o → (pre ++ bs ++ post).length < 2 ^ 64 →
            readItemN (n + 1) ⟨pre ++ bs ++ post, o⟩ = (.ok (seenItem (.mk o (o + bs.length) v)), ⟨pre ++ bs ++ post, o + bs.length⟩) := by
        intro c tag con d ht hc hcont
        have hd : d.length < 2 ^ 32 := by
          obtain ⟨_, len, _, rfl⟩ := ht
          simp at h32; omega
        obtain ⟨hdr, he, h2, hread⟩ := readValue_tlv ht hc hd (readItemN n)
        refine ⟨by rw [he]; simp; omega, ?_⟩
        intro pre post ho hl
        have g := hread pre post hl
        rw [hcont hdr he h2 pre ho (by rw [he] at hl; simp only [List.length_append] at hl ⊢; omega), ho] at g
        simp only [readItemN]
        rw [g]
        rfl
      cases hv with
      | false ht =>
        refine key _ _ _ _ ht (by decide) ?_
        intro hdr he h2 pre ho hl
        simp only [clsOf, formFor, readContents, readUniversal]
        simp only [ne_eq, not_true_eq_false, if_false]
        rw [if_neg (by simp [Reader.remaining]; try omega)]
        exact readsToEnd_ok (readsToEnd_of_readsAs (readsAs_u8 0)) hl (fun r => by rw [if_pos rfl]; rfl)
      | true ht =>
        refine key _ _ _ _ ht (by decide) ?_
        intro hdr he h2 pre ho hl
        simp only [clsOf, formFor, readContents, readUniversal]
        simp only [ne_eq, not_true_eq_false, if_false]
        rw [if_neg (by simp [Reader.remaining]; try omega)]
        exact readsToEnd_ok (readsToEnd_of_readsAs (readsAs_u8 0xff)) hl (fun r => by rw [if_neg (by decide), if_pos rfl]; rfl)
      | integer ht =>
        refine key _ _ _ _ ht (by decide) ?_
        intro hdr he h2 pre ho hl
        simp only [clsOf, formFor, readContents, readUniversal]
        exact readsToEnd_ok (readsToEnd_remainingData _) hl (fun r => rfl)
      | bitString ht =>
        refine key _ _ _ _ ht (by decide) ?_
        intro hdr he h2 pre ho hl
        simp only [clsOf, formFor, readContents, readUniversal]
        rename_i u d
        exact readsToEnd_bind (e1 := [u]) (readsAs_u8 u) (readsToEnd_map (g := fun d => Value.bitString u d) (readsToEnd_remainingData d))
          (pre ++ hdr) hl
      | octetString ht =>
        refine key _ _ _ _ ht (by decide) ?_
        intro hdr he h2 pre ho hl
        simp only [clsOf, formFor, readContents, readUniversal]
        exact readsToEnd_ok (readsToEnd_remainingData _) hl (fun r => rfl)
      | null ht =>
        refine key _ _ _ _ ht (by decide) ?_
        intro hdr he h2 pre ho hl
        simp only [clsOf, formFor, readContents, readUniversal]
        simp only [ne_eq, not_true_eq_false, if_false]
        rw [if_neg (by simp [Reader.remaining]; try omega)]
        rfl
      | objectIdentifier hoid ht =>
        refine key _ _ _ _ ht (by decide) ?_
        intro hdr he h2 pre ho hl
        simp only [clsOf, formFor, readContents, readUniversal]
        simp only [ne_eq, not_true_eq_false, if_false]
        obtain ⟨x, y, rest, parts, rfl, hx, hy, hf, rfl⟩ := hoid
        exact readsToEnd_ok (readsToEnd_oid_mod hf) hl (fun r => rfl)
      | utf8String ht =>
        refine key _ _ _ _ ht (by decide) ?_
        intro hdr he h2 pre ho hl
        simp only [clsOf, formFor, readContents, readUniversal]
        exact readsToEnd_ok (readsToEnd_text _) hl (fun r => rfl)
      | printableString ht =>
        refine key _ _ _ _ ht (by decide) ?_
        intro hdr he h2 pre ho hl
        simp only [clsOf, formFor, readContents, readUniversal]
        exact readsToEnd_ok (readsToEnd_text _) hl (fun r => rfl)
      | utcTime ht =>
        refine key _ _ _ _ ht (by decide) ?_
        intro hdr he h2 pre ho hl
        simp only [clsOf, formFor, readContents, readUniversal]
        exact readsToEnd_ok (readsToEnd_text _) hl (fun r => rfl)
      | generalizedTime ht =>
        refine key _ _ _ _ ht (by decide) ?_
        intro hdr he h2 pre ho hl
        simp only [clsOf, formFor, readContents, readUniversal]
        exact readsToEnd_ok (readsToEnd_text _) hl (fun r => rfl)
      | @sequence _ items d _ hitems ht =>
        refine key _ _ _ _ ht (by decide) ?_
        intro hdr he h2 pre ho hl
        simp only [clsOf, formFor, readContents, readUniversal]
        have hpos : (pre ++ hdr).length = o + bs.length - d.length := by rw [he]; simp; omega
        have hlen : d.length + 2 ≤ bs.length := by rw [he]; simp; omega
        have := itemListLoop_seen (item := readItemN n) (o + bs.length - d.length) items d hitems
          (fun i hi o' b hb hbl => ih o' i b hb (by omega) (by omega))
          ((⟨pre ++ hdr ++ d, (pre ++ hdr).length⟩ : Reader).remaining + 1) (by simp only [Reader.remaining, List.length_append]; omega)
          (pre ++ hdr) hpos hl
        rw [← hpos] at this
        rw [bind_def]
        generalize itemListLoop (readItemN n) _ _ = q at this ⊢
        rcases q with ⟨r, s⟩
        simp only at this
        subst this
        rfl
      | @set _ items d _ hitems ht =>
        refine key _ _ _ _ ht (by decide) ?_
        intro hdr he h2 pre ho hl
        simp only [clsOf, formFor, readContents, readUniversal]
        have hpos : (pre ++ hdr).length = o + bs.length - d.length := by rw [he]; simp; omega
        have hlen : d.length + 2 ≤ bs.length := by rw [he]; simp; omega
        have := itemListLoop_seen (item := readItemN n) (o + bs.length - d.length) items d hitems
          (fun i hi o' b hb hbl => ih o' i b hb (by omega) (by omega))
          ((⟨pre ++ hdr ++ d, (pre ++ hdr).length⟩ : Reader).remaining + 1) (by simp only [Reader.remaining, List.length_append]; omega)
          (pre ++ hdr) hpos hl
        rw [← hpos] at this
        rw [bind_def]
        generalize itemListLoop (readItemN n) _ _ = q at this ⊢
        rcases q with ⟨r, s⟩
        simp only at this
        subst this
        rfl
      | @application _ tag child d _ hchild ht =>
        refine key _ _ _ _ ht (by decide) ?_
        intro hdr he h2 pre ho hl
        simp only [clsOf, formFor, readContents, readTagged]
        have hpos : (pre ++ hdr).length = o + bs.length - d.length := by rw [he]; simp; omega
        have hlen : d.length + 2 ≤ bs.length := by rw [he]; simp; omega
        have g := (ih _ child d hchild (by omega) (by omega)).2 (pre ++ hdr) []
          hpos (by simpa using hl)
        simp only [List.append_nil] at g
        rw [hpos, bind_ok g]; rfl
      | @contextSpecific _ tag child d _ hchild ht =>
        refine key _ _ _ _ ht (by decide) ?_
        intro hdr he h2 pre ho hl
        simp only [clsOf, formFor, readContents, readTagged]
        have hpos : (pre ++ hdr).length = o + bs.length - d.length := by rw [he]; simp; omega
        have hlen : d.length + 2 ≤ bs.length := by rw [he]; simp; omega
        have g := (ih _ child d hchild (by omega) (by omega)).2 (pre ++ hdr) []
          hpos (by simpa using hl)
        simp only [List.append_nil] at g
        rw [hpos, bind_ok g]; rfl
      | @priv _ tag child d _ hchild ht =>
        refine key _ _ _ _ ht (by decide) ?_
        intro hdr he h2 pre ho hl
        simp only [clsOf, formFor, readContents, readTagged]
        have hpos : (pre ++ hdr).length = o + bs.length - d.length := by rw [he]; simp; omega
        have hlen : d.length + 2 ≤ bs.length := by rw [he]; simp; omega
        have g := (ih _ child d hchild (by omega) (by omega)).2 (pre ++ hdr) []
          hpos (by simpa using hl)
        simp only [List.append_nil] at g
        rw [hpos, bind_ok g]; rfl

theorem readItem_seen {o : Nat} {item : Item} {bs : Bytes} (h : DerItem o item bs)
    (h32 : bs.length < 2 ^ 32) (pre post : Bytes) (ho : pre.length = o)
    (hl : (pre ++ bs ++ post).length < 2 ^ 64) :
    readItem ⟨pre ++ bs ++ post, o⟩ = (.ok (seenItem item), ⟨pre ++ bs ++ post, o + bs.length⟩) :=
  (readItemN_seen _ o item bs h h32 (by simp [Reader.remaining]; omega)).2 pre post ho hl

end Ngfs.Asn1
