import Verif.Spec.Asn1
import Verif.Lemmas.Binary
import Verif.Lemmas.BinarySafe

/-! Helper lemmas about the ASN.1 reader and writer. No claims here. -/
namespace Ngfs.Asn1
open Ngfs.Binary Ngfs.Spec

/-- The class with the given number. -/
def clsOf : Nat → Class
  | 0 => .universal
  | 1 => .application
  | 2 => .contextSpecific
  | _ => .priv

/-- The form for the constructed flag. -/
def formFor : Bool → Form
  | false => .primitive
  | true => .constructed

theorem ident_byte : ∀ c < 4, ∀ con : Bool, ∀ tag < 31,
    (UInt8.ofNat (64 * c + (if con then 32 else 0) + tag) &&& 0x1f).toNat = tag ∧
    classOf (UInt8.ofNat (64 * c + (if con then 32 else 0) + tag)) = clsOf c ∧
    formOf (UInt8.ofNat (64 * c + (if con then 32 else 0) + tag)) = formFor con ∧
    ((clsOf c).bits <<< 6) ||| ((formFor con).bit <<< 5) ||| UInt8.ofNat tag
      = UInt8.ofNat (64 * c + (if con then 32 else 0) + tag) := by decide +kernel

theorem readsAs_identifier {c tag : Nat} {con : Bool} (hc : c < 4) (ht : tag ≤ 30) :
    ReadsAs readIdentifier [UInt8.ofNat (64 * c + (if con then 32 else 0) + tag)] ⟨clsOf c, formFor con, tag⟩ := by
  obtain ⟨h1, h2, h3, -⟩ := ident_byte c hc con tag (by omega)
  refine readsAs_bind_pure (readsAs_u8 _) ?_
  have : ¬ (UInt8.ofNat (64 * c + (if con then 32 else 0) + tag) &&& 0x1f) = 0x1f := by
    intro h; rw [h] at h1; simp at h1; omega
  simp only
  rw [if_neg this, h1, h2, h3]
  exact readsAs_pure _

theorem readsAs_lengthLoop (ds : Bytes) (acc : Nat) (h : acc * 256 ^ ds.length + bigEndian ds < 2 ^ 32) :
    ReadsAs (lengthLoop ds.length acc) ds (acc * 256 ^ ds.length + bigEndian ds) := by
  induction ds generalizing acc with
  | nil => simpa [lengthLoop, bigEndian, Nat.ofDigits] using readsAs_pure acc
  | cons d ds ih =>
    rw [bigEndian_cons] at h ⊢
    have e : acc * 256 ^ (d :: ds).length + (d.toNat * 256 ^ ds.length + bigEndian ds)
        = (acc * 256 + d.toNat) * 256 ^ ds.length + bigEndian ds := by
      rw [List.length_cons, pow_succ]; ring
    rw [e] at h ⊢
    have hs : (acc <<< 8) % 2 ^ 32 ||| d.toNat = acc * 256 + d.toNat := by
      have hp : 0 < 256 ^ ds.length := by positivity
      have : acc * 256 + d.toNat < 2 ^ 32 := by
        have := Nat.le_mul_of_pos_right (acc * 256 + d.toNat) hp
        omega
      have h2 : acc <<< 8 < 2 ^ 32 := by
        rw [Nat.shiftLeft_eq]; exact Nat.lt_of_le_of_lt (Nat.le_add_right _ d.toNat) this
      rw [Nat.mod_eq_of_lt h2, shift_or_add (i := 8) (u8_lt d)]
      simp
    have := readsAs_bind (f := fun byte : UInt8 => lengthLoop ds.length ((acc <<< 8) % 2 ^ 32 ||| byte.toNat))
      (readsAs_u8 d) (e2 := ds) (b := (acc * 256 + d.toNat) * 256 ^ ds.length + bigEndian ds)
      (by rw [hs]; exact ih _ h)
    simpa [lengthLoop] using this

theorem byte_small : ∀ n < 128, UInt8.ofNat n &&& 0x80 = 0 ∧ (UInt8.ofNat n &&& 0x7f).toNat = n := by decide +kernel
theorem byte_long : ∀ n < 5, 0 < n → UInt8.ofNat (128 + n) &&& 0x80 ≠ 0 ∧ UInt8.ofNat (128 + n) &&& 0x7f ≠ 0x7f ∧
    UInt8.ofNat (128 + n) &&& 0x7f ≠ 0 ∧ ¬ UInt8.ofNat (128 + n) &&& 0x7f > 4 ∧
    (UInt8.ofNat (128 + n) &&& 0x7f).toNat = n := by decide +kernel

theorem bigEndian_ge (d : UInt8) (ds : Bytes) (hd : d ≠ 0) : 256 ^ ds.length ≤ bigEndian (d :: ds) := by
  rw [bigEndian_cons]
  have : 1 ≤ d.toNat := by
    rcases Nat.eq_zero_or_pos d.toNat with h | h
    · exact absurd (u8_ext (by simpa using h)) hd
    · exact h
  nlinarith [Nat.zero_le (bigEndian ds), (show 0 < 256 ^ ds.length by positivity)]

theorem readsAs_length {n : Nat} {bs : Bytes} (h : DerLength n bs) (hn : n < 2 ^ 32) : ReadsAs readLength bs n := by
  rcases h with ⟨h, rfl⟩ | ⟨h, d, ds, rfl, hd, hlen, hv⟩
  · obtain ⟨h1, h2⟩ := byte_small n h
    refine readsAs_bind_pure (readsAs_u8 _) ?_
    simp only
    rw [if_pos h1, h2]
    exact readsAs_pure _
  · have hl : (d :: ds).length < 5 := by
      have h1 := bigEndian_ge d ds hd
      rw [hv] at h1
      by_contra hc
      have : 4 ≤ ds.length := by simp at hc; omega
      have : 256 ^ 4 ≤ 256 ^ ds.length := Nat.pow_le_pow_right (by decide) this
      omega
    obtain ⟨h1, h2, h3, h4, h5⟩ := byte_long (d :: ds).length hl (by simp)
    have := readsAs_bind (p := readU8) (readsAs_u8 (UInt8.ofNat (128 + (d :: ds).length))) (e2 := d :: ds) (b := n)
      (f := fun first => if first &&& 0x80 = 0 then pure (first &&& 0x7f).toNat
        else
          let noctets := first &&& 0x7f
          if noctets = 0x7f then throw (.plain "noctets is 127")
          else if noctets = 0 then throw (.plain "Unsupported: Indefinite form")
          else if noctets > 4 then throw (.plain "noctets cannot fit in u32")
          else lengthLoop noctets.toNat 0) (by
        simp only
        rw [if_neg h1, if_neg h2, if_neg h3, if_neg h4, h5]
        have := readsAs_lengthLoop (d :: ds) 0 (by rw [hv]; omega)
        rw [hv] at this
        simpa using this)
    simpa [readLength] using this

/-! ### Object identifiers -/

/-- The number denoted by base-128 digits. -/
def digits128 (bs : Bytes) : Nat := Nat.ofDigits 128 (bs.reverse.map fun b => b.toNat % 128)

theorem digits128_cons (b : UInt8) (bs : Bytes) :
    digits128 (b :: bs) = (b.toNat % 128) * 128 ^ bs.length + digits128 bs := by
  simp only [digits128, List.reverse_cons, List.map_append, List.map_cons, List.map_nil, Nat.ofDigits_append,
    List.length_map, List.length_reverse]
  simp [Nat.ofDigits]; ring

theorem readsAs_varLoop (init : Bytes) (last : UInt8) (hi : ∀ b ∈ init, 128 ≤ b.toNat) (hl : last.toNat < 128)
    (acc fuel : Nat) (hf : init.length < fuel)
    (h : acc * 128 ^ (init ++ [last]).length + digits128 (init ++ [last]) < 2 ^ 64) :
    ReadsAs (varLoop fuel acc) (init ++ [last])
      (acc * 128 ^ (init ++ [last]).length + digits128 (init ++ [last])) := by
  induction init generalizing acc fuel with
  | nil =>
    obtain ⟨m, rfl⟩ : ∃ m, fuel = m + 1 := ⟨fuel - 1, by omega⟩
    have hv : digits128 [last] = last.toNat := by simp [digits128, Nat.ofDigits, Nat.mod_eq_of_lt hl]
    simp only [List.nil_append, hv, List.length_singleton, pow_one] at h ⊢
    refine readsAs_bind_pure (readsAs_u8 _) ?_
    simp only
    rw [if_pos ((u8_and_80_eq_zero last).mpr hl), u8_and_7f]
    have h2 : acc <<< 7 < 2 ^ 64 := by rw [Nat.shiftLeft_eq]; omega
    rw [Nat.mod_eq_of_lt h2, Nat.mod_eq_of_lt hl, shift_or_add (by simpa using hl)]
    exact readsAs_pure _
  | cons b init ih =>
    obtain ⟨m, rfl⟩ : ∃ m, fuel = m + 1 := ⟨fuel - 1, by omega⟩
    have hb : 128 ≤ b.toNat := hi b (by simp)
    rw [List.cons_append, digits128_cons] at h ⊢
    have e : acc * 128 ^ (b :: (init ++ [last])).length + (b.toNat % 128 * 128 ^ (init ++ [last]).length + digits128 (init ++ [last]))
        = (acc * 128 + b.toNat % 128) * 128 ^ (init ++ [last]).length + digits128 (init ++ [last]) := by
      rw [List.length_cons, pow_succ]; ring
    rw [e] at h ⊢
    have hs : (acc <<< 7) % 2 ^ 64 ||| (b &&& 0x7f).toNat = acc * 128 + b.toNat % 128 := by
      have hp : 0 < 128 ^ (init ++ [last]).length := by positivity
      have : acc * 128 + b.toNat % 128 < 2 ^ 64 := by
        have := Nat.le_mul_of_pos_right (acc * 128 + b.toNat % 128) hp
        omega
      have h2 : acc <<< 7 < 2 ^ 64 := by rw [Nat.shiftLeft_eq]; omega
      rw [u8_and_7f, Nat.mod_eq_of_lt h2, shift_or_add (by simpa using Nat.mod_lt _ (by decide))]
      simp
    have := readsAs_bind (p := readU8) (readsAs_u8 b) (e2 := init ++ [last])
      (f := fun b => if b &&& 0x80 = 0 then pure ((acc <<< 7) % 2 ^ 64 ||| (b &&& 0x7f).toNat)
        else varLoop m ((acc <<< 7) % 2 ^ 64 ||| (b &&& 0x7f).toNat))
      (b := (acc * 128 + b.toNat % 128) * 128 ^ (init ++ [last]).length + digits128 (init ++ [last]))
      (by
        rw [if_neg (fun h => by have := (u8_and_80_eq_zero b).mp h; omega), hs]
        exact ih (fun x hx => hi x (by simp [hx])) _ _ (by simpa using hf) h)
    simpa [varLoop] using this

theorem readsAs_varU64 {n : Nat} {bs : Bytes} (h : Subidentifier n bs) (hn : n < 2 ^ 64) : ReadsAs readVarU64 bs n := by
  obtain ⟨hv, -, init, last, rfl, hi, hl⟩ := h
  intro pre post hlen
  have := readsAs_varLoop init last hi hl 0 ((⟨pre ++ (init ++ [last]) ++ post, pre.length⟩ : Reader).remaining + 1)
    (by simp [Reader.remaining]; omega) (by
      have : digits128 (init ++ [last]) = n := hv
      rw [this]; omega) pre post hlen
  have hd : digits128 (init ++ [last]) = n := hv
  rw [hd] at this
  simpa [readVarU64] using this

theorem oidLoop_more (parts : List Bytes) (ns : List Nat) (h : List.Forall₂ Subidentifier ns parts)
    (hn : ∀ n ∈ ns, n < 2 ^ 64) (acc : List Nat) (hacc : acc ≠ []) (fuel : Nat) (hf : parts.flatten.length < fuel) :
    ReadsToEnd (oidLoop fuel acc) parts.flatten (acc ++ ns) := by
  induction h generalizing acc fuel with
  | nil =>
    intro pre _
    obtain ⟨m, rfl⟩ : ∃ m, fuel = m + 1 := ⟨fuel - 1, by omega⟩
    simp [oidLoop, Reader.remaining]
  | @cons n e ns parts h1 _ ih =>
    intro pre hl
    obtain ⟨m, rfl⟩ : ∃ m, fuel = m + 1 := ⟨fuel - 1, by omega⟩
    have hpos : 0 < e.length := by
      obtain ⟨-, -, init, last, rfl, -⟩ := h1; simp
    have hl' := hl
    simp only [List.flatten_cons, List.length_append] at hl' hf
    have g := readsAs_varU64 h1 (hn n (by simp)) pre parts.flatten (by simp only [List.length_append]; omega)
    have ee : pre ++ (e :: parts).flatten = pre ++ e ++ parts.flatten := by simp
    have g2 := ih (fun x hx => hn x (by simp [hx])) (acc ++ [n]) (by simp) m (by omega) (pre ++ e)
      (by simp only [List.length_append]; omega)
    rw [List.length_append] at g2
    rw [ee]
    simp only [oidLoop]
    rw [if_pos (by simp only [Reader.remaining, List.length_append]; omega), g]
    simp only
    rw [if_neg (by simp only [Reader.remaining, List.length_append]; omega), if_neg (by simpa using hacc)]
    simpa using g2

theorem readsToEnd_oid {x y : Nat} {rest : List Nat} {parts : List Bytes}
    (h : List.Forall₂ Subidentifier ((40 * x + y) :: rest) parts) (hy : y < 40)
    (hn : ∀ n ∈ (40 * x + y) :: rest, n < 2 ^ 64) :
    ReadsToEnd readObjectIdentifier parts.flatten (x :: y :: rest) := by
  cases h with
  | @cons _ e _ parts h1 h2 =>
    intro pre hl
    have hpos : 0 < e.length := by
      obtain ⟨-, -, init, last, rfl, -⟩ := h1; simp
    have hl' := hl
    simp only [List.flatten_cons, List.length_append] at hl'
    have g := readsAs_varU64 h1 (hn _ (by simp)) pre parts.flatten (by simp only [List.length_append]; omega)
    have ee : pre ++ (e :: parts).flatten = pre ++ e ++ parts.flatten := by simp
    rw [ee]
    have g2 := oidLoop_more parts rest h2 (fun x hx => hn x (by simp [hx])) [x, y] (by simp)
      ((⟨pre ++ e ++ parts.flatten, pre.length⟩ : Reader).remaining)
      (by simp only [Reader.remaining, List.length_append]; omega) (pre ++ e)
      (by simp only [List.length_append]; omega)
    rw [List.length_append] at g2
    simp only [readObjectIdentifier, oidLoop]
    rw [if_pos (by simp only [Reader.remaining, List.length_append]; omega), g]
    simp only
    rw [if_neg (by simp only [Reader.remaining, List.length_append]; omega)]
    have d1 : (40 * x + y) / 40 = x := by omega
    have d2 : (40 * x + y) % 40 = y := by omega
    simpa [d1, d2] using g2

theorem readsToEnd_text (s : String) : ReadsToEnd readText (utf8Encode s) s := by
  intro pre hl
  rw [readText]
  simp [bind_def, remainingData, pure_def]

/-! ### Reading an encoding -/

theorem readValue_tlv {c tag : Nat} {con : Bool} {d bs : Bytes} (h : Tlv c con tag d bs) (hc : c < 4)
    (hd : d.length < 2 ^ 32) (item : RM Item) :
    ∃ hdr : Bytes, bs = hdr ++ d ∧ 2 ≤ hdr.length ∧ ∀ pre post : Bytes, (pre ++ bs ++ post).length < 2 ^ 64 →
      readValue item ⟨pre ++ bs ++ post, pre.length⟩
        = ((readContents item ⟨clsOf c, formFor con, tag⟩ d.length ⟨(pre ++ hdr) ++ d, (pre ++ hdr).length⟩).1,
            ⟨pre ++ bs ++ post, pre.length + bs.length⟩) := by
  obtain ⟨ht, len, hlen, rfl⟩ := h
  generalize hb : UInt8.ofNat (64 * c + (if con then 32 else 0) + tag) = b
  have hl1 : 1 ≤ len.length := by
    rcases hlen with ⟨_, rfl⟩ | ⟨_, _, _, rfl, _⟩ <;> simp
  refine ⟨b :: len, by simp, by simp; omega, ?_⟩
  intro pre post hl
  have r1 := readsAs_identifier (con := con) hc ht
  rw [hb] at r1
  have r2 := readsAs_length hlen hd
  have s1 := r1 pre (len ++ d ++ post) (by simpa using hl)
  have s2 := r2 (pre ++ [b]) (d ++ post) (by simpa using hl)
  have e1 : pre ++ [b] ++ (len ++ d ++ post) = pre ++ b :: (len ++ d) ++ post := by simp
  have e2 : pre ++ [b] ++ len ++ (d ++ post) = pre ++ b :: (len ++ d) ++ post := by simp
  rw [e1] at s1
  rw [e2] at s2
  have s3 : readNested d.length ⟨pre ++ b :: (len ++ d) ++ post, (pre ++ [b]).length + len.length⟩
      = (.ok ⟨(pre ++ b :: len) ++ d, (pre ++ b :: len).length⟩,
          ⟨pre ++ b :: (len ++ d) ++ post, pre.length + (b :: (len ++ d)).length⟩) := by
    have e3 : pre ++ b :: (len ++ d) ++ post = (pre ++ b :: len) ++ d ++ post := by simp
    have e4 : (pre ++ [b]).length + len.length = (pre ++ b :: len).length := by simp; omega
    rw [e3, e4] 
    rw [readNested, bind_ok (checkAvailable_at (pre ++ b :: len) d post (by rw [← e3]; exact hl)), act_apply]
    simp only [Prod.mk.injEq, Except.ok.injEq, Reader.mk.injEq, and_true]
    have : (pre ++ b :: len).length + d.length = (pre ++ b :: len ++ d).length := by simp; omega
    refine ⟨by rw [this, List.take_left], by rw [this]; simp⟩
  rw [readValue, bind_ok s1]
  have : (pre.length + [b].length) = (pre ++ [b]).length := by simp
  rw [this, bind_ok s2, bind_ok s3]
  rfl

theorem itemListLoop_der {item : RM Item} (o : Nat) (items : List Item) (d : Bytes) (h : DerItems o items d)
    (hi : ∀ i ∈ items, ∀ o b, DerItem o i b → b.length ≤ d.length → 0 < b.length ∧ ∀ pre post : Bytes, pre.length = o →
      (pre ++ b ++ post).length < 2 ^ 64 → item ⟨pre ++ b ++ post, o⟩ = (.ok i, ⟨pre ++ b ++ post, o + b.length⟩))
    (fuel : Nat) (hf : d.length < fuel) (pre : Bytes) (ho : pre.length = o) (hl : (pre ++ d).length < 2 ^ 64) :
    (itemListLoop item fuel ⟨pre ++ d, o⟩).1 = .ok items := by
  induction items generalizing o d fuel pre with
  | nil =>
    cases h
    obtain ⟨m, rfl⟩ : ∃ m, fuel = m + 1 := ⟨fuel - 1, by omega⟩
    subst ho
    simp [itemListLoop, Reader.remaining]
  | cons i items ih =>
    cases h with
    | @cons _ _ _ b bs h1 h2 =>
      obtain ⟨m, rfl⟩ : ∃ m, fuel = m + 1 := ⟨fuel - 1, by omega⟩
      obtain ⟨hpos, hr⟩ := hi i (by simp) _ _ h1 (by simp)
      have hl' := hl
      simp only [List.length_append] at hl' hf
      have g := hr pre bs ho (by simp only [List.length_append]; omega)
      have ee : pre ++ (b ++ bs) = pre ++ b ++ bs := by simp
      have g2 := ih (o + b.length) bs h2
        (fun j hj o' b' hb' hl => hi j (by simp [hj]) o' b' hb' (by simp; omega))
        m (by omega) (pre ++ b) (by simp [ho]) (by simp only [List.length_append]; omega)
      rw [ee]
      simp only [itemListLoop]
      rw [if_pos (by simp only [Reader.remaining, List.length_append]; omega), g]
      simp only
      rw [if_neg (by simp only [Reader.remaining, List.length_append]; omega)]
      rcases hx : itemListLoop item m ⟨pre ++ b ++ bs, o + b.length⟩ with ⟨r, s⟩
      rw [hx] at g2
      simp only at g2
      subst g2
      rfl

theorem readsToEnd_ok {α β : Type} {p : RM α} {f : α → RM β} {e : Bytes} {a : α} {b : β} {pre : Bytes}
    (h : ReadsToEnd p e a) (hl : (pre ++ e).length < 2 ^ 64) (hf : ∀ r, (f a r).1 = .ok b) :
    ((p >>= f) ⟨pre ++ e, pre.length⟩).1 = .ok b := by
  have := h pre hl
  rw [bind_def]
  rcases hp : p ⟨pre ++ e, pre.length⟩ with ⟨r, s⟩
  rw [hp] at this
  simp only at this
  subst this
  exact hf _

theorem readItemN_der (n : Nat) : ∀ (o : Nat) (item : Item) (bs : Bytes), DerItem o item bs →
    (∀ v, Occurs v item → Readable v) → bs.length < 2 ^ 32 → bs.length ≤ n → 0 < bs.length ∧
    ∀ pre post : Bytes, pre.length = o → (pre ++ bs ++ post).length < 2 ^ 64 →
      readItemN n ⟨pre ++ bs ++ post, o⟩ = (.ok item, ⟨pre ++ bs ++ post, o + bs.length⟩) := by
  induction n with
  | zero =>
    intro o item bs h hr h32 hn
    exfalso
    cases h with
    | mk hv =>
      have : bs = [] := by simpa using hn
      subst this
      have : ∀ c con tag d, ¬ Tlv c con tag d [] := by rintro _ _ _ _ ⟨_, _, _, hh⟩; simp at hh
      cases hv <;> exact this _ _ _ _ (by assumption)
  | succ n ih =>
    intro o item bs h hr h32 hn
    cases h with
    | @mk _ v _ hv =>
      have hrv := hr v .here
      -- it is enough to read the contents
      have key : ∀ (c tag : Nat) (con : Bool) (d : Bytes), Tlv c con tag d bs → c < 4 →
          (∀ hdr : Bytes, bs = hdr ++ d → 2 ≤ hdr.length → ∀ pre : Bytes, pre.length = o →
            (pre ++ hdr ++ d).length < 2 ^ 64 →
            (readContents (readItemN n) ⟨clsOf c, formFor con, tag⟩ d.length
              ⟨(pre ++ hdr) ++ d, (pre ++ hdr).length⟩).1 = .ok v) →
          0 < bs.length ∧ ∀ pre post : Bytes, pre.length = o → (pre ++ bs ++ post).length < 2 ^ 64 →
            readItemN (n + 1) ⟨pre ++ bs ++ post, o⟩ = (.ok (.mk o (o + bs.length) v), ⟨pre ++ bs ++ post, o + bs.length⟩) := by
        intro c tag con d ht hc hcont
        have hd : d.length < 2 ^ 32 := by
          obtain ⟨_, len, _, rfl⟩ := ht
          simp at h32; omega
        obtain ⟨hdr, he, h2, hread⟩ := readValue_tlv ht hc hd (readItemN n)
        refine ⟨by rw [he]; simp; omega, ?_⟩
        intro pre post ho hl
        have g := hread pre post hl
        rw [hcont hdr he h2 pre ho (by rw [he] at hl; simp only [List.length_append] at hl ⊢; omega), ho] at g
        simp only [readItemN]
        rw [g]
      cases hv with
      | false ht =>
        refine key _ _ _ _ ht (by decide) ?_
        intro hdr he h2 pre ho hl
        simp only [clsOf, formFor, readContents, readUniversal]
        simp only [ne_eq, not_true_eq_false, if_false]
        rw [if_neg (by simp [Reader.remaining]; try omega)]
        exact readsToEnd_ok (readsToEnd_of_readsAs (readsAs_u8 0)) hl (fun r => by rw [if_pos rfl]; rfl)
      | true ht =>
        refine key _ _ _ _ ht (by decide) ?_
        intro hdr he h2 pre ho hl
        simp only [clsOf, formFor, readContents, readUniversal]
        simp only [ne_eq, not_true_eq_false, if_false]
        rw [if_neg (by simp [Reader.remaining]; try omega)]
        exact readsToEnd_ok (readsToEnd_of_readsAs (readsAs_u8 0xff)) hl (fun r => by rw [if_neg (by decide), if_pos rfl]; rfl)
      | integer ht =>
        refine key _ _ _ _ ht (by decide) ?_
        intro hdr he h2 pre ho hl
        simp only [clsOf, formFor, readContents, readUniversal]
        exact readsToEnd_ok (readsToEnd_remainingData _) hl (fun r => rfl)
      | bitString ht =>
        refine key _ _ _ _ ht (by decide) ?_
        intro hdr he h2 pre ho hl
        simp only [clsOf, formFor, readContents, readUniversal]
        rename_i u d
        exact readsToEnd_bind (e1 := [u]) (readsAs_u8 u) (readsToEnd_map (g := fun d => Value.bitString u d) (readsToEnd_remainingData d))
          (pre ++ hdr) hl
      | octetString ht =>
        refine key _ _ _ _ ht (by decide) ?_
        intro hdr he h2 pre ho hl
        simp only [clsOf, formFor, readContents, readUniversal]
        exact readsToEnd_ok (readsToEnd_remainingData _) hl (fun r => rfl)
      | null ht =>
        refine key _ _ _ _ ht (by decide) ?_
        intro hdr he h2 pre ho hl
        simp only [clsOf, formFor, readContents, readUniversal]
        simp only [ne_eq, not_true_eq_false, if_false]
        rw [if_neg (by simp [Reader.remaining]; try omega)]
      | objectIdentifier hoid ht =>
        refine key _ _ _ _ ht (by decide) ?_
        intro hdr he h2 pre ho hl
        simp only [clsOf, formFor, readContents, readUniversal]
        simp only [ne_eq, not_true_eq_false, if_false]
        obtain ⟨x, y, rest, parts, rfl, hx, hy, hf, rfl⟩ := hoid
        simp only [Readable] at hrv
        refine readsToEnd_ok (readsToEnd_oid hf hrv.1 ?_) hl (fun r => rfl)
        intro n hn
        rcases List.mem_cons.mp hn with rfl | hn
        · have := hrv.2.1; omega
        · exact hrv.2.2 n hn
      | utf8String ht =>
        refine key _ _ _ _ ht (by decide) ?_
        intro hdr he h2 pre ho hl
        simp only [clsOf, formFor, readContents, readUniversal]
        exact readsToEnd_ok (readsToEnd_text _) hl (fun r => rfl)
      | printableString ht =>
        refine key _ _ _ _ ht (by decide) ?_
        intro hdr he h2 pre ho hl
        simp only [clsOf, formFor, readContents, readUniversal]
        exact readsToEnd_ok (readsToEnd_text _) hl (fun r => rfl)
      | utcTime ht =>
        refine key _ _ _ _ ht (by decide) ?_
        intro hdr he h2 pre ho hl
        simp only [clsOf, formFor, readContents, readUniversal]
        exact readsToEnd_ok (readsToEnd_text _) hl (fun r => rfl)
      | generalizedTime ht =>
        refine key _ _ _ _ ht (by decide) ?_
        intro hdr he h2 pre ho hl
        simp only [clsOf, formFor, readContents, readUniversal]
        exact readsToEnd_ok (readsToEnd_text _) hl (fun r => rfl)
      | @sequence _ items d _ hitems ht =>
        refine key _ _ _ _ ht (by decide) ?_
        intro hdr he h2 pre ho hl
        simp only [clsOf, formFor, readContents, readUniversal]
        have hpos : (pre ++ hdr).length = o + bs.length - d.length := by rw [he]; simp; omega
        have hlen : d.length + 2 ≤ bs.length := by rw [he]; simp; omega
        have := itemListLoop_der (item := readItemN n) (o + bs.length - d.length) items d hitems
          (fun i hi o' b hb hbl => ih o' i b hb (fun v hv => hr v (.sequence hi hv)) (by omega) (by omega))
          ((⟨pre ++ hdr ++ d, (pre ++ hdr).length⟩ : Reader).remaining + 1) (by simp only [Reader.remaining, List.length_append]; omega)
          (pre ++ hdr) hpos hl
        rw [← hpos] at this
        rw [bind_def]
        generalize itemListLoop (readItemN n) _ _ = q at this ⊢
        rcases q with ⟨r, s⟩
        simp only at this
        subst this
        rfl
      | @set _ items d _ hitems ht =>
        refine key _ _ _ _ ht (by decide) ?_
        intro hdr he h2 pre ho hl
        simp only [clsOf, formFor, readContents, readUniversal]
        have hpos : (pre ++ hdr).length = o + bs.length - d.length := by rw [he]; simp; omega
        have hlen : d.length + 2 ≤ bs.length := by rw [he]; simp; omega
        have := itemListLoop_der (item := readItemN n) (o + bs.length - d.length) items d hitems
          (fun i hi o' b hb hbl => ih o' i b hb (fun v hv => hr v (.set hi hv)) (by omega) (by omega))
          ((⟨pre ++ hdr ++ d, (pre ++ hdr).length⟩ : Reader).remaining + 1) (by simp only [Reader.remaining, List.length_append]; omega)
          (pre ++ hdr) hpos hl
        rw [← hpos] at this
        rw [bind_def]
        generalize itemListLoop (readItemN n) _ _ = q at this ⊢
        rcases q with ⟨r, s⟩
        simp only at this
        subst this
        rfl
      | @application _ tag child d _ hchild ht =>
        refine key _ _ _ _ ht (by decide) ?_
        intro hdr he h2 pre ho hl
        simp only [clsOf, formFor, readContents, readTagged]
        have hpos : (pre ++ hdr).length = o + bs.length - d.length := by rw [he]; simp; omega
        have hlen : d.length + 2 ≤ bs.length := by rw [he]; simp; omega
        have g := (ih _ child d hchild (fun v hv => hr v (.application hv)) (by omega) (by omega)).2 (pre ++ hdr) []
          hpos (by simpa using hl)
        simp only [List.append_nil] at g
        rw [hpos, bind_ok g]; rfl
      | @contextSpecific _ tag child d _ hchild ht =>
        refine key _ _ _ _ ht (by decide) ?_
        intro hdr he h2 pre ho hl
        simp only [clsOf, formFor, readContents, readTagged]
        have hpos : (pre ++ hdr).length = o + bs.length - d.length := by rw [he]; simp; omega
        have hlen : d.length + 2 ≤ bs.length := by rw [he]; simp; omega
        have g := (ih _ child d hchild (fun v hv => hr v (.contextSpecific hv)) (by omega) (by omega)).2 (pre ++ hdr) []
          hpos (by simpa using hl)
        simp only [List.append_nil] at g
        rw [hpos, bind_ok g]; rfl
      | @priv _ tag child d _ hchild ht =>
        refine key _ _ _ _ ht (by decide) ?_
        intro hdr he h2 pre ho hl
        simp only [clsOf, formFor, readContents, readTagged]
        have hpos : (pre ++ hdr).length = o + bs.length - d.length := by rw [he]; simp; omega
        have hlen : d.length + 2 ≤ bs.length := by rw [he]; simp; omega
        have g := (ih _ child d hchild (fun v hv => hr v (.priv hv)) (by omega) (by omega)).2 (pre ++ hdr) []
          hpos (by simpa using hl)
        simp only [List.append_nil] at g
        rw [hpos, bind_ok g]; rfl

theorem readItem_der {o : Nat} {item : Item} {bs : Bytes} (h : DerItem o item bs)
    (hr : ∀ v, Occurs v item → Readable v) (h32 : bs.length < 2 ^ 32) (pre post : Bytes) (ho : pre.length = o)
    (hl : (pre ++ bs ++ post).length < 2 ^ 64) :
    readItem ⟨pre ++ bs ++ post, o⟩ = (.ok item, ⟨pre ++ bs ++ post, o + bs.length⟩) :=
  (readItemN_der _ o item bs h hr h32 (by simp [Reader.remaining]; omega)).2 pre post ho hl

end Ngfs.Asn1
