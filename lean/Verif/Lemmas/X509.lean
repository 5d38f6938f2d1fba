import Verif.Spec.X509
import Verif.Lemmas.Asn1Write
import Verif.Lemmas.Metainfo

/-! Helper lemmas about certificates. No claims here. -/
namespace Ngfs.X509
open Ngfs.Binary Ngfs.Asn1 Ngfs.Spec

theorem bind_ok' {ε α β : Type} {x : Except ε α} {f : α → Except ε β} {b : β} :
    (x >>= f) = .ok b ↔ ∃ a, x = .ok a ∧ f a = .ok b := by
  cases x <;> simp [bind, Except.bind]

theorem asSequence_iff {i : Item} {l : List Item} : asSequence i = .ok l ↔ i.value = .sequence l := by
  obtain ⟨a, b, v⟩ := i
  cases v <;> simp [asSequence, Item.value]

theorem asSet_iff {i : Item} {l : List Item} : asSet i = .ok l ↔ i.value = .set l := by
  obtain ⟨a, b, v⟩ := i
  cases v <;> simp [asSet, Item.value]

theorem asExactSequence_iff {n : Nat} {i : Item} {l : List Item} :
    asExactSequence n i = .ok l ↔ i.value = .sequence l ∧ l.length = n := by
  simp only [asExactSequence, bind_ok', asSequence_iff]
  constructor
  · rintro ⟨a, h1, h2⟩
    split at h2
    · simp at h2
    · cases h2; exact ⟨h1, by omega⟩
  · rintro ⟨h1, h2⟩
    exact ⟨l, h1, by simp [h2]⟩

theorem asExactSet_iff {n : Nat} {i : Item} {l : List Item} :
    asExactSet n i = .ok l ↔ i.value = .set l ∧ l.length = n := by
  simp only [asExactSet, bind_ok', asSet_iff]
  constructor
  · rintro ⟨a, h1, h2⟩
    split at h2
    · simp at h2
    · cases h2; exact ⟨h1, by omega⟩
  · rintro ⟨h1, h2⟩
    exact ⟨l, h1, by simp [h2]⟩

theorem asOid_iff {i : Item} {p : List Nat} : asObjectIdentifier i = .ok p ↔ i.value = .objectIdentifier p := by
  obtain ⟨a, b, v⟩ := i
  cases v <;> simp [asObjectIdentifier, Item.value]

theorem asOctetString_iff {i : Item} {p : Bytes} : asOctetString i = .ok p ↔ i.value = .octetString p := by
  obtain ⟨a, b, v⟩ := i
  cases v <;> simp [asOctetString, Item.value]

theorem asInteger_iff {i : Item} {p : Bytes} : asInteger i = .ok p ↔ i.value = .integer p := by
  obtain ⟨a, b, v⟩ := i
  cases v <;> simp [asInteger, Item.value]

theorem asBitString_iff {i : Item} {p : BitString} : asBitString i = .ok p ↔ SaysBits p i := by
  obtain ⟨a, b, v⟩ := i
  obtain ⟨u, d⟩ := p
  cases v <;> simp [asBitString, SaysBits, Item.value]

theorem index_iff {l : List Item} {n : Nat} {i : Item} : index l n = .ok i ↔ l[n]? = some i := by
  unfold index; split <;> simp_all

theorem next_iff {m : String} {l : List Item} {i : Item} {it : List Item} : next m l = .ok (i, it) ↔ l = i :: it := by
  cases l <;> simp [next]

theorem next_ok {m : String} (i : Item) (it : List Item) : next m (i :: it) = .ok (i, it) := rfl

theorem algorithm_iff {a : AlgorithmIdentifier} {i : Item} : AlgorithmIdentifier.fromAsn1 i = .ok a ↔ SaysAlgorithm a i := by
  obtain ⟨alg, params⟩ := a
  simp only [AlgorithmIdentifier.fromAsn1, bind_ok', asSequence_iff, SaysAlgorithm, Prod.exists, next_iff, asOid_iff]
  constructor
  · rintro ⟨l, h1, o, it, rfl, oid, h2, h3⟩
    split at h3 <;> simp at h3
    all_goals obtain ⟨rfl, rfl⟩ := h3; exact ⟨o, by simpa using h1, h2⟩
  · rintro ⟨o, h1, h2⟩
    refine ⟨_, h1, o, _, rfl, _, h2, ?_⟩
    cases params <;> rfl

theorem version_iff {v : Version} {i : Item} : Version.fromAsn1 i = .ok v ↔ i.value = .integer [versionNumber v] := by
  simp only [Version.fromAsn1, bind_ok', asInteger_iff]
  constructor
  · rintro ⟨d, h1, h2⟩
    split at h2
    · simp at h2
    · repeat' split at h2
      all_goals first | (cases h2; simp_all [versionNumber]) | simp at h2
  · intro h
    refine ⟨_, h, ?_⟩
    cases v <;> simp [versionNumber]

theorem rdn_iff {r : RelativeDistinguishedName} {i : Item} : RelativeDistinguishedName.fromAsn1 i = .ok r ↔ SaysRdn r i := by
  obtain ⟨oid, val⟩ := r
  simp only [RelativeDistinguishedName.fromAsn1, bind_ok', asExactSet_iff, asExactSequence_iff, SaysRdn, index_iff, asOid_iff]
  constructor
  · rintro ⟨l, ⟨h1, h2⟩, e, h3, l', ⟨h4, h5⟩, o, h6, oid', h7, v, h8, h9⟩
    match l, h2 with
    | [e'], _ =>
      match l', h5 with
      | [x, y], _ =>
        simp at h3 h6 h8 h9
        obtain ⟨rfl, rfl⟩ := h9
        subst h3 h6 h8
        exact ⟨_, _, h1, h4, h7⟩
  · rintro ⟨e, o, h1, h2, h3⟩
    exact ⟨_, ⟨h1, rfl⟩, e, rfl, _, ⟨h2, rfl⟩, o, rfl, _, h3, val, rfl, rfl⟩

theorem mapM_iff {α β : Type} {f : α → Except PErr β} {R : β → α → Prop} (hf : ∀ a b, f a = .ok b ↔ R b a) :
    ∀ (l : List α) (m : List β), l.mapM f = .ok m ↔ List.Forall₂ R m l
  | [], m => by
    cases m
    · simp [pure, Except.pure]
    · simp only [List.mapM_nil, pure, Except.pure, Except.ok.injEq]
      constructor <;> intro h <;> cases h
  | a :: l, m => by
    simp only [List.mapM_cons, bind_ok', hf, mapM_iff hf l]
    constructor
    · rintro ⟨b, h1, m', h2, h3⟩
      cases h3
      exact .cons h1 h2
    · intro h
      cases h with
      | cons h1 h2 => exact ⟨_, h1, _, h2, rfl⟩

theorem name_iff {n : List RelativeDistinguishedName} {i : Item} : Name.fromAsn1 i = .ok n ↔ SaysName n i := by
  simp only [Name.fromAsn1, bind_ok', asSequence_iff, SaysName, mapM_iff (fun a b => rdn_iff (r := b) (i := a))]

theorem time_iff {t : Time} {i : Item} : Time.fromAsn1 i = .ok t ↔ SaysTime t i := by
  obtain ⟨a, b, v⟩ := i
  cases t <;> cases v <;> simp [Time.fromAsn1, SaysTime, Item.value]

theorem validity_iff {v : Validity} {i : Item} : Validity.fromAsn1 i = .ok v ↔ SaysValidity v i := by
  obtain ⟨a, b⟩ := v
  simp only [Validity.fromAsn1, bind_ok', asExactSequence_iff, SaysValidity, index_iff, time_iff]
  constructor
  · rintro ⟨l, ⟨h1, h2⟩, e, h3, t, h4, e', h5, t', h6, h7⟩
    match l, h2 with
    | [x, y], _ =>
      simp at h3 h5 h7
      obtain ⟨rfl, rfl⟩ := h7
      subst h3 h5
      exact ⟨_, _, h1, h4, h6⟩
  · rintro ⟨x, y, h1, h2, h3⟩
    exact ⟨_, ⟨h1, rfl⟩, x, rfl, _, h2, y, rfl, _, h3, rfl⟩

theorem keyInfo_iff {k : SubjectPublicKeyInfo} {i : Item} : SubjectPublicKeyInfo.fromAsn1 i = .ok k ↔ SaysKeyInfo k i := by
  obtain ⟨a, b⟩ := k
  simp only [SubjectPublicKeyInfo.fromAsn1, bind_ok', asExactSequence_iff, SaysKeyInfo, index_iff, algorithm_iff, asBitString_iff]
  constructor
  · rintro ⟨l, ⟨h1, h2⟩, e, h3, t, h4, e', h5, t', h6, h7⟩
    match l, h2 with
    | [x, y], _ =>
      simp at h3 h5 h7
      obtain ⟨rfl, rfl⟩ := h7
      subst h3 h5
      exact ⟨_, _, h1, h4, h6⟩
  · rintro ⟨x, y, h1, h2, h3⟩
    exact ⟨_, ⟨h1, rfl⟩, x, rfl, _, h2, y, rfl, _, h3, rfl⟩

theorem critical_iff {i d : Item} {it : List Item} {b : Bool} : Extension.critical? i it = .ok (b, d) ↔
    (∃ junk, i.value = .boolean b ∧ it = d :: junk) ∨ ((∀ b', i.value ≠ .boolean b') ∧ b = false ∧ d = i) := by
  obtain ⟨x, y, v⟩ := i
  cases v
  case boolean b' =>
    simp only [Extension.critical?, bind_ok', Prod.exists, next_iff, Item.value]
    constructor
    · rintro ⟨e, j, rfl, h⟩
      simp at h
      obtain ⟨rfl, rfl⟩ := h
      exact .inl ⟨j, rfl, rfl⟩
    · rintro (⟨j, h1, rfl⟩ | ⟨h, -⟩)
      · cases h1; exact ⟨d, j, rfl, rfl⟩
      · exact absurd rfl (h b')
  all_goals
    simp only [Extension.critical?, Except.ok.injEq, Prod.mk.injEq, Item.value]
    constructor
    · rintro ⟨rfl, rfl⟩; exact .inr ⟨by simp, rfl, rfl⟩
    · rintro (⟨j, h, -⟩ | ⟨-, rfl, rfl⟩)
      · simp at h
      · exact ⟨rfl, rfl⟩

theorem extension_iff {e : Extension} {i : Item} : Extension.fromAsn1 i = .ok e ↔ SaysExtension e i := by
  obtain ⟨oid, cr, dat⟩ := e
  simp only [Extension.fromAsn1, bind_ok', asSequence_iff, Prod.exists, next_iff, asOid_iff, critical_iff, asOctetString_iff,
    SaysExtension]
  constructor
  · rintro ⟨l, h1, o, it, rfl, oid', h2, x, it', rfl, b, d, h3, bytes, h4, h5⟩
    simp at h5
    obtain ⟨rfl, rfl, rfl⟩ := h5
    rcases h3 with ⟨junk, h3, rfl⟩ | ⟨h3, rfl, rfl⟩
    · exact ⟨o, [x], d, junk, h1, h2, h4, .inr ⟨x, rfl, h3⟩⟩
    · exact ⟨o, [], d, it', h1, h2, h4, .inl ⟨rfl, rfl⟩⟩
  · rintro ⟨o, c, d, junk, h1, h2, h3, (⟨rfl, h4⟩ | ⟨x, rfl, h4⟩)⟩
    · refine ⟨_, h1, o, _, rfl, _, h2, d, junk, rfl, cr, d, .inr ⟨by simp [h3], h4, rfl⟩, _, h3, rfl⟩
    · exact ⟨_, h1, o, _, rfl, _, h2, x, d :: junk, rfl, cr, d, .inl ⟨junk, h4, rfl⟩, _, h3, rfl⟩

theorem versionOpt_iff {v : Version} {i j : Item} {l m : List Item} : TbsCertificate.version? i l = .ok (v, j, m) ↔
    (∃ c, i.value = .contextSpecific 0 c ∧ c.value = .integer [versionNumber v] ∧ l = j :: m) ∨
    ((∀ c, i.value ≠ .contextSpecific 0 c) ∧ v = .v1 ∧ j = i ∧ m = l) := by
  unfold TbsCertificate.version?
  split
  · rename_i a b c
    simp only [bind_ok', Prod.exists, next_iff, Item.value, version_iff]
    constructor
    · rintro ⟨w, h1, e, j', rfl, h⟩
      simp at h
      obtain ⟨rfl, rfl, rfl⟩ := h
      exact .inl ⟨c, rfl, h1, rfl⟩
    · rintro (⟨c', h1, h2, rfl⟩ | ⟨h, -⟩)
      · cases h1; exact ⟨v, h2, j, m, rfl, rfl⟩
      · exact absurd rfl (h c)
  · rename_i h
    have hn : ∀ c, i.value ≠ .contextSpecific 0 c := by
      intro c hc
      obtain ⟨a, b, w⟩ := i
      simp only [Item.value] at hc
      exact h a b c (by rw [hc])
    simp only [Except.ok.injEq, Prod.mk.injEq]
    constructor
    · rintro ⟨rfl, rfl, rfl⟩; exact .inr ⟨hn, rfl, rfl, rfl⟩
    · rintro (⟨c, h, -⟩ | ⟨-, rfl, rfl, rfl⟩)
      · exact absurd h (hn c)
      · exact ⟨rfl, rfl, rfl⟩

theorem extensionsOpt_iff {l : List Item} {es : List Extension} : TbsCertificate.extensions? l = .ok (es, []) ↔ SaysExtensions es l := by
  unfold TbsCertificate.extensions? SaysExtensions
  split
  · simp [eq_comm]
  · rename_i a b c it
    simp only [bind_ok', asSequence_iff, mapM_iff (fun a b => extension_iff (e := b) (i := a))]
    constructor
    · rintro ⟨x, h1, y, h2, h3⟩
      simp at h3
      obtain ⟨rfl, rfl⟩ := h3
      exact .inr ⟨_, c, x, rfl, rfl, h1, h2⟩
    · rintro (⟨h, -⟩ | ⟨i, c', x, h1, h2, h3, h4⟩)
      · simp at h
      · simp only [List.cons.injEq] at h1
        obtain ⟨rfl, rfl⟩ := h1
        simp only [Item.value, Value.contextSpecific.injEq, true_and] at h2
        subst h2
        exact ⟨x, h3, es, h4, rfl⟩
  · rename_i i it h
    constructor
    · intro h; simp at h
    · rintro (⟨h, -⟩ | ⟨i', c', x, h1, h2, h3, h4⟩)
      · simp at h
      · simp only [List.cons.injEq] at h1
        obtain ⟨rfl, rfl⟩ := h1
        obtain ⟨a, b, w⟩ := i
        simp only [Item.value] at h2
        exact absurd (by rw [h2]) (h a b c')

theorem tbs_iff {t : TbsCertificate} {i : Item} : TbsCertificate.fromAsn1 i = .ok t ↔ SaysTbs t i := by
  obtain ⟨ver, ser, sig, iss, val, sub, key, u1, u2, ext⟩ := t
  simp only [TbsCertificate.fromAsn1, bind_ok', asSequence_iff, Prod.exists, next_iff, asInteger_iff, algorithm_iff, name_iff,
    validity_iff, keyInfo_iff, versionOpt_iff, SaysTbs]
  constructor
  · rintro ⟨l, h1, e, it, rfl, v, sn, it1, hv, n, hn, sg, it2, rfl, sg', hsg, is, it3, rfl, is', his, va, it4, rfl, va', hva,
      su, it5, rfl, su', hsu, k, it6, rfl, k', hk, es, it7, hes, h⟩
    split at h
    · rename_i h7
      simp only [List.isEmpty_iff] at h7
      subst h7
      simp only [Except.ok.injEq, TbsCertificate.mk.injEq] at h
      obtain ⟨rfl, rfl, rfl, rfl, rfl, rfl, rfl, rfl, rfl, rfl⟩ := h
      have he := extensionsOpt_iff.mp hes
      rcases hv with ⟨c, hv1, hv2, rfl⟩ | ⟨-, rfl, rfl, rfl⟩
      · exact ⟨[e], sn, sg, is, va, su, k, it6, by simpa using h1, .inr ⟨e, c, rfl, hv1, hv2⟩, hn, hsg, his, hva, hsu, hk, he, rfl, rfl⟩
      · exact ⟨[], sn, sg, is, va, su, k, it6, by simpa using h1, .inl ⟨rfl, rfl⟩, hn, hsg, his, hva, hsu, hk, he, rfl, rfl⟩
    · simp at h
  · rintro ⟨v, sn, sg, is, va, su, k, es, h1, hv, hn, hsg, his, hva, hsu, hk, he, rfl, rfl⟩
    have hes := extensionsOpt_iff.mpr he
    rcases hv with ⟨rfl, rfl⟩ | ⟨e, c, rfl, hv1, hv2⟩
    · exact ⟨_, h1, sn, _, rfl, _, sn, _, .inr ⟨by simp [hn], rfl, rfl, rfl⟩, _, hn, sg, _, rfl, _, hsg, is, _, rfl, _, his, va, _,
        rfl, _, hva, su, _, rfl, _, hsu, k, _, rfl, _, hk, _, _, hes, rfl⟩
    · exact ⟨_, h1, e, _, rfl, _, sn, _, .inl ⟨c, hv1, hv2, rfl⟩, _, hn, sg, _, rfl, _, hsg, is, _, rfl, _, his, va, _,
        rfl, _, hva, su, _, rfl, _, hsu, k, _, rfl, _, hk, _, _, hes, rfl⟩

theorem certificate_iff {c : Certificate} {i : Item} : Certificate.fromAsn1 i = .ok c ↔ SaysCertificate c i := by
  obtain ⟨t, a, s⟩ := c
  simp only [Certificate.fromAsn1, bind_ok', asExactSequence_iff, index_iff, tbs_iff, algorithm_iff, SaysCertificate]
  constructor
  · rintro ⟨l, ⟨h1, h2⟩, e, h3, t', h4, e', h5, a', h6, e'', h7, h8⟩
    match l, h2 with
    | [x, y, z], _ =>
      simp at h3 h5 h7
      subst h3 h5 h7
      split at h8
      · rename_i s' hs
        simp only [Except.ok.injEq, Certificate.mk.injEq] at h8
        obtain ⟨rfl, rfl, rfl⟩ := h8
        exact ⟨_, _, _, h1, h4, h6, asBitString_iff.mp hs⟩
      · simp at h8
  · rintro ⟨x, y, z, h1, h2, h3, h4⟩
    exact ⟨_, ⟨h1, rfl⟩, x, rfl, _, h2, y, rfl, _, h3, z, rfl, by rw [asBitString_iff.mpr h4]⟩

/-! ### What `toAsn1` says -/

theorem says_algorithm (a : AlgorithmIdentifier) : SaysAlgorithm a a.toAsn1 := ⟨_, rfl, rfl⟩
theorem says_rdn (r : RelativeDistinguishedName) : SaysRdn r r.toAsn1 := ⟨_, _, rfl, rfl, rfl⟩
theorem says_name (n : List RelativeDistinguishedName) : SaysName n (Name.toAsn1 n) := by
  refine ⟨_, rfl, ?_⟩
  induction n with
  | nil => exact .nil
  | cons r n ih => exact .cons (says_rdn r) ih
theorem says_time (t : Time) : SaysTime t t.toAsn1 := by cases t <;> rfl
theorem says_validity (v : Validity) : SaysValidity v v.toAsn1 := ⟨_, _, rfl, says_time _, says_time _⟩
theorem says_bits (b : BitString) : SaysBits b b.toAsn1 := rfl
theorem says_keyInfo (k : SubjectPublicKeyInfo) : SaysKeyInfo k k.toAsn1 := ⟨_, _, rfl, says_algorithm _, says_bits _⟩
theorem says_extension (e : Extension) : SaysExtension e e.toAsn1 := by
  obtain ⟨id, c, d⟩ := e
  cases c
  · exact ⟨_, [], _, [], rfl, rfl, rfl, .inl ⟨rfl, rfl⟩⟩
  · exact ⟨_, [_], _, [], rfl, rfl, rfl, .inr ⟨_, rfl, rfl⟩⟩
theorem says_extensions (es : List Extension) :
    SaysExtensions es [.ofValue (.contextSpecific 3 (.ofValue (.sequence (es.map Extension.toAsn1))))] := by
  refine .inr ⟨_, _, _, rfl, rfl, rfl, ?_⟩
  induction es with
  | nil => exact .nil
  | cons e es ih => exact .cons (says_extension e) ih
theorem says_version (v : Version) : SaysVersion v [.ofValue (.contextSpecific 0 v.toAsn1)] :=
  .inr ⟨_, _, rfl, rfl, by cases v <;> rfl⟩
theorem says_tbs (t : TbsCertificate) (h1 : t.issuerUniqueId = none) (h2 : t.subjectUniqueId = none) : SaysTbs t t.toAsn1 :=
  ⟨_, _, _, _, _, _, _, _, rfl, says_version _, rfl, says_algorithm _, says_name _, says_validity _, says_name _, says_keyInfo _,
    says_extensions _, h1, h2⟩
theorem says_certificate (c : Certificate) (h1 : c.tbsCertificate.issuerUniqueId = none)
    (h2 : c.tbsCertificate.subjectUniqueId = none) : SaysCertificate c c.toAsn1 :=
  ⟨_, _, _, rfl, says_tbs _ h1 h2, says_algorithm _, says_bits _⟩

/-! ### Items that are the same up to positions say the same -/

theorem sameItem_refl (i : Item) : SameItem i i := by cases i; exact .mk .refl
theorem sameItems_refl : ∀ l : List Item, SameItems l l
  | [] => .nil
  | i :: l => .cons (sameItem_refl i) (sameItems_refl l)

theorem same_sequence {i j : Item} {l : List Item} (h : SameItem i j) (hi : i.value = .sequence l) :
    ∃ l', j.value = .sequence l' ∧ SameItems l l' := by
  cases h with
  | mk hv =>
    simp only [Item.value] at hi ⊢
    subst hi
    cases hv with
    | refl => exact ⟨l, rfl, sameItems_refl l⟩
    | sequence h => exact ⟨_, rfl, h⟩

theorem same_set {i j : Item} {l : List Item} (h : SameItem i j) (hi : i.value = .set l) :
    ∃ l', j.value = .set l' ∧ SameItems l l' := by
  cases h with
  | mk hv =>
    simp only [Item.value] at hi ⊢
    subst hi
    cases hv with
    | refl => exact ⟨l, rfl, sameItems_refl l⟩
    | set h => exact ⟨_, rfl, h⟩

theorem same_contextSpecific {i j c : Item} {n : Nat} (h : SameItem i j) (hi : i.value = .contextSpecific n c) :
    ∃ c', j.value = .contextSpecific n c' ∧ SameItem c c' := by
  cases h with
  | mk hv =>
    simp only [Item.value] at hi ⊢
    subst hi
    cases hv with
    | refl => exact ⟨c, rfl, sameItem_refl c⟩
    | contextSpecific h => exact ⟨_, rfl, h⟩

/-- Not a sequence, set or tagged item. -/
def Leaf : Value → Prop
  | .sequence _ | .set _ | .application _ _ | .contextSpecific _ _ | .priv _ _ => False
  | _ => True

theorem same_leaf {i j : Item} {v : Value} (h : SameItem i j) (hi : i.value = v) (hv : Leaf v) : j.value = v := by
  cases h with
  | mk hs =>
    simp only [Item.value] at hi ⊢
    subst hi
    cases hs with
    | refl => rfl
    | _ => cases hv

theorem sameItems_cons {i : Item} {l l' : List Item} (h : SameItems (i :: l) l') :
    ∃ j m, l' = j :: m ∧ SameItem i j ∧ SameItems l m := by
  cases h with
  | cons h1 h2 => exact ⟨_, _, rfl, h1, h2⟩

theorem sameItems_nil {l : List Item} (h : SameItems [] l) : l = [] := by cases h; rfl

theorem sameItems_append : ∀ {l m k : List Item}, SameItems (l ++ m) k → ∃ l' m', k = l' ++ m' ∧ SameItems l l' ∧ SameItems m m'
  | [], m, k, h => ⟨[], k, rfl, .nil, h⟩
  | i :: l, m, k, h => by
    obtain ⟨j, n, rfl, h1, h2⟩ := sameItems_cons h
    obtain ⟨l', m', rfl, h3, h4⟩ := sameItems_append h2
    exact ⟨j :: l', m', rfl, .cons h1 h3, h4⟩

theorem forall₂_same : ∀ {l m : List Item}, SameItems l m → List.Forall₂ SameItem l m
  | _, _, .nil => .nil
  | _, _, .cons h1 h2 => .cons h1 (forall₂_same h2)

theorem algorithm_same {a : AlgorithmIdentifier} {i j : Item} (h : SameItem i j) (hs : SaysAlgorithm a i) :
    ∃ a', SaysAlgorithm a' j ∧ SameAlgorithm a a' := by
  obtain ⟨o, h1, h2⟩ := hs
  obtain ⟨l, g1, g2⟩ := same_sequence h h1
  obtain ⟨o', m, rfl, g3, g4⟩ := sameItems_cons g2
  obtain ⟨oid, params⟩ := a
  cases params with
  | none =>
    obtain rfl := sameItems_nil g4
    exact ⟨⟨oid, none⟩, ⟨o', g1, same_leaf g3 h2 trivial⟩, rfl, .nil⟩
  | some p =>
    obtain ⟨p', m', rfl, g5, g6⟩ := sameItems_cons g4
    obtain rfl := sameItems_nil g6
    exact ⟨⟨oid, some p'⟩, ⟨o', g1, same_leaf g3 h2 trivial⟩, rfl, .cons g5 .nil⟩

theorem rdn_same {r : RelativeDistinguishedName} {i j : Item} (h : SameItem i j) (hs : SaysRdn r i) :
    ∃ r', SaysRdn r' j ∧ r.id = r'.id ∧ SameItem r.value r'.value := by
  obtain ⟨e, o, h1, h2, h3⟩ := hs
  obtain ⟨l, g1, g2⟩ := same_set h h1
  obtain ⟨e', m, rfl, g3, g4⟩ := sameItems_cons g2
  obtain rfl := sameItems_nil g4
  obtain ⟨l', k1, k2⟩ := same_sequence g3 h2
  obtain ⟨o', m', rfl, k3, k4⟩ := sameItems_cons k2
  obtain ⟨v', m', rfl, k5, k6⟩ := sameItems_cons k4
  obtain rfl := sameItems_nil k6
  exact ⟨⟨r.id, v'⟩, ⟨e', o', g1, k1, same_leaf k3 h3 trivial⟩, rfl, k5⟩

theorem name_same {n : List RelativeDistinguishedName} {i j : Item} (h : SameItem i j) (hs : SaysName n i) :
    ∃ n', SaysName n' j ∧ SameName n n' := by
  obtain ⟨es, h1, h2⟩ := hs
  obtain ⟨l, g1, g2⟩ := same_sequence h h1
  suffices ∃ n', List.Forall₂ SaysRdn n' l ∧ SameName n n' by
    obtain ⟨n', a, b⟩ := this
    exact ⟨n', ⟨l, g1, a⟩, b⟩
  clear g1 h1
  induction h2 generalizing l with
  | nil => obtain rfl := sameItems_nil g2; exact ⟨[], .nil, .nil⟩
  | cons hr _ ih =>
    obtain ⟨e', m, rfl, g3, g4⟩ := sameItems_cons g2
    obtain ⟨r', a1, a2, a3⟩ := rdn_same g3 hr
    obtain ⟨n', b1, b2⟩ := ih m g4
    exact ⟨r' :: n', .cons a1 b1, .cons ⟨a2, a3⟩ b2⟩

theorem time_same {t : Time} {i j : Item} (h : SameItem i j) (hs : SaysTime t i) : SaysTime t j := by
  cases t <;> exact same_leaf h hs trivial

theorem bits_same {b : BitString} {i j : Item} (h : SameItem i j) (hs : SaysBits b i) : SaysBits b j := same_leaf h hs trivial

theorem validity_same {v : Validity} {i j : Item} (h : SameItem i j) (hs : SaysValidity v i) : SaysValidity v j := by
  obtain ⟨a, b, h1, h2, h3⟩ := hs
  obtain ⟨l, g1, g2⟩ := same_sequence h h1
  obtain ⟨a', m, rfl, g3, g4⟩ := sameItems_cons g2
  obtain ⟨b', m, rfl, g5, g6⟩ := sameItems_cons g4
  obtain rfl := sameItems_nil g6
  exact ⟨a', b', g1, time_same g3 h2, time_same g5 h3⟩

theorem keyInfo_same {k : SubjectPublicKeyInfo} {i j : Item} (h : SameItem i j) (hs : SaysKeyInfo k i) :
    ∃ k', SaysKeyInfo k' j ∧ SameAlgorithm k.algorithm k'.algorithm ∧ k.subjectPublicKey = k'.subjectPublicKey := by
  obtain ⟨a, b, h1, h2, h3⟩ := hs
  obtain ⟨l, g1, g2⟩ := same_sequence h h1
  obtain ⟨a', m, rfl, g3, g4⟩ := sameItems_cons g2
  obtain ⟨b', m, rfl, g5, g6⟩ := sameItems_cons g4
  obtain rfl := sameItems_nil g6
  obtain ⟨al, x, y⟩ := algorithm_same g3 h2
  exact ⟨⟨al, k.subjectPublicKey⟩, ⟨a', b', g1, x, bits_same g5 h3⟩, y, rfl⟩

theorem extension_same {e : Extension} {i j : Item} (h : SameItem i j) (hs : SaysExtension e i) : SaysExtension e j := by
  obtain ⟨o, c, d, junk, h1, h2, h3, h4⟩ := hs
  obtain ⟨l, g1, g2⟩ := same_sequence h h1
  obtain ⟨o', m, rfl, g3, g4⟩ := sameItems_cons g2
  obtain ⟨c', m', rfl, g5, g6⟩ := sameItems_append (l := c) g4
  obtain ⟨d', junk', rfl, g7, g8⟩ := sameItems_cons g6
  refine ⟨o', c', d', junk', g1, same_leaf g3 h2 trivial, same_leaf g7 h3 trivial, ?_⟩
  rcases h4 with ⟨rfl, h4⟩ | ⟨x, rfl, h4⟩
  · obtain rfl := sameItems_nil g5; exact .inl ⟨rfl, h4⟩
  · obtain ⟨x', m, rfl, k1, k2⟩ := sameItems_cons g5
    obtain rfl := sameItems_nil k2
    exact .inr ⟨x', rfl, same_leaf k1 h4 trivial⟩

theorem extensions_same {es : List Extension} {l m : List Item} (h : SameItems l m) (hs : SaysExtensions es l) :
    SaysExtensions es m := by
  rcases hs with ⟨rfl, rfl⟩ | ⟨i, c, xs, rfl, h1, h2, h3⟩
  · obtain rfl := sameItems_nil h; exact .inl ⟨rfl, rfl⟩
  · obtain ⟨i', m, rfl, k1, k2⟩ := sameItems_cons h
    obtain rfl := sameItems_nil k2
    obtain ⟨c', k3, k4⟩ := same_contextSpecific k1 h1
    obtain ⟨ys, k5, k6⟩ := same_sequence k4 h2
    refine .inr ⟨i', c', ys, rfl, k3, k5, ?_⟩
    clear k5 h2
    induction h3 generalizing ys with
    | nil => obtain rfl := sameItems_nil k6; exact .nil
    | cons hr _ ih =>
      obtain ⟨e', m, rfl, g3, g4⟩ := sameItems_cons k6
      exact .cons (extension_same g3 hr) (ih m g4)

theorem versionList_same {v : Version} {l m : List Item} (h : SameItems l m) (hs : SaysVersion v l) : SaysVersion v m := by
  rcases hs with ⟨rfl, rfl⟩ | ⟨i, c, rfl, h1, h2⟩
  · obtain rfl := sameItems_nil h; exact .inl ⟨rfl, rfl⟩
  · obtain ⟨i', m, rfl, k1, k2⟩ := sameItems_cons h
    obtain rfl := sameItems_nil k2
    obtain ⟨c', k3, k4⟩ := same_contextSpecific k1 h1
    exact .inr ⟨i', c', rfl, k3, same_leaf k4 h2 trivial⟩

theorem tbs_same {t : TbsCertificate} {i j : Item} (h : SameItem i j) (hs : SaysTbs t i) : ∃ t', SaysTbs t' j ∧ SameTbs t t' := by
  obtain ⟨v, sn, sg, is, va, su, k, es, h1, hv, hn, hsg, his, hva, hsu, hk, he, hu1, hu2⟩ := hs
  obtain ⟨l, g1, g2⟩ := same_sequence h h1
  rw [List.append_assoc] at g2
  obtain ⟨v', m, rfl, g3, g4⟩ := sameItems_append g2
  obtain ⟨m, es', rfl, g4, g5⟩ := sameItems_append g4
  obtain ⟨sn', m, rfl, k1, g4⟩ := sameItems_cons g4
  obtain ⟨sg', m, rfl, k2, g4⟩ := sameItems_cons g4
  obtain ⟨is', m, rfl, k3, g4⟩ := sameItems_cons g4
  obtain ⟨va', m, rfl, k4, g4⟩ := sameItems_cons g4
  obtain ⟨su', m, rfl, k5, g4⟩ := sameItems_cons g4
  obtain ⟨k', m, rfl, k6, g4⟩ := sameItems_cons g4
  obtain rfl := sameItems_nil g4
  obtain ⟨sgo, a1, a2⟩ := algorithm_same k2 hsg
  obtain ⟨iso, b1, b2⟩ := name_same k3 his
  obtain ⟨suo, c1, c2⟩ := name_same k5 hsu
  obtain ⟨ko, d1, d2, d3⟩ := keyInfo_same k6 hk
  exact ⟨⟨t.version, t.serialNumber, sgo, iso, t.validity, suo, ko, none, none, t.extensions⟩,
    ⟨v', sn', sg', is', va', su', k', es', by simpa using g1, versionList_same g3 hv, same_leaf k1 hn trivial, a1, b1,
      validity_same k4 hva, c1, d1, extensions_same g5 he, rfl, rfl⟩,
    ⟨rfl, rfl, a2, b2, rfl, c2, d2, d3, hu1, hu2, rfl⟩⟩

theorem certificate_same {c : Certificate} {i j : Item} (h : SameItem i j) (hs : SaysCertificate c i) :
    ∃ c', SaysCertificate c' j ∧ SameCertificate c c' := by
  obtain ⟨t, a, s, h1, h2, h3, h4⟩ := hs
  obtain ⟨l, g1, g2⟩ := same_sequence h h1
  obtain ⟨t', m, rfl, k1, g2⟩ := sameItems_cons g2
  obtain ⟨a', m, rfl, k2, g2⟩ := sameItems_cons g2
  obtain ⟨s', m, rfl, k3, g2⟩ := sameItems_cons g2
  obtain rfl := sameItems_nil g2
  obtain ⟨tb, a1, a2⟩ := tbs_same k1 h2
  obtain ⟨ao, b1, b2⟩ := algorithm_same k2 h3
  exact ⟨⟨tb, ao, c.signatureValue⟩, ⟨t', a', s', g1, a1, b1, bits_same k3 h4⟩, ⟨a2, b2, rfl⟩⟩

end Ngfs.X509
