import Verif.Lemmas.X509
import Verif.Props.Asn1

/-! Helper lemmas about certificates as bytes. No claims here. -/
namespace Ngfs.X509
open Ngfs.Binary Ngfs.Asn1 Ngfs.Spec

/-- What an extension's bytes say: a critical extension has an explicit `false`. -/
def Extension.written (e : Extension) : Item :=
  .ofValue (.sequence (.ofValue (.objectIdentifier e.id) ::
    ((if e.critical then [.ofValue (.boolean false)] else []) ++ [.ofValue (.octetString e.data)])))

/-- `TbsCertificate.toAsn1` with the extensions as their bytes say. -/
def TbsCertificate.written (t : TbsCertificate) : Item :=
  .ofValue (.sequence [
    .ofValue (.contextSpecific 0 t.version.toAsn1),
    .ofValue (.integer t.serialNumber),
    t.signature.toAsn1,
    Name.toAsn1 t.issuer,
    t.validity.toAsn1,
    Name.toAsn1 t.subject,
    t.subjectPublicKeyInfo.toAsn1,
    .ofValue (.contextSpecific 3 (.ofValue (.sequence (t.extensions.map Extension.written))))])

theorem says_extension_written (e : Extension) : SaysExtension ⟨e.id, false, e.data⟩ e.written := by
  obtain ⟨id, c, d⟩ := e
  cases c
  · exact ⟨_, [], _, [], rfl, rfl, rfl, .inl ⟨rfl, rfl⟩⟩
  · exact ⟨_, [_], _, [], rfl, rfl, rfl, .inr ⟨_, rfl, rfl⟩⟩

theorem says_tbs_written (t : TbsCertificate) (h1 : t.issuerUniqueId = none) (h2 : t.subjectUniqueId = none) :
    SaysTbs (TbsCertificate.uncritical t) t.written := by
  refine ⟨_, _, _, _, _, _, _, _, rfl, says_version _, rfl, says_algorithm _, says_name _, says_validity _, says_name _,
    says_keyInfo _, ?_, h1, h2⟩
  refine .inr ⟨_, _, _, rfl, rfl, rfl, ?_⟩
  simp only [TbsCertificate.uncritical]
  induction t.extensions with
  | nil => exact .nil
  | cons e es ih => exact .cons (says_extension_written e) ih

theorem encode_extension (e : Extension) : encodeItem e.toAsn1 = encodeItem e.written := by
  obtain ⟨id, c, d⟩ := e
  cases c <;> simp [Extension.toAsn1, Extension.written, Item.ofValue, encodeItem, encodeValue, encodeItemList]

theorem encode_map {α : Type} {f g : α → Item} (h : ∀ a, encodeItem (f a) = encodeItem (g a)) :
    ∀ l : List α, encodeItemList (l.map f) = encodeItemList (l.map g)
  | [] => rfl
  | a :: l => by simp only [List.map_cons, encodeItemList, h a, encode_map h l]

theorem encode_tbs (t : TbsCertificate) : encodeItem t.toAsn1 = encodeItem t.written := by
  simp only [TbsCertificate.toAsn1, TbsCertificate.written, Item.ofValue, encodeItem, encodeValue, encodeItemList,
    encode_map encode_extension]

theorem portable_leaf {v : Value} (hl : Leaf v) (h : Writable v ∧ Readable v) : Portable (.ofValue v) := by
  intro w hw
  cases hw with
  | here => exact h
  | _ => cases hl

theorem portable_sequence {l : List Item} (h : ∀ i ∈ l, Portable i) : Portable (.ofValue (.sequence l)) := by
  intro w hw
  cases hw with
  | here => exact ⟨trivial, trivial⟩
  | sequence hi ho => exact h _ hi _ ho

theorem portable_set {l : List Item} (h : ∀ i ∈ l, Portable i) : Portable (.ofValue (.set l)) := by
  intro w hw
  cases hw with
  | here => exact ⟨trivial, trivial⟩
  | set hi ho => exact h _ hi _ ho

theorem portable_tag {n : Nat} {i : Item} (hn : n ≤ 30) (h : Portable i) : Portable (.ofValue (.contextSpecific n i)) := by
  intro w hw
  cases hw with
  | here => exact ⟨hn, trivial⟩
  | contextSpecific ho => exact h _ ho

theorem portable_oid {oid : List Nat} (h : PortableOid oid) : Portable (.ofValue (.objectIdentifier oid)) := by
  obtain ⟨x, y, rest, rfl, hx, hy, hr⟩ := h
  exact portable_leaf trivial ⟨⟨hx, fun _ => hy, by omega⟩, hy, by omega, hr⟩

theorem portable_algorithm {a : AlgorithmIdentifier} (h : PortableAlgorithm a) : Portable a.toAsn1 := by
  refine portable_sequence fun i hi => ?_
  rcases List.mem_cons.mp hi with rfl | hi
  · exact portable_oid h.1
  · exact h.2 i (by simpa using hi)

theorem portable_name {n : List RelativeDistinguishedName} (h : PortableName n) : Portable (Name.toAsn1 n) := by
  refine portable_sequence fun i hi => ?_
  obtain ⟨r, hr, rfl⟩ := List.mem_map.mp hi
  refine portable_set fun i hi => ?_
  obtain rfl := List.mem_singleton.mp hi
  refine portable_sequence fun i hi => ?_
  simp only [List.mem_cons, List.not_mem_nil, or_false] at hi
  rcases hi with rfl | rfl
  · exact portable_oid (h r hr).1
  · exact (h r hr).2

theorem portable_time (t : Time) : Portable t.toAsn1 := by cases t <;> exact portable_leaf trivial ⟨trivial, trivial⟩

theorem portable_validity (v : Validity) : Portable v.toAsn1 := by
  refine portable_sequence fun i hi => ?_
  simp only [List.mem_cons, List.not_mem_nil, or_false] at hi
  rcases hi with rfl | rfl <;> exact portable_time _

theorem portable_bits (b : BitString) : Portable b.toAsn1 := portable_leaf trivial ⟨trivial, trivial⟩

theorem portable_keyInfo {k : SubjectPublicKeyInfo} (h : PortableAlgorithm k.algorithm) : Portable k.toAsn1 := by
  refine portable_sequence fun i hi => ?_
  simp only [List.mem_cons, List.not_mem_nil, or_false] at hi
  rcases hi with rfl | rfl
  · exact portable_algorithm h
  · exact portable_bits _

theorem portable_extension {e : Extension} (h : PortableOid e.id) : Portable e.written := by
  refine portable_sequence fun i hi => ?_
  obtain ⟨id, c, d⟩ := e
  cases c
  · simp only [Bool.false_eq_true, if_false, List.nil_append, List.mem_cons, List.not_mem_nil, or_false] at hi
    rcases hi with rfl | rfl
    · exact portable_oid h
    · exact portable_leaf trivial ⟨trivial, trivial⟩
  · simp only [if_true, List.cons_append, List.nil_append, List.mem_cons, List.not_mem_nil, or_false] at hi
    rcases hi with rfl | rfl | rfl
    · exact portable_oid h
    · exact portable_leaf trivial ⟨rfl, trivial⟩
    · exact portable_leaf trivial ⟨trivial, trivial⟩

theorem portable_version (v : Version) : Portable v.toAsn1 := by cases v <;> exact portable_leaf trivial ⟨trivial, trivial⟩

theorem portable_tbs {t : TbsCertificate} (h : PortableTbs t) : Portable t.written := by
  refine portable_sequence fun i hi => ?_
  simp only [List.mem_cons, List.not_mem_nil, or_false] at hi
  rcases hi with rfl | rfl | rfl | rfl | rfl | rfl | rfl | rfl
  · exact portable_tag (by decide) (portable_version _)
  · exact portable_leaf trivial ⟨trivial, trivial⟩
  · exact portable_algorithm h.signature
  · exact portable_name h.issuer
  · exact portable_validity _
  · exact portable_name h.subject
  · exact portable_keyInfo h.key
  · refine portable_tag (by decide) (portable_sequence fun i hi => ?_)
    obtain ⟨e, he, rfl⟩ := List.mem_map.mp hi
    exact portable_extension (h.extensions e he)

/-- The written certificate around any part to sign. -/
theorem says_wrapped {t : TbsCertificate} {i : Item} (a : AlgorithmIdentifier) (s : BitString) (h : SaysTbs t i) :
    SaysCertificate ⟨t, a, s⟩ (.ofValue (.sequence [i, a.toAsn1, s.toAsn1])) :=
  ⟨_, _, _, rfl, h, says_algorithm _, says_bits _⟩

theorem portable_wrapped {i : Item} {a : AlgorithmIdentifier} {s : BitString} (hi : Portable i) (ha : PortableAlgorithm a) :
    Portable (.ofValue (.sequence [i, a.toAsn1, s.toAsn1])) := by
  refine portable_sequence fun j hj => ?_
  simp only [List.mem_cons, List.not_mem_nil, or_false] at hj
  rcases hj with rfl | rfl | rfl
  · exact hi
  · exact portable_algorithm ha
  · exact portable_bits _

theorem encode_certificate (c : Certificate) : encodeItem c.toAsn1 =
    encodeItem (.ofValue (.sequence [c.tbsCertificate.written, c.signatureAlgorithm.toAsn1, c.signatureValue.toAsn1])) := by
  simp only [Certificate.toAsn1, Item.ofValue, encodeItem, encodeValue, encodeItemList, encode_tbs]

theorem readAll_ok {data : Bytes} {item : Item} {r : Reader} (h : readItem ⟨data, 0⟩ = (.ok item, r)) : readAll data = .ok item := by
  simp only [readAll, h]

/-- A sequence of three: what is encoded and read back, and where the bytes of the first part lie. -/
theorem readAll_sequence {i a s : Item} (hi : Portable i) (ha : Portable a) (hs : Portable s) :
    ∃ bi bs, encodeItem i = .ok bi ∧ encodeItem (.ofValue (.sequence [i, a, s])) = .ok bs ∧
      (bs.length < 2 ^ 32 → ∀ post : Bytes, (bs ++ post).length < 2 ^ 64 → ∃ i' a' s',
        readAll (bs ++ post) = .ok (.mk 0 bs.length (.sequence [i', a', s'])) ∧ SameItem i i' ∧ SameItem a a' ∧ SameItem s s' ∧
        i'.start ≤ i'.stop ∧ i'.stop ≤ bs.length ∧ slice (bs ++ post) i'.start i'.stop = bi) := by
  obtain ⟨bi, i1, i2⟩ := enc_item i fun v hv => (hi v hv).1
  obtain ⟨ba, a1, a2⟩ := enc_item a fun v hv => (ha v hv).1
  obtain ⟨bt, t1, t2⟩ := enc_item s fun v hv => (hs v hv).1
  obtain ⟨bs, h1, h2, h3⟩ := encodeRaw_ok 0 true 16 (bi ++ (ba ++ (bt ++ []))) (by decide) (by decide)
  have he : encodeItem (.ofValue (.sequence [i, a, s])) = .ok bs := by
    rw [Item.ofValue, encodeItem, encodeValue]
    simp only [encodeItemList, i1, a1, t1, bind, Except.bind, pure, Except.pure]
    exact h1
  refine ⟨bi, bs, i1, he, fun h32 post hl => ?_⟩
  simp only [List.length_append, List.length_nil] at h2
  have h64 : bs.length < 2 ^ 64 := Nat.lt_trans h32 (by decide)
  obtain ⟨o, ho⟩ : ∃ o, o + (bi ++ (ba ++ (bt ++ []))).length = bs.length := ⟨bs.length - (bi ++ (ba ++ (bt ++ []))).length, by
    simp only [List.length_append, List.length_nil]; omega⟩
  have ho' : 0 + bs.length - (bi ++ (ba ++ (bt ++ []))).length = o := by omega
  obtain ⟨i', s1, d1⟩ := i2 (by omega) o
  obtain ⟨a', s2, d2⟩ := a2 (by omega) (o + bi.length)
  obtain ⟨t', s3, d3⟩ := t2 (by omega) (o + bi.length + ba.length)
  have ht := h3 (by simp only [List.length_append, List.length_nil]; omega)
  have hd : DerItem 0 (.mk 0 (0 + bs.length) (.sequence [i', a', t'])) bs :=
    .mk (.sequence (by rw [ho']; exact .cons d1 (.cons d2 (.cons d3 .nil))) ht)
  have hsame : SameItem (.ofValue (.sequence [i, a, s])) (.mk 0 (0 + bs.length) (.sequence [i', a', t'])) :=
    .mk (.sequence (.cons s1 (.cons s2 (.cons s3 .nil))))
  have hr := readItem_der hd (readable_same hsame (fun v hv => by
    have : Portable (.ofValue (.sequence [i, a, s])) := portable_sequence fun j hj => by
      simp only [List.mem_cons, List.not_mem_nil, or_false] at hj
      rcases hj with rfl | rfl | rfl
      · exact hi
      · exact ha
      · exact hs
    exact (this v hv).2)) h32 [] post rfl (by simpa using hl)
  simp only [List.nil_append, Nat.zero_add] at hr
  have hpos : i'.start = o ∧ i'.stop = o + bi.length := by cases d1; exact ⟨rfl, rfl⟩
  refine ⟨i', a', t', readAll_ok hr, s1, s2, s3, by omega, ?_, ?_⟩
  · simp only [List.length_append, List.length_nil] at ho; omega
  · obtain ⟨-, len, -, hb⟩ := ht
    have hlen : o = (len.length + 1) := by
      have := congrArg List.length hb
      simp only [List.length_append, List.length_nil, List.length_cons] at this ho
      omega
    rw [hpos.1, hpos.2, slice, Nat.add_sub_cancel_left, hb, hlen]
    simp

end Ngfs.X509
