import Verif.Lemmas.X509Encode
import Verif.Lemmas.X509Safe

/-!
C51 (certificates as ASN.1 structures), C98 (as bytes), C99 (which structures are accepted), C100 (the signature of the
certificate authority), C101 (validity period and issuer).
-/
namespace Ngfs.X509
open Ngfs.Binary Ngfs.Asn1 Ngfs.Spec

/-- A certificate: v3, one attribute in each name, a critical and a plain extension. -/
def sample (critical : Bool) : Certificate :=
  ⟨⟨.v3, [1], ⟨[1, 3, 101, 112], none⟩, [⟨[2, 5, 4, 3], .ofValue (.utf8String "a")⟩],
    ⟨.utcTime "700101000000Z", .utcTime "710101000000Z"⟩, [⟨[2, 5, 4, 3], .ofValue (.utf8String "b")⟩],
    ⟨⟨[1, 3, 101, 112], some (.ofValue .null)⟩, ⟨0, [7]⟩⟩, none, none, [⟨[2, 5, 29, 19], critical, [9]⟩, ⟨[2, 5, 29, 15], false, []⟩]⟩,
    ⟨[1, 3, 101, 112], none⟩, ⟨0, [5]⟩⟩

/-! ### C51 -/

/-- **C51**: a certificate without unique identifiers, converted to its ASN.1 structure and back, is the same. -/
theorem C51_round_trip (c : Certificate) (h1 : c.tbsCertificate.issuerUniqueId = none)
    (h2 : c.tbsCertificate.subjectUniqueId = none) : Certificate.fromAsn1 c.toAsn1 = .ok c :=
  certificate_iff.mpr (says_certificate c h1 h2)

example : (sample true).tbsCertificate.issuerUniqueId = none ∧ (sample true).tbsCertificate.subjectUniqueId = none := ⟨rfl, rfl⟩

/-- **C51**: so is every certificate that was read: reading never yields unique identifiers. -/
theorem C51_read (i : Item) (c : Certificate) (h : Certificate.fromAsn1 i = .ok c) : Certificate.fromAsn1 c.toAsn1 = .ok c := by
  obtain ⟨t, a, s, -, ht, -, -⟩ := certificate_iff.mp h
  obtain ⟨_, _, _, _, _, _, _, _, -, -, -, -, -, -, -, -, -, h1, h2⟩ := ht
  exact C51_round_trip c h1 h2

example : ∃ i c, Certificate.fromAsn1 i = .ok c := ⟨_, _, C51_round_trip (sample true) rfl rfl⟩

/-- **C51** for the parts of a certificate. -/
theorem C51_parts (a : AlgorithmIdentifier) (v : Version) (n : List RelativeDistinguishedName) (t : Time) (p : Validity)
    (k : SubjectPublicKeyInfo) (e : Extension) :
    AlgorithmIdentifier.fromAsn1 a.toAsn1 = .ok a ∧ Version.fromAsn1 v.toAsn1 = .ok v ∧ Name.fromAsn1 (Name.toAsn1 n) = .ok n ∧
    Time.fromAsn1 t.toAsn1 = .ok t ∧ Validity.fromAsn1 p.toAsn1 = .ok p ∧ SubjectPublicKeyInfo.fromAsn1 k.toAsn1 = .ok k ∧
    Extension.fromAsn1 e.toAsn1 = .ok e :=
  ⟨algorithm_iff.mpr (says_algorithm a), version_iff.mpr (by cases v <;> rfl), name_iff.mpr (says_name n),
    time_iff.mpr (says_time t), validity_iff.mpr (says_validity p), keyInfo_iff.mpr (says_keyInfo k),
    extension_iff.mpr (says_extension e)⟩

/-- The unique identifiers are not written: with one, the certificate does not come back. -/
theorem C51_unique_identifiers_lost (c : Certificate) (h : c.tbsCertificate.issuerUniqueId ≠ none ∨
    c.tbsCertificate.subjectUniqueId ≠ none) : Certificate.fromAsn1 c.toAsn1 ≠ .ok c := by
  intro hc
  obtain ⟨t, a, s, -, ht, -, -⟩ := certificate_iff.mp hc
  obtain ⟨_, _, _, _, _, _, _, _, -, -, -, -, -, -, -, -, -, h1, h2⟩ := ht
  rcases h with h | h
  · exact h h1
  · exact h h2

/-! ### C98 -/

/-- **C98**: a certificate without unique identifiers, encoded and read back, says the same. -/
def C98_statement : Prop := ∀ c bs, c.tbsCertificate.issuerUniqueId = none → c.tbsCertificate.subjectUniqueId = none →
  encodeItem c.toAsn1 = .ok bs → bs.length < 2 ^ 32 → ∃ c', Certificate.fromBytes bs = .ok c' ∧ SameCertificate c c'

/-- **C98** but for the extensions, which all come back as not critical, and with anything behind the encoding. Missing:
critical extensions, and object identifiers and nested values that do not survive (C32, C64). -/
theorem C98_round_trip_partial (c : Certificate) (h : PortableTbs c.tbsCertificate) (ha : PortableAlgorithm c.signatureAlgorithm) :
    ∃ bs, encodeItem c.toAsn1 = .ok bs ∧ (bs.length < 2 ^ 32 → ∀ post : Bytes, (bs ++ post).length < 2 ^ 64 →
      ∃ c', Certificate.fromBytes (bs ++ post) = .ok c' ∧ SameCertificate (Certificate.uncritical c) c') := by
  obtain ⟨bi, bs, h1, h2, h3⟩ := readAll_sequence (portable_tbs h) (portable_algorithm ha) (portable_bits c.signatureValue)
  rw [← encode_certificate] at h2
  refine ⟨bs, h2, fun h32 post hl => ?_⟩
  obtain ⟨i', a', s', hr, s1, s2, s3, -⟩ := h3 h32 post hl
  obtain ⟨c', hs, hc⟩ := certificate_same (i := .ofValue (.sequence [c.tbsCertificate.written, c.signatureAlgorithm.toAsn1,
    c.signatureValue.toAsn1])) (j := .mk 0 bs.length (.sequence [i', a', s'])) (.mk (.sequence (.cons s1 (.cons s2 (.cons s3 .nil)))))
    (says_wrapped c.signatureAlgorithm c.signatureValue (says_tbs_written _ h.noIssuerId h.noSubjectId))
  refine ⟨c', ?_, hc⟩
  simp only [Certificate.fromBytes, hr, bind, Except.bind]
  exact certificate_iff.mpr hs

/-- **C98** for certificates without critical extensions. -/
theorem C98_no_critical_partial (c : Certificate) (h : PortableTbs c.tbsCertificate) (ha : PortableAlgorithm c.signatureAlgorithm)
    (hc : ∀ e ∈ c.tbsCertificate.extensions, e.critical = false) :
    ∃ bs, encodeItem c.toAsn1 = .ok bs ∧ (bs.length < 2 ^ 32 → ∀ post : Bytes, (bs ++ post).length < 2 ^ 64 →
      ∃ c', Certificate.fromBytes (bs ++ post) = .ok c' ∧ SameCertificate c c') := by
  have : Certificate.uncritical c = c := by
    obtain ⟨⟨ver, ser, sig, iss, val, sub, key, u1, u2, ext⟩, a, s⟩ := c
    simp only [Certificate.uncritical, TbsCertificate.uncritical, Certificate.mk.injEq, TbsCertificate.mk.injEq, and_true, true_and]
    conv => rhs; rw [← List.map_id ext]
    refine List.map_congr_left fun e he => ?_
    obtain ⟨x, y, z⟩ := e
    have := hc _ he
    simp only at this
    subst this
    rfl
  have h0 := C98_round_trip_partial c h ha
  rwa [this] at h0

theorem portableOid_of {x y : Nat} {rest : List Nat} (h : x ≤ 2 ∧ y < 40 ∧ ∀ n ∈ rest, n < 2 ^ 64) : PortableOid (x :: y :: rest) :=
  ⟨x, y, rest, rfl, h⟩

theorem sample_portable (b : Bool) : PortableTbs (sample b).tbsCertificate ∧ PortableAlgorithm (sample b).signatureAlgorithm := by
  have h1 : PortableOid [1, 3, 101, 112] := portableOid_of (by decide)
  have h2 : PortableName [⟨[2, 5, 4, 3], .ofValue (.utf8String "a")⟩] := by
    intro r hr
    obtain rfl := List.mem_singleton.mp hr
    exact ⟨portableOid_of (by decide), portable_leaf trivial ⟨trivial, trivial⟩⟩
  have h3 : PortableName [⟨[2, 5, 4, 3], .ofValue (.utf8String "b")⟩] := by
    intro r hr
    obtain rfl := List.mem_singleton.mp hr
    exact ⟨portableOid_of (by decide), portable_leaf trivial ⟨trivial, trivial⟩⟩
  refine ⟨⟨⟨h1, by simp [sample]⟩, h2, h3, ⟨h1, ?_⟩, ?_, rfl, rfl⟩, h1, by simp [sample]⟩
  · intro p hp
    simp only [sample, Option.mem_def, Option.some.injEq] at hp
    subst hp
    exact portable_leaf trivial ⟨trivial, trivial⟩
  · intro e he
    simp only [sample, List.mem_cons, List.not_mem_nil, or_false] at he
    rcases he with rfl | rfl <;> exact portableOid_of (by decide)

/-- The part of the sample that is signed, as bytes. -/
def sampleTbs : Bytes := [48, 116, 160, 3, 2, 1, 2, 2, 1, 1, 48, 5, 6, 3, 43, 101, 112, 48, 12, 49, 10, 48, 8, 6, 3, 85, 4, 3, 12, 1,
  97, 48, 30, 23, 13, 55, 48, 48, 49, 48, 49, 48, 48, 48, 48, 48, 48, 90, 23, 13, 55, 49, 48, 49, 48, 49, 48, 48, 48, 48,
  48, 48, 90, 48, 12, 49, 10, 48, 8, 6, 3, 85, 4, 3, 12, 1, 98, 48, 13, 48, 7, 6, 3, 43, 101, 112, 5, 0, 3, 2, 0, 7, 163,
  24, 48, 22, 48, 11, 6, 3, 85, 29, 19, 1, 1, 0, 4, 1, 9, 48, 7, 6, 3, 85, 29, 15, 4, 0]

/-- The sample as bytes. -/
def sampleBytes : Bytes := [48, 129, 129] ++ sampleTbs ++ [48, 5, 6, 3, 43, 101, 112, 3, 2, 0, 5]

theorem sample_length : sampleBytes.length = 132 := by decide +kernel

theorem var_small {n : Nat} (h : n < 128) : writeVarU64 n = [UInt8.ofNat n] := by
  rw [writeVarU64, varTemp, if_neg (by omega)]; simp

set_option maxRecDepth 20000 in
theorem sample_tbs : encodeItem (sample true).tbsCertificate.toAsn1 = .ok sampleTbs := by
  have e1 : encodeOid [1, 3, 101, 112] = .ok [43, 101, 112] := by simp [encodeOid, var_small]
  have e2 : encodeOid [2, 5, 4, 3] = .ok [85, 4, 3] := by simp [encodeOid, var_small]
  have e3 : encodeOid [2, 5, 29, 19] = .ok [85, 29, 19] := by simp [encodeOid, var_small]
  have e4 : encodeOid [2, 5, 29, 15] = .ok [85, 29, 15] := by simp [encodeOid, var_small]
  simp only [sample, TbsCertificate.toAsn1, Extension.toAsn1, Name.toAsn1, RelativeDistinguishedName.toAsn1, Version.toAsn1,
    AlgorithmIdentifier.toAsn1, Validity.toAsn1, Time.toAsn1, SubjectPublicKeyInfo.toAsn1, BitString.toAsn1, Item.ofValue,
    List.map, if_true, Option.toList, encodeItem, encodeValue, encodeItemList, e1, e2, e3, e4]
  rfl

set_option maxRecDepth 20000 in
theorem sample_bytes : encodeItem (sample true).toAsn1 = .ok sampleBytes := by
  have e1 : encodeOid [1, 3, 101, 112] = .ok [43, 101, 112] := by simp [encodeOid, var_small]
  simp only [Certificate.toAsn1, Item.ofValue, encodeItem, encodeValue, encodeItemList, sample_tbs]
  simp only [sample, AlgorithmIdentifier.toAsn1, BitString.toAsn1, Item.ofValue, Option.toList, encodeItem, encodeValue,
    encodeItemList, e1]
  rfl

/-- **C98** is false: a critical extension comes back as not critical. -/
theorem C98_false : ¬ C98_statement := by
  intro h
  obtain ⟨c', h1, h2⟩ := h (sample true) sampleBytes rfl rfl sample_bytes (by rw [sample_length]; decide)
  obtain ⟨bs, h3, h4⟩ := C98_round_trip_partial (sample true) (sample_portable true).1 (sample_portable true).2
  rw [sample_bytes] at h3
  cases h3
  obtain ⟨c'', h5, h6⟩ := h4 (by rw [sample_length]; decide) [] (by rw [List.append_nil, sample_length]; decide)
  rw [List.append_nil, h1] at h5
  cases h5
  have e1 := h2.tbsCertificate.extensions
  have e2 := h6.tbsCertificate.extensions
  rw [← e1] at e2
  simp [sample, Certificate.uncritical, TbsCertificate.uncritical] at e2

/-! ### C99 -/

/-- **C99**: exactly the structures of RFC 5280 are accepted. -/
def C99_statement : Prop := ∀ item, (∃ c, Certificate.fromAsn1 item = .ok c) ↔ WfCertificate item

/-- **C99** as far as it goes: exactly these structures are accepted, with this meaning. Missing: names with several
attributes in one component and unique identifiers, which are refused; elements behind an extension's value, which
are ignored. -/
theorem C99_accepted_partial (item : Item) (c : Certificate) : Certificate.fromAsn1 item = .ok c ↔ SaysCertificate c item :=
  certificate_iff

example : SaysCertificate (sample true) (sample true).toAsn1 := says_certificate _ rfl rfl

/-- A certificate structure with the given issuer, unique identifiers and extensions. -/
def structureWith (issuer : Item) (ids extensions : List Item) : Item :=
  .ofValue (.sequence [
    .ofValue (.sequence ([.ofValue (.integer [1]), (AlgorithmIdentifier.mk [1, 3, 101, 112] none).toAsn1, issuer,
      (Validity.mk (.utcTime "700101000000Z") (.utcTime "710101000000Z")).toAsn1, Name.toAsn1 [],
      (SubjectPublicKeyInfo.mk ⟨[1, 3, 101, 112], none⟩ ⟨0, [7]⟩).toAsn1] ++ ids ++ extensions)),
    (AlgorithmIdentifier.mk [1, 3, 101, 112] none).toAsn1, (BitString.mk 0 [5]).toAsn1])

theorem structureWith_wf {issuer : Item} {ids extensions : List Item} (h1 : WfName issuer) (h2 : WfUniqueId 1 ids)
    (h3 : WfExtensions extensions) : WfCertificate (structureWith issuer ids extensions) := by
  have ha : WfAlgorithm (AlgorithmIdentifier.mk [1, 3, 101, 112] none).toAsn1 := ⟨_, [], rfl, ⟨_, rfl⟩, by simp⟩
  refine ⟨_, _, _, _, _, rfl, ?_, ha, rfl⟩
  refine ⟨[], _, [1], _, issuer, _, _, _, ids, [], extensions, by simp only [Item.ofValue, Item.value, List.nil_append, List.append_nil, List.cons_append]; rfl, .inl rfl, rfl, ha, h1,
    ⟨_, _, rfl, ⟨_, .inl rfl⟩, ⟨_, .inl rfl⟩⟩, ⟨[], rfl, by simp⟩, ⟨_, _, _, _, rfl, ha, rfl⟩, h2, .inl rfl, h3⟩

/-- The attribute 2.5.4.3 with a value. -/
def nameAttr (s : String) : Item := .ofValue (.sequence [.ofValue (.objectIdentifier [2, 5, 4, 3]), .ofValue (.utf8String s)])

/-- **C99** is false: a name with two attributes in one component is refused. -/
theorem C99_false : ¬ C99_statement := by
  intro h
  have hw : WfCertificate (structureWith (.ofValue (.sequence [.ofValue (.set [nameAttr "a", nameAttr "b"])])) [] []) := by
    refine structureWith_wf ⟨_, rfl, fun e he => ?_⟩ (.inl rfl) (.inl rfl)
    obtain rfl := List.mem_singleton.mp he
    refine ⟨_, rfl, by simp, fun e he => ?_⟩
    simp only [List.mem_cons, List.not_mem_nil, or_false] at he
    rcases he with rfl | rfl <;> exact ⟨_, _, rfl, _, rfl⟩
  obtain ⟨c, hc⟩ := (h _).mpr hw
  have : Certificate.fromAsn1 (structureWith (.ofValue (.sequence [.ofValue (.set [nameAttr "a", nameAttr "b"])])) [] []) =
    .error (.type "exact set") := rfl
  rw [this] at hc
  cases hc

/-- Nor are unique identifiers accepted. -/
theorem C99_unique_identifier_refused : ∃ item, WfCertificate item ∧
    Certificate.fromAsn1 item = .error (.plain "Unexpected value for extension") :=
  ⟨structureWith (Name.toAsn1 []) [.ofValue (.unknown ⟨.contextSpecific, .primitive, 1⟩ 2)] [],
    structureWith_wf ⟨[], rfl, by simp⟩ (.inr ⟨_, rfl, _, rfl⟩) (.inl rfl), rfl⟩

/-- And an extension may have further elements that are not looked at. -/
theorem C99_junk_accepted : ∃ item c, Certificate.fromAsn1 item = .ok c ∧ ¬ WfCertificate item := by
  refine ⟨structureWith (Name.toAsn1 []) [] [.ofValue (.contextSpecific 3 (.ofValue (.sequence [.ofValue (.sequence
    [.ofValue (.objectIdentifier [2, 5, 29, 19]), .ofValue (.octetString []), .ofValue .null])])))], _, rfl, ?_⟩
  rintro ⟨t, a, s, u, bytes, h, ht, -, -⟩
  simp only [structureWith, Item.ofValue, Item.value, Value.sequence.injEq, List.cons.injEq] at h
  obtain ⟨rfl, -⟩ := h
  obtain ⟨v, sn, n, sg, is, va, su, k, i1, i2, ex, h, hv, hn, -, -, -, -, -, h1, h2, h3⟩ := ht
  simp only [Item.value, Value.sequence.injEq, List.append_nil] at h
  have hv' : v = [] := by
    rcases hv with rfl | ⟨i, c, m, rfl, hi, -⟩
    · rfl
    · simp only [List.cons_append, List.cons.injEq] at h
      rw [← h.1] at hi
      simp [Item.value] at hi
  subst hv'
  simp only [List.nil_append, List.cons_append, List.cons.injEq] at h
  obtain ⟨-, -, -, -, -, -, h⟩ := h
  have hi1 : i1 = [] := by
    rcases h1 with rfl | ⟨i, rfl, m, hi⟩
    · rfl
    · simp only [List.cons_append, List.cons.injEq] at h
      rw [← h.1] at hi
      simp [Item.value] at hi
  subst hi1
  have hi2 : i2 = [] := by
    rcases h2 with rfl | ⟨i, rfl, m, hi⟩
    · rfl
    · simp only [List.nil_append, List.cons_append, List.cons.injEq] at h
      rw [← h.1] at hi
      simp [Item.value] at hi
  subst hi2
  simp only [List.nil_append] at h
  subst h
  rcases h3 with h | ⟨i, c, es, h, h4, h5, h6⟩
  · simp at h
  · simp only [List.cons.injEq, and_true] at h
    subst h
    simp only [Item.value, Value.contextSpecific.injEq, true_and] at h4
    subst h4
    simp only [Item.value, Value.sequence.injEq] at h5
    subst h5
    obtain ⟨o, cr, d, b, h7, -, h8, h9⟩ := h6 _ (List.mem_singleton.mpr rfl)
    simp only [Item.value, Value.sequence.injEq] at h7
    have := congrArg List.getLast? h7
    simp only [List.getLast?_cons_cons, List.getLast?_singleton, List.getLast?_append, Option.some_or, Option.some.injEq] at this
    rw [← this] at h8
    simp [Item.value] at h8

/-! ### C100 -/

theorem sigAlg_iff (oid : List Nat) (alg : SigAlg) : sigAlgOf oid = some alg ↔ oid = signatureOid alg := by
  constructor
  · intro h
    unfold sigAlgOf at h
    repeat' split at h
    all_goals first | (simp only [Option.some.injEq] at h; subst h; assumption) | simp at h
  · rintro rfl
    cases alg <;> rfl

theorem orInvalid_iff {α : Type} {x : Except PErr α} {a : α} : orInvalid x = .ok a ↔ x = .ok a := by
  rcases x with (_ | _ | _ | _) | _ <;> simp [orInvalid]

theorem readAll_iff {data : Bytes} {item : Item} : readAll data = .ok item ↔ ∃ r, readItem ⟨data, 0⟩ = (.ok item, r) := by
  constructor
  · intro h
    unfold readAll at h
    rcases hr : readItem ⟨data, 0⟩ with ⟨res, r⟩
    rw [hr] at h
    rcases res with e | i
    · cases e <;> simp at h
    · simp only [Except.ok.injEq] at h
      subst h
      exact ⟨r, rfl⟩
  · rintro ⟨r, h⟩; exact readAll_ok h

/-- **C100**: what it means that a certificate is accepted with a certificate authority: both are certificates, and the
authority's key made the signature over the signed part of the certificate as it came. -/
theorem C100_accepted (verify : SigAlg → Bytes → Bytes → Bytes → Bool) (caRaw raw : Bytes)
    (h : verifyCertificate verify caRaw raw = .ok ()) :
    ∃ ca c, Certificate.fromBytes caRaw = .ok ca ∧ Certificate.fromBytes raw = .ok c ∧ SignedBy verify ca c raw := by
  simp only [verifyCertificate, bind_ok', orInvalid_iff, asExactSequence_iff, index_iff, tbs_iff, algorithm_iff, asBitString_iff] at h
  obtain ⟨ca, hca, item, hitem, l, ⟨hl, hlen⟩, e0, he0, t, ht, e1, he1, a, ha, e2, he2, s, hs, h⟩ := h
  match l, hlen with
  | [x, y, z], _ =>
    simp at he0 he1 he2
    subst he0 he1 he2
    have hc : SaysCertificate ⟨t, a, s⟩ item := ⟨_, _, _, hl, ht, ha, hs⟩
    refine ⟨ca, ⟨t, a, s⟩, hca, ?_, ⟨?_⟩⟩
    · simp only [Certificate.fromBytes, hitem, bind, Except.bind]
      exact certificate_iff.mpr hc
    · split at h
      · simp at h
      · rename_i alg halg
        split at h
        · rename_i hb
          split at h
          · rename_i hv
            obtain ⟨r, hr⟩ := readAll_iff.mp hitem
            have hpart : Part x item := by
              obtain ⟨p, q, v⟩ := item
              simp only [Item.value] at hl
              subst hl
              exact .sequence (by simp) .here
            obtain ⟨d, hd, hrd⟩ := C63_slice raw 0 (Nat.zero_le _) item r hr x hpart
            obtain ⟨t', ht', hsame⟩ := tbs_same hd ht
            refine ⟨raw.take x.start, slice raw x.start x.stop, raw.drop x.stop, d, t', alg, ?_, hrd, ht', hsame,
              (sigAlg_iff _ _).mp halg, hv⟩
            rw [slice, List.append_assoc]
            have h1 : raw.drop x.start = (raw.drop x.start).take (x.stop - x.start) ++ raw.drop x.stop := by
              conv => lhs; rw [← List.take_append_drop (x.stop - x.start) (raw.drop x.start)]
              rw [List.drop_drop, Nat.add_sub_cancel' hb.1]
            rw [← h1, List.take_append_drop]
          · simp at h
        · simp at h

/-- **C100**: and every certificate with such a signature is accepted, if it can be written. -/
theorem C100_signed_accepted (verify : SigAlg → Bytes → Bytes → Bytes → Bool) (caRaw : Bytes) (ca : Certificate)
    (hca : Certificate.fromBytes caRaw = .ok ca) (c : Certificate) (h : PortableTbs c.tbsCertificate)
    (ha : PortableAlgorithm c.signatureAlgorithm) (alg : SigAlg) (halg : c.signatureAlgorithm.algorithm = signatureOid alg)
    (bytes raw : Bytes) (hb : encodeItem c.tbsCertificate.toAsn1 = .ok bytes) (hraw : encodeItem c.toAsn1 = .ok raw)
    (hl : raw.length < 2 ^ 32) (hv : verify alg (keyOf ca) bytes c.signatureValue.bytes = true) :
    verifyCertificate verify caRaw raw = .ok () := by
  obtain ⟨bi, bs, h1, h2, h3⟩ := readAll_sequence (portable_tbs h) (portable_algorithm ha) (portable_bits c.signatureValue)
  rw [← encode_certificate, hraw] at h2
  rw [← encode_tbs, hb] at h1
  cases h1
  cases h2
  obtain ⟨i', a', s', hr, s1, s2, s3, p1, p2, p3⟩ := h3 hl [] (by simpa using Nat.lt_trans hl (by decide))
  rw [List.append_nil] at hr p3
  obtain ⟨t', ht, -⟩ := tbs_same s1 (says_tbs_written _ h.noIssuerId h.noSubjectId)
  obtain ⟨al', hal, hsame⟩ := algorithm_same s2 (says_algorithm c.signatureAlgorithm)
  have hbits := bits_same s3 (says_bits c.signatureValue)
  simp only [verifyCertificate, bind_ok', orInvalid_iff, asExactSequence_iff, index_iff, tbs_iff, algorithm_iff, asBitString_iff]
  refine ⟨ca, hca, _, hr, _, ⟨rfl, rfl⟩, i', rfl, t', ht, a', rfl, al', hal, s', rfl, _, hbits, ?_⟩
  have : sigAlgOf al'.algorithm = some alg := (sigAlg_iff _ _).mpr (by rw [← hsame.1, halg])
  simp only [this]
  rw [if_pos ⟨p1, p2⟩, p3]
  simp only [keyOf] at hv
  rw [hv]
  rfl

theorem sample_read : ∃ ca, Certificate.fromBytes sampleBytes = .ok ca ∧ keyOf ca = [7] := by
  obtain ⟨bs, h3, h4⟩ := C98_round_trip_partial (sample true) (sample_portable true).1 (sample_portable true).2
  rw [sample_bytes] at h3
  cases h3
  obtain ⟨c'', h5, h6⟩ := h4 (by rw [sample_length]; decide) [] (by rw [List.append_nil, sample_length]; decide)
  rw [List.append_nil] at h5
  exact ⟨c'', h5, by rw [keyOf, ← h6.tbsCertificate.key]; rfl⟩

/-- The sample is accepted with itself as the authority, by a check that knows this one signature. -/
theorem sample_accepted : verifyCertificate (fun alg key msg sig => alg == .ed25519 && key == [7] && msg == sampleTbs && sig == [5])
    sampleBytes sampleBytes = .ok () := by
  obtain ⟨ca, hca, hk⟩ := sample_read
  exact C100_signed_accepted _ _ ca hca (sample true) (sample_portable true).1 (sample_portable true).2 .ed25519 rfl sampleTbs
    sampleBytes sample_tbs sample_bytes (by rw [sample_length]; decide) (by rw [hk]; decide +kernel)

/-- **C100**: the check does not panic. -/
theorem C100_no_panic (verify : SigAlg → Bytes → Bytes → Bytes → Bool) (caRaw raw : Bytes) :
    verifyCertificate verify caRaw raw ≠ .error .panic := by
  refine vp_bind (np_orInvalid np_fromBytes) (fun ca _ => vp_bind (np_orInvalid np_readAll) (fun item hitem =>
    vp_bind (np_orInvalid np_asExactSequence) (fun l hl => ?_)))
  rw [orInvalid_iff] at hl hitem
  have hlen := len_sequence hl
  have hi : ∀ {i : Nat}, i < 3 → orInvalid (index l i) ≠ .error .panic := fun h => np_orInvalid (np_index (by rw [hlen]; exact h))
  refine vp_bind (hi (by decide)) (fun e0 he0 => vp_bind (np_orInvalid np_tbs) (fun t _ => vp_bind (hi (by decide)) (fun e1 _ =>
    vp_bind (np_orInvalid np_algorithm) (fun a _ => vp_bind (hi (by decide)) (fun e2 _ =>
      vp_bind (np_orInvalid np_asBitString) (fun s _ => ?_))))))
  split
  · nofun
  · split
    · split <;> nofun
    · rename_i hb
      refine absurd ?_ hb
      rw [orInvalid_iff, index_iff] at he0
      obtain ⟨r, hr⟩ := readAll_iff.mp hitem
      have hpart : Part e0 item := by
        obtain ⟨p, q, v⟩ := item
        have := (asExactSequence_iff.mp hl).1
        simp only [Item.value] at this
        subst this
        exact .sequence (List.mem_of_getElem? he0) .here
      obtain ⟨-, -, h1, h2⟩ := C63_ranges raw 0 (Nat.zero_le _) item r hr
      have := h2 e0 hpart
      exact ⟨by omega, by omega⟩

example : verifyCertificate (fun _ _ _ _ => true) [] [] = .error .invalidCertificate := rfl

/-! ### C101 -/

/-- **C101**: a certificate is accepted at time `now` only if it is valid then and was issued in the name of the authority.
(Times of the same form, `YYMMDDhhmmssZ`, compare as texts.) -/
def C101_statement : Prop := ∀ verify caRaw raw ca c (now start stop : String),
  verifyCertificate verify caRaw raw = .ok () → Certificate.fromBytes caRaw = .ok ca → Certificate.fromBytes raw = .ok c →
  c.tbsCertificate.validity = ⟨.utcTime start, .utcTime stop⟩ →
  (start ≤ now ∧ now ≤ stop) ∧ SameName c.tbsCertificate.issuer ca.tbsCertificate.subject

/-- **C101** is false: neither the time nor the names are looked at. -/
theorem C101_false : ¬ C101_statement := by
  intro h
  obtain ⟨bs, h3, h4⟩ := C98_round_trip_partial (sample true) (sample_portable true).1 (sample_portable true).2
  rw [sample_bytes] at h3
  cases h3
  obtain ⟨ca, hca, hs⟩ := h4 (by rw [sample_length]; decide) [] (by rw [List.append_nil, sample_length]; decide)
  rw [List.append_nil] at hca
  have := (h _ _ _ ca ca "990101000000Z" "700101000000Z" "710101000000Z" sample_accepted hca hca
    (by rw [← hs.tbsCertificate.validity]; rfl)).1.2
  revert this
  decide

/-- **C101** is false for the names alone: a certificate that names "a" as its issuer is accepted with the authority "b". -/
theorem C101_issuer_ignored : ∃ verify caRaw raw ca c, verifyCertificate verify caRaw raw = .ok () ∧
    Certificate.fromBytes caRaw = .ok ca ∧ Certificate.fromBytes raw = .ok c ∧
    ¬ SameName c.tbsCertificate.issuer ca.tbsCertificate.subject := by
  obtain ⟨bs, h3, h4⟩ := C98_round_trip_partial (sample true) (sample_portable true).1 (sample_portable true).2
  rw [sample_bytes] at h3
  cases h3
  obtain ⟨ca, hca, hs⟩ := h4 (by rw [sample_length]; decide) [] (by rw [List.append_nil, sample_length]; decide)
  rw [List.append_nil] at hca
  refine ⟨_, _, _, ca, ca, sample_accepted, hca, hca, fun h => ?_⟩
  have h1 := hs.tbsCertificate.issuer
  have h2 := hs.tbsCertificate.subject
  generalize ca.tbsCertificate.issuer = x at h h1
  generalize ca.tbsCertificate.subject = y at h h2
  cases h1 with | cons a1 t1 =>
  cases h2 with | cons a2 t2 =>
  cases h with | cons a3 t3 =>
  have text : ∀ {i j : Item} {s : String}, SameItem i j → (i.value = .utf8String s ↔ j.value = .utf8String s) := by
    intro i j s h
    cases h with | mk h =>
    cases h <;> exact Iff.rfl.trans (by simp [Item.value])
  have := ((text a2.2).mpr ((text a3.2).mp ((text a1.2).mp (rfl : _ = Value.utf8String "a"))))
  exact absurd this (by simp [Item.ofValue, Item.value])

end Ngfs.X509
