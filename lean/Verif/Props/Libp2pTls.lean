import Verif.Lemmas.Libp2pTls
import Verif.Props.Pem

/-!
C102 (the certificate of a libp2p host), C103 (the certificate tool).
-/
namespace Ngfs.X509
open Ngfs.Binary Ngfs.Asn1 Ngfs.Spec Ngfs.Identify

/-! ### C102 -/

/-- Ed25519: keys have 32 bytes, signatures 64, and what is signed verifies. -/
structure KeyPair.Ed25519 (verify : SigAlg → Bytes → Bytes → Bytes → Bool) (k : KeyPair) : Prop where
  key : k.publicKey.length = 32
  signature : ∀ m, (k.sign m).length = 64
  correct : ∀ m, verify .ed25519 k.publicKey m (k.sign m) = true

theorem encode_ok {i : Item} {bs : Bytes} (h : encodeItem i = .ok bs) : encode i = .ok bs := by simp only [encode, h]

theorem ok_bind {ε α β : Type} {x : Except ε α} {f : α → Except ε β} {a : α} (h : x = .ok a) : (x >>= f) = f a := by rw [h]; rfl

/-- **C102**: the certificate that is generated for a host proves the host's identity as the libp2p specification demands,
and the TLS client accepts it as its own authority. The times in it are those that it was given. -/
theorem C102_generated (verify : SigAlg → Bytes → Bytes → Bytes → Bool) (x h : KeyPair) (hx : x.Ed25519 verify)
    (hh : h.Ed25519 verify) (notBefore notAfter : String) (h1 : (utf8Encode notBefore).length ≤ 1000)
    (h2 : (utf8Encode notAfter).length ≤ 1000) :
    ∃ raw c, generateCertificate notBefore notAfter x h = .ok raw ∧ ProvesHost verify raw x.publicKey h.publicKey c ∧
      verifyCertificate verify raw raw = .ok () ∧
      c.tbsCertificate.validity = ⟨.generalizedTime notBefore, .generalizedTime notAfter⟩ := by
  -- the signature of the host
  have hm : makeSignature x h = .ok (h.sign (hostSigned x.publicKey)) := by
    simp only [makeSignature, encode_ok (encode_info hx.key), bind, Except.bind]
    rw [signature_prefix]
    rfl
  -- the extension
  have hlen : ([8, 1, 18, 32] ++ h.publicKey : Bytes).length = 36 := by rw [List.length_append, hh.key]; rfl
  obtain ⟨ext, e1, e2⟩ := fits_sequence (fit_cons (fits_octets ([8, 1, 18, 32] ++ h.publicKey))
    (fit_cons (fits_octets (h.sign (hostSigned x.publicKey))) fit_nil))
  rw [hlen, hh.signature] at e2
  have hext : generateLibp2pExt h.publicKey (h.sign (hostSigned x.publicKey)) = .ok ext := by
    simp only [generateLibp2pExt, encode_key hh.key]
    exact encode_ok e1
  have hread : SignedKey ext ⟨.ed25519, h.publicKey⟩ (h.sign (hostSigned x.publicKey)) := by
    obtain ⟨bs, b1, b2⟩ := C32_round_trip_partial _ (portable_sequence (l := [.ofValue (.octetString ([8, 1, 18, 32] ++ h.publicKey)),
      .ofValue (.octetString (h.sign (hostSigned x.publicKey)))]) (fun i hi => by
        simp only [List.mem_cons, List.not_mem_nil, or_false] at hi
        rcases hi with rfl | rfl <;> exact portable_leaf trivial ⟨trivial, trivial⟩))
    rw [e1] at b1
    cases b1
    obtain ⟨i', s, r⟩ := b2 (by omega) [] [] (by simp; omega)
    simp only [List.nil_append, List.append_nil, List.length_nil, Nat.zero_add] at r
    obtain ⟨l, g1, g2⟩ := same_sequence s rfl
    obtain ⟨a', m, rfl, g3, g4⟩ := sameItems_cons g2
    obtain ⟨b', m, rfl, g5, g6⟩ := sameItems_cons g4
    cases g6
    have ha := same_leaf g3 rfl trivial
    have hb := same_leaf g5 rfl trivial
    obtain ⟨p0, q0, v0⟩ := i'
    obtain ⟨p1, q1, v1⟩ := a'
    obtain ⟨p2, q2, v2⟩ := b'
    simp only [Item.value] at g1 ha hb
    subst g1 ha hb
    refine ⟨_, _, _, _, _, _, _, r, ?_⟩
    obtain ⟨out, o1, o2⟩ := C12_public_key_round_trip ⟨.ed25519, h.publicKey⟩
    rw [encode_key hh.key] at o1
    cases o1
    exact o2 (by omega)
  -- the certificate
  have hp := libp2p_portable notBefore notAfter x.publicKey ext
  obtain ⟨tbs, t1, t2⟩ : Fits (libp2pTbs notBefore notAfter x.publicKey ext).toAsn1 5000 := by
    refine fits_le (fits_sequence (fit_cons (fits_tag (by decide) (fits_integer [2])) (fit_cons (fits_integer [1])
      (fit_cons fits_algorithm (fit_cons fits_name (fit_cons (fits_sequence (fit_cons (fits_time (n := 1000) ?_)
        (fit_cons (fits_time (n := 1000) ?_) fit_nil))) (fit_cons fits_name (fit_cons (fits_sequence (fit_cons fits_algorithm
          (fit_cons (fits_bits _) fit_nil))) (fit_cons (fits_tag (by decide) (fits_sequence (fit_cons (fits_sequence (fit_cons
            (fits_oid libp2p_oid) (fit_cons (fits_boolean true) (fit_cons (fits_octets ext) fit_nil)))) fit_nil)))
              fit_nil))))))))) ?_
    · intro s hs
      simpa [libp2pTbs] using (show (utf8Encode s).length ≤ 1000 by rcases hs with hs | hs <;> cases hs; exact h1)
    · intro s hs
      simpa [libp2pTbs] using (show (utf8Encode s).length ≤ 1000 by rcases hs with hs | hs <;> cases hs; exact h2)
    · simp only [libp2pTbs, hx.key, List.length_cons, List.length_nil]
      omega
  obtain ⟨raw, r1, r2⟩ : Fits (Certificate.mk (libp2pTbs notBefore notAfter x.publicKey ext) ed25519Algorithm
      ⟨0, x.sign tbs⟩).toAsn1 6000 := by
    refine fits_le (fits_sequence (fit_cons ⟨tbs, t1, t2⟩ (fit_cons fits_algorithm (fit_cons (fits_bits _) fit_nil)))) ?_
    simp only [hx.signature]
    omega
  have hgen : generateCertificate notBefore notAfter x h = .ok raw := by
    have hw : wrapSignature (libp2pTbs notBefore notAfter x.publicKey ext) ed25519Algorithm ⟨0, x.sign tbs⟩ = .ok raw := by
      rw [wrapSignature]
      exact encode_ok r1
    have hs : signTbsCertificate (libp2pTbs notBefore notAfter x.publicKey ext) x = .ok raw := by
      rw [signTbsCertificate, ok_bind (encode_ok t1), hw]
    rw [generateCertificate, ok_bind hm, ok_bind hext, hs]
  obtain ⟨bs, b1, b2⟩ := C98_round_trip_partial (Certificate.mk
    (libp2pTbs notBefore notAfter x.publicKey ext) ed25519Algorithm ⟨0, x.sign tbs⟩) hp ed25519_portable
  rw [r1] at b1
  cases b1
  obtain ⟨c, c1, c2⟩ := b2 (by omega) [] (by rw [List.append_nil]; omega)
  rw [List.append_nil] at c1
  have hkey : keyOf c = x.publicKey := by rw [keyOf, ← c2.tbsCertificate.key]; rfl
  have hver := C100_signed_accepted verify raw c c1 (Certificate.mk (libp2pTbs notBefore notAfter x.publicKey ext) ed25519Algorithm
    ⟨0, x.sign tbs⟩) hp ed25519_portable .ed25519 rfl tbs raw t1 r1 (by omega) (by rw [hkey]; exact hx.correct _)
  refine ⟨raw, c, hgen, ⟨c1, hkey, ?_, ?_, ?_, ?_⟩, hver, c2.tbsCertificate.validity.symm⟩
  · rw [← c2.tbsCertificate.keyAlgorithm.1]; rfl
  · have i1 : ed25519Info x.publicKey <:+: tbs := infix_sequence (l := _) (by simp [libp2pTbs]) (encode_info hx.key) t1
    have i2 : tbs <:+: raw := infix_sequence (l := _) (by simp) t1 r1
    exact i1.trans i2
  · obtain ⟨ca, c', f1, f2, f3⟩ := C100_accepted verify raw raw hver
    rw [c1] at f1 f2
    cases f1
    cases f2
    exact f3
  · refine ⟨false, ext, h.sign (hostSigned x.publicKey), ?_, hread, hh.correct _⟩
    rw [← c2.tbsCertificate.extensions]
    rfl

/-- The signature of the host holds for one key only. -/
theorem C102_one_key (key key' : Bytes) (h : hostSigned key = hostSigned key') : key = key' :=
  List.append_cancel_left (List.append_cancel_left h)

/-- A pair whose signature is always the same 64 bytes. -/
def toyPair (b : UInt8) : KeyPair := ⟨List.replicate 32 b, fun _ => List.replicate 64 b⟩

/-- The check for these pairs. -/
def toyVerify (_ : SigAlg) (key _ signature : Bytes) : Bool := decide (signature.take 32 = key)

theorem toy_pair (b : UInt8) : (toyPair b).Ed25519 toyVerify :=
  ⟨by simp [toyPair], by simp [toyPair], by simp [toyPair, toyVerify, List.take_replicate]⟩

example : ∃ raw c, generateCertificate "20260101000000Z" "20360101000000Z" (toyPair 1) (toyPair 2) = .ok raw ∧
    ProvesHost toyVerify raw (List.replicate 32 1) (List.replicate 32 2) c ∧ verifyCertificate toyVerify raw raw = .ok () ∧
    c.tbsCertificate.validity = ⟨.generalizedTime "20260101000000Z", .generalizedTime "20360101000000Z"⟩ :=
  C102_generated toyVerify (toyPair 1) (toyPair 2) (toy_pair 1) (toy_pair 2) _ _ (by decide) (by decide)

/-! ### C103 -/

theorem tool_serial : hexOr "serial_number" "00fece0a9eaa3eddc3" = .ok [0, 254, 206, 10, 158, 170, 62, 221, 195] := by
  have : Util.fromHex "00fece0a9eaa3eddc3".toList = some [0, 254, 206, 10, 158, 170, 62, 221, 195] := by decide +kernel
  rw [hexOr, this]

/-- The authority key identifier, a structure of 82 bytes. -/
def toolAuthority : Bytes := [48, 80, 161, 67, 164, 65, 48, 63, 49, 11, 48, 9, 6, 3, 85, 4, 6, 19, 2, 85, 83, 49, 23, 48, 21, 6, 3, 85,
  4, 10, 12, 14, 77, 121, 32, 80, 101, 114, 115, 111, 110, 97, 108, 32, 67, 65, 49, 23, 48, 21, 6, 3, 85, 4, 3, 12, 14, 109, 121,
  46, 112, 101, 114, 115, 111, 110, 97, 108, 46, 99, 97, 130, 9, 0, 215, 195, 216, 133, 250, 104, 117, 29]

theorem tool_authority : hexOr "authority_key_identifier" ("3050a143a441303f310b300906035504061302555331173015060355040a0c0e4d7920506572736f6e" ++
    "616c2043413117301506035504030c0e6d792e706572736f6e616c2e6361820900d7c3d885fa68751d") = .ok toolAuthority := by
  have : Util.fromHex ("3050a143a441303f310b300906035504061302555331173015060355040a0c0e4d7920506572736f6e" ++
    "616c2043413117301506035504030c0e6d792e706572736f6e616c2e6361820900d7c3d885fa68751d").toList = some toolAuthority := by
    decide +kernel
  rw [hexOr, this]

theorem tool_constraints : hexOr "basic_constraints" "3000" = .ok [48, 0] := by
  have : Util.fromHex "3000".toList = some [48, 0] := by decide +kernel
  rw [hexOr, this]

theorem tool_usage : hexOr "key_usage" "030204f0" = .ok [3, 2, 4, 240] := by
  have : Util.fromHex "030204f0".toList = some [3, 2, 4, 240] := by decide +kernel
  rw [hexOr, this]

theorem rsa_portable : PortableAlgorithm rsaAlgorithm :=
  ⟨⟨1, 2, [840, 113549, 1, 1, 11], rfl, by decide, by decide, by decide⟩, by
    intro p hp; cases hp; exact portable_leaf trivial ⟨trivial, trivial⟩⟩

theorem tool_portable (sn key aki bc ku : Bytes) : PortableTbs (toolTbs sn key aki bc ku) where
  signature := rsa_portable
  issuer := by
    intro r hr
    simp only [toolTbs, List.mem_cons, List.not_mem_nil, or_false] at hr
    rcases hr with rfl | rfl | rfl
    · exact ⟨⟨2, 5, [4, 6], rfl, by decide, by decide, by decide⟩, portable_leaf trivial ⟨trivial, trivial⟩⟩
    · exact ⟨⟨2, 5, [4, 10], rfl, by decide, by decide, by decide⟩, portable_leaf trivial ⟨trivial, trivial⟩⟩
    · exact ⟨⟨2, 5, [4, 3], rfl, by decide, by decide, by decide⟩, portable_leaf trivial ⟨trivial, trivial⟩⟩
  subject := by
    intro r hr
    obtain rfl := List.mem_singleton.mp hr
    exact ⟨⟨2, 5, [4, 3], rfl, by decide, by decide, by decide⟩, portable_leaf trivial ⟨trivial, trivial⟩⟩
  key := ⟨⟨1, 2, [840, 113549, 1, 1, 1], rfl, by decide, by decide, by decide⟩, by
    intro p hp; cases hp; exact portable_leaf trivial ⟨trivial, trivial⟩⟩
  extensions := by
    intro e he
    simp only [toolTbs, List.mem_cons, List.not_mem_nil, or_false] at he
    rcases he with rfl | rfl | rfl
    · exact ⟨2, 5, [29, 35], rfl, by decide, by decide, by decide⟩
    · exact ⟨2, 5, [29, 19], rfl, by decide, by decide, by decide⟩
    · exact ⟨2, 5, [29, 15], rfl, by decide, by decide, by decide⟩
  noIssuerId := rfl
  noSubjectId := rfl

/-- **C103**: if the two key files hold keys and the signer can sign, the tool writes a file that it can print: a certificate
with the subject's key and everything else as set. If it is shorter than 2^32 bytes, then whoever trusts a certificate with
the signer's key accepts it. -/
theorem C103_generate (verify : SigAlg → Bytes → Bytes → Bytes → Bool) (n : Nat) (hn : 6 ≤ n) (fromDer : Bytes → Option RsaKeyPair)
    (subjectFile signerFile subjectDer signerDer : Bytes) (subject signer : RsaKeyPair)
    (h1 : Pem.decodePemWithLabel n subjectFile "RSA PRIVATE KEY" = .ok subjectDer) (h2 : fromDer subjectDer = some subject)
    (h3 : Pem.decodePemWithLabel n signerFile "RSA PRIVATE KEY" = .ok signerDer) (h4 : fromDer signerDer = some signer)
    (hsign : ∀ m, ∃ s, signer.sign m = some s ∧ verify .rsaPkcs1Sha256 signer.publicKey m s = true) :
    ∃ raw signature, toolGenerate n fromDer subjectFile signerFile = .ok (Pem.encodePem raw "CERTIFICATE") ∧
      (raw.length < 2 ^ 32 → ∃ c, toolPrint n (Pem.encodePem raw "CERTIFICATE") = .ok c ∧
        SameCertificate ⟨toolTbs [0, 254, 206, 10, 158, 170, 62, 221, 195] subject.publicKey toolAuthority [48, 0] [3, 2, 4, 240],
          rsaAlgorithm, ⟨0, signature⟩⟩ c ∧
        ∀ caRaw ca, Certificate.fromBytes caRaw = .ok ca → keyOf ca = signer.publicKey →
          verifyCertificate verify caRaw raw = .ok ()) := by
  have hp := tool_portable [0, 254, 206, 10, 158, 170, 62, 221, 195] subject.publicKey toolAuthority [48, 0] [3, 2, 4, 240]
  generalize ht : toolTbs [0, 254, 206, 10, 158, 170, 62, 221, 195] subject.publicKey toolAuthority [48, 0] [3, 2, 4, 240] = t at hp
  have hc : ∀ e ∈ t.extensions, e.critical = false := by
    rw [← ht]
    intro e he
    simp only [toolTbs, List.mem_cons, List.not_mem_nil, or_false] at he
    rcases he with rfl | rfl | rfl <;> rfl
  obtain ⟨tbs, t1, -⟩ := C32_round_trip_partial _ (portable_tbs hp)
  rw [← encode_tbs] at t1
  obtain ⟨s, s1, s2⟩ := hsign tbs
  obtain ⟨raw, r1, r2⟩ := C98_no_critical_partial ⟨t, rsaAlgorithm, ⟨0, s⟩⟩ hp rsa_portable hc
  have hw : wrapSignature t rsaAlgorithm ⟨0, s⟩ = .ok raw := by
    rw [wrapSignature]
    exact encode_ok r1
  have hs : toolSign t signer = .ok raw := by
    rw [toolSign, ok_bind (a := tbs) (by rw [encode_ok t1]; rfl), s1]
    simp only [hw]
    rfl
  have hg : toolGenerate n fromDer subjectFile signerFile = .ok (Pem.encodePem raw "CERTIFICATE") := by
    rw [toolGenerate, ok_bind tool_serial, ok_bind tool_authority, ok_bind tool_constraints, ok_bind tool_usage,
      ok_bind (a := subjectDer) (by rw [pemOr, h1]), ok_bind (a := subject) (by rw [keyOr, h2]),
      ok_bind (a := signerDer) (by rw [pemOr, h3]), ok_bind (a := signer) (by rw [keyOr, h4]), ht, ok_bind hs]
  refine ⟨raw, s, hg, fun hl => ?_⟩
  obtain ⟨c, c1, c2⟩ := r2 hl [] (by rw [List.append_nil]; omega)
  rw [List.append_nil] at c1
  refine ⟨c, ?_, c2, fun caRaw ca hca hk => ?_⟩
  · have hpem := (Pem.C47_pem_round_trip raw "CERTIFICATE" (by unfold LabelText; decide) n hn).2
    rw [toolPrint, ok_bind (a := raw) (by rw [pemOr, hpem])]
    obtain ⟨item, i1, i2⟩ := bind_ok'.mp c1
    simp only [i1, i2]
  · exact C100_signed_accepted verify caRaw ca hca ⟨t, rsaAlgorithm, ⟨0, s⟩⟩ hp rsa_portable .rsaPkcs1Sha256 rfl tbs raw t1 r1 hl
      (by rw [hk]; exact s2)

example : Pem.decodePemWithLabel 6 (Pem.encodePem [1, 2, 3] "RSA PRIVATE KEY") "RSA PRIVATE KEY" = .ok [1, 2, 3] ∧
    ∀ m, ∃ s, (RsaKeyPair.mk [9] fun _ => some [9]).sign m = some s ∧ toyVerify .rsaPkcs1Sha256 [9] m s = true :=
  ⟨(Pem.C47_pem_round_trip [1, 2, 3] "RSA PRIVATE KEY" (by unfold LabelText; decide) 6 (by decide)).2, fun _ => ⟨_, rfl, rfl⟩⟩

end Ngfs.X509
