import Verif.Lemmas.TlsSafe

/-!
# TLS messages: C22 (round trip), C23 (code tables), C53 (no crash), C54 (announced length)
-/
namespace Ngfs.Tls

open Ngfs.Binary Ngfs.Spec

/-! ## C23: code tables -/

/-- C23, the table: the conversions implement the assigned code points, and keep every other
code. -/
theorem C23_tables_match_standard :
    Faithful cipherSuiteCodes .unknown CipherSuite.fromRaw CipherSuite.toRaw ∧
    Faithful signatureSchemeCodes .unknown SignatureScheme.fromRaw SignatureScheme.toRaw ∧
    Faithful namedGroupCodes .unknown NamedGroup.fromRaw NamedGroup.toRaw ∧
    Faithful namedCurveCodes .other NamedCurve.fromRaw NamedCurve.toRaw ∧
    Faithful ecPointFormatCodes .other ECPointFormat.fromRaw ECPointFormat.toRaw ∧
    Faithful pskKeyExchangeModeCodes .unknown PskKeyExchangeMode.fromRaw PskKeyExchangeMode.toRaw ∧
    Faithful alertLevelCodes .unknown AlertLevel.fromRaw AlertLevel.toRaw ∧
    Faithful alertDescriptionCodes .unknown AlertDescription.fromRaw AlertDescription.toRaw ∧
    Faithful contentTypeCodes .unknown ContentType.fromRaw ContentType.toRaw :=
  ⟨cipherSuite_faithful, signatureScheme_faithful, namedGroup_faithful, namedCurve_faithful,
    ecPointFormat_faithful, pskKeyExchangeMode_faithful, alertLevel_faithful,
    alertDescription_faithful, contentType_faithful⟩

/-- C23: every code read and written back is the same code. -/
theorem C23_codes_round_trip :
    (∀ c, (CipherSuite.fromRaw c).toRaw = c) ∧ (∀ c, (SignatureScheme.fromRaw c).toRaw = c) ∧
    (∀ c, (NamedGroup.fromRaw c).toRaw = c) ∧ (∀ c, (NamedCurve.fromRaw c).toRaw = c) ∧
    (∀ c, (ECPointFormat.fromRaw c).toRaw = c) ∧ (∀ c, (PskKeyExchangeMode.fromRaw c).toRaw = c) ∧
    (∀ c, (AlertLevel.fromRaw c).toRaw = c) ∧ (∀ c, (AlertDescription.fromRaw c).toRaw = c) ∧
    (∀ c, (ContentType.fromRaw c).toRaw = c) :=
  ⟨Faithful.to_from cipherSuite_faithful, Faithful.to_from signatureScheme_faithful,
    Faithful.to_from namedGroup_faithful, Faithful.to_from namedCurve_faithful,
    Faithful.to_from ecPointFormat_faithful, Faithful.to_from pskKeyExchangeMode_faithful,
    Faithful.to_from alertLevel_faithful, Faithful.to_from alertDescription_faithful,
    Faithful.to_from contentType_faithful⟩

/-- C23: every member written to the wire and read back, from anywhere in a buffer, is the same
member ("unknown" is only for codes without a name). -/
theorem C23_members_round_trip :
    (∀ m, Canonical cipherSuiteCodes .unknown m → m.toRaw < 65536 →
      ∃ e, Appends m.toBinary e ∧ e.length = 2 ∧ ReadsAs CipherSuite.fromBinary e m) ∧
    (∀ m, Canonical signatureSchemeCodes .unknown m → m.toRaw < 65536 →
      ∃ e, Appends m.toBinary e ∧ e.length = 2 ∧ ReadsAs SignatureScheme.fromBinary e m) ∧
    (∀ m, Canonical namedGroupCodes .unknown m → m.toRaw < 65536 →
      ∃ e, Appends m.toBinary e ∧ e.length = 2 ∧ ReadsAs NamedGroup.fromBinary e m) ∧
    (∀ m, Canonical namedCurveCodes .other m → m.toRaw < 65536 →
      ∃ e, Appends m.toBinary e ∧ e.length = 2 ∧ ReadsAs NamedCurve.fromBinary e m) ∧
    (∀ m, Canonical ecPointFormatCodes .other m →
      ∃ e, Appends m.toBinary e ∧ e.length = 1 ∧ ReadsAs ECPointFormat.fromBinary e m) ∧
    (∀ m, Canonical pskKeyExchangeModeCodes .unknown m →
      ∃ e, Appends m.toBinary e ∧ e.length = 1 ∧ ReadsAs PskKeyExchangeMode.fromBinary e m) ∧
    (∀ a : Alert, Canonical alertLevelCodes .unknown a.level →
      Canonical alertDescriptionCodes .unknown a.description →
      ∃ e, Appends a.toBinary e ∧ e.length = 2 ∧ ReadsAs Alert.fromBinary e a) ∧
    (∀ m, Canonical contentTypeCodes .unknown m → ContentType.fromRaw m.toRaw = m) := by
  have h16 : ∀ {T : Type} {codes : List (Nat × T)} {u f t}, Faithful codes u f t → ∀ m : T,
      Canonical codes u m → t m < 65536 →
      ReadsAs (readU16 >>= fun c => pure (f c)) (beBytes 2 (t m)) m := by
    intro T codes u f t h m hm hb
    refine readsAs_bind_pure (readsAs_u16 hb) ?_
    rw [Faithful.from_to h hm]; exact readsAs_pure m
  have h8 : ∀ {T : Type} {codes : List (UInt8 × T)} {u f t}, Faithful codes u f t → ∀ m : T,
      Canonical codes u m → ReadsAs (readU8 >>= fun c => pure (f c)) [t m] m := by
    intro T codes u f t h m hm
    refine readsAs_bind_pure (readsAs_u8 _) ?_
    rw [Faithful.from_to h hm]; exact readsAs_pure m
  refine ⟨fun m hm hb => ⟨_, fun _ => rfl, by simp, h16 cipherSuite_faithful m hm hb⟩,
    fun m hm hb => ⟨_, fun _ => rfl, by simp, h16 signatureScheme_faithful m hm hb⟩,
    fun m hm hb => ⟨_, fun _ => rfl, by simp, h16 namedGroup_faithful m hm hb⟩,
    fun m hm hb => ⟨_, fun _ => rfl, by simp, h16 namedCurve_faithful m hm hb⟩,
    fun m hm => ⟨_, fun _ => rfl, by simp, h8 ecPointFormat_faithful m hm⟩,
    fun m hm => ⟨_, fun _ => rfl, by simp, h8 pskKeyExchangeMode_faithful m hm⟩, ?_,
    fun m hm => Faithful.from_to contentType_faithful hm⟩
  intro a hl hd
  refine ⟨[a.level.toRaw] ++ [a.description.toRaw], fun s => ?_, by simp, ?_⟩
  · simp [Alert.toBinary, AlertLevel.toBinary, AlertDescription.toBinary, bind_def, writeU8]
  · exact readsAs_bind (h8 alertLevel_faithful _ hl)
      (readsAs_bind_pure (h8 alertDescription_faithful _ hd) (readsAs_pure a))

example : Canonical alertDescriptionCodes .unknown (.unknown 99) := by
  intro c hc
  cases hc
  decide

/-! ## C22: handshake messages -/

/-- C22. A legal ClientHello, ServerHello, Certificate, CertificateVerify or Finished message, if
the writer accepts it, has been appended as bytes that are read back as the same message: from
wherever they lie, stopping exactly at their end, except that a Finished message (whose body has
no inner structure) must be the last thing in its buffer. -/
theorem C22_handshake_round_trip {X : Type} (x509 : Bytes → Option X) (m : Handshake X)
    (hm : m.WellFormed x509) (s s' : Bytes) (hw : m.toBinary s = (.ok (), s')) :
    ∃ enc, s' = s ++ enc ∧ ReadsToEnd (Handshake.fromBinary x509) enc m ∧
      ((∀ v, m ≠ .finished v) → ReadsAs (Handshake.fromBinary x509) enc m) := by
  rw [Handshake.toBinary] at hw
  rcases hi : m.innerToBinary [] with ⟨r, t⟩
  rw [hi] at hw
  cases r with
  | error e => cases hw
  | ok code =>
    simp only [bind_def, writeU8, writeU24, writeRaw, Prod.mk.injEq, true_and] at hw
    subst hw
    have hlen : ReadsAs readU24 (beBytes 3 t.length) (bigEndian (beBytes 3 t.length)) := by
      have := readsAs_uint (beBytes 3 t.length)
      rwa [beBytes_length, beNat_eq] at this
    refine ⟨[code] ++ (beBytes 3 t.length ++ t), by simp, ?_⟩
    -- it is enough to read the body
    have body : ∀ (p : RM (Handshake X)),
        (Handshake.fromBinary2 x509 code = (readU24 >>= fun _ => p)) →
        ReadsAs p t m → ReadsToEnd (Handshake.fromBinary x509) ([code] ++ (beBytes 3 t.length ++ t)) m ∧
          ((∀ v, m ≠ .finished v) →
            ReadsAs (Handshake.fromBinary x509) ([code] ++ (beBytes 3 t.length ++ t)) m) := by
      intro p hp hr
      have h1 : ReadsAs (Handshake.fromBinary x509) ([code] ++ (beBytes 3 t.length ++ t)) m := by
        refine readsAs_bind (readsAs_u8 code) ?_
        rw [hp]
        exact readsAs_bind hlen hr
      exact ⟨readsToEnd_of_readsAs h1, fun _ => h1⟩
    cases m with
    | clientHello c =>
      obtain ⟨u, s1, h1, h2⟩ := bind_ok_inv hi
      cases h2
      obtain ⟨enc, he, hr⟩ := rt_clientHello t.length c hm [] t h1
      rw [List.nil_append] at he; subst he
      exact body (ClientHello.fromBinary >>= fun m => pure (.clientHello m)) rfl
        (readsAs_bind_pure (hr le_rfl) (readsAs_pure _))
    | serverHello c =>
      obtain ⟨u, s1, h1, h2⟩ := bind_ok_inv hi
      cases h2
      obtain ⟨enc, he, hr⟩ := rt_serverHello t.length c hm [] t h1
      rw [List.nil_append] at he; subst he
      exact body (ServerHello.fromBinary >>= fun m => pure (.serverHello m)) rfl
        (readsAs_bind_pure (hr le_rfl) (readsAs_pure _))
    | certificate c =>
      obtain ⟨u, s1, h1, h2⟩ := bind_ok_inv hi
      cases h2
      obtain ⟨enc, he, hr⟩ := rt_certificate t.length x509 c hm [] t h1
      rw [List.nil_append] at he; subst he
      exact body (Certificate.fromBinary x509 >>= fun m => pure (.certificate m)) rfl
        (readsAs_bind_pure (hr le_rfl) (readsAs_pure _))
    | certificateVerify c =>
      obtain ⟨u, s1, h1, h2⟩ := bind_ok_inv hi
      cases h2
      obtain ⟨enc, he, hr⟩ := rt_certificateVerify t.length c hm.1 hm.2 [] t h1
      rw [List.nil_append] at he; subst he
      exact body (CertificateVerify.fromBinary >>= fun m => pure (.certificateVerify m)) rfl
        (readsAs_bind_pure (hr le_rfl) (readsAs_pure _))
    | finished v =>
      obtain ⟨u, s1, h1, h2⟩ := bind_ok_inv hi
      cases h1
      cases h2
      refine ⟨?_, fun h => absurd rfl (h v)⟩
      refine readsToEnd_bind (readsAs_u8 _) ?_
      show ReadsToEnd (readU24 >>= fun _ => (remainingData >>= fun d => pure (Handshake.finished d))) _ _
      refine readsToEnd_bind hlen ?_
      exact readsToEnd_map (g := Handshake.finished) (readsToEnd_remainingData v)
    | endOfEarlyData => cases hi
    | encryptedExtensions l => cases hi
    | certificateRequest c => cases hi
    | newSessionTicket c => cases hi
    | keyUpdate => cases hi
    | unknown c d => cases hi

/-- Different legal messages never have the same bytes. -/
theorem C22_handshake_injective {X : Type} (x509 : Bytes → Option X) (m m' : Handshake X)
    (hm : m.WellFormed x509) (hm' : m'.WellFormed x509) (out : Bytes) (hlen : out.length < 2 ^ 64)
    (hw : m.toBinary [] = (.ok (), out)) (hw' : m'.toBinary [] = (.ok (), out)) : m = m' := by
  obtain ⟨e, he, hr, _⟩ := C22_handshake_round_trip x509 m hm [] out hw
  obtain ⟨e', he', hr', _⟩ := C22_handshake_round_trip x509 m' hm' [] out hw'
  rw [List.nil_append] at he he'
  subst he; subst he'
  have h1 := hr [] (by simpa using hlen)
  have h2 := hr' [] (by simpa using hlen)
  rw [h1] at h2
  exact Except.ok.inj h2

/-- A ClientHello as the client sends it: several suites, several kinds of extensions. -/
def sampleHello : ClientHello where
  legacyVersion := 0x0303
  random := List.replicate 32 7
  legacySessionId := [1, 2, 3]
  cipherSuites := [.tlsAes128GcmSha256, .unknown 0x00ff]
  legacyCompressionMethods := [0]
  extensions := [.serverName [.hostName "a.b"], .supportedGroups [.x25519], .unknown 35 [],
    .keyShareClientHello [⟨.x25519, [1, 2, 3, 4]⟩], .supportedVersions [2, 3, 4]]

/-- The hypotheses of C22 are met by it. -/
example : (Handshake.clientHello sampleHello : Handshake Unit).WellFormed (fun _ => none) ∧
    ∃ s', (Handshake.clientHello sampleHello : Handshake Unit).toBinary [9] = (.ok (), s') := by
  refine ⟨⟨by decide, by decide, ?_, ?_⟩, ?_⟩
  · intro x hx
    simp only [sampleHello, List.mem_cons, List.not_mem_nil, or_false] at hx
    rcases hx with rfl | rfl
    · exact ⟨fun c hc => (by cases hc), by decide⟩
    · exact ⟨fun c hc => (by cases hc; decide), by decide⟩
  · intro e he
    simp only [sampleHello, List.mem_cons, List.not_mem_nil, or_false] at he
    rcases he with rfl | rfl | rfl | rfl | rfl
    · exact ⟨rfl, fun x hx => by simp only [List.mem_singleton] at hx; subst hx; trivial⟩
    · intro x hx
      simp only [List.mem_singleton] at hx; subst hx
      exact ⟨fun c hc => (by cases hc), by decide⟩
    · exact ⟨by decide, by decide⟩
    · refine ⟨rfl, fun x hx => ?_⟩
      simp only [List.mem_singleton] at hx; subst hx
      exact ⟨fun c hc => (by cases hc), by decide⟩
    · trivial
  · have h : ((Handshake.clientHello sampleHello : Handshake Unit).toBinary [9]).1 = .ok () := by
      decide +kernel
    revert h
    generalize (Handshake.clientHello sampleHello : Handshake Unit).toBinary [9] = x
    intro h
    obtain ⟨a, b⟩ := x
    exact ⟨b, by rw [show a = .ok () from h]⟩

/-- What the legality condition of C22 excludes is really not read back: the empty server-name
extension, in the form in which the reader delivers it from a server message, is written in a form
that the reader refuses there. -/
theorem C22_server_name_not_reread :
    (Extension.fromBinary2 .serverHello ⟨[0, 0, 0, 0], 0⟩).1 = .ok (.serverName []) ∧
    ∃ out, (Extension.serverName []).toBinary [] = (.ok (), out) ∧
      (Extension.fromBinary2 .serverHello ⟨out, 0⟩).1
        = .error (.plain "Expected empty extension data") :=
  ⟨by decide, [0, 0, 0, 2, 0, 0], by decide, by decide⟩

/-! ## C53: parsing a handshake message never crashes -/

/-- C53 in full. -/
def C53_statement : Prop :=
  ∀ (X : Type) (x509 : Bytes → Option X) (data : Bytes),
    ((Handshake.fromBinary x509) (Reader.new data)).1 ≠ .error .panic

/-- C53 does not hold: any message of type 24 (KeyUpdate) crashes the reader. -/
theorem C53_key_update_crashes {X : Type} (x509 : Bytes → Option X) (a b c : UInt8) (body : Bytes)
    (hl : body.length + 4 < 2 ^ 64) :
    ((Handshake.fromBinary x509) (Reader.new (24 :: a :: b :: c :: body))).1 = .error .panic := by
  have h1 := readsAs_u8 24 [] (a :: b :: c :: body) (by simp only [List.length_append, List.length_cons, List.length_nil]; omega)
  have h2 := readsAs_uint [a, b, c] [24] body (by simp only [List.length_append, List.length_cons, List.length_nil]; omega)
  simp only [List.nil_append, List.cons_append, List.length_nil, Nat.zero_add, List.length_cons] at h1 h2
  rw [Handshake.fromBinary, Reader.new, bind_ok h1, Handshake.fromBinary2]
  have h3 : readU24 ⟨24 :: a :: b :: c :: body, 1⟩ = _ := h2
  rw [bind_ok h3]
  rfl

theorem C53_false : ¬ C53_statement := by
  intro h
  exact h Unit (fun _ => none) [24, 0, 0, 0] (C53_key_update_crashes _ 0 0 0 [] (by norm_num))

/-- C53, the part that holds: whatever the bytes, if the first one is not 24 then the reader
neither crashes nor loops nor leaves the buffer. Missing: type 24. -/
theorem C53_parse_total_partial {X : Type} (x509 : Bytes → Option X) (data : Bytes)
    (h24 : data.head? ≠ some 24) :
    ((Handshake.fromBinary x509) (Reader.new data)).1 ≠ .error .panic ∧
    ((Handshake.fromBinary x509) (Reader.new data)).1 ≠ .error .fuel ∧
    InBounds ((Handshake.fromBinary x509) (Reader.new data)).2 := by
  have hb : InBounds (Reader.new data) := Nat.zero_le _
  rw [Handshake.fromBinary, bind_def]
  obtain ⟨a1, a2, a3, a4, a5⟩ := safe_u8 (Reader.new data) hb
  rcases hu : readU8 (Reader.new data) with ⟨r, r'⟩
  rw [hu] at a1 a2 a3 a4 a5
  cases r with
  | error e => exact ⟨by simpa using a4, by simpa using a5, a3⟩
  | ok t =>
    have ht : t ≠ 24 := by
      rintro rfl
      apply h24
      cases data with
      | nil =>
        have : readU8 (Reader.new []) = (.error (.unexpectedEof 0 1), Reader.new []) := by decide
        rw [this] at hu; cases hu
      | cons b rest =>
        obtain ⟨e, r1, h1, h2⟩ := bind_ok_inv hu
        simp only [checkAvailable] at h1
        split at h1
        · split at h1
          · cases h1; simp [Reader.new] at h2; simp [h2.1]
          · cases h1
        · cases h1
    obtain ⟨_, _, b3, b4, b5⟩ := safe_handshake2 x509 t ht r' a3
    exact ⟨b4, b5, b3⟩

/-- The same for whole record contents of every content type. -/
theorem C53_message_total_partial {X : Type} (x509 : Bytes → Option X) (data : Bytes)
    (ct : ContentType) (h24 : data.head? ≠ some 24) :
    Message.fromRaw x509 data ct ≠ .error .panic ∧ Message.fromRaw x509 data ct ≠ .error .fuel := by
  cases ct with
  | alert =>
    have hs : Safe Alert.fromBinary :=
      safe_bind (safe_code8 _) (fun _ => safe_bind (safe_code8 _) (fun _ => safe_pure _))
    obtain ⟨_, _, _, b4, b5⟩ := hs (Reader.new data) (Nat.zero_le _)
    simp only [Message.fromRaw]
    rcases h : (Alert.fromBinary (Reader.new data)).1 with e | a
    · rw [h] at b4 b5; exact ⟨by simpa [Except.map] using b4, by simpa [Except.map] using b5⟩
    · simp [Except.map]
  | handshake =>
    obtain ⟨b4, b5, _⟩ := C53_parse_total_partial x509 data h24
    simp only [Message.fromRaw]
    rcases h : (Handshake.fromBinary x509 (Reader.new data)).1 with e | a
    · rw [h] at b4 b5; exact ⟨by simpa [Except.map] using b4, by simpa [Except.map] using b5⟩
    · simp [Except.map]
  | invalid => simp [Message.fromRaw]
  | changeCipherSpec => simp [Message.fromRaw]
  | applicationData => simp [Message.fromRaw]
  | unknown c => simp [Message.fromRaw]

/-! ## C54: a message stays within its announced length -/

/-- C54 in full: a handshake message that is read successfully lies within the length its header
announces; so the bytes after that do not matter. -/
def C54_statement : Prop :=
  ∀ (X : Type) (x509 : Bytes → Option X) (code : UInt8) (body extra : Bytes) (m : Handshake X),
    body.length < 2 ^ 24 →
    ((Handshake.fromBinary x509) (Reader.new (code :: beBytes 3 body.length ++ body ++ extra))).1 = .ok m →
    ((Handshake.fromBinary x509) (Reader.new (code :: beBytes 3 body.length ++ body))).1 = .ok m

/-- C54 does not hold: a CertificateVerify that announces an empty body is read from the bytes that
follow it. -/
theorem C54_false : ¬ C54_statement := by
  intro h
  have := h Unit (fun _ => none) 15 [] [8, 7, 0, 1, 0xaa]
    (.certificateVerify ⟨.ed25519, [0xaa]⟩) (by norm_num) (by decide)
  revert this
  decide

/-- C54, the part that holds: messages written by this code announce their exact length (up to
2^24 - 1 bytes, the width of the field), under their code. Missing: the reader does not enforce it. -/
theorem C54_written_length_partial {X : Type} (m : Handshake X) (s s' : Bytes)
    (hw : m.toBinary s = (.ok (), s')) :
    ∃ (code : UInt8) (len body : Bytes), s' = s ++ (code :: len ++ body) ∧ len.length = 3 ∧
      bigEndian len = body.length % 2 ^ 24 ∧ code ∈ [1, 2, 11, 15, 20] := by
  rw [Handshake.toBinary] at hw
  rcases hi : m.innerToBinary [] with ⟨r, t⟩
  rw [hi] at hw
  cases r with
  | error e => cases hw
  | ok code =>
    simp only [bind_def, writeU8, writeU24, writeRaw, Prod.mk.injEq, true_and] at hw
    subst hw
    refine ⟨code, beBytes 3 t.length, t, by simp, by simp, ?_, ?_⟩
    · rw [bigEndian_beBytes]; norm_num
    · cases m with
      | clientHello c => obtain ⟨_, _, _, h2⟩ := bind_ok_inv hi; cases h2; simp
      | serverHello c => obtain ⟨_, _, _, h2⟩ := bind_ok_inv hi; cases h2; simp
      | certificate c => obtain ⟨_, _, _, h2⟩ := bind_ok_inv hi; cases h2; simp
      | certificateVerify c => obtain ⟨_, _, _, h2⟩ := bind_ok_inv hi; cases h2; simp
      | finished c => obtain ⟨_, _, _, h2⟩ := bind_ok_inv hi; cases h2; simp
      | endOfEarlyData => cases hi
      | encryptedExtensions l => cases hi
      | certificateRequest c => cases hi
      | newSessionTicket c => cases hi
      | keyUpdate => cases hi
      | unknown c d => cases hi

end Ngfs.Tls
