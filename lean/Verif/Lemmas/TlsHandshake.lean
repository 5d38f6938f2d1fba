import Verif.Spec.TlsHandshake
import Verif.Lemmas.TlsRead
import Verif.Props.TlsTypes

/-! Facts about the TLS handshake. -/
namespace Ngfs.Tls

open Ngfs.Binary

/-! ### Key schedule -/

theorem hkdfExpandLabel_eq {X K : Type} (cr : Crypto X K) (alg : HashAlg) (prk label context : Bytes) (len : Nat) :
    hkdfExpandLabel cr alg prk label context len =
      match expandLabel cr alg prk label context len with
      | some okm => .ok okm
      | none => .error .internal := by
  unfold hkdfExpandLabel expandLabel
  have e : ascii "tls13 " = [116, 108, 115, 49, 51, 32] := by decide
  have e2 : beBytes 2 len = [UInt8.ofNat (len / 256), UInt8.ofNat (len % 256)] := by
    simp [beBytes, Nat.shiftRight_eq_div_pow, ofNat_mod]
  have e3 : (ascii "tls13 " ++ label).length = 6 + label.length := by rw [e]; simp; omega
  simp only
  rw [e3, e2, e]
  simp only [List.append_assoc, List.cons_append, List.nil_append]
  rfl

theorem hkdfExpandLabel_ok {X K : Type} {cr : Crypto X K} {alg : HashAlg} {prk label context : Bytes} {len : Nat}
    {okm : Bytes} (h : hkdfExpandLabel cr alg prk label context len = .ok okm) :
    expandLabel cr alg prk label context len = some okm := by
  rw [hkdfExpandLabel_eq] at h
  split at h
  · cases h; assumption
  · cases h

theorem byteLen_eq (alg : HashAlg) : alg.byteLen = hashLen alg := by cases alg <;> rfl

theorem deriveSecret_ok {X K : Type} {cr : Crypto X K} {alg : HashAlg} {prk label thash : Bytes}
    {okm : Bytes} (h : deriveSecret cr alg prk label thash = .ok okm) :
    expandLabel cr alg prk label thash (hashLen alg) = some okm := by
  rw [← byteLen_eq]; exact hkdfExpandLabel_ok h

theorem except_bind_ok {ε α β : Type} {x : Except ε α} {f : α → Except ε β} {b : β} (h : (x >>= f) = .ok b) :
    ∃ a, x = .ok a ∧ f a = .ok b := by
  rcases x with e | a
  · cases h
  · exact ⟨a, rfl, h⟩

theorem encryptionKey_ok {X K : Type} {cr : Crypto X K} {raw : Bytes} {alg : HashAlg} {aead : AeadAlg}
    {key : EncryptionKey} (h : EncryptionKey.new cr raw alg aead = .ok key) :
    key.raw = raw ∧
    expandLabel cr alg raw labelKey [] (aeadKeyLen aead) = some key.writeKey ∧
    expandLabel cr alg raw labelIv [] 12 = some key.writeIv ∧ key.aeadAlg = aead := by
  unfold EncryptionKey.new at h
  obtain ⟨wk, h1, h⟩ := except_bind_ok h
  obtain ⟨iv, h2, h⟩ := except_bind_ok h
  cases h
  have hk : ascii "key" = labelKey := by decide
  have hi : ascii "iv" = labelIv := by decide
  rw [hk] at h1
  rw [hi] at h2
  refine ⟨rfl, ?_, hkdfExpandLabel_ok h2, rfl⟩
  have := hkdfExpandLabel_ok h1
  cases aead <;> exact this

theorem trafficSecrets_ok {X K : Type} {cr : Crypto X K} {ciphers : Ciphers} {transcript prk : Bytes} {label : String}
    {keys : TrafficSecrets} (h : TrafficSecrets.deriveFrom cr ciphers transcript prk label = .ok keys) :
    IsTrafficKey cr ciphers.hashAlg ciphers.aeadAlg prk (ascii "c " ++ ascii label ++ ascii " traffic") transcript keys.client ∧
    IsTrafficKey cr ciphers.hashAlg ciphers.aeadAlg prk (ascii "s " ++ ascii label ++ ascii " traffic") transcript keys.server := by
  unfold TrafficSecrets.deriveFrom at h
  obtain ⟨c, h1, h⟩ := except_bind_ok h
  obtain ⟨client, h2, h⟩ := except_bind_ok h
  obtain ⟨s, h3, h⟩ := except_bind_ok h
  obtain ⟨server, h4, h⟩ := except_bind_ok h
  cases h
  obtain ⟨rfl, a2, a3, a4⟩ := encryptionKey_ok h2
  obtain ⟨rfl, b2, b3, b4⟩ := encryptionKey_ok h4
  exact ⟨⟨deriveSecret_ok h1, a2, a3, a4⟩, ⟨deriveSecret_ok h3, b2, b3, b4⟩⟩

theorem derivedPrk_ok {X K : Type} {cr : Crypto X K} {alg : HashAlg} {prk secret out : Bytes}
    (h : derivedPrk cr alg prk secret = .ok out) :
    ∃ salt, expandLabel cr alg prk labelDerived (cr.hash alg []) (hashLen alg) = some salt ∧
      out = cr.hkdfExtract alg salt secret := by
  unfold derivedPrk at h
  obtain ⟨salt, h1, h⟩ := except_bind_ok h
  cases h
  have hd : ascii "derived" = labelDerived := by decide
  rw [hd] at h1
  exact ⟨salt, deriveSecret_ok h1, rfl⟩

theorem zeroPrk_eq {X K : Type} (cr : Crypto X K) (alg : HashAlg) : zeroPrk cr alg = earlySecret cr alg := by
  unfold zeroPrk earlySecret; rw [byteLen_eq]

theorem isTrafficKey_iv {X K : Type} {cr : Crypto X K} (hx : cr.Expands) {alg aead secret label transcript key}
    (h : IsTrafficKey cr alg aead secret label transcript key) : key.writeIv.length = 12 :=
  hx _ _ _ _ _ h.hiv

/-! ### Messages and states -/

theorem fromRaw_handshake {X : Type} (x : Bytes → Option X) (content : Bytes) (typ : UInt8) (hs : Handshake X)
    (h : Message.fromRaw x content (ContentType.fromRaw typ) = .ok (.handshake hs)) :
    typ = 22 ∧ Message.fromRaw x content .handshake = .ok (.handshake hs) := by
  rcases contentType_cases typ with ⟨rfl, h1⟩ | ⟨rfl, h1⟩ | ⟨rfl, h1⟩ | ⟨rfl, h1⟩ | ⟨rfl, h1⟩ | ⟨_, _, h1⟩
  all_goals rw [h1] at h
  · cases h
  · cases h
  · simp only [Message.fromRaw] at h
    rcases hq : (Alert.fromBinary (Reader.new content)).1 with e | a <;> rw [hq] at h <;> cases h
  · exact ⟨rfl, h⟩
  · cases h
  · cases h

/-- An optional message of the flight. -/
def Part {X α : Type} (o : Option α) (f : α → Handshake X) (l : List (Handshake X × Bytes)) : Prop :=
  match o with
  | none => l = []
  | some a => ∃ raw, l = [(f a, raw)]

def rawsOf {X : Type} (hs : List (Handshake X × Bytes)) : Bytes := (hs.map Prod.snd).flatten

theorem rawsOf_append {X : Type} (a b : List (Handshake X × Bytes)) : rawsOf (a ++ b) = rawsOf a ++ rawsOf b := by
  simp [rawsOf]

/-- What the state says about the messages received. -/
def StateInv {X : Type} (hash : Bytes → Bytes) (base : Bytes) (hs : List (Handshake X × Bytes)) : ClientState X → Prop
  | .receivedServerHello => hs = []
  | .receivedEncryptedExtensions ee => ∃ r, hs = [(.encryptedExtensions ee, r)]
  | .receivedCertificateRequest ee c => ∃ r p1, Part (some c) .certificateRequest p1 ∧
      hs = [(.encryptedExtensions ee, r)] ++ p1
  | .receivedCertificate ee o c => ∃ r p1 p2, Part o .certificateRequest p1 ∧ Part (some c) .certificate p2 ∧
      hs = [(.encryptedExtensions ee, r)] ++ p1 ++ p2
  | .receivedCertificateVerify ee o c cv => ∃ r p1 p2 r3, Part o .certificateRequest p1 ∧ Part c .certificate p2 ∧
      hs = [(.encryptedExtensions ee, r)] ++ p1 ++ p2 ++ [(.certificateVerify cv.1, r3)] ∧
      cv.2 = hash (base ++ rawsOf ([(.encryptedExtensions ee, r)] ++ p1 ++ p2))
  | .receivedFinished sm => ∃ r p1 p2 p3 r4, Part sm.certificateRequest .certificateRequest p1 ∧
      Part sm.certificate .certificate p2 ∧
      Part (sm.certificateVerify.map Prod.fst) .certificateVerify p3 ∧
      hs = [(.encryptedExtensions sm.encryptedExtensions, r)] ++ p1 ++ p2 ++ p3 ++ [(.finished sm.finished.1, r4)] ∧
      (∀ cv, sm.certificateVerify = some cv →
        cv.2 = hash (base ++ rawsOf ([(.encryptedExtensions sm.encryptedExtensions, r)] ++ p1 ++ p2))) ∧
      sm.finished.2 = hash (base ++ rawsOf ([(.encryptedExtensions sm.encryptedExtensions, r)] ++ p1 ++ p2 ++ p3))

theorem stateInv_step {X : Type} {hash : Bytes → Bytes} {base : Bytes} {hs : List (Handshake X × Bytes)}
    {s s' : ClientState X} {h : Handshake X} {raw : Bytes} (hi : StateInv hash base hs s)
    (hstep : s.onHashAndHandshake (hash (base ++ rawsOf hs)) h = .ok s') : StateInv hash base (hs ++ [(h, raw)]) s' := by
  cases s with
  | receivedServerHello =>
    simp only [StateInv] at hi
    subst hi
    cases h <;> simp only [ClientState.onHashAndHandshake] at hstep <;> cases hstep
    exact ⟨raw, rfl⟩
  | receivedEncryptedExtensions ee =>
    obtain ⟨r, rfl⟩ := hi
    cases h <;> simp only [ClientState.onHashAndHandshake] at hstep <;> cases hstep
    · exact ⟨r, _, ⟨raw, rfl⟩, rfl⟩
    · exact ⟨r, [], _, rfl, ⟨raw, rfl⟩, rfl⟩
    · exact ⟨r, [], [], raw, rfl, rfl, rfl, rfl⟩
    · exact ⟨r, [], [], [], raw, rfl, rfl, rfl, rfl, nofun, rfl⟩
  | receivedCertificateRequest ee c =>
    obtain ⟨r, p1, hp1, rfl⟩ := hi
    cases h <;> simp only [ClientState.onHashAndHandshake] at hstep <;> cases hstep
    · exact ⟨r, p1, _, hp1, ⟨raw, rfl⟩, rfl⟩
    · exact ⟨r, p1, [], raw, hp1, rfl, by simp, by simp⟩
    · exact ⟨r, p1, [], [], raw, hp1, rfl, rfl, by simp, nofun, by simp⟩
  | receivedCertificate ee o c =>
    obtain ⟨r, p1, p2, hp1, hp2, rfl⟩ := hi
    cases h <;> simp only [ClientState.onHashAndHandshake] at hstep <;> cases hstep
    · exact ⟨r, p1, p2, raw, hp1, hp2, by simp, by simp⟩
    · exact ⟨r, p1, p2, [], raw, hp1, hp2, rfl, by simp, nofun, by simp⟩
  | receivedCertificateVerify ee o c cv =>
    obtain ⟨r, p1, p2, r3, hp1, hp2, rfl, hcv⟩ := hi
    cases h <;> simp only [ClientState.onHashAndHandshake] at hstep <;> cases hstep
    refine ⟨r, p1, p2, [(.certificateVerify cv.1, r3)], raw, hp1, hp2, ⟨r3, rfl⟩, by simp, ?_, by simp⟩
    intro cv' hcv'
    cases hcv'
    exact hcv
  | receivedFinished sm => cases hstep

/-! ### Receiving the server's messages -/

/-- The state while the server's encrypted messages are received. -/
structure HsInv {X K : Type} (cr : Crypto X K) (config : ClientConfig) (privateKey : K) (total ch : Bytes)
    (shRaw : Bytes) (sh : ServerHello) (hs : List (Handshake X × Bytes)) (s : ServerHelloState X) : Prop where
  config_eq : s.config = config
  parses : Parses cr shRaw (.serverHello sh)
  agreed : Agreed cr sh shRaw privateKey ch s.seqenc.ciphers s.prk s.seqenc.trafficSecrets.server
  clientKey : IsTrafficKey cr s.seqenc.ciphers.hashAlg s.seqenc.ciphers.aeadAlg s.prk labelClientHs (ch ++ shRaw)
    s.seqenc.trafficSecrets.client
  clientSeq : s.seqenc.clientSequenceNo = 0
  serverSeq : s.seqenc.serverSequenceNo = hs.length
  arrived : Arrived cr shRaw (hs.map Prod.snd) s.seqenc.trafficSecrets.server total s.plaintext.unread
  transcript : s.transcript = ch ++ shRaw ++ rawsOf hs
  parsed : ∀ p ∈ hs, Parses cr p.2 p.1
  state : StateInv (cr.hash s.seqenc.ciphers.hashAlg) (ch ++ shRaw) hs s.cstate
  active : s.plaintext.writeState = .active
  seals : s.plaintext.seals = []
  sent : s.plaintext.inner.sent ++ s.plaintext.outgoing = (⟨22, 3, 1, ch⟩ : WireRecord).bytes

theorem filter_ccs_nil (pre : List WireRecord) (h : ∀ x ∈ pre, x.typ = 20) :
    pre.filter (fun w => w.typ != 20) = [] := by
  rw [List.filter_eq_nil_iff]
  intro x hx
  simp [h x hx]

theorem filter_ccs (pre : List WireRecord) (w : WireRecord) (h : ∀ x ∈ pre, x.typ = 20) (hw : w.typ ≠ 20) :
    (pre ++ [w]).filter (fun w => w.typ != 20) = [w] := by
  rw [List.filter_append, filter_ccs_nil pre h]
  simp [hw]

theorem receiveServerMessages_inv {X K : Type} (cr : Crypto X K) (hx : cr.Expands) (config : ClientConfig) (privateKey : K)
    (total ch shRaw : Bytes) (sh : ServerHello) (n : Nat) :
    ∀ (hs : List (Handshake X × Bytes)) (s : ServerHelloState X), HsInv cr config privateKey total ch shRaw sh hs s →
      (∀ sm s', receiveServerMessages cr n s = (.ready (.ok sm), s') →
        ∃ hs', HsInv cr config privateKey total ch shRaw sh hs' s' ∧ s'.cstate = .receivedFinished sm) ∧
      (∀ s', receiveServerMessages cr n s = (.pending, s') →
        ∃ hs', HsInv cr config privateKey total ch shRaw sh hs' s') := by
  induction n with
  | zero =>
    intro hs s _
    rw [receiveServerMessages]
    exact ⟨(fun _ _ h => by cases h), (fun _ h => by cases h)⟩
  | succ n ih =>
    intro hs s hi
    by_cases hfin : ∃ sm, s.cstate = .receivedFinished sm
    · obtain ⟨sm, hsm⟩ := hfin
      have e : receiveServerMessages cr (n + 1) s = (.ready (.ok sm), s) := by
        rw [receiveServerMessages, hsm]
      rw [e]
      refine ⟨?_, (fun _ h => by cases h)⟩
      intro sm' s' h
      cases h
      exact ⟨hs, hi, hsm⟩
    · have hiv := isTrafficKey_iv hx hi.agreed.key
      rcases hm : pollReceiveEncryptedMessage cr s.plaintext.receiver s.seqenc.serverSequenceNo
        s.seqenc.trafficSecrets.server with ⟨res, r, k, raw⟩
      obtain ⟨all, hleg, hinc, hcase⟩ := receiveEncrypted_spec cr _ _ _ hiv hm
      have e : receiveServerMessages cr (n + 1) s =
          (let s1 : ServerHelloState X := { s with
              plaintext := { s.plaintext with receiver := r }
              seqenc := { s.seqenc with serverSequenceNo := k }
              transcript := s.transcript ++ raw }
            match (generalizing := false) res with
            | .ready (.error e) => (.ready (.error e), s1)
            | .pending => (.pending, s1)
            | .ready (.ok (some (.handshake h))) =>
              match s1.cstate.onHashAndHandshake (cr.hash s.seqenc.ciphers.hashAlg s.transcript) h with
              | .ok c => receiveServerMessages cr n { s1 with cstate := c }
              | .error e => (.ready (.error e), s1)
            | .ready (.ok (some m)) => (.ready (.error (.unexpectedMessage m.name)), s1)
            | .ready (.ok none) => (.ready (.error .unexpectedEof), s1)) := by
        rw [receiveServerMessages]
        split
        · rename_i sm hsm; exact absurd ⟨sm, hsm⟩ hfin
        · rw [hm]
          rcases res with _ | (e | (_ | m)) <;> rfl
      rw [e]
      clear e
      rcases hcase with ⟨m, pre, w, typ, hall, rfl, rfl, ht, hprot, hmsg, hw20, hpre⟩ | ⟨rfl, rfl, hno, hpend⟩
      · cases m with
        | handshake h =>
          obtain ⟨rfl, hparse⟩ := fromRaw_handshake cr.x509 raw typ h hmsg
          simp only
          rcases hst : s.cstate.onHashAndHandshake (cr.hash s.seqenc.ciphers.hashAlg s.transcript) h with e | c
          · exact ⟨(fun _ _ h => by cases h), (fun _ h => by cases h)⟩
          · simp only
            refine ih (hs ++ [(h, raw)]) _ ?_
            refine ⟨hi.config_eq, hi.parses, hi.agreed, hi.clientKey, hi.clientSeq, ?_, ?_, ?_, ?_, ?_, hi.active, hi.seals, hi.sent⟩
            · simp [hi.serverSeq]
            · obtain ⟨w0, ws, all0, hl0, hf0, ht0, h20, hfr, hws⟩ := hi.arrived
              refine ⟨w0, ws ++ [w], all0 ++ all, ?_, ?_, ?_, h20, hfr, ?_⟩
              · intro x hx
                rcases List.mem_append.mp hx with hx | hx
                · exact hl0 x hx
                · exact hleg x hx
              · rw [List.filter_append, hf0, hall, filter_ccs _ _ hpre hw20]; simp
              · rw [ht0, wire_append]
                simp [PlaintextStream.unread, hinc]
              · rw [List.map_append, List.map_append]
                refine protectsAll_snoc hws (hleg w (by simp [hall])) ?_
                rw [hi.serverSeq] at hprot
                simpa using hprot
            · simp [hi.transcript, rawsOf]
            · intro p hp
              rcases List.mem_append.mp hp with hp | hp
              · exact hi.parsed p hp
              · rw [List.mem_singleton] at hp; subst hp; exact hparse
            · rw [hi.transcript] at hst
              exact stateInv_step hi.state hst
        | _ => exact ⟨(fun _ _ h => by cases h), (fun _ h => by cases h)⟩
      · rcases res with _ | (e | (_ | m))
        · refine ⟨(fun _ _ h => by cases h), ?_⟩
          intro s' h
          cases h
          refine ⟨hs, hi.config_eq, hi.parses, hi.agreed, hi.clientKey, hi.clientSeq, hi.serverSeq, ?_, ?_, hi.parsed, hi.state, hi.active, hi.seals, hi.sent⟩
          · obtain ⟨w0, ws, all0, hl0, hf0, ht0, h20, hfr, hws⟩ := hi.arrived
            refine ⟨w0, ws, all0 ++ all, ?_, ?_, ?_, h20, hfr, hws⟩
            · intro x hx
              rcases List.mem_append.mp hx with hx | hx
              · exact hl0 x hx
              · exact hleg x hx
            · rw [List.filter_append, hf0, filter_ccs_nil _ (hpend rfl)]; simp
            · rw [ht0, wire_append]
              simp [PlaintextStream.unread, hinc]
          · simp [hi.transcript]
        · exact ⟨(fun _ _ h => by cases h), (fun _ h => by cases h)⟩
        · exact ⟨(fun _ _ h => by cases h), (fun _ h => by cases h)⟩
        · exact absurd rfl (hno m)

/-! ### The checks -/

theorem rsaVerify_ok {X K : Type} {cr : Crypto X K} {scheme : SignatureScheme} {key input signature : Bytes}
    (h : rsaVerify cr scheme key input signature = .ok ()) :
    scheme ∈ [SignatureScheme.ecdsaSecp256r1Sha256, .rsaPssRsaeSha256, .rsaPssRsaeSha384, .rsaPssRsaeSha512, .ed25519] ∧
      cr.sigVerify scheme key input signature = true := by
  unfold rsaVerify at h
  split at h
  · rename_i hs
    split at h
    · rename_i hv
      exact ⟨by simpa using hs, hv⟩
    · cases h
  · cases h

theorem verifyFinished_ok {X K : Type} {cr : Crypto X K} {alg : HashAlg} {key : EncryptionKey} {thash v : Bytes}
    (h : verifyFinished cr alg key thash v = .ok ()) :
    ∃ fk, expandLabel cr alg key.raw labelFinished [] (hashLen alg) = some fk ∧ v = cr.hmac alg fk thash := by
  unfold verifyFinished at h
  obtain ⟨fk, h1, h⟩ := except_bind_ok h
  obtain ⟨good, h2, h⟩ := except_bind_ok h
  have hf : ascii "finished" = labelFinished := by decide
  rw [hf] at h1
  refine ⟨fk, deriveSecret_ok h1, ?_⟩
  unfold hmacVerify at h2
  split at h2
  · cases h2
  · cases h2
    split at h
    · rename_i hg
      simpa using (of_decide_eq_true hg).symm
    · cases h

theorem signedContent_eq (hash : Bytes) : verifyTranscriptInput true hash = signedContent hash := by
  unfold verifyTranscriptInput signedContent
  have : ascii "TLS 1.3, server CertificateVerify" = [84, 76, 83, 32, 49, 46, 51, 44, 32, 115, 101, 114, 118, 101, 114, 32, 67, 101, 114, 116, 105, 102, 105, 99, 97,
     116, 101, 86, 101, 114, 105, 102, 121] := by decide
  rw [if_pos rfl, this]

theorem computeApplicationSecrets_ok {X K : Type} {cr : Crypto X K} {transcript : Bytes} {config : ClientConfig}
    {prk : Bytes} {sm : ServerMessages X} {seqenc : SequenceEncryption} {keys : TrafficSecrets}
    (h : computeApplicationSecrets cr transcript config prk sm seqenc = .ok keys) :
    (∃ master, IsMasterSecret cr seqenc.ciphers.hashAlg prk master ∧
      IsTrafficKey cr seqenc.ciphers.hashAlg seqenc.ciphers.aeadAlg master labelClientAp transcript keys.client ∧
      IsTrafficKey cr seqenc.ciphers.hashAlg seqenc.ciphers.aeadAlg master labelServerAp transcript keys.server) ∧
    (∃ fk, expandLabel cr seqenc.ciphers.hashAlg seqenc.trafficSecrets.server.raw labelFinished []
        (hashLen seqenc.ciphers.hashAlg) = some fk ∧
      sm.finished.1 = cr.hmac seqenc.ciphers.hashAlg fk sm.finished.2) ∧
    ∃ cert entry more anchor cv, sm.certificate = some cert ∧ cert.certificateList = entry :: more ∧
      trustAnchor config.serverAuth entry.data = some anchor ∧ cr.verifyCertificate anchor entry.data = .ok () ∧
      sm.certificateVerify = some cv ∧
      cv.1.algorithm ∈ [SignatureScheme.ecdsaSecp256r1Sha256, .rsaPssRsaeSha256, .rsaPssRsaeSha384, .rsaPssRsaeSha512, .ed25519] ∧
      cr.sigVerify cv.1.algorithm (cr.publicKey entry.certificate) (signedContent cv.2) cv.1.signature = true := by
  unfold computeApplicationSecrets at h
  obtain ⟨master, h1, h⟩ := except_bind_ok h
  obtain ⟨keys', h2, h⟩ := except_bind_ok h
  obtain ⟨u, h3, h⟩ := except_bind_ok h
  have hrest : ∃ cert entry more anchor cv, sm.certificate = some cert ∧ cert.certificateList = entry :: more ∧
      trustAnchor config.serverAuth entry.data = some anchor ∧ cr.verifyCertificate anchor entry.data = .ok () ∧
      sm.certificateVerify = some cv ∧
      rsaVerify cr cv.1.algorithm (cr.publicKey entry.certificate) (verifyTranscriptInput true cv.2) cv.1.signature = .ok () ∧
      keys' = keys := by
    rcases hc : sm.certificate with _ | cert
    · rw [hc] at h; cases h
    rw [hc] at h
    simp only at h
    rcases hl : cert.certificateList with _ | ⟨entry, more⟩
    · rw [hl] at h; cases h
    rw [hl] at h
    simp only at h
    obtain ⟨entry', h4, h⟩ := except_bind_ok h
    cases h4
    have hca : ∃ anchor, trustAnchor config.serverAuth entry.data = some anchor ∧
        cr.verifyCertificate anchor entry.data = .ok () ∧ ∃ cv, sm.certificateVerify = some cv ∧
          rsaVerify cr cv.1.algorithm (cr.publicKey entry.certificate) (verifyTranscriptInput true cv.2) cv.1.signature = .ok () ∧
          keys' = keys := by
      rcases hsa : config.serverAuth with _ | c | _
      · rw [hsa] at h; cases h
      all_goals
        rw [hsa] at h
        simp only at h
        obtain ⟨ca, h5, h⟩ := except_bind_ok h
        cases h5
        obtain ⟨u2, h6, h⟩ := except_bind_ok h
        refine ⟨_, rfl, h6, ?_⟩
        rcases hcv : sm.certificateVerify with _ | ⟨cv, thash⟩
        · rw [hcv] at h; cases h
        · rw [hcv] at h
          simp only at h
          obtain ⟨u3, h7, h⟩ := except_bind_ok h
          cases h
          exact ⟨_, rfl, h7, rfl⟩
    obtain ⟨anchor, h1, h2, cv, h3, h4, h5⟩ := hca
    exact ⟨cert, entry, more, anchor, cv, rfl, hl, h1, h2, h3, h4, h5⟩
  obtain ⟨cert, entry, more, anchor, cv, hc, hl, hanchor, hver, hcv, h7, rfl⟩ := hrest
  refine ⟨?_, verifyFinished_ok h3, ?_⟩
  · obtain ⟨salt, ha, hb⟩ := derivedPrk_ok h1
    obtain ⟨hk1, hk2⟩ := trafficSecrets_ok h2
    refine ⟨master, ⟨salt, ha, by rw [hb, byteLen_eq]⟩, ?_, ?_⟩
    · have e : ascii "c " ++ ascii "ap" ++ ascii " traffic" = labelClientAp := by decide
      rw [e] at hk1; exact hk1
    · have e : ascii "s " ++ ascii "ap" ++ ascii " traffic" = labelServerAp := by decide
      rw [e] at hk2; exact hk2
  · obtain ⟨hs1, hs2⟩ := rsaVerify_ok h7
    rw [signedContent_eq] at hs2
    exact ⟨cert, entry, more, anchor, cv, hc, hl, hanchor, hver, hcv, hs1, hs2⟩

/-! ### The client's answer -/

theorem clientSignedContent_eq (hash : Bytes) : verifyTranscriptInput false hash = clientSignedContent hash := by
  unfold verifyTranscriptInput clientSignedContent
  have : ascii "TLS 1.3, client CertificateVerify" = [84, 76, 83, 32, 49, 46, 51, 44, 32, 99, 108, 105, 101, 110, 116, 32, 67, 101, 114, 116, 105, 102, 105, 99, 97,
     116, 101, 86, 101, 114, 105, 102, 121] := by decide
  rw [if_neg (by decide), this]

theorem handshakeBytes_parses {X K : Type} (cr : Crypto X K) (h : Handshake X) (hw : h.WellFormed cr.x509) (out : Bytes)
    (ho : handshakeBytes h = .ok out) (hlen : out.length < 2 ^ 64) : Parses cr out h := by
  unfold handshakeBytes at ho
  rcases hb : h.toBinary [] with ⟨r, s⟩
  rw [hb] at ho
  rcases r with e | u
  · cases e <;> cases ho
  · simp only at ho
    cases ho
    obtain ⟨enc, he, hr, _⟩ := C22_handshake_round_trip cr.x509 h hw [] out hb
    rw [List.nil_append] at he
    subst he
    have := hr [] (by simpa using hlen)
    simp only [List.nil_append, List.length_nil] at this
    unfold Parses Message.fromRaw
    simp only [Reader.new, this, Except.map]

theorem clientFinishedBytes_ok {X K : Type} {cr : Crypto X K} {alg : HashAlg} {key : EncryptionKey} {transcript out : Bytes}
    (h : clientFinishedBytes cr alg key transcript = .ok out) (hlen : out.length < 2 ^ 64) :
    IsClientFinished cr alg key transcript out := by
  unfold clientFinishedBytes at h
  obtain ⟨fk, h1, h⟩ := except_bind_ok h
  have hf : ascii "finished" = labelFinished := by decide
  rw [hf] at h1
  exact ⟨fk, deriveSecret_ok h1, handshakeBytes_parses cr (.finished _) trivial _ h hlen⟩

theorem clientFlight_ok {X K : Type} {cr : Crypto X K} {alg : HashAlg} {key : EncryptionKey} {before t certBytes fin : Bytes}
    {auth : ClientAuth} (h1 : clientCertificateBytes cr alg before auth = .ok (t, certBytes))
    (h2 : clientFinishedBytes cr alg key t = .ok fin) (hlen : (certBytes ++ fin).length < 2 ^ 64) :
    IsClientFlight cr alg key before auth (certBytes ++ fin) := by
  rw [List.length_append] at hlen
  have hfin := clientFinishedBytes_ok h2 (by omega)
  rcases auth with _ | ⟨cert, isRsa, k⟩
  · cases h1
    exact hfin
  · unfold clientCertificateBytes at h1
    rcases hx : cr.x509 cert with _ | x
    · simp only [hx] at h1; cases h1
    simp only [hx] at h1
    obtain ⟨x', h, h1⟩ := except_bind_ok h1
    cases h
    obtain ⟨c, hc, h1⟩ := except_bind_ok h1
    rcases hs : cr.sign isRsa k (verifyTranscriptInput false (cr.hash alg (before ++ c))) with _ | sig
    · simp only [hs] at h1; cases h1
    simp only [hs] at h1
    obtain ⟨sig', h, h1⟩ := except_bind_ok h1
    cases h
    obtain ⟨v, hv, h1⟩ := except_bind_ok h1
    cases h1
    rw [List.length_append] at hlen
    rw [clientSignedContent_eq] at hs
    refine ⟨c, v, fin, x, sig, rfl, hx, ?_, hs, ?_, hfin⟩
    · refine handshakeBytes_parses cr _ ?_ _ hc (by omega)
      intro e he
      simp only [List.mem_singleton] at he
      subst he
      exact ⟨hx, nofun⟩
    · refine handshakeBytes_parses cr _ ?_ _ hv (by omega)
      refine ⟨?_, ?_⟩
      · intro c' hc'
        cases isRsa <;> simp at hc'
      · cases isRsa <;> simp [SignatureScheme.toRaw]

/-! ### The states of the handshake -/

/-- A finished handshake. -/
def Complete {X K : Type} (cr : Crypto X K) (config : ClientConfig) (privateKey : K) (total ch : Bytes) (ciphers : Ciphers)
    (keys : TrafficSecrets) (rest sent : Bytes) (seals : List SealCall) : Prop :=
  ∃ (f : Flight X) (hsSecret : Bytes) (hsServer : EncryptionKey), f.Legal cr ∧
    Agreed cr f.sh f.shRaw privateKey ch ciphers hsSecret hsServer ∧
    Arrived cr f.shRaw f.encrypted hsServer total rest ∧
    f.Authenticated cr config ch ciphers hsServer ∧ f.Keys cr ch ciphers hsSecret keys ∧
    f.Answered cr config ch ciphers hsSecret sent seals

structure EarlyInv {K : Type} (config : ClientConfig) (privateKey : K) (total ch : Bytes) (s : EarlyState K) : Prop where
  config_eq : s.config = config
  key_eq : s.privateKey = privateKey
  transcript : s.initialTranscript = ch
  active : s.plaintext.writeState = .active
  seals : s.plaintext.seals = []
  sent : s.plaintext.inner.sent ++ s.plaintext.outgoing = (⟨22, 3, 1, ch⟩ : WireRecord).bytes
  arrived : ∃ all : List WireRecord, (∀ w ∈ all, w.Legal ∧ w.typ = 20) ∧ total = wire all ++ s.plaintext.unread

def EcInv {X K : Type} (cr : Crypto X K) (config : ClientConfig) (privateKey : K) (total ch : Bytes) : ECState X K → Prop
  | .begin s => EarlyInv config privateKey total ch s
  | .afterSendClientHello s => EarlyInv config privateKey total ch s
  | .afterReceiveServerHello s => ∃ shRaw sh hs, HsInv cr config privateKey total ch shRaw sh hs s
  | .afterReceiveServerMessages s => Complete cr config privateKey total ch s.seqenc.ciphers s.applicationSecrets
      s.plaintext.unread (s.plaintext.inner.sent ++ s.plaintext.outgoing) s.plaintext.seals ∧ s.plaintext.writeState = .active
  | .done c => Complete cr config privateKey total ch c.seqenc.ciphers c.seqenc.trafficSecrets
      c.plaintext.unread c.plaintext.inner.sent c.plaintext.seals ∧ c.Fresh
  | .error _ => True

theorem recv_inv {X K : Type} {cr : Crypto X K} {config : ClientConfig} {privateKey : K} {total ch : Bytes} {s : ECState X K}
    (h : EcInv cr config privateKey total ch s) : EcInv cr config privateKey total ch s.recv.2 := by
  cases s with
  | afterSendClientHello s =>
    simp only [ECState.recv]
    obtain ⟨h1, h2, h3, h4⟩ := pollRecv_frame s.plaintext
    have hdat := pollRecv_data s.plaintext
    rcases hp : s.plaintext.pollRecv with ⟨res, p⟩
    rw [hp] at h1 h2 h3 h4 hdat
    replace hdat : p.unread = s.plaintext.unread := hdat
    have : EarlyInv config privateKey total ch { s with plaintext := p } :=
      ⟨h.config_eq, h.key_eq, h.transcript, h3.trans h.active, h4.trans h.seals, (by
        show p.inner.sent ++ p.outgoing = _
        rw [h1, h2]; exact h.sent), by simpa [hdat] using h.arrived⟩
    rcases res with _ | (e | u) <;> exact this
  | afterReceiveServerHello s =>
    simp only [ECState.recv]
    obtain ⟨shRaw, sh, hs, h⟩ := h
    obtain ⟨h1, h2, h3, h4⟩ := pollRecv_frame s.plaintext
    have hdat := pollRecv_data s.plaintext
    rcases hp : s.plaintext.pollRecv with ⟨res, p⟩
    rw [hp] at h1 h2 h3 h4 hdat
    replace hdat : p.unread = s.plaintext.unread := hdat
    have : HsInv cr config privateKey total ch shRaw sh hs { s with plaintext := p } :=
      ⟨h.config_eq, h.parses, h.agreed, h.clientKey, h.clientSeq, h.serverSeq, (by simpa [hdat] using h.arrived), h.transcript, h.parsed, h.state,
        h3.trans h.active, h4.trans h.seals, by
        show p.inner.sent ++ p.outgoing = _
        rw [h1, h2]; exact h.sent⟩
    rcases res with _ | (e | u) <;> exact ⟨shRaw, sh, hs, this⟩
  | _ => exact h

theorem serverKeyShare_mem {exts : List Extension} {share : Bytes} (h : serverKeyShare exts = some share) :
    Extension.keyShareServerHello ⟨.x25519, share⟩ ∈ exts := by
  induction exts with
  | nil => cases h
  | cons e rest ih =>
    cases e with
    | keyShareServerHello ks =>
      simp only [serverKeyShare] at h
      split at h
      · rename_i hg
        cases h
        rw [← hg]
        exact List.mem_cons_self
      · exact List.mem_cons_of_mem _ (ih h)
    | _ => exact List.mem_cons_of_mem _ (ih h)

theorem onServerHello_inv {X K : Type} (cr : Crypto X K) {config : ClientConfig} {privateKey : K} {total ch shRaw : Bytes}
    (s : EarlyState K) (m : Option (Message X)) (h1 : s.config = config) (h2 : s.privateKey = privateKey)
    (h3 : s.plaintext.writeState = .active) (h4 : s.plaintext.seals = [])
    (h5 : s.plaintext.inner.sent ++ s.plaintext.outgoing = (⟨22, 3, 1, ch⟩ : WireRecord).bytes)
    (h6 : ∀ hs, m = some (.handshake hs) → ∃ w0 all, (∀ w ∈ all, w.Legal) ∧ all.filter (fun w => w.typ != 20) = [w0] ∧
      total = wire all ++ s.plaintext.unread ∧ w0.typ = 22 ∧ w0.fragment = shRaw)
    (ht : s.initialTranscript = ch ++ shRaw)
    (hm : ∀ hs, m = some (.handshake hs) → Parses cr shRaw hs) :
    EcInv cr config privateKey total ch (onServerHello cr s m) := by
  unfold onServerHello
  split
  · rename_i sh
    split
    · trivial
    rename_i ciphers hci
    split
    · trivial
    rename_i secret hse
    split
    · trivial
    rename_i prk hprk
    split
    · trivial
    rename_i secrets htr
    obtain ⟨hc, hs⟩ := trafficSecrets_ok htr
    rw [ht] at hc hs
    have e1 : ascii "c " ++ ascii "hs" ++ ascii " traffic" = labelClientHs := by decide
    have e2 : ascii "s " ++ ascii "hs" ++ ascii " traffic" = labelServerHs := by decide
    rw [e1] at hc
    rw [e2] at hs
    obtain ⟨w0, all, ha1, ha2, ha3, ha4, ha5⟩ := h6 _ rfl
    refine ⟨shRaw, sh, [], h1, hm _ rfl, ⟨?_, ?_, hs⟩, hc, rfl, rfl, ⟨w0, [], all, ha1, ha2, ha3, ha4, ha5, trivial⟩,
      ?_, nofun, rfl, h3, h4, h5⟩
    · unfold sharedSecret at hse
      split at hse
      · cases hse
      · rename_i share hsh
        obtain ⟨salt, hs1, hs2⟩ := derivedPrk_ok hprk
        rw [zeroPrk_eq] at hs1
        refine ⟨share, secret, serverKeyShare_mem hsh, ?_, salt, hs1, hs2⟩
        rw [← h2]; exact hse
    · unfold Ciphers.fromServerHello at hci
      split at hci
      · rename_i hc'; cases hci; exact .inl ⟨hc', rfl⟩
      · rename_i hc'; cases hci; exact .inr ⟨hc', rfl⟩
      · cases hci
    · simp [rawsOf, ht]
  · trivial
  · trivial

theorem sendClientHelloStep_inv {X K : Type} (cr : Crypto X K) {config : ClientConfig} {privateKey : K} {total ch : Bytes}
    (s : EarlyState K) (h : EarlyInv config privateKey total ch s) :
    EcInv cr config privateKey total ch (sendClientHelloStep (X := X) cr s).2 := by
  unfold sendClientHelloStep PlaintextStream.pollReceivePlaintextMessage pollReceiveRecordIgnoreCc
  obtain ⟨all, hleg, hinc, hsome, hnone⟩ := ignoreCcLoop_spec (s.plaintext.receiver.incoming.length + 1) s.plaintext.receiver
  obtain ⟨all0, hall0, htot⟩ := h.arrived
  rcases hp : ignoreCcLoop (s.plaintext.receiver.incoming.length + 1) s.plaintext.receiver with ⟨res, r⟩
  rw [hp] at hinc hsome hnone
  simp only at hinc hsome hnone
  have htot' : total = wire (all0 ++ all) ++ (r.incoming ++ readData s.plaintext.inner.reads) := by
    rw [htot, wire_append, PlaintextStream.unread, hinc]; simp
  have hlegal : ∀ w ∈ all0 ++ all, w.Legal := by
    intro w hw
    rcases List.mem_append.mp hw with hw | hw
    · exact (hall0 w hw).1
    · exact hleg w hw
  rcases res with _ | (e | (_ | record))
  · refine ⟨h.config_eq, h.key_eq, h.transcript, h.active, h.seals, h.sent, all0 ++ all, ?_, htot'⟩
    intro w hw
    refine ⟨hlegal w hw, ?_⟩
    rcases List.mem_append.mp hw with hw | hw
    · exact (hall0 w hw).2
    · exact hnone nofun w hw
  · trivial
  · simp only
    exact onServerHello_inv (shRaw := []) cr _ none h.config_eq h.key_eq h.active h.seals h.sent nofun (by simpa using h.transcript) nofun
  · simp only
    rcases hm : Message.fromRaw cr.x509 record.fragment record.contentType with e | m
    · cases e <;> trivial
    · simp only
      obtain ⟨pre, w, rfl, rfl, hw20, hpre⟩ := hsome record rfl
      refine onServerHello_inv (shRaw := w.owned.fragment) cr _ (some m) h.config_eq h.key_eq h.active h.seals h.sent ?_ ?_ ?_
      · intro hs hhs
        cases hhs
        obtain ⟨h22, _⟩ := fromRaw_handshake cr.x509 w.fragment w.typ hs hm
        refine ⟨w, all0 ++ (pre ++ [w]), hlegal, ?_, htot', h22, rfl⟩
        rw [List.filter_append, filter_ccs_nil _ (fun x hx => (hall0 x hx).2), filter_ccs _ _ hpre hw20]
        rfl
      · simp [h.transcript]
      · intro hs hhs
        cases hhs
        exact (fromRaw_handshake cr.x509 w.fragment w.typ hs hm).2

theorem onServerMessages_inv {X K : Type} (cr : Crypto X K) (hx : cr.Expands) (hc : cr.Correct)
    {config : ClientConfig} {privateKey : K} {total ch shRaw : Bytes} {sh : ServerHello} {hs : List (Handshake X × Bytes)}
    (s : ServerHelloState X) (sm : ServerMessages X)
    (h : HsInv cr config privateKey total ch shRaw sh hs s) (hsm : s.cstate = .receivedFinished sm) :
    EcInv cr config privateKey total ch (onServerMessages cr s sm) := by
  unfold onServerMessages
  split
  · trivial
  rename_i keys hkeys
  split
  · trivial
  rename_i t certBytes hcert
  split
  · trivial
  rename_i fin hfin
  split
  · trivial
  rename_i p henc
  obtain ⟨hlen, w, hw, _, _, _, hp, _, hprot⟩ := encryptRecord_ok cr hc _ (isTrafficKey_iv hx h.clientKey) _ _ _ _ _ henc
  have hflight := clientFlight_ok hcert hfin (by omega)
  obtain ⟨hk, hf, cert, entry, more, anchor, cv, hcert, hl, hanchor, hver, hcv, hscheme, hsig⟩ := computeApplicationSecrets_ok hkeys
  have hst := h.state
  rw [hsm] at hst
  obtain ⟨r, p1, p2, p3, r4, hp1, hp2, hp3, hhs, hcvh, hfinh⟩ := hst
  rw [hcert] at hp2
  obtain ⟨certRaw, rfl⟩ := hp2
  rw [hcv] at hp3
  obtain ⟨cvRaw, rfl⟩ := hp3
  have hparse := h.parsed
  rw [hhs] at hparse
  have hreq : (p1.map Prod.snd = [] ∧ p1 = []) ∨ ∃ raw req, p1 = [(.certificateRequest req, raw)] := by
    rcases hq : sm.certificateRequest with _ | req
    · rw [hq] at hp1; left; rw [show p1 = [] from hp1]; exact ⟨rfl, rfl⟩
    · rw [hq] at hp1; right; obtain ⟨raw, hr⟩ := hp1; exact ⟨raw, req, hr⟩
  let f : Flight X := ⟨shRaw, r, p1.map Prod.snd, certRaw, cvRaw, r4, sh, sm.encryptedExtensions, cert, cv.1, sm.finished.1⟩
  have htc : f.toCertificate ch = ch ++ shRaw ++ rawsOf ([(.encryptedExtensions sm.encryptedExtensions, r)] ++ p1 ++ [(Handshake.certificate cert, certRaw)]) := by
    simp [f, Flight.toCertificate, rawsOf]
  have hts : f.toSignature ch = ch ++ shRaw ++ rawsOf ([(.encryptedExtensions sm.encryptedExtensions, r)] ++ p1 ++ [(Handshake.certificate cert, certRaw)] ++ [(Handshake.certificateVerify cv.1, cvRaw)]) := by
    simp [f, Flight.toSignature, Flight.toCertificate, rawsOf]
  have htf : f.toFinished ch = s.transcript := by
    rw [h.transcript, hhs]
    simp [f, Flight.toFinished, Flight.toSignature, Flight.toCertificate, rawsOf]
  refine ⟨⟨f, s.prk, s.seqenc.trafficSecrets.server, ⟨h.parses, ?_, ?_, ?_, ?_, ?_⟩, h.agreed, ?_, ⟨?_, hscheme, ?_⟩, ⟨?_⟩, ⟨?_⟩⟩, ?_⟩
  · exact hparse (.encryptedExtensions sm.encryptedExtensions, r) (by simp)
  · rcases hreq with ⟨h1, _⟩ | ⟨raw, req, hr⟩
    · exact .inl h1
    · right
      refine ⟨raw, req, (by show p1.map Prod.snd = [raw]; rw [hr]; rfl), ?_⟩
      exact hparse (.certificateRequest req, raw) (by simp [hr])
  · exact hparse (.certificate cert, certRaw) (by simp)
  · exact hparse (.certificateVerify cv.1, cvRaw) (by simp)
  · exact hparse (.finished sm.finished.1, r4) (by simp)
  · have harr := h.arrived
    have e : f.encrypted = hs.map Prod.snd := by
      rw [hhs]; simp [f, Flight.encrypted]
    have eu : p.unread = s.plaintext.unread := by rw [hp]; rfl
    show Arrived cr shRaw f.encrypted s.seqenc.trafficSecrets.server total p.unread
    rw [e, eu]
    exact harr
  · rw [h.config_eq] at hanchor
    refine ⟨entry, more, anchor, hl, hanchor, hver, ?_⟩
    rw [htc, ← hcvh cv hcv]
    exact hsig
  · obtain ⟨fk, h1, h2⟩ := hf
    refine ⟨fk, h1, ?_⟩
    rw [hts, ← hfinh]
    exact h2
  · rw [htf]; exact hk
  · refine ⟨s.seqenc.trafficSecrets.client, w, certBytes ++ fin, h.clientKey, ?_, hw, ?_, ?_, ?_⟩
    · rw [htf, ← h.config_eq]; exact hflight
    · rw [h.clientSeq] at hprot
      exact hprot
    · rw [hp]
      simp only
      rw [← List.append_assoc, h.sent]
    · rw [hp]
      simp only [h.seals, h.clientSeq, List.nil_append]
  · rw [hp]; exact h.active

theorem pollStep_inv {X K : Type} {cr : Crypto X K} (hx : cr.Expands) (hc : cr.Correct)
    {config : ClientConfig} {privateKey : K} {total ch : Bytes} {s : ECState X K}
    (h : EcInv cr config privateKey total ch s) : EcInv cr config privateKey total ch (s.pollStep cr).2 := by
  cases s with
  | begin s =>
    simp only [ECState.pollStep, beginStep]
    obtain ⟨h1, h2, h3, h4, h5⟩ := pollFlush_frame s.plaintext
    obtain ⟨hr1, hr2⟩ := pollFlush_rx s.plaintext
    rcases hp : s.plaintext.pollFlush with ⟨res, p⟩
    rw [hp] at h1 h2 h3 h4 h5 hr1 hr2
    have hu : p.unread = s.plaintext.unread := by
      simp only at hr1 hr2
      simp [PlaintextStream.unread, hr1, hr2]
    rcases res with _ | (e | u)
    · exact ⟨h.config_eq, h.key_eq, h.transcript, (h5 rfl).trans h.active, h2.trans h.seals, h1.trans h.sent, by simpa [hu] using h.arrived⟩
    · trivial
    · exact ⟨h.config_eq, h.key_eq, h.transcript, (h4 rfl).2.trans h.active, h2.trans h.seals, h1.trans h.sent, by simpa [hu] using h.arrived⟩
  | afterSendClientHello s => exact sendClientHelloStep_inv cr s h
  | afterReceiveServerHello s =>
    obtain ⟨shRaw, sh, hs, h⟩ := h
    simp only [ECState.pollStep, receiveServerHelloStep]
    obtain ⟨h1, h2⟩ := receiveServerMessages_inv cr hx config privateKey total ch shRaw sh
      (s.plaintext.receiver.incoming.length + 1) hs s h
    rcases hp : receiveServerMessages cr (s.plaintext.receiver.incoming.length + 1) s with ⟨res, s'⟩
    rcases res with _ | (e | sm)
    · obtain ⟨hs', h'⟩ := h2 s' hp
      exact ⟨shRaw, sh, hs', h'⟩
    · trivial
    · obtain ⟨hs', h', hsm⟩ := h1 sm s' hp
      exact onServerMessages_inv cr hx hc s' sm h' hsm
  | afterReceiveServerMessages s =>
    obtain ⟨h, hact⟩ := h
    simp only [ECState.pollStep, sendFinishedStep]
    obtain ⟨h1, h2, h3, h4, h5⟩ := pollFlush_frame s.plaintext
    obtain ⟨hr1, hr2⟩ := pollFlush_rx s.plaintext
    rcases hp : s.plaintext.pollFlush with ⟨res, p⟩
    rw [hp] at h1 h2 h3 h4 h5 hr1 hr2
    have hu : p.unread = s.plaintext.unread := by
      simp only at hr1 hr2
      simp [PlaintextStream.unread, hr1, hr2]
    simp only at h1 h2
    rcases res with _ | (e | u)
    · refine ⟨?_, (h5 rfl).trans hact⟩
      show Complete cr config privateKey total ch s.seqenc.ciphers s.applicationSecrets p.unread (p.inner.sent ++ p.outgoing) p.seals
      rw [h1, h2, hu]; exact h
    · trivial
    · obtain ⟨ho, hw⟩ := h4 rfl
      simp only at ho hw
      rw [ho, List.append_nil] at h1
      refine ⟨?_, ?_⟩
      · show Complete cr config privateKey total ch s.seqenc.ciphers s.applicationSecrets p.unread p.inner.sent p.seals
        rw [h1, h2, hu]; exact h
      · obtain ⟨f, hsSecret, hsServer, _, _, _, _, ⟨master, _, hk1, hk2⟩, _⟩ := h
        exact ⟨rfl, rfl, rfl, hw.trans hact, ho, rfl, isTrafficKey_iv hx hk1, isTrafficKey_iv hx hk2⟩
  | done c => exact h
  | error e => exact h

theorem establishLoop_inv {X K : Type} {cr : Crypto X K} (hx : cr.Expands) (hc : cr.Correct)
    {config : ClientConfig} {privateKey : K} {total ch : Bytes} (n : Nat) : ∀ {s : ECState X K},
    EcInv cr config privateKey total ch s → EcInv cr config privateKey total ch (establishLoop cr n s).2 ∧
      ∀ c, (establishLoop cr n s).1 = .ready (.ok c) → EcInv cr config privateKey total ch (.done c : ECState X K) := by
  induction n with
  | zero => intro s h; rw [establishLoop]; exact ⟨h, fun _ hh => by cases hh⟩
  | succ n ih =>
    intro s h
    have go : ∀ s : ECState X K, EcInv cr config privateKey total ch s →
        EcInv cr config privateKey total ch (match s.recv with
          | (some e, s) => ((.ready (.error e), s) : Poll (Except TlsErr Conn) × ECState X K)
          | (none, s) =>
            match s.pollStep cr with
            | (.ready (), s) => establishLoop cr n s
            | (.pending, s) => (.pending, s)).2 ∧
        ∀ c, (match s.recv with
          | (some e, s) => ((.ready (.error e), s) : Poll (Except TlsErr Conn) × ECState X K)
          | (none, s) =>
            match s.pollStep cr with
            | (.ready (), s) => establishLoop cr n s
            | (.pending, s) => (.pending, s)).1 = .ready (.ok c) → EcInv cr config privateKey total ch (.done c : ECState X K) := by
      intro s h
      have h1 := recv_inv h
      rcases hr : s.recv with ⟨e, s1⟩
      rw [hr] at h1
      rcases e with _ | e
      · simp only
        have h2 := pollStep_inv hx hc h1
        simp only at h2
        rcases hp : s1.pollStep cr with ⟨res, s2⟩
        rw [hp] at h2
        rcases res with _ | u
        · exact ⟨h2, fun _ hh => by cases hh⟩
        · exact ih h2
      · exact ⟨h1, fun _ hh => by cases hh⟩
    cases s with
    | done c =>
      rw [establishLoop]
      refine ⟨h, ?_⟩
      intro c' hc'
      cases hc'
      exact h
    | error e => rw [establishLoop]; exact ⟨trivial, fun _ hh => by cases hh⟩
    | begin s => rw [establishLoop] <;> first | exact go _ h | (intro _ hh; cases hh)
    | afterSendClientHello s => rw [establishLoop] <;> first | exact go _ h | (intro _ hh; cases hh)
    | afterReceiveServerHello s => rw [establishLoop] <;> first | exact go _ h | (intro _ hh; cases hh)
    | afterReceiveServerMessages s => rw [establishLoop] <;> first | exact go _ h | (intro _ hh; cases hh)

theorem pollTimes_inv {X K : Type} {cr : Crypto X K} (hx : cr.Expands) (hc : cr.Correct)
    {config : ClientConfig} {privateKey : K} {total ch : Bytes} (k : Nat) : ∀ {s : ECState X K},
    EcInv cr config privateKey total ch s → EcInv cr config privateKey total ch (pollTimes cr k s) := by
  induction k with
  | zero => intro s h; exact h
  | succ k ih => intro s h; exact ih (establishLoop_inv hx hc 6 h).1

theorem initialState_inv {X K : Type} (cr : Crypto X K) (transport : Transport) (ht : transport.sent = [])
    (config : ClientConfig) (protocolNames : List String) (privateKey : K) (publicKey random sessionId ch : Bytes)
    (hch : handshakeBytes (X := X)
      (.clientHello (makeClientHello random sessionId publicKey config.serverName protocolNames)) = .ok ch) :
    EcInv cr config privateKey (readData transport.reads) ch
      (initialState (X := X) transport config protocolNames privateKey publicKey random sessionId) := by
  unfold initialState
  rw [hch]
  refine ⟨rfl, rfl, rfl, rfl, rfl, ?_, [], nofun, rfl⟩
  simp only [PlaintextStream.new, ht, List.nil_append]
  simp only [encodeRecord, WireRecord.bytes, WireRecord.header, beBytes, Nat.shiftRight_eq_div_pow, ofNat_mod,
    Nat.mul_one, Nat.mul_zero, Nat.pow_zero, Nat.div_one]
  rfl

end Ngfs.Tls
