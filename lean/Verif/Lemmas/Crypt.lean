import Verif.Lemmas.TlsHonest
import Verif.Spec.Crypt

/-!
The keys of the TLS client and of the QUIC endpoint have the right lengths, in every run.
-/
namespace Ngfs.Tls

open Ngfs.Spec

theorem aeadKeyLen_eq (a : AeadAlg) : a.keyLen = aeadKeyLen a := by cases a <;> rfl

theorem small_le (alg : HashAlg) {n : Nat} (h : n ≤ 48) : n ≤ 255 * hashLen alg := by
  have : 32 ≤ hashLen alg := by cases alg <;> decide
  omega

/-- A key of the right lengths. -/
structure KeyOk (alg : HashAlg) (key : EncryptionKey) : Prop where
  raw : key.raw.length = hashLen alg
  wkey : key.writeKey.length = aeadKeyLen key.aeadAlg
  iv : key.writeIv.length = 12

structure KeysOk (ciphers : Ciphers) (t : TrafficSecrets) : Prop where
  client : KeyOk ciphers.hashAlg t.client
  server : KeyOk ciphers.hashAlg t.server

section
variable {X K : Type} {cr cr' : Crypto X K} (hs : SameWithin cr cr') (hr : RightSizes cr)
include hs hr

omit hr in
theorem hkdfExpandLabel_same (alg : HashAlg) (prk label context : Bytes) (n : Nat) (hp : hashLen alg ≤ prk.length) (hn : n ≤ 48) :
    hkdfExpandLabel cr' alg prk label context n = hkdfExpandLabel cr alg prk label context n := by
  unfold hkdfExpandLabel
  simp only [hs.expand alg prk _ n hp (small_le alg hn)]

omit hs in
theorem hkdfExpandLabel_len {alg : HashAlg} {prk label context okm : Bytes} {n : Nat}
    (h : hkdfExpandLabel cr alg prk label context n = .ok okm) : okm.length = n := by
  unfold hkdfExpandLabel at h
  simp only at h
  split at h
  · next o ho => cases h; exact hr.expand _ _ _ _ _ ho
  · cases h

omit hr in
theorem deriveSecret_same (alg : HashAlg) (secret label thash : Bytes) (hp : hashLen alg ≤ secret.length) :
    deriveSecret cr' alg secret label thash = deriveSecret cr alg secret label thash :=
  hkdfExpandLabel_same hs _ _ _ _ _ hp (by cases alg <;> decide)

omit hs in
theorem deriveSecret_len {alg : HashAlg} {secret label thash okm : Bytes} (h : deriveSecret cr alg secret label thash = .ok okm) :
    okm.length = hashLen alg := by
  rw [hkdfExpandLabel_len hr h, byteLen_eq]

omit hr in
theorem encryptionKey_same (raw : Bytes) (alg : HashAlg) (aead : AeadAlg) (hp : hashLen alg ≤ raw.length) :
    EncryptionKey.new cr' raw alg aead = EncryptionKey.new cr raw alg aead := by
  unfold EncryptionKey.new
  rw [hkdfExpandLabel_same hs _ _ _ _ _ hp (by cases aead <;> decide), hkdfExpandLabel_same hs _ _ _ _ _ hp (by decide)]

omit hs in
theorem encryptionKey_keyOk {raw : Bytes} {alg : HashAlg} {aead : AeadAlg} {key : EncryptionKey} (hp : raw.length = hashLen alg)
    (h : EncryptionKey.new cr raw alg aead = .ok key) : KeyOk alg key := by
  unfold EncryptionKey.new at h
  obtain ⟨k, hk, h⟩ := except_bind_ok h
  obtain ⟨iv, hiv, h⟩ := except_bind_ok h
  cases h
  exact ⟨hp, by rw [hkdfExpandLabel_len hr hk, aeadKeyLen_eq], hkdfExpandLabel_len hr hiv⟩

theorem trafficSecrets_same (ciphers : Ciphers) (transcript prk : Bytes) (label : String) (hp : hashLen ciphers.hashAlg ≤ prk.length) :
    TrafficSecrets.deriveFrom cr' ciphers transcript prk label = TrafficSecrets.deriveFrom cr ciphers transcript prk label := by
  unfold TrafficSecrets.deriveFrom
  simp only [hs.hash, deriveSecret_same hs _ _ _ _ hp]
  cases h1 : deriveSecret cr ciphers.hashAlg prk (ascii "c " ++ ascii label ++ ascii " traffic") (cr.hash ciphers.hashAlg transcript) with
  | error e => rfl
  | ok c =>
    cases h2 : deriveSecret cr ciphers.hashAlg prk (ascii "s " ++ ascii label ++ ascii " traffic") (cr.hash ciphers.hashAlg transcript) with
    | error e =>
      simp only [bind, Except.bind, encryptionKey_same hs c ciphers.hashAlg ciphers.aeadAlg (deriveSecret_len hr h1).ge]
    | ok s =>
      simp only [bind, Except.bind, encryptionKey_same hs c ciphers.hashAlg ciphers.aeadAlg (deriveSecret_len hr h1).ge,
        encryptionKey_same hs s ciphers.hashAlg ciphers.aeadAlg (deriveSecret_len hr h2).ge]

omit hs in
theorem trafficSecrets_keysOk {ciphers : Ciphers} {transcript prk : Bytes} {label : String} {t : TrafficSecrets}
    (h : TrafficSecrets.deriveFrom cr ciphers transcript prk label = .ok t) : KeysOk ciphers t := by
  unfold TrafficSecrets.deriveFrom at h
  obtain ⟨c, h1, h⟩ := except_bind_ok h
  obtain ⟨kc, h2, h⟩ := except_bind_ok h
  obtain ⟨s, h3, h⟩ := except_bind_ok h
  obtain ⟨ks, h4, h⟩ := except_bind_ok h
  cases h
  exact ⟨encryptionKey_keyOk hr (deriveSecret_len hr h1) h2, encryptionKey_keyOk hr (deriveSecret_len hr h3) h4⟩

omit hr in
theorem derivedPrk_same (alg : HashAlg) (prk secret : Bytes) (hp : hashLen alg ≤ prk.length) :
    derivedPrk cr' alg prk secret = derivedPrk cr alg prk secret := by
  unfold derivedPrk
  rw [hs.hash, deriveSecret_same hs _ _ _ _ hp, hs.extract]

omit hs in
theorem derivedPrk_len {alg : HashAlg} {prk secret out : Bytes} (h : derivedPrk cr alg prk secret = .ok out) :
    out.length = hashLen alg := by
  unfold derivedPrk at h
  obtain ⟨salt, _, h⟩ := except_bind_ok h
  cases h
  exact hr.extract _ _ _

omit hr in
theorem encryptRecord_same (p : PlaintextStream) (data : Bytes) (ct : ContentType) {alg : HashAlg} {key : EncryptionKey} (hk : KeyOk alg key)
    (n : Nat) : encryptRecord cr' p data ct key n = encryptRecord cr p data ct key n := by
  unfold encryptRecord
  by_cases hl : data.length > maxPlaintextRecordSize
  · rw [if_pos hl, if_pos hl]
  · rw [if_neg hl, if_neg hl]
    unfold encryptTraffic
    simp only
    rw [hs.encrypt _ _ _ _ _ hk.wkey (by rw [makeNonce_eq _ hk.iv]; exact nonceSpec_length _ hk.iv n)
      (by simp only [maxPlaintextRecordSize] at hl; simp; omega)]

omit hr in
theorem decryptTraffic_same (raw : Bytes) {alg : HashAlg} {key : EncryptionKey} (hk : KeyOk alg key)
    (n : Nat) : decryptTraffic cr' key n raw = decryptTraffic cr key n raw := by
  unfold decryptTraffic
  split
  · rfl
  · next rec consumed hc =>
    have hl : rec.length < 2 ^ 32 := by
      unfold ciphertextFromRaw at hc
      split at hc
      · cases hc
      · simp only at hc
        split at hc
        · cases hc
        · next h => 
          split at hc
          · cases hc
          · cases hc
            simp only [List.length_take, tlsMaxEncryptedRecordLen] at h ⊢
            omega
    rw [hs.decrypt _ _ _ _ _ hk.wkey (by rw [makeNonce_eq _ hk.iv]; exact nonceSpec_length _ hk.iv n) hl]

omit hr in
theorem pollReceiveEncrypted_same (r : RecordReceiver) (n : Nat) {alg : HashAlg} {key : EncryptionKey} (hk : KeyOk alg key) :
    pollReceiveEncryptedMessage cr' r n key = pollReceiveEncryptedMessage cr r n key := by
  unfold pollReceiveEncryptedMessage decryptMessage
  simp only [decryptTraffic_same hs _ hk n, hs.x509]

/-- Every key of a state has the right lengths. -/
def Sized : ECState X K → Prop
  | .afterReceiveServerHello s => hashLen s.seqenc.ciphers.hashAlg ≤ s.prk.length ∧ KeysOk s.seqenc.ciphers s.seqenc.trafficSecrets
  | .afterReceiveServerMessages s => KeysOk s.seqenc.ciphers s.applicationSecrets
  | .done c => KeysOk c.seqenc.ciphers c.seqenc.trafficSecrets
  | _ => True

theorem onServerHello_same (s : EarlyState K) (m : Option (Message X)) :
    onServerHello cr' s m = onServerHello cr s m ∧ Sized (onServerHello cr s m) := by
  unfold onServerHello
  split
  · next sh =>
    cases Ciphers.fromServerHello sh with
    | error e => exact ⟨rfl, trivial⟩
    | ok ciphers =>
      have e1 : sharedSecret cr' s.privateKey sh = sharedSecret cr s.privateKey sh := by
        unfold sharedSecret; rw [hs.agree]
      have e2 : zeroPrk cr' ciphers.hashAlg = zeroPrk cr ciphers.hashAlg := by unfold zeroPrk; rw [hs.extract]
      simp only [e1, e2]
      cases sharedSecret cr s.privateKey sh with
      | none => exact ⟨rfl, trivial⟩
      | some secret =>
        simp only [derivedPrk_same hs ciphers.hashAlg (zeroPrk cr ciphers.hashAlg) secret (hr.extract _ _ _).ge]
        cases h1 : derivedPrk cr ciphers.hashAlg (zeroPrk cr ciphers.hashAlg) secret with
        | error e => exact ⟨rfl, trivial⟩
        | ok prk =>
          simp only [trafficSecrets_same hs hr ciphers s.initialTranscript prk "hs" (derivedPrk_len hr h1).ge]
          cases h2 : TrafficSecrets.deriveFrom cr ciphers s.initialTranscript prk "hs" with
          | error e => exact ⟨by first | rfl | trivial, trivial⟩
          | ok t => exact ⟨by first | rfl | trivial, (derivedPrk_len hr h1).ge, trafficSecrets_keysOk hr h2⟩
  · exact ⟨rfl, trivial⟩
  · exact ⟨rfl, trivial⟩

theorem sendClientHelloStep_same (s : EarlyState K) :
    (sendClientHelloStep cr' s : Poll Unit × ECState X K) = sendClientHelloStep cr s ∧ Sized (sendClientHelloStep cr s : Poll Unit × ECState X K).2 := by
  unfold sendClientHelloStep
  rw [hs.x509]
  split
  · next m p t _ =>
    obtain ⟨e, hz⟩ := onServerHello_same hs hr { s with plaintext := p, initialTranscript := t } m
    exact ⟨by rw [e], hz⟩
  · exact ⟨rfl, trivial⟩
  · exact ⟨rfl, trivial⟩

omit hr in
theorem receiveServerMessages_same (n : Nat) : ∀ (s : ServerHelloState X), KeysOk s.seqenc.ciphers s.seqenc.trafficSecrets →
    receiveServerMessages cr' n s = receiveServerMessages cr n s ∧
      (receiveServerMessages cr n s).2.seqenc.ciphers = s.seqenc.ciphers ∧
      (receiveServerMessages cr n s).2.seqenc.trafficSecrets = s.seqenc.trafficSecrets ∧
      (receiveServerMessages cr n s).2.prk = s.prk := by
  induction n with
  | zero => intro s _; exact ⟨rfl, rfl, rfl, rfl⟩
  | succ n ih =>
    intro s h
    unfold receiveServerMessages
    simp only [pollReceiveEncrypted_same hs _ _ h.server, hs.hash]
    split
    · exact ⟨rfl, rfl, rfl, rfl⟩
    · split
      · exact ⟨rfl, rfl, rfl, rfl⟩
      · exact ⟨rfl, rfl, rfl, rfl⟩
      · split
        · next c _ =>
          exact ih _ h
        · exact ⟨rfl, rfl, rfl, rfl⟩
      · exact ⟨rfl, rfl, rfl, rfl⟩
      · exact ⟨rfl, rfl, rfl, rfl⟩

omit hr in
theorem verifyFinished_same (alg : HashAlg) {key : EncryptionKey} (hk : KeyOk alg key) (thash v : Bytes) :
    verifyFinished cr' alg key thash v = verifyFinished cr alg key thash v := by
  unfold verifyFinished hmacVerify
  rw [deriveSecret_same hs _ _ _ _ hk.raw.ge, hs.hmac]

theorem computeApplicationSecrets_same (transcript : Bytes) (config : ClientConfig) (prk : Bytes) (sm : ServerMessages X)
    (q : SequenceEncryption) (hp : hashLen q.ciphers.hashAlg ≤ prk.length) (hk : KeysOk q.ciphers q.trafficSecrets) :
    computeApplicationSecrets cr' transcript config prk sm q = computeApplicationSecrets cr transcript config prk sm q := by
  unfold computeApplicationSecrets
  simp only [derivedPrk_same hs _ _ _ hp]
  cases h1 : derivedPrk cr q.ciphers.hashAlg prk (List.replicate q.ciphers.hashAlg.byteLen 0) with
  | error e => rfl
  | ok np =>
    simp only [bind, Except.bind, trafficSecrets_same hs hr _ _ _ _ (derivedPrk_len hr h1).ge, verifyFinished_same hs _ hk.server,
      hs.verifyCertificate, hs.publicKey]
    unfold rsaVerify
    rw [hs.sigVerify]

omit hs in
theorem computeApplicationSecrets_keysOk {transcript : Bytes} {config : ClientConfig} {prk : Bytes} {sm : ServerMessages X}
    {q : SequenceEncryption} {t : TrafficSecrets} (h : computeApplicationSecrets cr transcript config prk sm q = .ok t) :
    KeysOk q.ciphers t := by
  obtain ⟨⟨_, _, hc, hsrv⟩, _⟩ := computeApplicationSecrets_ok h
  refine ⟨⟨hr.expand _ _ _ _ _ hc.hraw, ?_, hr.expand _ _ _ _ _ hc.hiv⟩, ⟨hr.expand _ _ _ _ _ hsrv.hraw, ?_, hr.expand _ _ _ _ _ hsrv.hiv⟩⟩
  · rw [hc.haead]; exact hr.expand _ _ _ _ _ hc.hkey
  · rw [hsrv.haead]; exact hr.expand _ _ _ _ _ hsrv.hkey

theorem onServerMessages_same (s : ServerHelloState X) (sm : ServerMessages X) (h : Sized (.afterReceiveServerHello s : ECState X K)) :
    (onServerMessages cr' s sm : ECState X K) = onServerMessages cr s sm ∧ Sized (onServerMessages cr s sm : ECState X K) := by
  obtain ⟨hp, hk⟩ := h
  unfold onServerMessages
  rw [computeApplicationSecrets_same hs hr _ _ _ _ _ hp hk]
  have e1 : clientCertificateBytes cr' s.seqenc.ciphers.hashAlg s.transcript s.config.clientAuth
      = clientCertificateBytes cr s.seqenc.ciphers.hashAlg s.transcript s.config.clientAuth := by
    unfold clientCertificateBytes; rw [hs.hash, hs.x509, hs.sign]
  have e2 : ∀ t, clientFinishedBytes cr' s.seqenc.ciphers.hashAlg s.seqenc.trafficSecrets.client t
      = clientFinishedBytes cr s.seqenc.ciphers.hashAlg s.seqenc.trafficSecrets.client t := by
    intro t
    unfold clientFinishedBytes; rw [hs.hash, hs.hmac, deriveSecret_same hs _ _ _ _ hk.client.raw.ge]
  simp only [e1, e2, encryptRecord_same hs _ _ _ hk.client]
  refine ⟨trivial, ?_⟩
  cases h1 : computeApplicationSecrets cr s.transcript s.config s.prk sm s.seqenc with
  | error e => exact trivial
  | ok t =>
    simp only
    split
    · exact trivial
    · split
      · exact trivial
      · split
        · exact trivial
        · exact computeApplicationSecrets_keysOk hr h1

theorem pollStep_same (s : ECState X K) (h : Sized s) : s.pollStep cr' = s.pollStep cr ∧ Sized (s.pollStep cr).2 := by
  cases s with
  | begin s => 
    refine ⟨rfl, ?_⟩
    simp only [ECState.pollStep, beginStep]
    split <;> exact trivial
  | afterSendClientHello s => exact sendClientHelloStep_same hs hr s
  | afterReceiveServerHello s =>
    simp only [ECState.pollStep, receiveServerHelloStep]
    obtain ⟨e, e1, e2, e3⟩ := receiveServerMessages_same hs (s.plaintext.receiver.incoming.length + 1) s h.2
    rw [e]
    have hz : Sized (.afterReceiveServerHello (receiveServerMessages cr (s.plaintext.receiver.incoming.length + 1) s).2 : ECState X K) := by
      refine ⟨?_, ?_⟩
      · rw [e1, e3]; exact h.1
      · rw [e1, e2]; exact h.2
    generalize receiveServerMessages cr (s.plaintext.receiver.incoming.length + 1) s = T at hz ⊢
    obtain ⟨r, s1⟩ := T
    cases r with
    | pending => exact ⟨rfl, hz⟩
    | ready r =>
      cases r with
      | error e => exact ⟨rfl, trivial⟩
      | ok sm =>
        obtain ⟨q1, q2⟩ := onServerMessages_same hs hr s1 sm hz
        exact ⟨by simp only [q1], q2⟩
  | afterReceiveServerMessages s =>
    refine ⟨rfl, ?_⟩
    simp only [ECState.pollStep, sendFinishedStep]
    split
    · exact h
    · exact trivial
    · exact h
  | done c => exact ⟨rfl, h⟩
  | error e => exact ⟨rfl, trivial⟩

omit hs hr in
theorem recv_sized (s : ECState X K) (h : Sized s) : Sized s.recv.2 := by
  cases s <;> simp only [ECState.recv] <;> (try split) <;> exact h

theorem establishLoop_same (n : Nat) : ∀ (s : ECState X K), Sized s →
    establishLoop cr' n s = establishLoop cr n s ∧ Sized (establishLoop cr n s).2 := by
  induction n with
  | zero => intro s h; exact ⟨rfl, h⟩
  | succ n ih =>
    intro s h
    have go : ∀ s : ECState X K, Sized s →
        (match s.recv with
          | (some e, s) => ((.ready (.error e), s) : Poll (Except TlsErr Conn) × ECState X K)
          | (none, s) => match s.pollStep cr' with
            | (.ready (), s) => establishLoop cr' n s
            | (.pending, s) => (.pending, s)) =
        (match s.recv with
          | (some e, s) => ((.ready (.error e), s) : Poll (Except TlsErr Conn) × ECState X K)
          | (none, s) => match s.pollStep cr with
            | (.ready (), s) => establishLoop cr n s
            | (.pending, s) => (.pending, s)) ∧
        Sized (match s.recv with
          | (some e, s) => ((.ready (.error e), s) : Poll (Except TlsErr Conn) × ECState X K)
          | (none, s) => match s.pollStep cr with
            | (.ready (), s) => establishLoop cr n s
            | (.pending, s) => (.pending, s)).2 := by
      intro s h
      have h1 := recv_sized s h
      generalize s.recv = T at h1 ⊢
      obtain ⟨o, s1⟩ := T
      cases o with
      | some e => exact ⟨rfl, h1⟩
      | none =>
        obtain ⟨q1, q2⟩ := pollStep_same hs hr s1 h1
        simp only [q1]
        generalize s1.pollStep cr = U at q2 ⊢
        obtain ⟨r, s2⟩ := U
        cases r with
        | ready u => exact ih s2 q2
        | pending => exact ⟨rfl, q2⟩
    cases s with
    | done c => exact ⟨rfl, h⟩
    | error e => exact ⟨rfl, h⟩
    | begin s => exact go (.begin s) h
    | afterSendClientHello s => exact go (.afterSendClientHello s) h
    | afterReceiveServerHello s => exact go (.afterReceiveServerHello s) h
    | afterReceiveServerMessages s => exact go (.afterReceiveServerMessages s) h

theorem pollTimes_same (k : Nat) : ∀ (s : ECState X K), Sized s → pollTimes cr' k s = pollTimes cr k s ∧ Sized (pollTimes cr k s) := by
  induction k with
  | zero => intro s h; exact ⟨rfl, h⟩
  | succ k ih =>
    intro s h
    obtain ⟨q1, q2⟩ := establishLoop_same hs hr 6 s h
    simp only [pollTimes, establishPoll, q1]
    exact ih _ q2

/-! ### The established connection -/

omit hr in
theorem fillLoop_same (n : Nat) : ∀ (c : Conn), KeysOk c.seqenc.ciphers c.seqenc.trafficSecrets →
    c.fillLoop cr' n = c.fillLoop cr n ∧ (c.fillLoop cr n).2.seqenc.ciphers = c.seqenc.ciphers ∧
      (c.fillLoop cr n).2.seqenc.trafficSecrets = c.seqenc.trafficSecrets := by
  induction n with
  | zero => intro c _; exact ⟨rfl, rfl, rfl⟩
  | succ n ih =>
    intro c h
    unfold Conn.fillLoop
    simp only [pollReceiveEncrypted_same hs _ _ h.server]
    split
    · exact ⟨rfl, rfl, rfl⟩
    · exact ⟨rfl, rfl, rfl⟩
    · split
      · exact ⟨rfl, rfl, rfl⟩
      · exact ⟨rfl, rfl, rfl⟩
      · exact ih _ h
      · exact ⟨rfl, rfl, rfl⟩
      · split <;> exact ⟨rfl, rfl, rfl⟩
      · exact ⟨rfl, rfl, rfl⟩
      · exact ⟨rfl, rfl, rfl⟩

/-- The ciphers and the keys are those of another connection. -/
def SameKeys (c c' : Conn) : Prop := c'.seqenc.ciphers = c.seqenc.ciphers ∧ c'.seqenc.trafficSecrets = c.seqenc.trafficSecrets

omit hr in
theorem pollRead_same (c : Conn) (room : Nat) (h : KeysOk c.seqenc.ciphers c.seqenc.trafficSecrets) :
    c.pollRead cr' room = c.pollRead cr room ∧ SameKeys c (c.pollRead cr room).2 := by
  have hf : c.pollFillIncoming cr' = c.pollFillIncoming cr ∧ SameKeys c (c.pollFillIncoming cr).2 := by
    unfold Conn.pollFillIncoming
    split
    · exact ⟨rfl, rfl, rfl⟩
    · exact fillLoop_same hs _ c h
  unfold Conn.pollRead
  rw [hf.1]
  have h2 := hf.2
  generalize c.pollFillIncoming cr = T at h2 ⊢
  split
  · exact ⟨rfl, rfl, rfl⟩
  · exact ⟨rfl, rfl, rfl⟩
  · refine ⟨rfl, ?_⟩
    split <;> exact h2

omit hs hr in
theorem flushEncrypted_keys (c : Conn) : SameKeys c c.pollFlushEncrypted.2 := by
  unfold Conn.pollFlushEncrypted
  split
  exact ⟨rfl, rfl⟩

omit hr in
theorem appendRecord_same (c : Conn) (data : Bytes) (ct : ContentType) (h : KeysOk c.seqenc.ciphers c.seqenc.trafficSecrets) :
    c.appendRecord cr' data ct = c.appendRecord cr data ct ∧ SameKeys c (c.appendRecord cr data ct).2 := by
  unfold Conn.appendRecord
  rw [encryptRecord_same hs _ _ _ h.client]
  refine ⟨rfl, ?_⟩
  split <;> exact ⟨rfl, rfl⟩

omit hr in
theorem pollWrite_same (c : Conn) (buf : Bytes) (h : KeysOk c.seqenc.ciphers c.seqenc.trafficSecrets) :
    c.pollWrite cr' buf = c.pollWrite cr buf ∧ SameKeys c (c.pollWrite cr buf).2 := by
  unfold Conn.pollWrite
  have h1 := flushEncrypted_keys c
  generalize c.pollFlushEncrypted = T at h1 ⊢
  obtain ⟨r, c1⟩ := T
  split
  · exact ⟨rfl, rfl, rfl⟩
  · exact ⟨rfl, rfl, rfl⟩
  · cases r with
    | pending => exact ⟨rfl, h1⟩
    | ready r =>
      cases r with
      | error e => exact ⟨rfl, h1⟩
      | ok u =>
        obtain ⟨q1, q2⟩ := appendRecord_same hs c1 (buf.take (min buf.length maxPlaintextRecordSize)) .applicationData
          (by rw [h1.1, h1.2]; exact h)
        simp only [q1]
        have h3 : SameKeys c (c1.appendRecord cr (buf.take (min buf.length maxPlaintextRecordSize)) .applicationData).2 :=
          ⟨q2.1.trans h1.1, q2.2.trans h1.2⟩
        refine ⟨trivial, ?_⟩
        generalize c1.appendRecord cr (buf.take (min buf.length maxPlaintextRecordSize)) .applicationData = U at h3 ⊢
        obtain ⟨r, c2⟩ := U
        cases r <;> exact h3

omit hs hr in
theorem pollFlush_keys (c : Conn) : SameKeys c c.pollFlush.2 := by
  unfold Conn.pollFlush
  split
  · exact ⟨rfl, rfl⟩
  · exact ⟨rfl, rfl⟩
  · exact flushEncrypted_keys c

omit hs hr in
theorem finishShutdown_keys (c : Conn) : SameKeys c c.finishShutdown.2 := by
  unfold Conn.finishShutdown
  have h1 := flushEncrypted_keys c
  generalize c.pollFlushEncrypted = T at h1 ⊢
  obtain ⟨r, c1⟩ := T
  cases r with
  | pending => exact h1
  | ready r =>
    cases r with
    | error e => exact h1
    | ok u =>
      simp only
      split <;> exact h1

omit hr in
theorem pollShutdown_same (c : Conn) (h : KeysOk c.seqenc.ciphers c.seqenc.trafficSecrets) :
    c.pollShutdown cr' = c.pollShutdown cr ∧ SameKeys c (c.pollShutdown cr).2 := by
  unfold Conn.pollShutdown Conn.appendCloseNotify
  obtain ⟨q1, q2⟩ := appendRecord_same hs c [AlertLevel.warning.toRaw, AlertDescription.closeNotify.toRaw] .alert h
  rw [q1]
  refine ⟨rfl, ?_⟩
  generalize c.appendRecord cr [AlertLevel.warning.toRaw, AlertDescription.closeNotify.toRaw] .alert = U at q2 ⊢
  split
  · exact ⟨rfl, rfl⟩
  · exact finishShutdown_keys c
  · obtain ⟨r, c2⟩ := U
    cases r with
    | error e => exact q2
    | ok u =>
      have := finishShutdown_keys { c2 with plaintext := { c2.plaintext with writeState := .inShutdown } }
      exact ⟨this.1.trans q2.1, this.2.trans q2.2⟩

omit hr in
theorem connRun_same (ops : List ConnOp) : ∀ (c : Conn), KeysOk c.seqenc.ciphers c.seqenc.trafficSecrets →
    connRun cr' c ops = connRun cr c ops := by
  induction ops with
  | nil => intro c _; rfl
  | cons op ops ih =>
    intro c h
    have hstep : op.step cr' c = op.step cr c ∧ SameKeys c (op.step cr c).2 := by
      cases op with
      | read room => obtain ⟨q1, q2⟩ := pollRead_same hs c room h; exact ⟨by simp only [ConnOp.step, q1], q2⟩
      | write buf => obtain ⟨q1, q2⟩ := pollWrite_same hs c buf h; exact ⟨by simp only [ConnOp.step, q1], q2⟩
      | flush => exact ⟨rfl, pollFlush_keys c⟩
      | shutdown => obtain ⟨q1, q2⟩ := pollShutdown_same hs c h; exact ⟨by simp only [ConnOp.step, q1], q2⟩
    simp only [connRun, hstep.1]
    rw [ih _ (by rw [hstep.2.1, hstep.2.2]; exact h)]

theorem life_same (s : ECState X K) (h : Sized s) (k : Nat) (ops : List ConnOp) : life cr' s k ops = life cr s k ops := by
  unfold life
  obtain ⟨q1, q2⟩ := pollTimes_same hs hr k s h
  rw [q1]
  generalize pollTimes cr k s = S at q2 ⊢
  cases S with
  | done c => simp only [connRun_same hs ops c q2]
  | _ => rfl

omit hs hr in
theorem initialState_sized (transport : Transport) (config : ClientConfig) (names : List String) (privateKey : K)
    (publicKey random sessionId : Bytes) :
    Sized (initialState transport config names privateKey publicKey random sessionId : ECState X K) := by
  unfold initialState
  split <;> exact trivial

end

end Ngfs.Tls

namespace Ngfs.Quic

open Ngfs.Spec

/-- Secrets of the right lengths. -/
structure SecretsOk (s : Secrets) : Prop where
  key : s.key.length = 16
  iv : s.iv.length = 12
  hp : s.hp.length = 16

structure ConnOk (s : ConnectionSecrets) : Prop where
  client : SecretsOk s.client
  server : SecretsOk s.server

def EndpointOk (e : Endpoint) : Prop := ∀ x ∈ e.connections, ConnOk x.2

section
variable {X K : Type} {cr cr' : Tls.Crypto X K} (hs : SameWithin cr cr') (hr : RightSizes cr)
include hs hr

theorem fromInitial_same (alg : Tls.HashAlg) (initial : Bytes) (hp : Tls.hashLen alg ≤ initial.length) :
    Secrets.fromInitial cr' alg initial = Secrets.fromInitial cr alg initial ∧
      ∀ s, Secrets.fromInitial cr alg initial = .ok s → SecretsOk s := by
  constructor
  · unfold Secrets.fromInitial
    rw [Tls.hkdfExpandLabel_same hs _ _ _ _ _ hp (by decide), Tls.hkdfExpandLabel_same hs _ _ _ _ _ hp (by decide),
      Tls.hkdfExpandLabel_same hs _ _ _ _ _ hp (by decide)]
  · intro s h
    unfold Secrets.fromInitial at h
    obtain ⟨a, h1, h⟩ := Tls.except_bind_ok h
    obtain ⟨b, h2, h⟩ := Tls.except_bind_ok h
    obtain ⟨c, h3, h⟩ := Tls.except_bind_ok h
    cases h
    exact ⟨Tls.hkdfExpandLabel_len hr h1, Tls.hkdfExpandLabel_len hr h2, Tls.hkdfExpandLabel_len hr h3⟩

theorem fromConnectionId_same (alg : Tls.HashAlg) (dcid : Bytes) :
    ConnectionSecrets.fromConnectionId cr' alg dcid = ConnectionSecrets.fromConnectionId cr alg dcid ∧
      ∀ s, ConnectionSecrets.fromConnectionId cr alg dcid = .ok s → ConnOk s := by
  unfold ConnectionSecrets.fromConnectionId
  rw [hs.extract]
  have hl := (hr.extract alg
      [0x38, 0x76, 0x2c, 0xf7, 0xf5, 0x59, 0x34, 0xb3, 0x4d, 0x17, 0x9a, 0xe6, 0xa4, 0xc8, 0x0c, 0xad, 0xcc, 0xbb, 0x7f, 0x0a] dcid).ge
  generalize cr.hkdfExtract alg
      [0x38, 0x76, 0x2c, 0xf7, 0xf5, 0x59, 0x34, 0xb3, 0x4d, 0x17, 0x9a, 0xe6, 0xa4, 0xc8, 0x0c, 0xad, 0xcc, 0xbb, 0x7f, 0x0a] dcid
    = initial at hl ⊢
  have hb : alg.byteLen ≤ 48 := by cases alg <;> decide
  constructor
  · unfold ConnectionSecrets.fromInitial
    rw [Tls.hkdfExpandLabel_same hs _ _ _ _ _ hl hb, Tls.hkdfExpandLabel_same hs _ _ _ _ _ hl hb]
    cases h1 : Tls.hkdfExpandLabel cr alg initial (Tls.ascii "client in") [] alg.byteLen with
    | error e => rfl
    | ok ci =>
      cases h2 : Tls.hkdfExpandLabel cr alg initial (Tls.ascii "server in") [] alg.byteLen with
      | error e => rfl
      | ok si =>
        simp only [bind, Except.bind,
          (fromInitial_same hs hr alg ci (by rw [Tls.hkdfExpandLabel_len hr h1, Tls.byteLen_eq])).1,
          (fromInitial_same hs hr alg si (by rw [Tls.hkdfExpandLabel_len hr h2, Tls.byteLen_eq])).1]
  · intro s h
    unfold ConnectionSecrets.fromInitial at h
    obtain ⟨ci, h1, h⟩ := Tls.except_bind_ok h
    obtain ⟨si, h2, h⟩ := Tls.except_bind_ok h
    obtain ⟨c, h3, h⟩ := Tls.except_bind_ok h
    obtain ⟨v, h4, h⟩ := Tls.except_bind_ok h
    cases h
    exact ⟨(fromInitial_same hs hr alg ci (by rw [Tls.hkdfExpandLabel_len hr h1, Tls.byteLen_eq])).2 _ h3,
      (fromInitial_same hs hr alg si (by rw [Tls.hkdfExpandLabel_len hr h2, Tls.byteLen_eq])).2 _ h4⟩

variable {c c' : Crypto} (hc : SameWithinQuic c c')
include hc

omit hs hr hc in
theorem makeNonce_len {s : Secrets} (h : SecretsOk s) (n : Nat) : (makeNonce s n).length = 12 := by
  have h8 : (Binary.beBytes 8 n).length = 8 := by simp [Binary.beBytes]
  simp [makeNonce, h.iv, h8]

omit hs hr hc in
theorem getSample_len {packet sample : Bytes} {off : Nat} (h : getSample packet off = .ok sample) : sample.length = 16 := by
  unfold getSample at h
  simp only at h
  split at h
  · cases h
  · cases h
    simp [slice]
    omega

omit hs hr in
theorem addHeaderProtection_same (packet : Bytes) (off : Nat) {s : Secrets} (h : SecretsOk s) :
    addHeaderProtection c' packet off s = addHeaderProtection c packet off s := by
  unfold addHeaderProtection
  split
  · rfl
  · next sample hsam => rw [hc.aes _ _ h.hp (getSample_len hsam)]

omit hs hr in
theorem removeHeaderProtection_same (packet : Bytes) (off : Nat) {s : Secrets} (h : SecretsOk s) :
    removeHeaderProtection c' packet off s = removeHeaderProtection c packet off s := by
  unfold removeHeaderProtection
  split
  · rfl
  · next sample hsam => rw [hc.aes _ _ h.hp (getSample_len hsam)]

omit hs hr in
theorem encryptPayload_same (n : Nat) (header : Bytes) (off : Nat) (payload : Bytes) (len : Nat) {s : Secrets} (h : SecretsOk s) :
    encryptPayload c' n header off payload len s = encryptPayload c n header off payload len s := by
  unfold encryptPayload
  simp only [hc.encrypt _ _ _ _ h.key (makeNonce_len h n), addHeaderProtection_same hc _ _ h]

omit hs hr in
theorem decryptPayload_same (packet : Bytes) (off len : Nat) {s : Secrets} (h : SecretsOk s) :
    decryptPayload c' packet off len s = decryptPayload c packet off len s := by
  unfold decryptPayload
  simp only [removeHeaderProtection_same hc _ _ h, hc.decrypt _ _ _ _ h.key (makeNonce_len h _)]

omit hs hr in
theorem parsePacket_same (secretsFor : Bytes → Option Secrets) (hf : ∀ id s, secretsFor id = some s → SecretsOk s) (packet : Bytes) :
    parsePacket c' secretsFor packet = parsePacket c secretsFor packet := by
  have hi : ∀ dcid scid off packet, parseInitial c' secretsFor dcid scid off packet = parseInitial c secretsFor dcid scid off packet := by
    intro dcid scid off packet
    unfold parseInitial
    split
    · rfl
    · split
      · rfl
      · next s hsf => simp only [decryptPayload_same hc _ _ _ (hf _ _ hsf)]
  unfold parsePacket parseLongHeader
  simp only [hi]

omit hs hr hc in
theorem get_ok {e : Endpoint} (h : EndpointOk e) {id : Bytes} {s : ConnectionSecrets} (hg : e.get id = some s) : ConnOk s := by
  unfold Endpoint.get at hg
  rw [Option.map_eq_some_iff] at hg
  obtain ⟨x, hx, rfl⟩ := hg
  exact h x (List.mem_of_find?_eq_some hx)

omit hs hr hc in
theorem insert_ok {e : Endpoint} (h : EndpointOk e) (id : Bytes) {s : ConnectionSecrets} (hsk : ConnOk s) : EndpointOk (e.insert id s) := by
  intro x hx
  rcases List.mem_cons.1 hx with rfl | hx
  · exact hsk
  · exact h x (List.mem_of_mem_filter hx)

omit hc in
theorem secretsFor_same {e : Endpoint} (h : EndpointOk e) :
    e.secretsFor cr' = e.secretsFor cr ∧ ∀ id s, e.secretsFor cr id = some s → SecretsOk s := by
  constructor
  · funext id
    unfold Endpoint.secretsFor
    rw [(fromConnectionId_same hs hr .sha256 id).1]
  · intro id s hg
    unfold Endpoint.secretsFor at hg
    split at hg
    · next s' hs' => cases hg; exact (get_ok h hs').server
    · split at hg
      · next s' hs' => cases hg; exact ((fromConnectionId_same hs hr .sha256 id).2 _ hs').client
      · cases hg

omit hc in
theorem handlePacket_same (dcid : Bytes) (frames : List Frame) : handlePacket cr' dcid frames = handlePacket cr dcid frames := by
  have hchk : ∀ first h, checkHandshake cr' dcid first h = checkHandshake cr dcid first h := by
    intro first h
    unfold checkHandshake
    rw [(fromConnectionId_same hs hr .sha256 dcid).1]
  have hloop : ∀ n first buf, processLoop cr' dcid n first buf = processLoop cr dcid n first buf := by
    intro n
    induction n with
    | zero => intro _ _; rfl
    | succ n ih => intro first buf; simp only [processLoop, hs.x509, hchk, ih]
  exact hloop _ _ _

theorem recv_same (e : Endpoint) (h : EndpointOk e) (packet : Bytes) :
    e.recv c' cr' packet = e.recv c cr packet ∧ EndpointOk (e.recv c cr packet).2.2 := by
  obtain ⟨q1, q2⟩ := secretsFor_same hs hr h
  unfold Endpoint.recv
  rw [q1, parsePacket_same hc _ q2]
  split
  · exact ⟨rfl, h⟩
  · next p _ =>
    rw [handlePacket_same hs hr]
    split
    · exact ⟨rfl, h⟩
    · split
      · exact ⟨rfl, h⟩
      · rw [(fromConnectionId_same hs hr .sha256 p.dcid).1]
        refine ⟨rfl, ?_⟩
        split
        · next s hsk => exact insert_ok h _ ((fromConnectionId_same hs hr .sha256 p.dcid).2 _ hsk)
        · exact h

theorem recvAll_same (ps : List Bytes) : ∀ (e : Endpoint), EndpointOk e → e.recvAll c' cr' ps = e.recvAll c cr ps := by
  induction ps with
  | nil => intro e _; rfl
  | cons p ps ih =>
    intro e h
    obtain ⟨q1, q2⟩ := recv_same hs hr hc e h p
    simp only [Endpoint.recvAll, q1]
    generalize e.recv c cr p = T at q2 ⊢
    obtain ⟨m, r, e1⟩ := T
    split
    · rfl
    · next heq => cases heq; exact ih _ q2

theorem connect_same (e : Endpoint) (h : EndpointOk e) (dcid scid publicKey random : Bytes) :
    e.connect c' cr' dcid scid publicKey random = e.connect c cr dcid scid publicKey random ∧
      ∀ packet e', e.connect c cr dcid scid publicKey random = .ok (packet, e') → EndpointOk e' := by
  obtain ⟨q1, q2⟩ := fromConnectionId_same hs hr .sha256 dcid
  unfold Endpoint.connect
  rw [q1]
  cases hk : ConnectionSecrets.fromConnectionId cr .sha256 dcid with
  | error e => exact ⟨rfl, nofun⟩
  | ok s =>
    have hok := q2 s hk
    have hm : ∀ (hh : Tls.Handshake X), makeInitialFor c' dcid scid [] hh s.client = makeInitialFor c dcid scid [] hh s.client := by
      intro hh
      unfold makeInitialFor makeInitial encodeInitialPacket
      simp only [encryptPayload_same hc _ _ _ _ _ hok.client]
    simp only [hm]
    refine ⟨trivial, ?_⟩
    intro packet e' heq
    split at heq
    · cases heq
    · cases heq
      exact insert_ok h _ hok

end

end Ngfs.Quic

namespace Ngfs.Crypt

open Ngfs.Spec Ngfs.Tls

theorem hmac_len {p : Prims} (hp : PrimsWork p) (alg : HashAlg) (key data : Bytes) : (hmac p alg key data).length = hashLen alg := hp.hash _ _

theorem expandBlocks_len {p : Prims} (hp : PrimsWork p) (alg : HashAlg) (prk info : Bytes) (n : Nat) : ∀ (i : Nat) (prev : Bytes),
    (expandBlocks p alg prk info n i prev).length = n * hashLen alg := by
  induction n with
  | zero => intro i prev; simp [expandBlocks]
  | succ n ih => intro i prev; simp [expandBlocks, ih, hmac_len hp, Nat.succ_mul]; omega

theorem hkdfExpand_len {p : Prims} (hp : PrimsWork p) {alg : HashAlg} {prk info okm : Bytes} {n : Nat}
    (h : hkdfExpand p alg prk info n = .ok okm) : okm.length = n := by
  unfold hkdfExpand at h
  split at h
  · cases h
  · split at h
    · cases h
    · cases h
      rw [List.length_take, expandBlocks_len hp, byteLen_eq]
      have hpos : 0 < hashLen alg := by cases alg <;> decide
      have hm := Nat.div_add_mod (n + hashLen alg - 1) (hashLen alg)
      have hlt := Nat.mod_lt (n + hashLen alg - 1) hpos
      rw [Nat.mul_comm] at hm
      omega

theorem hkdfExpand_ok (p : Prims) {alg : HashAlg} {prk : Bytes} (info : Bytes) {n : Nat} (h1 : hashLen alg ≤ prk.length)
    (h2 : n ≤ 255 * hashLen alg) : ∃ okm, hkdfExpand p alg prk info n = .ok okm := by
  unfold hkdfExpand
  rw [byteLen_eq, if_neg (by omega), if_neg (by omega)]
  exact ⟨_, rfl⟩

end Ngfs.Crypt
