import Verif.Lemmas.TlsHandshake
import Verif.Props.TlsRead

/-!
C29 (server authentication), C30 (order of the handshake), C55 (wrong Finished), C59 (server name), C61 (key schedule),
C62 (handshake messages and records).
-/
namespace Ngfs.Tls

open Ngfs.Binary

/-! ## A handshake with the toy primitives -/

/-- The ServerHello of the example. -/
def toyServerHello : Bytes :=
  match handshakeBytes (X := Unit) (.serverHello ⟨0x0303, List.replicate 32 7, [], .tlsAes128GcmSha256, 0,
    [.keyShareServerHello ⟨.x25519, [9, 9]⟩]⟩) with
  | .ok b => b
  | .error _ => []

/-- A message of the example. -/
def toyMessage (h : Handshake Unit) : Bytes :=
  match handshakeBytes h with
  | .ok b => b
  | .error _ => []

def toyEE : Bytes := [8, 0, 0, 2, 0, 0]
def toyCert : Bytes := toyMessage (.certificate ⟨[], [⟨[1, 2, 3], (), []⟩]⟩)
def toyVerify : Bytes := toyMessage (.certificateVerify ⟨.ed25519, [6]⟩)
def toyFinished (len : Nat) : Bytes := toyMessage (.finished (List.replicate len 2))

/-- The key of the server in the example handshake. -/
def toyHsKey : EncryptionKey := ⟨List.replicate 32 4, .aes128Gcm, List.replicate 16 4, List.replicate 12 4⟩

/-- A protected record of the example. -/
def toyHsRecord (n : Nat) (content : Bytes) : Bytes :=
  (encryptRecord toyCrypto (.new ⟨[], [], [], [], []⟩ .new) content .handshake toyHsKey n).2.outgoing

/-- A transport that delivers ServerHello, a ChangeCipherSpec record, and protected records with the given contents. -/
def toyTransport (contents : List Bytes) : Transport :=
  ⟨[.ready (encodeRecord .handshake 0x0303 toyServerHello ++ encodeRecord .changeCipherSpec 0x0303 [1]),
    .ready ((contents.zipIdx).flatMap fun p => toyHsRecord p.2 p.1)],
   [.accept 100, .accept 1000, .accept 1000], [.ok, .ok], [], []⟩

def toyConfig : ClientConfig := ⟨.certificate [4] false [5], .certificateAuthority [1], some "example.org"⟩

/-- The example handshake, before the first poll. -/
def toyInitial (config : ClientConfig) (contents : List Bytes) : ECState Unit Unit :=
  initialState (toyTransport contents) config ["h2"] () (List.replicate 32 8) (List.replicate 32 1) (List.replicate 32 2)

/-- Whether it ends with a connection. -/
def completes {X K : Type} (cr : Crypto X K) (s : ECState X K) : Bool :=
  match (establishPoll cr s).1 with
  | .ready (.ok _) => true
  | _ => false

theorem completes_iff {X K : Type} (cr : Crypto X K) (s : ECState X K) :
    completes cr s = true ↔ ∃ conn, (establishPoll cr s).1 = .ready (.ok conn) := by
  unfold completes
  generalize (establishPoll cr s).1 = r
  rcases r with _ | (e | c)
  · exact ⟨fun h => (by cases h), fun ⟨_, h⟩ => (by cases h)⟩
  · exact ⟨fun h => (by cases h), fun ⟨_, h⟩ => (by cases h)⟩
  · exact ⟨fun _ => ⟨c, rfl⟩, fun _ => rfl⟩

theorem toyCrypto_expands : toyCrypto.Expands := by
  intro alg prk info n okm h
  simp only [toyCrypto, Option.some.injEq] at h
  subst h
  simp

/-- The example handshake completes. -/
theorem toy_completes : completes toyCrypto (toyInitial toyConfig [toyEE, toyCert, toyVerify, toyFinished 32]) = true := by
  decide +kernel

/-! ## C29, C30, C61 -/

/-- C29, C30, C61. If, after any number of polls and whatever the transport delivers and however it behaves, the handshake
yields a connection, then there is a flight of server messages such that

* each message is what the bytes parse to, they are in the legal order, and they arrived in this order in records of
  their own (ServerHello in the clear, the others protected with the server's handshake key) with nothing
  between them but ChangeCipherSpec;
* the keys are agreed with the key share of ServerHello, by the key schedule of RFC 8446;
* the certificate is accepted with the configured trust anchor, its key made the signature over the transcript up to it,
  and Finished is the keyed hash of the transcript up to the signature;
* the connection uses the application keys of the key schedule, and has record numbers 0 and all that came after the
  flight still to read;
* the client has sent its hello and one protected record with its answer, and nothing else. -/
theorem C29_server_authenticated {X K : Type} (cr : Crypto X K) (hx : cr.Expands) (hc : cr.Correct)
    (transport : Transport) (ht : transport.sent = []) (config : ClientConfig) (protocolNames : List String) (privateKey : K)
    (publicKey random sessionId : Bytes) (k : Nat) (conn : Conn)
    (h : (establishPoll cr (pollTimes cr k
      (initialState transport config protocolNames privateKey publicKey random sessionId))).1 = .ready (.ok conn)) :
    ∃ (ch : Bytes) (f : Flight X) (hsSecret : Bytes) (hsServer : EncryptionKey),
      handshakeBytes (X := X)
        (.clientHello (makeClientHello random sessionId publicKey config.serverName protocolNames)) = .ok ch ∧
      f.Legal cr ∧
      Agreed cr f.sh f.shRaw privateKey ch conn.seqenc.ciphers hsSecret hsServer ∧
      Arrived cr f.shRaw f.encrypted hsServer (readData transport.reads) conn.plaintext.unread ∧
      f.Authenticated cr config ch conn.seqenc.ciphers hsServer ∧
      f.Keys cr ch conn.seqenc.ciphers hsSecret conn.seqenc.trafficSecrets ∧
      f.Answered cr config ch conn.seqenc.ciphers hsSecret conn.plaintext.inner.sent conn.plaintext.seals ∧
      conn.Fresh := by
  rcases hch : handshakeBytes (X := X)
      (.clientHello (makeClientHello random sessionId publicKey config.serverName protocolNames)) with e | ch
  · exfalso
    have hi : initialState (X := X) transport config protocolNames privateKey publicKey random sessionId = .error e := by
      unfold initialState; rw [hch]
    rw [hi] at h
    have hp : ∀ k, pollTimes cr k (.error e : ECState X K) = .error e := by
      intro k
      induction k with
      | zero => rfl
      | succ k ih =>
        rw [pollTimes]
        have : (establishPoll cr (.error e : ECState X K)).2 = .error e := by
          unfold establishPoll; rw [establishLoop]
        rw [this, ih]
    rw [hp, establishPoll, establishLoop] at h
    cases h
  · have hi := pollTimes_inv hx hc k
      (initialState_inv cr transport ht config protocolNames privateKey publicKey random sessionId ch hch)
    obtain ⟨⟨f, hsSecret, hsServer, h1, h2, h3, h4, h5, h6⟩, hfresh⟩ := (establishLoop_inv hx hc 6 hi).2 conn h
    exact ⟨ch, f, hsSecret, hsServer, rfl, h1, h2, h3, h4, h5, h6, hfresh⟩

/-- C29: without a trust anchor no connection is ever handed out. -/
theorem C29_no_trust_anchor {X K : Type} (cr : Crypto X K) (hx : cr.Expands) (hc : cr.Correct)
    (transport : Transport) (ht : transport.sent = []) (config : ClientConfig) (protocolNames : List String) (privateKey : K)
    (publicKey random sessionId : Bytes) (k : Nat) (conn : Conn) (hnone : config.serverAuth = .none) :
    (establishPoll cr (pollTimes cr k
      (initialState transport config protocolNames privateKey publicKey random sessionId))).1 ≠ .ready (.ok conn) := by
  intro h
  obtain ⟨_, f, _, _, _, _, _, _, ha, _⟩ :=
    C29_server_authenticated cr hx hc transport ht config protocolNames privateKey publicKey random sessionId k conn h
  obtain ⟨entry, more, anchor, _, hanchor, _⟩ := ha.certificate
  rw [hnone] at hanchor
  cases hanchor

/-- The hypotheses can be met: the example handshake yields a connection in the first poll. -/
example : toyCrypto.Expands ∧ toyCrypto.Correct ∧ (toyTransport []).sent = [] ∧
    ∃ conn, (establishPoll toyCrypto (pollTimes toyCrypto 0
      (toyInitial toyConfig [toyEE, toyCert, toyVerify, toyFinished 32]))).1 = .ready (.ok conn) :=
  ⟨toyCrypto_expands, toyCrypto_correct, rfl, (completes_iff _ _).mp toy_completes⟩

/-- C30. The handshake completes only on a legal server flight: ServerHello, EncryptedExtensions, at most one
CertificateRequest, Certificate, CertificateVerify, Finished, each once and in this order, and nothing else
but ChangeCipherSpec records. -/
theorem C30_only_legal_flights {X K : Type} (cr : Crypto X K) (hx : cr.Expands) (hc : cr.Correct)
    (transport : Transport) (ht : transport.sent = []) (config : ClientConfig) (protocolNames : List String) (privateKey : K)
    (publicKey random sessionId : Bytes) (k : Nat) (conn : Conn)
    (h : (establishPoll cr (pollTimes cr k
      (initialState transport config protocolNames privateKey publicKey random sessionId))).1 = .ready (.ok conn)) :
    ∃ (f : Flight X) (hsServer : EncryptionKey), f.Legal cr ∧
      Arrived cr f.shRaw f.encrypted hsServer (readData transport.reads) conn.plaintext.unread := by
  obtain ⟨_, f, _, hsServer, _, h1, _, h2, _⟩ :=
    C29_server_authenticated cr hx hc transport ht config protocolNames privateKey publicKey random sessionId k conn h
  exact ⟨f, hsServer, h1, h2⟩

/-- One protected handshake message at the front of the buffer. -/
theorem receive_handshake {X K : Type} (cr : Crypto X K) (key : EncryptionKey) (hiv : key.writeIv.length = 12) (n : Nat)
    (w : WireRecord) (hw : w.Legal) (htyp : w.typ ≠ 20) (raw : Bytes) (hp : Protects cr key n w 22 raw) (h : Handshake X)
    (hparse : Parses cr raw h) (rest : Bytes) (rs : ReadState) :
    pollReceiveEncryptedMessage cr ⟨w.bytes ++ rest, rs⟩ n key
      = (.ready (.ok (some (.handshake h))), ⟨rest, rs⟩, n + 1, raw) := by
  have hcc : pollReceiveRecordIgnoreCc ⟨w.bytes ++ rest, rs⟩ = (.ready (.ok (some w.owned)), ⟨rest, rs⟩) := by
    unfold pollReceiveRecordIgnoreCc
    rw [ignoreCcLoop, popRecord_wire w hw rest rs]
    simp only
    rw [if_pos]
    intro hh
    exact htyp ((ccs_iff w.typ).mp hh)
  have hdec := decryptMessage_protects cr key hiv n w hw 22 (by decide) raw hp
  have h22 : ContentType.fromRaw 22 = .handshake := rfl
  rw [h22, hparse] at hdec
  simp only [pollReceiveEncryptedMessage, hcc, WireRecord.owned, hdec]

/-- Receiving protected handshake messages, one per record, is running the state machine over them. -/
theorem receive_steps {X K : Type} (cr : Crypto X K) (ms : List (Bytes × Handshake X)) :
    ∀ (ws : List WireRecord) (n fuel : Nat) (s : ServerHelloState X) (rest : Bytes) (cs : List (ClientState X)),
      s.seqenc.trafficSecrets.server.writeIv.length = 12 → s.seqenc.serverSequenceNo = n →
      s.plaintext.receiver.incoming = wire ws ++ rest → (∀ w ∈ ws, w.typ ≠ 20) →
      ProtectsAll cr s.seqenc.trafficSecrets.server n ws (ms.map fun p => (22, p.1)) →
      (∀ p ∈ ms, Parses cr p.1 p.2) →
      cs.length = ms.length →
      (∀ i (c c' : ClientState X) (p : Bytes × Handshake X), (s.cstate :: cs)[i]? = some c → cs[i]? = some c' → ms[i]? = some p →
        (∀ sm, c ≠ .receivedFinished sm) ∧
        c.onHashAndHandshake (cr.hash s.seqenc.ciphers.hashAlg (s.transcript ++ ((ms.take i).map Prod.fst).flatten)) p.2 = .ok c') →
      ms.length ≤ fuel →
      ∃ s', receiveServerMessages cr fuel s = receiveServerMessages cr (fuel - ms.length) s' ∧
        s'.cstate = (s.cstate :: cs).getLastD s.cstate ∧ s'.plaintext.receiver.incoming = rest ∧
        s'.transcript = s.transcript ++ (ms.map Prod.fst).flatten := by
  induction ms with
  | nil =>
    intro ws n fuel s rest cs _ _ hinc _ hprot _ hcs _ _
    cases ws with
    | cons w ws => exact absurd hprot (by simp [ProtectsAll])
    | nil =>
      have : cs = [] := by simpa using hcs
      subst this
      exact ⟨s, rfl, rfl, by simpa [wire] using hinc, by simp⟩
  | cons m ms ih =>
    intro ws n fuel s rest cs hiv hn hinc htyp hprot hparse hcs hstep hfuel
    cases ws with
    | nil => exact absurd hprot (by simp [ProtectsAll])
    | cons w ws =>
    cases cs with
    | nil => simp at hcs
    | cons c1 cs =>
    cases fuel with
    | zero => simp at hfuel
    | succ fuel =>
    obtain ⟨hw, hp, hrest⟩ := hprot
    simp only [List.map_cons] at hp hrest
    obtain ⟨hnf, h0⟩ := hstep 0 s.cstate c1 m rfl rfl rfl
    simp only [List.take_zero, List.map_nil, List.flatten_nil, List.append_nil] at h0
    have hr : s.plaintext.receiver = ⟨w.bytes ++ (wire ws ++ rest), s.plaintext.receiver.readState⟩ := by
      rw [← List.append_assoc, ← wire_cons, ← hinc]
    have hrecv := receive_handshake cr _ hiv n w hw (htyp w (by simp)) m.1 hp m.2 (hparse m (by simp))
      (wire ws ++ rest) s.plaintext.receiver.readState
    rw [← hr, ← hn] at hrecv
    have e : receiveServerMessages cr (fuel + 1) s = receiveServerMessages cr fuel
        { s with
          plaintext := { s.plaintext with receiver := ⟨wire ws ++ rest, s.plaintext.receiver.readState⟩ }
          seqenc := { s.seqenc with serverSequenceNo := s.seqenc.serverSequenceNo + 1 }
          transcript := s.transcript ++ m.1
          cstate := c1 } := by
      rw [receiveServerMessages]
      split
      · rename_i sm hsm; exact absurd hsm (hnf sm)
      · rw [hrecv]
        simp only [h0]
    rw [e]
    obtain ⟨s', h1, h2, h3, h4⟩ := ih ws (n + 1) fuel
      { s with
          plaintext := { s.plaintext with receiver := ⟨wire ws ++ rest, s.plaintext.receiver.readState⟩ }
          seqenc := { s.seqenc with serverSequenceNo := s.seqenc.serverSequenceNo + 1 }
          transcript := s.transcript ++ m.1
          cstate := c1 } rest cs hiv (by simp [hn]) rfl (fun x hx => htyp x (by simp [hx])) hrest
      (fun p hp => hparse p (by simp [hp])) (by simpa using hcs)
      (by
        intro i c c' p hc hc' hp
        have := hstep (i + 1) c c' p (by simpa using hc) (by simpa using hc') (by simpa using hp)
        simpa using this)
      (by simpa using hfuel)
    refine ⟨s', ?_, ?_, h3, ?_⟩
    · rw [h1]; congr 1; simp
    · rw [h2]; cases cs <;> rfl
    · rw [h4]; simp

/-- C30. Each legal server flight is accepted: if the protected messages have arrived, one per record, the client reads all of them
and goes on to the checks, with the transcript extended by exactly their bytes. -/
theorem C30_legal_flight_accepted {X K : Type} (cr : Crypto X K) (f : Flight X) (hf : f.Legal cr) (s : ServerHelloState X)
    (ws : List WireRecord) (rest : Bytes)
    (hstate : s.cstate = .receivedServerHello)
    (hiv : s.seqenc.trafficSecrets.server.writeIv.length = 12)
    (hinc : s.plaintext.receiver.incoming = wire ws ++ rest) (htyp : ∀ w ∈ ws, w.typ ≠ 20)
    (hprot : ProtectsAll cr s.seqenc.trafficSecrets.server s.seqenc.serverSequenceNo ws
      (f.encrypted.map fun raw => (22, raw))) :
    ∃ sm s', receiveServerMessages cr (s.plaintext.receiver.incoming.length + 1) s = (.ready (.ok sm), s') ∧
      sm.encryptedExtensions = f.ee ∧ sm.certificate = some f.cert ∧ sm.finished.1 = f.verifyData ∧
      sm.certificateVerify.map Prod.fst = some f.cv ∧
      s'.plaintext.receiver.incoming = rest ∧ s'.transcript = s.transcript ++ f.encrypted.flatten := by
  have hlen : ws.length = f.encrypted.length := by
    have : ∀ (n : Nat) (ws : List WireRecord) (ms : List (UInt8 × Bytes)) (key : EncryptionKey),
        ProtectsAll cr key n ws ms → ws.length = ms.length := by
      intro n ws
      induction ws generalizing n with
      | nil => intro ms key h; cases ms with
        | nil => rfl
        | cons _ _ => exact absurd h (by simp [ProtectsAll])
      | cons w ws ih => intro ms key h; cases ms with
        | nil => exact absurd h (by simp [ProtectsAll])
        | cons m ms => simp [ih _ _ _ h.2.2]
    simpa using this _ _ _ _ hprot
  have hbytes : ws.length ≤ s.plaintext.receiver.incoming.length := by
    rw [hinc]
    have : ∀ ws : List WireRecord, ws.length ≤ (wire ws).length := by
      intro ws
      induction ws with
      | nil => simp
      | cons w ws ih => rw [wire_cons]; simp only [List.length_append, WireRecord.bytes_length, List.length_cons]; omega
    have := this ws
    simp only [List.length_append]; omega
  rcases hf.req with hreq | ⟨raw, req, hreq, hreqp⟩
  · let t1 := s.transcript ++ f.eeRaw
    let h3 := cr.hash s.seqenc.ciphers.hashAlg (s.transcript ++ f.eeRaw ++ f.certRaw)
    let h4 := cr.hash s.seqenc.ciphers.hashAlg (s.transcript ++ f.eeRaw ++ f.certRaw ++ f.cvRaw)
    let sm : ServerMessages X := ⟨f.ee, none, some f.cert, some (f.cv, h3), (f.verifyData, h4)⟩
    obtain ⟨s', e1, e2, e3, e4⟩ := receive_steps cr
      [(f.eeRaw, .encryptedExtensions f.ee), (f.certRaw, .certificate f.cert), (f.cvRaw, .certificateVerify f.cv),
        (f.finRaw, .finished f.verifyData)] ws s.seqenc.serverSequenceNo (s.plaintext.receiver.incoming.length + 1) s rest
      [.receivedEncryptedExtensions f.ee, .receivedCertificate f.ee none f.cert,
        .receivedCertificateVerify f.ee none (some f.cert) (f.cv, h3), .receivedFinished sm] hiv rfl hinc htyp
      (by simpa [Flight.encrypted, hreq] using hprot)
      (by
        intro p hp
        simp only [List.mem_cons, List.not_mem_nil, or_false] at hp
        rcases hp with rfl | rfl | rfl | rfl
        · exact hf.ee
        · exact hf.cert
        · exact hf.cv
        · exact hf.fin) rfl
      (by
        intro i c c' p hc hc' hp
        match i with
        | 0 => cases hc; cases hc'; cases hp; rw [hstate]; exact ⟨nofun, rfl⟩
        | 1 => cases hc; cases hc'; cases hp; exact ⟨nofun, rfl⟩
        | 2 => cases hc; cases hc'; cases hp; refine ⟨nofun, ?_⟩; simp [ClientState.onHashAndHandshake, h3]
        | 3 => cases hc; cases hc'; cases hp; refine ⟨nofun, ?_⟩; simp [ClientState.onHashAndHandshake, h4, sm]
        | i + 4 => simp at hc')
      (by simp [Flight.encrypted, hreq] at hlen ⊢; omega)
    refine ⟨sm, s', ?_, rfl, rfl, rfl, rfl, e3, ?_⟩
    · rw [e1]
      have : s.plaintext.receiver.incoming.length + 1 - 4 = (s.plaintext.receiver.incoming.length - 4) + 1 := by
        simp [Flight.encrypted, hreq] at hlen; omega
      simp only [List.length_cons, List.length_nil]
      rw [this, receiveServerMessages, e2]
      rfl
    · rw [e4]; simp [Flight.encrypted, hreq]
  · let h3 := cr.hash s.seqenc.ciphers.hashAlg (s.transcript ++ f.eeRaw ++ raw ++ f.certRaw)
    let h4 := cr.hash s.seqenc.ciphers.hashAlg (s.transcript ++ f.eeRaw ++ raw ++ f.certRaw ++ f.cvRaw)
    let sm : ServerMessages X := ⟨f.ee, some req, some f.cert, some (f.cv, h3), (f.verifyData, h4)⟩
    obtain ⟨s', e1, e2, e3, e4⟩ := receive_steps cr
      [(f.eeRaw, .encryptedExtensions f.ee), (raw, .certificateRequest req), (f.certRaw, .certificate f.cert),
        (f.cvRaw, .certificateVerify f.cv), (f.finRaw, .finished f.verifyData)] ws s.seqenc.serverSequenceNo
        (s.plaintext.receiver.incoming.length + 1) s rest
      [.receivedEncryptedExtensions f.ee, .receivedCertificateRequest f.ee req, .receivedCertificate f.ee (some req) f.cert,
        .receivedCertificateVerify f.ee (some req) (some f.cert) (f.cv, h3), .receivedFinished sm] hiv rfl hinc htyp
      (by simpa [Flight.encrypted, hreq] using hprot)
      (by
        intro p hp
        simp only [List.mem_cons, List.not_mem_nil, or_false] at hp
        rcases hp with rfl | rfl | rfl | rfl | rfl
        · exact hf.ee
        · exact hreqp
        · exact hf.cert
        · exact hf.cv
        · exact hf.fin) rfl
      (by
        intro i c c' p hc hc' hp
        match i with
        | 0 => cases hc; cases hc'; cases hp; rw [hstate]; exact ⟨nofun, rfl⟩
        | 1 => cases hc; cases hc'; cases hp; exact ⟨nofun, rfl⟩
        | 2 => cases hc; cases hc'; cases hp; exact ⟨nofun, rfl⟩
        | 3 => cases hc; cases hc'; cases hp; refine ⟨nofun, ?_⟩; simp [ClientState.onHashAndHandshake, h3]
        | 4 => cases hc; cases hc'; cases hp; refine ⟨nofun, ?_⟩; simp [ClientState.onHashAndHandshake, h4, sm]
        | i + 5 => simp at hc')
      (by simp [Flight.encrypted, hreq] at hlen ⊢; omega)
    refine ⟨sm, s', ?_, rfl, rfl, rfl, rfl, e3, ?_⟩
    · rw [e1]
      have : s.plaintext.receiver.incoming.length + 1 - 5 = (s.plaintext.receiver.incoming.length - 5) + 1 := by
        simp [Flight.encrypted, hreq] at hlen; omega
      simp only [List.length_cons, List.length_nil]
      rw [this, receiveServerMessages, e2]
      rfl
    · rw [e4]; simp [Flight.encrypted, hreq]

/-- C30: once the handshake has failed, it stays failed, with the same error. -/
theorem C30_error_is_final {X K : Type} (cr : Crypto X K) (e : TlsErr) (k : Nat) :
    pollTimes cr k (.error e : ECState X K) = .error e ∧
      (establishPoll cr (pollTimes cr k (.error e : ECState X K))).1 = .ready (.error e) := by
  have h : ∀ k, pollTimes cr k (.error e : ECState X K) = .error e := by
    intro k
    induction k with
    | zero => rfl
    | succ k ih =>
      rw [pollTimes]
      have : (establishPoll cr (.error e : ECState X K)).2 = .error e := by unfold establishPoll; rw [establishLoop]
      rw [this, ih]
  refine ⟨h k, ?_⟩
  rw [h k, establishPoll, establishLoop]

/-- C30: while the client waits for the server, an error of the transport is the result of the handshake. -/
theorem C30_transport_error {X K : Type} (cr : Crypto X K) (k : IoKind) (more : List ReadEvent) :
    (∀ s : EarlyState K, s.plaintext.inner.reads = .error k :: more →
      (establishPoll cr (.afterSendClientHello s : ECState X K)).1 = .ready (.error (.ioError k))) ∧
    (∀ s : ServerHelloState X, s.plaintext.inner.reads = .error k :: more →
      (establishPoll cr (.afterReceiveServerHello s : ECState X K)).1 = .ready (.error (.ioError k))) := by
  have hp : ∀ p : PlaintextStream, p.inner.reads = .error k :: more → p.pollRecv.1 = .ready (.error (.ioError k)) := by
    intro p h
    simp only [PlaintextStream.pollRecv, pollReceiveAndAddData, Transport.pollRead, h]
  constructor
  all_goals
    intro s h
    have h1 := hp _ h
    rcases hr : s.plaintext.pollRecv with ⟨res, p⟩
    rw [hr] at h1
    simp only at h1
    subst h1
    unfold establishPoll
    rw [establishLoop] <;> first | (simp only [ECState.recv, hr]) | (intro _ hh; cases hh)

/-- A message out of order ends the example handshake. -/
example : completes toyCrypto (toyInitial toyConfig [toyEE, toyVerify, toyCert, toyFinished 32]) = false ∧
    completes toyCrypto (toyInitial toyConfig [toyEE, toyFinished 32]) = false := by
  constructor <;> decide +kernel

/-- C61. The keys of every connection follow the key schedule of RFC 8446 from the shared secret of the key exchange and
the bytes of the messages exchanged, and what the client sent is its hello and its answer, whose Finished message is the keyed hash of
these bytes. -/
theorem C61_key_schedule {X K : Type} (cr : Crypto X K) (hx : cr.Expands) (hc : cr.Correct)
    (transport : Transport) (ht : transport.sent = []) (config : ClientConfig) (protocolNames : List String) (privateKey : K)
    (publicKey random sessionId : Bytes) (k : Nat) (conn : Conn)
    (h : (establishPoll cr (pollTimes cr k
      (initialState transport config protocolNames privateKey publicKey random sessionId))).1 = .ready (.ok conn)) :
    ∃ (ch : Bytes) (f : Flight X) (hsSecret : Bytes) (hsServer : EncryptionKey),
      Agreed cr f.sh f.shRaw privateKey ch conn.seqenc.ciphers hsSecret hsServer ∧
      f.Keys cr ch conn.seqenc.ciphers hsSecret conn.seqenc.trafficSecrets ∧
      f.Answered cr config ch conn.seqenc.ciphers hsSecret conn.plaintext.inner.sent conn.plaintext.seals := by
  obtain ⟨ch, f, hsSecret, hsServer, _, _, h1, _, _, h2, h3, _⟩ :=
    C29_server_authenticated cr hx hc transport ht config protocolNames privateKey publicKey random sessionId k conn h
  exact ⟨ch, f, hsSecret, hsServer, h1, h2, h3⟩

/-! ## C62: messages and records -/

/-- C62: it makes no difference how the server splits its handshake messages into records (RFC 8446, 5.1). -/
def C62_statement : Prop :=
  ∀ (X K : Type) (cr : Crypto X K) (f : Flight X) (s : ServerHelloState X) (ws : List WireRecord) (contents : List Bytes),
    cr.Correct → f.Legal cr → s.cstate = .receivedServerHello →
    s.seqenc.trafficSecrets.server.writeIv.length = 12 →
    s.plaintext.receiver.incoming = wire ws → (∀ w ∈ ws, w.typ ≠ 20) →
    ProtectsAll cr s.seqenc.trafficSecrets.server s.seqenc.serverSequenceNo ws (contents.map fun raw => (22, raw)) →
    contents.flatten = f.encrypted.flatten →
    ∃ sm s', receiveServerMessages cr (s.plaintext.receiver.incoming.length + 1) s = (.ready (.ok sm), s')

/-- The flight of the example. -/
def toyFlight : Flight Unit where
  shRaw := toyServerHello
  eeRaw := toyEE
  reqRaws := []
  certRaw := toyCert
  cvRaw := toyVerify
  finRaw := toyFinished 32
  sh := ⟨0x0303, List.replicate 32 7, [], .tlsAes128GcmSha256, 0, [.keyShareServerHello ⟨.x25519, [9, 9]⟩]⟩
  ee := []
  cert := ⟨[], [⟨[1, 2, 3], (), []⟩]⟩
  cv := ⟨.ed25519, [6]⟩
  verifyData := List.replicate 32 2

theorem toyFlight_legal : toyFlight.Legal toyCrypto := by
  refine ⟨rfl, rfl, .inl rfl, rfl, rfl, rfl⟩

/-- The whole flight in one record. -/
def toyCoalesced : WireRecord := ⟨23, 3, 3, (toyHsRecord 0 toyFlight.encrypted.flatten).drop 5⟩

def toyReceiving (incoming : Bytes) : ServerHelloState Unit where
  config := toyConfig
  plaintext := .new ⟨[], [], [], [], []⟩ ⟨incoming, .active⟩
  seqenc := ⟨0, 0, ⟨toyHsKey, toyHsKey⟩, ⟨.sha256, .aes128Gcm⟩⟩
  transcript := []
  prk := []
  cstate := .receivedServerHello

/-- The code does not satisfy C62: of the messages in one record only the first is seen. A server that sends
its whole flight in one record, as many do, is never answered. -/
theorem C62_false : ¬ C62_statement := by
  intro h
  obtain ⟨sm, s', hr⟩ := h Unit Unit toyCrypto toyFlight (toyReceiving (wire [toyCoalesced])) [toyCoalesced]
    [toyFlight.encrypted.flatten] toyCrypto_correct toyFlight_legal rfl rfl rfl (by simp [toyCoalesced])
    ⟨by unfold WireRecord.Legal; decide +kernel, ⟨0, by decide +kernel⟩, trivial⟩ (by simp)
  have hpend : (receiveServerMessages toyCrypto ((toyReceiving (wire [toyCoalesced])).plaintext.receiver.incoming.length + 1)
      (toyReceiving (wire [toyCoalesced]))).1 = .pending := by decide +kernel
  rw [hr] at hpend
  cases hpend

/-- C62, what holds: one message per record is understood. Missing from C62: every other split. -/
theorem C62_one_message_per_record_partial {X K : Type} (cr : Crypto X K) (f : Flight X) (hf : f.Legal cr) (s : ServerHelloState X)
    (ws : List WireRecord) (hstate : s.cstate = .receivedServerHello)
    (hiv : s.seqenc.trafficSecrets.server.writeIv.length = 12)
    (hinc : s.plaintext.receiver.incoming = wire ws) (htyp : ∀ w ∈ ws, w.typ ≠ 20)
    (hprot : ProtectsAll cr s.seqenc.trafficSecrets.server s.seqenc.serverSequenceNo ws
      (f.encrypted.map fun raw => (22, raw))) :
    ∃ sm s', receiveServerMessages cr (s.plaintext.receiver.incoming.length + 1) s = (.ready (.ok sm), s') := by
  obtain ⟨sm, s', h, _⟩ := C30_legal_flight_accepted cr f hf s ws [] hstate hiv (by simpa using hinc) htyp hprot
  exact ⟨sm, s', h⟩

/-! ## C55: a wrong Finished message -/

/-- C55: whatever the server sends as Finished, the checks give a result or an error, never a crash. -/
def C55_statement : Prop :=
  ∀ (X K : Type) (cr : Crypto X K) (transcript : Bytes) (config : ClientConfig) (prk : Bytes) (sm : ServerMessages X)
    (seqenc : SequenceEncryption), cr.Expands → (∀ a b, cr.verifyCertificate a b ≠ .error .panic) →
    computeApplicationSecrets cr transcript config prk sm seqenc ≠ .error .panic

/-- The code does not satisfy C55: a Finished message of another length than the hash crashes the client. -/
theorem C55_false : ¬ C55_statement := by
  intro h
  exact h Unit Unit toyCrypto [] toyConfig [] ⟨[], none, none, none, ([2], [])⟩ ⟨0, 0, ⟨toyHsKey, toyHsKey⟩, ⟨.sha256, .aes128Gcm⟩⟩
    toyCrypto_expands nofun rfl

/-- In the whole handshake: the peer that chose the keys can crash the client. -/
theorem C55_crash_in_handshake :
    (match (establishPoll toyCrypto (toyInitial toyConfig [toyEE, toyCert, toyVerify, toyFinished 31])).1 with
      | .ready (.error e) => decide (e = .panic)
      | _ => false) = true := by
  decide +kernel

/-- C55, what holds: a Finished message of the right length is accepted if it is the right one, and refused with
an error otherwise. Missing from C55: other lengths. -/
theorem C55_right_length_partial {X K : Type} (cr : Crypto X K) (alg : HashAlg) (key : EncryptionKey) (thash v fk : Bytes)
    (hlen : v.length = hashLen alg) (hk : expandLabel cr alg key.raw labelFinished [] (hashLen alg) = some fk) :
    verifyFinished cr alg key thash v =
      if v = cr.hmac alg fk thash then .ok () else .error .finishedVerificationFailed := by
  have hf : ascii "finished" = labelFinished := by decide
  unfold verifyFinished deriveSecret
  rw [hkdfExpandLabel_eq, hf, byteLen_eq, hk]
  simp only [Except.bind, bind, hmacVerify, byteLen_eq, hlen, ne_eq, not_true_eq_false, if_false]
  by_cases hv : cr.hmac alg fk thash = v
  · simp only [hv, decide_true, if_true]; rfl
  · have hv' : ¬ v = cr.hmac alg fk thash := fun hh => hv hh.symm
    simp only [hv, hv', decide_false, Bool.false_eq_true, if_false]

example : verifyFinished toyCrypto .sha256 toyHsKey [] (List.replicate 32 2) = .ok () ∧
    verifyFinished toyCrypto .sha256 toyHsKey [] (List.replicate 32 3) = .error .finishedVerificationFailed := ⟨rfl, rfl⟩

/-! ## C59: the server name -/

/-- C59: if a server name is configured, the handshake completes only with a certificate for that name (`names`
gives the names that a certificate is for). -/
def C59_statement : Prop :=
  ∀ (X K : Type) (cr : Crypto X K) (names : X → List String) (transport : Transport) (config : ClientConfig)
    (protocolNames : List String) (privateKey : K) (publicKey random sessionId : Bytes) (conn : Conn) (name : String),
    config.serverName = some name →
    (establishPoll cr (initialState transport config protocolNames privateKey publicKey random sessionId)).1 = .ready (.ok conn) →
    ∃ x raw, cr.x509 raw = some x ∧ name ∈ names x

/-- The code does not satisfy C59: the name is sent to the server, but no certificate is ever compared with it. -/
theorem C59_false : ¬ C59_statement := by
  intro h
  obtain ⟨conn, hconn⟩ := (completes_iff _ _).mp toy_completes
  obtain ⟨x, raw, _, hmem⟩ := h Unit Unit toyCrypto (fun _ => ["other.org"]) _ toyConfig _ () _ _ _ conn "example.org" rfl hconn
  simp at hmem

/-- C59: the decision about the server's messages is the same for every configured name. -/
theorem C59_name_is_ignored {X K : Type} (cr : Crypto X K) (transcript : Bytes) (config : ClientConfig) (prk : Bytes)
    (sm : ServerMessages X) (seqenc : SequenceEncryption) (name : Option String) :
    computeApplicationSecrets cr transcript { config with serverName := name } prk sm seqenc
      = computeApplicationSecrets cr transcript config prk sm seqenc := rfl

end Ngfs.Tls
