import Verif.Props.TlsHandshake

/-!
C152: what the server chooses is something the client has offered.
-/
namespace Ngfs.Tls
open Ngfs.Binary

/-- The server's choices answer the client's hello (RFC 8446, 4.1.3 and 4.2; RFC 7301, 3.2): TLS 1.3, the client's session
id, a cipher suite, a key share and a signature algorithm of the lists in the hello, no compression, and if an application
protocol is chosen, exactly one of those in the hello. -/
structure Flight.Chosen {X : Type} (f : Flight X) (hello : ClientHello) (names : List String) : Prop where
  suite : f.sh.cipherSuite ∈ hello.cipherSuites
  share : ∃ entry entries offered, .keyShareServerHello entry ∈ f.sh.extensions ∧
    .keyShareClientHello entries ∈ hello.extensions ∧ offered ∈ entries ∧ entry.group = offered.group
  signature : ∃ schemes, .signatureAlgorithms schemes ∈ hello.extensions ∧ f.cv.algorithm ∈ schemes
  session : f.sh.legacySessionIdEcho = hello.legacySessionId
  compression : f.sh.legacyCompressionMethod = 0
  version : .supportedVersions [3, 4] ∈ f.sh.extensions
  protocol : ∀ ps, .applicationLayerProtocolNegotiation ps ∈ f.ee → ∃ name ∈ names, ps = [⟨utf8Encode name⟩]

/-- C152: if the handshake yields a connection, then the flight that arrived has only choices from the client's hello. -/
def C152_statement : Prop :=
  ∀ (X K : Type) (cr : Crypto X K), cr.Expands → cr.Correct →
    ∀ (transport : Transport) (config : ClientConfig) (names : List String) (privateKey : K)
      (publicKey random sessionId : Bytes) (k : Nat) (conn : Conn), transport.sent = [] →
      (establishPoll cr (pollTimes cr k
        (initialState transport config names privateKey publicKey random sessionId))).1 = .ready (.ok conn) →
      ∀ (ch : Bytes) (f : Flight X) (hsSecret : Bytes) (hsServer : EncryptionKey),
        handshakeBytes (X := X) (.clientHello (makeClientHello random sessionId publicKey config.serverName names)) = .ok ch →
        f.Legal cr → Agreed cr f.sh f.shRaw privateKey ch conn.seqenc.ciphers hsSecret hsServer →
        Arrived cr f.shRaw f.encrypted hsServer (readData transport.reads) conn.plaintext.unread →
        f.Chosen (makeClientHello random sessionId publicKey config.serverName names) names

/-- C152, what holds: the suite, the key share and the signature algorithm are among those offered. Missing: session id,
compression, version and application protocol are not looked at. -/
theorem C152_algorithms_partial {X K : Type} (cr : Crypto X K) (hx : cr.Expands) (hc : cr.Correct)
    (transport : Transport) (ht : transport.sent = []) (config : ClientConfig) (names : List String) (privateKey : K)
    (publicKey random sessionId : Bytes) (k : Nat) (conn : Conn)
    (h : (establishPoll cr (pollTimes cr k
      (initialState transport config names privateKey publicKey random sessionId))).1 = .ready (.ok conn))
    (hello : ClientHello) (hhello : hello = makeClientHello random sessionId publicKey config.serverName names) :
    ∃ (ch : Bytes) (f : Flight X) (hsSecret : Bytes) (hsServer : EncryptionKey),
      handshakeBytes (X := X) (.clientHello hello) = .ok ch ∧ f.Legal cr ∧
      Agreed cr f.sh f.shRaw privateKey ch conn.seqenc.ciphers hsSecret hsServer ∧
      Arrived cr f.shRaw f.encrypted hsServer (readData transport.reads) conn.plaintext.unread ∧
      f.sh.cipherSuite ∈ hello.cipherSuites ∧
      (∃ entry entries offered, Extension.keyShareServerHello entry ∈ f.sh.extensions ∧
        Extension.keyShareClientHello entries ∈ hello.extensions ∧ offered ∈ entries ∧ entry.group = offered.group ∧
        offered.keyExchange = publicKey) ∧
      ∃ schemes, Extension.signatureAlgorithms schemes ∈ hello.extensions ∧ f.cv.algorithm ∈ schemes := by
  obtain ⟨ch, f, hs, hk, h0, h1, h2, h3, h4, -⟩ := C29_server_authenticated cr hx hc transport ht config names
    privateKey publicKey random sessionId k conn h
  subst hhello
  refine ⟨ch, f, hs, hk, h0, h1, h2, h3, ?_, ?_, ?_⟩
  · rcases h2.suite with ⟨h, -⟩ | ⟨h, -⟩ <;> rw [h] <;> simp [makeClientHello]
  · obtain ⟨share, dhe, g1, -, -⟩ := h2.shared
    refine ⟨⟨.x25519, share⟩, [⟨.x25519, publicKey⟩], ⟨.x25519, publicKey⟩, g1, ?_, by simp, rfl, rfl⟩
    exact List.mem_append_left _ (by simp)
  · refine ⟨[.ecdsaSecp256r1Sha256, .ecdsaSecp384r1Sha384, .ecdsaSecp521r1Sha512, .ed25519, .ed448,
        .rsaPssPssSha256, .rsaPssPssSha384, .rsaPssPssSha512, .rsaPssRsaeSha256, .rsaPssRsaeSha384,
        .rsaPssRsaeSha512, .rsaPkcs1Sha256, .rsaPkcs1Sha384, .rsaPkcs1Sha512], ?_, ?_⟩
    · exact List.mem_append_left _ (by simp)
    · have := h4.scheme
      simp only [List.mem_cons, List.not_mem_nil, or_false] at this
      rcases this with h | h | h | h | h <;> rw [h] <;> simp

/-! ### The counterexample: "h3" is chosen, and "h2" was offered -/

/-- A ServerHello that is right in every respect. -/
def rightHello : ServerHello := ⟨0x0303, List.replicate 32 7, List.replicate 32 2, .tlsAes128GcmSha256, 0,
  [.keyShareServerHello ⟨.x25519, [9, 9]⟩, .supportedVersions [3, 4]]⟩

def wrongProtocol : List Extension := [.applicationLayerProtocolNegotiation [⟨[104, 51]⟩]]

/-- Its bytes. -/
def wrongRaw : Bytes := [8, 0, 0, 11, 0, 9, 0, 16, 0, 5, 0, 3, 2, 104, 51]

def wrongFlight (sh : ServerHello) (eeRaw : Bytes) (ee : List Extension) : Flight Unit where
  shRaw := toyMessage (.serverHello sh)
  eeRaw := eeRaw
  reqRaws := []
  certRaw := toyCert
  cvRaw := toyVerify
  finRaw := toyFinished 32
  sh := sh
  ee := ee
  cert := ⟨[], [⟨[1, 2, 3], (), []⟩]⟩
  cv := ⟨.ed25519, [6]⟩
  verifyData := List.replicate 32 2

def wrongRecords (sh : ServerHello) (eeRaw : Bytes) : List WireRecord :=
  ⟨22, 3, 3, (wrongFlight sh eeRaw []).shRaw⟩ ::
    ((wrongFlight sh eeRaw []).encrypted.zipIdx).map fun p => ⟨23, 3, 3, (toyHsRecord p.2 p.1).drop 5⟩

def wrongTransport (sh : ServerHello) (eeRaw : Bytes) : Transport :=
  ⟨[.ready (wire (wrongRecords sh eeRaw)), .ready []], [.accept 1000, .accept 1000], [.ok, .ok], [], []⟩

def wrongInitial (sh : ServerHello) (eeRaw : Bytes) : ECState Unit Unit :=
  initialState (wrongTransport sh eeRaw) toyConfig ["h2"] () (List.replicate 32 8) (List.replicate 32 1) (List.replicate 32 2)

theorem wrong_legal : (wrongFlight rightHello wrongRaw wrongProtocol).Legal toyCrypto :=
  ⟨by unfold Parses; decide +kernel, by unfold Parses; decide +kernel, .inl rfl, by unfold Parses; decide +kernel,
    by unfold Parses; decide +kernel, by unfold Parses; decide +kernel⟩

theorem wrong_completes : completes toyCrypto (wrongInitial rightHello wrongRaw) = true := by decide +kernel

/-- What is left to read and the ciphers of the connection. -/
def resultIs (r : Poll (Except TlsErr Conn)) (unread : Bytes) (ciphers : Ciphers) : Bool :=
  match r with
  | .ready (.ok c) => decide (c.plaintext.unread = unread) && decide (c.seqenc.ciphers = ciphers)
  | _ => false

theorem wrong_result : resultIs (establishPoll toyCrypto (wrongInitial rightHello wrongRaw)).1 [] ⟨.sha256, .aes128Gcm⟩ = true := by
  decide +kernel

theorem wrong_arrived : Arrived toyCrypto (wrongFlight rightHello wrongRaw wrongProtocol).shRaw
    (wrongFlight rightHello wrongRaw wrongProtocol).encrypted toyHsKey (readData (wrongTransport rightHello wrongRaw).reads) [] := by
  refine ⟨⟨22, 3, 3, (wrongFlight rightHello wrongRaw []).shRaw⟩, (wrongRecords rightHello wrongRaw).tail,
    wrongRecords rightHello wrongRaw, ?_, ?_, ?_, rfl, rfl, ?_⟩
  · unfold WireRecord.Legal; decide +kernel
  · decide +kernel
  · decide +kernel
  · refine ⟨?_, ⟨0, ?_⟩, ?_, ⟨0, ?_⟩, ?_, ⟨0, ?_⟩, ?_, ⟨0, ?_⟩, trivial⟩ <;> (try unfold WireRecord.Legal) <;> decide +kernel

/-- The code does not satisfy C152. -/
theorem C152_false : ¬ C152_statement := by
  intro h
  obtain ⟨conn, hconn⟩ := (completes_iff _ _).mp wrong_completes
  have hres := wrong_result
  rw [hconn] at hres
  simp only [resultIs, Bool.and_eq_true, decide_eq_true_eq] at hres
  obtain ⟨hu, hci⟩ := hres
  have hch : ∃ ch, handshakeBytes (X := Unit) (.clientHello (makeClientHello (List.replicate 32 1) (List.replicate 32 2)
      (List.replicate 32 8) toyConfig.serverName ["h2"])) = .ok ch := by
    have hs : (handshakeBytes (X := Unit) (.clientHello (makeClientHello (List.replicate 32 1) (List.replicate 32 2)
      (List.replicate 32 8) toyConfig.serverName ["h2"]))).toOption.isSome = true := by decide +kernel
    generalize handshakeBytes (X := Unit) _ = r at hs
    cases r with
    | ok ch => exact ⟨ch, rfl⟩
    | error e => cases hs
  obtain ⟨ch, hch⟩ := hch
  have := (h Unit Unit toyCrypto toyCrypto_expands toyCrypto_correct (wrongTransport rightHello wrongRaw) toyConfig ["h2"] ()
    (List.replicate 32 8) (List.replicate 32 1) (List.replicate 32 2) 0 conn rfl hconn ch
    (wrongFlight rightHello wrongRaw wrongProtocol) (List.replicate 32 3) toyHsKey hch wrong_legal
    (by
      rw [hci]
      exact ⟨⟨[9, 9], [5], by decide, rfl, _, rfl, rfl⟩, .inl ⟨rfl, rfl⟩, ⟨rfl, rfl, rfl, rfl⟩⟩)
    (by rw [hu]; exact wrong_arrived)).protocol _ (List.mem_cons_self ..)
  obtain ⟨name, hname, hp⟩ := this
  simp only [List.mem_singleton] at hname
  subst hname
  revert hp
  decide +kernel

/-- Nor are the session id, the compression method and the version looked at. -/
example : completes toyCrypto (wrongInitial { rightHello with legacySessionIdEcho := [1] } toyEE) = true ∧
    completes toyCrypto (wrongInitial { rightHello with legacyCompressionMethod := 1 } toyEE) = true ∧
    completes toyCrypto (wrongInitial { rightHello with extensions := [.keyShareServerHello ⟨.x25519, [9, 9]⟩,
      .supportedVersions [3, 3]] } toyEE) = true := by
  refine ⟨?_, ?_, ?_⟩ <;> decide +kernel

end Ngfs.Tls
