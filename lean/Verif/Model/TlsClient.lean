import Verif.Model.TlsRecord

/-!
Model of the TLS client: src/tls/protocol/client_state.rs, src/tls/protocol/client.rs and the key
schedule of src/tls/helpers.rs.

Simplifications: the random bytes and the ephemeral key pair of the client are inputs
(`make_initial_state` cannot fail to produce them); `println!` is dropped.
-/
namespace Ngfs.Tls

open Ngfs.Binary

/-- ASCII bytes of a label. -/
def ascii (s : String) : Bytes := s.toList.map (fun c => UInt8.ofNat c.toNat)

/-! ### Key schedule, helpers.rs -/

/-- `hkdf_expand_label`, helpers.rs:138-160. -/
def hkdfExpandLabel {X K : Type} (cr : Crypto X K) (alg : HashAlg) (prk label context : Bytes) (len : Nat) :
    Except TlsErr Bytes :=
  let labelField := ascii "tls13 " ++ label
  let hkdfLabel := beBytes 2 len ++ [UInt8.ofNat labelField.length] ++ labelField ++
    [UInt8.ofNat context.length] ++ context
  match cr.hkdfExpand alg prk hkdfLabel len with
  | some okm => .ok okm
  | none => .error .internal

/-- `derive_secret`, helpers.rs:162-167. -/
def deriveSecret {X K : Type} (cr : Crypto X K) (alg : HashAlg) (secret label thash : Bytes) :
    Except TlsErr Bytes :=
  hkdfExpandLabel cr alg secret label thash alg.byteLen

/-- `EncryptionKey::new`, helpers.rs:59-70. -/
def EncryptionKey.new {X K : Type} (cr : Crypto X K) (raw : Bytes) (hashAlg : HashAlg) (aeadAlg : AeadAlg) :
    Except TlsErr EncryptionKey := do
  let writeKey ← hkdfExpandLabel cr hashAlg raw (ascii "key") [] aeadAlg.keyLen
  let writeIv ← hkdfExpandLabel cr hashAlg raw (ascii "iv") [] 12
  pure ⟨raw, aeadAlg, writeKey, writeIv⟩

/-- `TrafficSecrets::derive_from`, helpers.rs:107-123; the transcript is the bytes hashed so far. -/
def TrafficSecrets.deriveFrom {X K : Type} (cr : Crypto X K) (ciphers : Ciphers) (transcript prk : Bytes)
    (label : String) : Except TlsErr TrafficSecrets := do
  let thash := cr.hash ciphers.hashAlg transcript
  let c ← deriveSecret cr ciphers.hashAlg prk (ascii "c " ++ ascii label ++ ascii " traffic") thash
  let client ← EncryptionKey.new cr c ciphers.hashAlg ciphers.aeadAlg
  let s ← deriveSecret cr ciphers.hashAlg prk (ascii "s " ++ ascii label ++ ascii " traffic") thash
  let server ← EncryptionKey.new cr s ciphers.hashAlg ciphers.aeadAlg
  pure ⟨client, server⟩

/-- `Ciphers::from_server_hello`, helpers.rs:80-98. -/
def Ciphers.fromServerHello (m : ServerHello) : Except TlsErr Ciphers :=
  match m.cipherSuite with
  | .tlsAes128GcmSha256 => .ok ⟨.sha256, .aes128Gcm⟩
  | .tlsAes256GcmSha384 => .ok ⟨.sha384, .aes256Gcm⟩
  | _ => .error .unsupportedCipherSuite

/-- `get_server_hello_x25519_key_share`, helpers.rs:182-191. -/
def serverKeyShare : List Extension → Option Bytes
  | [] => none
  | .keyShareServerHello ks :: rest =>
    if ks.group = .x25519 then some ks.keyExchange else serverKeyShare rest
  | _ :: rest => serverKeyShare rest

/-- `get_server_hello_x25519_shared_secret`, helpers.rs:193-218. -/
def sharedSecret {X K : Type} (cr : Crypto X K) (privateKey : K) (m : ServerHello) : Option Bytes :=
  match serverKeyShare m.extensions with
  | none => none
  | some share => cr.agree privateKey share

/-- `get_zero_prk`, helpers.rs:224-228. -/
def zeroPrk {X K : Type} (cr : Crypto X K) (alg : HashAlg) : Bytes :=
  cr.hkdfExtract alg (List.replicate alg.byteLen 0) (List.replicate alg.byteLen 0)

/-- `get_derived_prk`, helpers.rs:230-233. -/
def derivedPrk {X K : Type} (cr : Crypto X K) (alg : HashAlg) (prbytes secret : Bytes) : Except TlsErr Bytes := do
  let salt ← deriveSecret cr alg prbytes (ascii "derived") (cr.hash alg [])
  pure (cr.hkdfExtract alg salt secret)

/-- `hmac_verify`, crypt.rs:87-124: `GenericArray::from_slice` panics if the length is not that of
the hash. -/
def hmacVerify {X K : Type} (cr : Crypto X K) (alg : HashAlg) (key data expected : Bytes) : Except TlsErr Bool :=
  if expected.length ≠ alg.byteLen then .error .panic
  else .ok (decide (cr.hmac alg key data = expected))

/-- `verify_finished`, helpers.rs:346-368. -/
def verifyFinished {X K : Type} (cr : Crypto X K) (alg : HashAlg) (key : EncryptionKey) (transcriptHash : Bytes)
    (verifyData : Bytes) : Except TlsErr Unit := do
  let finishedKey ← deriveSecret cr alg key.raw (ascii "finished") []
  let good ← hmacVerify cr alg finishedKey transcriptHash verifyData
  if good then pure () else .error .finishedVerificationFailed

/-- `rsa_verify`, helpers.rs:395-412. -/
def rsaVerify {X K : Type} (cr : Crypto X K) (scheme : SignatureScheme) (key input signature : Bytes) :
    Except TlsErr Unit :=
  if scheme = .ecdsaSecp256r1Sha256 ∨ scheme = .rsaPssRsaeSha256 ∨ scheme = .rsaPssRsaeSha384 ∨
      scheme = .rsaPssRsaeSha512 ∨ scheme = .ed25519 then
    if cr.sigVerify scheme key input signature then .ok () else .error .signatureVerificationFailed
  else .error .unsupportedSignatureScheme

/-! ### client_state.rs -/

/-- `ServerMessages`, client.rs:775-783, and `ReceivedFinished`, client_state.rs:56-62. -/
structure ServerMessages (X : Type) where
  encryptedExtensions : List Extension
  certificateRequest : Option CertificateRequest
  certificate : Option (Certificate X)
  certificateVerify : Option (CertificateVerify × Bytes)
  finished : Bytes × Bytes
  deriving DecidableEq, Repr

/-- `ClientState`, client_state.rs:12-62. -/
inductive ClientState (X : Type) where
  | receivedServerHello
  | receivedEncryptedExtensions (ee : List Extension)
  | receivedCertificateRequest (ee : List Extension) (cr : CertificateRequest)
  | receivedCertificate (ee : List Extension) (cr : Option CertificateRequest) (cert : Certificate X)
  | receivedCertificateVerify (ee : List Extension) (cr : Option CertificateRequest)
      (cert : Option (Certificate X)) (cv : CertificateVerify × Bytes)
  | receivedFinished (sm : ServerMessages X)
  deriving DecidableEq, Repr

/-- `on_hash_and_handshake`, client_state.rs:65-175. -/
def ClientState.onHashAndHandshake {X : Type} (s : ClientState X) (hash : Bytes) (h : Handshake X) :
    Except TlsErr (ClientState X) :=
  match s with
  | .receivedServerHello =>
    match h with
    | .encryptedExtensions ee => .ok (.receivedEncryptedExtensions ee)
    | _ => .error (.unexpectedMessage h.name)
  | .receivedEncryptedExtensions ee =>
    match h with
    | .certificateRequest cr => .ok (.receivedCertificateRequest ee cr)
    | .certificate c => .ok (.receivedCertificate ee none c)
    | .certificateVerify v => .ok (.receivedCertificateVerify ee none none (v, hash))
    | .finished v => .ok (.receivedFinished ⟨ee, none, none, none, (v, hash)⟩)
    | _ => .error (.unexpectedMessage h.name)
  | .receivedCertificateRequest ee cr =>
    match h with
    | .certificate c => .ok (.receivedCertificate ee (some cr) c)
    | .certificateVerify v => .ok (.receivedCertificateVerify ee (some cr) none (v, hash))
    | .finished v => .ok (.receivedFinished ⟨ee, some cr, none, none, (v, hash)⟩)
    | _ => .error (.unexpectedMessage h.name)
  | .receivedCertificate ee cr c =>
    match h with
    | .certificateVerify v => .ok (.receivedCertificateVerify ee cr (some c) (v, hash))
    | .finished v => .ok (.receivedFinished ⟨ee, cr, some c, none, (v, hash)⟩)
    | _ => .error (.unexpectedMessage h.name)
  | .receivedCertificateVerify ee cr c cv =>
    match h with
    | .finished v => .ok (.receivedFinished ⟨ee, cr, c, some cv, (v, hash)⟩)
    | _ => .error (.unexpectedMessage h.name)
  | .receivedFinished _ => .error (.unexpectedMessage h.name)

/-! ### client.rs: the handshake -/

/-- `ServerAuth`, client.rs:76-80. -/
inductive ServerAuth where
  | none
  | certificateAuthority (ca : Bytes)
  | selfSigned
  deriving DecidableEq, Repr

/-- `ClientAuth` with `ClientKey`, client.rs:83-91. -/
inductive ClientAuth where
  | none
  | certificate (cert : Bytes) (isRsa : Bool) (key : Bytes)
  deriving DecidableEq, Repr

/-- `ClientConfig`, client.rs:93-97. -/
structure ClientConfig where
  clientAuth : ClientAuth
  serverAuth : ServerAuth
  serverName : Option String
  deriving DecidableEq, Repr

/-- `make_client_hello`, client.rs:99-170, the random bytes given. -/
def makeClientHello (random sessionId publicKey : Bytes) (serverName : Option String)
    (protocolNames : List String) : ClientHello where
  legacyVersion := 0x0303
  random := random
  legacySessionId := sessionId
  cipherSuites := [.tlsAes128GcmSha256, .tlsAes256GcmSha384, .unknown 0x00ff]
  legacyCompressionMethods := [0]
  extensions :=
    [.ecPointFormats [.uncompressed, .ansiX962CompressedPrime, .ansiX962CompressedChar2],
     .supportedGroups [.x25519, .secp256r1, .x448, .secp521r1, .secp384r1],
     .nextProtocolNegotiation [],
     .applicationLayerProtocolNegotiation (protocolNames.map fun n => ⟨utf8Encode n⟩),
     .encryptThenMac,
     .extendedMasterSecret,
     .postHandshakeAuth,
     .signatureAlgorithms
       [.ecdsaSecp256r1Sha256, .ecdsaSecp384r1Sha384, .ecdsaSecp521r1Sha512, .ed25519, .ed448,
        .rsaPssPssSha256, .rsaPssPssSha384, .rsaPssPssSha512, .rsaPssRsaeSha256, .rsaPssRsaeSha384,
        .rsaPssRsaeSha512, .rsaPkcs1Sha256, .rsaPkcs1Sha384, .rsaPkcs1Sha512],
     .supportedVersions [2, 3, 4],
     .pskKeyExchangeModes [.pskDheKe],
     .keyShareClientHello [⟨.x25519, publicKey⟩]] ++
    (match serverName with
     | some n => [.serverName [.hostName n]]
     | none => [])

/-- The bytes of a message written to a fresh writer (`BinaryWriter::new` ... `Vec::from`). -/
def handshakeBytes {X : Type} (h : Handshake X) : Except TlsErr Bytes :=
  match h.toBinary [] with
  | (.ok (), out) => .ok out
  | (.error .panic, _) => .error .panic
  | (.error _, _) => .error .messageEncodingFailed

/-- `make_verify_transcript_input`, client.rs:305-315. -/
def verifyTranscriptInput (server : Bool) (thash : Bytes) : Bytes :=
  List.replicate 64 0x20 ++
    (if server then ascii "TLS 1.3, server CertificateVerify" else ascii "TLS 1.3, client CertificateVerify") ++
    [0] ++ thash

/-- `append_certificate` and `append_verify`, client.rs:194-240, with `append_handshake` 242-255:
the longer transcript and the bytes to send. -/
def clientCertificateBytes {X K : Type} (cr : Crypto X K) (alg : HashAlg) (transcript : Bytes) :
    ClientAuth → Except TlsErr (Bytes × Bytes)
  | .none => .ok (transcript, [])
  | .certificate cert isRsa key => do
    let x ← match cr.x509 cert with
      | some x => Except.ok x
      | none => .error .invalidCertificate
    let c ← handshakeBytes (.certificate ⟨[], [⟨cert, x, []⟩]⟩)
    let transcript := transcript ++ c
    let input := verifyTranscriptInput false (cr.hash alg transcript)
    let signature ← match cr.sign isRsa key input with
      | some s => Except.ok s
      | none => .error .signatureFailed
    let v ← handshakeBytes (X := X)
      (.certificateVerify ⟨if isRsa then .rsaPssRsaeSha256 else .ed25519, signature⟩)
    pure (transcript ++ v, c ++ v)

/-- `append_finished`, client.rs:179-192. -/
def clientFinishedBytes {X K : Type} (cr : Crypto X K) (alg : HashAlg) (clientKey : EncryptionKey) (transcript : Bytes) :
    Except TlsErr Bytes := do
  let finishedKey ← deriveSecret cr alg clientKey.raw (ascii "finished") []
  handshakeBytes (X := X) (.finished (cr.hmac alg finishedKey (cr.hash alg transcript)))

/-- `compute_application_secrets`, client.rs:847-906. -/
def computeApplicationSecrets {X K : Type} (cr : Crypto X K) (transcript : Bytes) (config : ClientConfig)
    (prk : Bytes) (sm : ServerMessages X) (seqenc : SequenceEncryption) : Except TlsErr TrafficSecrets := do
  let alg := seqenc.ciphers.hashAlg
  let newPrk ← derivedPrk cr alg prk (List.replicate alg.byteLen 0)
  let applicationSecrets ← TrafficSecrets.deriveFrom cr seqenc.ciphers transcript newPrk "ap"
  verifyFinished cr alg seqenc.trafficSecrets.server sm.finished.2 sm.finished.1
  let entry ← match sm.certificate with
    | some c => match c.certificateList with
      | e :: _ => Except.ok e
      | [] => .error .emptyCertificateList
    | none => .error .missingCertificateMessage
  let ca ← match config.serverAuth with
    | .none => Except.error TlsErr.caCertificateUnavailable
    | .certificateAuthority v => .ok v
    | .selfSigned => .ok entry.data
  cr.verifyCertificate ca entry.data
  match sm.certificateVerify with
  | some (cv, thash) =>
    rsaVerify cr cv.algorithm (cr.publicKey entry.certificate) (verifyTranscriptInput true thash) cv.signature
  | none => .error .missingCertificateVerifyMessage
  pure applicationSecrets

/-- `EstablishedConnection`, client.rs:908-913. -/
structure Conn where
  plaintext : PlaintextStream
  seqenc : SequenceEncryption
  incomingDecrypted : Bytes
  readState : ReadState
  deriving DecidableEq, Repr

/-- `ECStateBegin` and `AfterSendClientHello`, client.rs:521-526, 551-556. -/
structure EarlyState (K : Type) where
  config : ClientConfig
  privateKey : K
  initialTranscript : Bytes
  plaintext : PlaintextStream
  deriving DecidableEq, Repr

/-- `AfterReceiveServerHello`, client.rs:615-622. The transcript is the bytes hashed so far. -/
structure ServerHelloState (X : Type) where
  config : ClientConfig
  plaintext : PlaintextStream
  seqenc : SequenceEncryption
  transcript : Bytes
  prk : Bytes
  cstate : ClientState X
  deriving DecidableEq, Repr

/-- `AfterReceiveServerMessages`, client.rs:718-722. -/
structure SendFinishedState where
  plaintext : PlaintextStream
  seqenc : SequenceEncryption
  applicationSecrets : TrafficSecrets
  deriving DecidableEq, Repr

/-- `ECState`, client.rs:404-411. -/
inductive ECState (X K : Type) where
  | begin (s : EarlyState K)
  | afterSendClientHello (s : EarlyState K)
  | afterReceiveServerHello (s : ServerHelloState X)
  | afterReceiveServerMessages (s : SendFinishedState)
  | done (c : Conn)
  | error (e : TlsErr)
  deriving DecidableEq, Repr

/-- `make_initial_state` with `append_plaintext_handshake` and `establish_connection`,
client.rs:332-366, 486-519. -/
def initialState {X K : Type} (transport : Transport) (config : ClientConfig) (protocolNames : List String)
    (privateKey : K) (publicKey random sessionId : Bytes) : ECState X K :=
  match handshakeBytes (X := X)
      (.clientHello (makeClientHello random sessionId publicKey config.serverName protocolNames)) with
  | .error e => .error e
  | .ok fragment =>
    let p := PlaintextStream.new transport .new
    .begin ⟨config, privateKey, fragment,
      { p with outgoing := p.outgoing ++ encodeRecord .handshake 0x0301 fragment }⟩

/-- `ECStateBegin::poll_step`, client.rs:529-548. -/
def beginStep {X K : Type} (s : EarlyState K) : Poll Unit × ECState X K :=
  match s.plaintext.pollFlush with
  | (.ready (.ok ()), p) => (.ready (), .afterSendClientHello { s with plaintext := p })
  | (.ready (.error e), _) => (.ready (), .error e)
  | (.pending, p) => (.pending, .begin { s with plaintext := p })

/-- `AfterSendClientHello::on_opt_message` with `get_handshake_encryption`, client.rs:571-612, 762-773. -/
def onServerHello {X K : Type} (cr : Crypto X K) (s : EarlyState K) (message : Option (Message X)) : ECState X K :=
  match message with
  | some (.handshake (.serverHello sh)) =>
    match Ciphers.fromServerHello sh with
    | .error e => .error e
    | .ok ciphers =>
      match sharedSecret cr s.privateKey sh with
      | none => .error .getSharedSecretFailed
      | some secret =>
        match derivedPrk cr ciphers.hashAlg (zeroPrk cr ciphers.hashAlg) secret with
        | .error e => .error e
        | .ok prk =>
          match TrafficSecrets.deriveFrom cr ciphers s.initialTranscript prk "hs" with
          | .error e => .error e
          | .ok secrets =>
            .afterReceiveServerHello
              { config := s.config, plaintext := s.plaintext
                seqenc := ⟨0, 0, secrets, ciphers⟩
                transcript := s.initialTranscript, prk := prk, cstate := .receivedServerHello }
  | some m => .error (.unexpectedMessage m.name)
  | none => .error .unexpectedEof

/-- `AfterSendClientHello::poll_step`, client.rs:559-569. -/
def sendClientHelloStep {X K : Type} (cr : Crypto X K) (s : EarlyState K) : Poll Unit × ECState X K :=
  match s.plaintext.pollReceivePlaintextMessage cr.x509 s.initialTranscript with
  | (.ready (.ok m), p, t) => (.ready (), onServerHello cr { s with plaintext := p, initialTranscript := t } m)
  | (.ready (.error e), _, _) => (.ready (), .error e)
  | (.pending, p, t) => (.pending, .afterSendClientHello { s with plaintext := p, initialTranscript := t })

/-- The loop `ReceiveServerMessages::poll`, client.rs:793-844; the number bounds the iterations
(each consumes at least five bytes). -/
def receiveServerMessages {X K : Type} (cr : Crypto X K) :
    Nat → ServerHelloState X → Poll (Except TlsErr (ServerMessages X)) × ServerHelloState X
  | 0, s => (.ready (.error .panic), s)
  | n + 1, s =>
    match s.cstate with
    | .receivedFinished sm => (.ready (.ok sm), s)
    | _ =>
      let hash := cr.hash s.seqenc.ciphers.hashAlg s.transcript
      match pollReceiveEncryptedMessage cr s.plaintext.receiver s.seqenc.serverSequenceNo
          s.seqenc.trafficSecrets.server with
      | (res, r, seqNo, raw) =>
        let s := { s with
          plaintext := { s.plaintext with receiver := r }
          seqenc := { s.seqenc with serverSequenceNo := seqNo }
          transcript := s.transcript ++ raw }
        match res with
        | .ready (.error e) => (.ready (.error e), s)
        | .pending => (.pending, s)
        | .ready (.ok (some (.handshake h))) =>
          match s.cstate.onHashAndHandshake hash h with
          | .ok c => receiveServerMessages cr n { s with cstate := c }
          | .error e => (.ready (.error e), s)
        | .ready (.ok (some m)) => (.ready (.error (.unexpectedMessage m.name)), s)
        | .ready (.ok none) => (.ready (.error .unexpectedEof), s)

/-- `AfterReceiveServerHello::on_server_messages`, client.rs:668-715. -/
def onServerMessages {X K : Type} (cr : Crypto X K) (s : ServerHelloState X) (sm : ServerMessages X) : ECState X K :=
  match computeApplicationSecrets cr s.transcript s.config s.prk sm s.seqenc with
  | .error e => .error e
  | .ok applicationSecrets =>
    match clientCertificateBytes cr s.seqenc.ciphers.hashAlg s.transcript s.config.clientAuth with
    | .error e => .error e
    | .ok (transcript, certBytes) =>
      match clientFinishedBytes cr s.seqenc.ciphers.hashAlg s.seqenc.trafficSecrets.client transcript with
      | .error e => .error e
      | .ok finBytes =>
        match encryptRecord cr s.plaintext (certBytes ++ finBytes) .handshake
            s.seqenc.trafficSecrets.client s.seqenc.clientSequenceNo with
        | (.error e, _) => .error e
        | (.ok (), p) =>
          .afterReceiveServerMessages
            { plaintext := p
              seqenc := { s.seqenc with clientSequenceNo := s.seqenc.clientSequenceNo + 1 }
              applicationSecrets := applicationSecrets }

/-- `AfterReceiveServerHello::poll_step`, client.rs:625-666. -/
def receiveServerHelloStep {X K : Type} (cr : Crypto X K) (s : ServerHelloState X) : Poll Unit × ECState X K :=
  match receiveServerMessages cr (s.plaintext.receiver.incoming.length + 1) s with
  | (.ready (.ok sm), s) => (.ready (), onServerMessages cr s sm)
  | (.ready (.error e), _) => (.ready (), .error e)
  | (.pending, s) => (.pending, .afterReceiveServerHello s)

/-- `EstablishedConnection::new`, client.rs:916-923. -/
def Conn.new (p : PlaintextStream) (seqenc : SequenceEncryption) : Conn := ⟨p, seqenc, [], .active⟩

/-- `AfterReceiveServerMessages::poll_step` and `on_data_sent`, client.rs:725-750. -/
def sendFinishedStep {X K : Type} (s : SendFinishedState) : Poll Unit × ECState X K :=
  match s.plaintext.pollFlush with
  | (.ready (.ok ()), p) => (.ready (), .done (Conn.new p ⟨0, 0, s.applicationSecrets, s.seqenc.ciphers⟩))
  | (.ready (.error e), _) => (.ready (), .error e)
  | (.pending, p) => (.pending, .afterReceiveServerMessages { s with plaintext := p })

/-- `ECState::do_poll_recv`, where `want_recv`, client.rs:451-483: `some e` for an error. -/
def ECState.recv {X K : Type} : ECState X K → Option TlsErr × ECState X K
  | .afterSendClientHello s =>
    match s.plaintext.pollRecv with
    | (.ready (.error e), p) => (some e, .afterSendClientHello { s with plaintext := p })
    | (_, p) => (none, .afterSendClientHello { s with plaintext := p })
  | .afterReceiveServerHello s =>
    match s.plaintext.pollRecv with
    | (.ready (.error e), p) => (some e, .afterReceiveServerHello { s with plaintext := p })
    | (_, p) => (none, .afterReceiveServerHello { s with plaintext := p })
  | s => (none, s)

/-- `ECState::poll_step`, client.rs:428-449. -/
def ECState.pollStep {X K : Type} (cr : Crypto X K) : ECState X K → Poll Unit × ECState X K
  | .begin s => beginStep s
  | .afterSendClientHello s => sendClientHelloStep cr s
  | .afterReceiveServerHello s => receiveServerHelloStep cr s
  | .afterReceiveServerMessages s => sendFinishedStep s
  | .done c => (.ready (), .done c)
  | .error e => (.ready (), .error e)

/-- The loop of `EstablishConnection::poll`, client.rs:375-401; the number bounds the iterations.
The result is the connection or error the future resolves to, or the state to go on from. -/
def establishLoop {X K : Type} (cr : Crypto X K) :
    Nat → ECState X K → Poll (Except TlsErr Conn) × ECState X K
  | 0, s => (.ready (.error .panic), s)
  | n + 1, s =>
    match s with
    | .done c => (.ready (.ok c), .done c)
    | .error e => (.ready (.error e), .error e)
    | s =>
      match s.recv with
      | (some e, s) => (.ready (.error e), s)
      | (none, s) =>
        match s.pollStep cr with
        | (.ready (), s) => establishLoop cr n s
        | (.pending, s) => (.pending, s)

/-- `EstablishConnection::poll`; six iterations are enough (each one goes to a later state). -/
def establishPoll {X K : Type} (cr : Crypto X K) (s : ECState X K) : Poll (Except TlsErr Conn) × ECState X K :=
  establishLoop cr 6 s

/-! ### client.rs: the established connection -/

/-- `append_record`, client.rs:925-942. -/
def Conn.appendRecord {X K : Type} (cr : Crypto X K) (c : Conn) (data : Bytes) (contentType : ContentType) :
    Except TlsErr Unit × Conn :=
  match encryptRecord cr c.plaintext data contentType c.seqenc.trafficSecrets.client c.seqenc.clientSequenceNo with
  | (.ok (), p) =>
    (.ok (), { c with plaintext := p, seqenc := { c.seqenc with clientSequenceNo := c.seqenc.clientSequenceNo + 1 } })
  | (.error e, p) => (.error e, { c with plaintext := { p with writeState := .error e } })

/-- `append_close_notify`, client.rs:948-960. -/
def Conn.appendCloseNotify {X K : Type} (cr : Crypto X K) (c : Conn) : Except TlsErr Unit × Conn :=
  c.appendRecord cr [AlertLevel.warning.toRaw, AlertDescription.closeNotify.toRaw] .alert

/-- The loop of `poll_fill_incoming`, client.rs:971-1022; the number bounds the iterations (each
takes one answer of the transport). -/
def Conn.fillLoop {X K : Type} (cr : Crypto X K) : Nat → Conn → Poll (Except TlsErr Unit) × Conn
  | 0, c => (.ready (.error .panic), c)
  | n + 1, c =>
    match c.plaintext.pollRecv with
    | (.ready (.error e), p) => (.ready (.error e), { c with plaintext := p, readState := .error e })
    | (.pending, p) => (.pending, { c with plaintext := p })
    | (.ready (.ok ()), p) =>
      match pollReceiveEncryptedMessage cr p.receiver c.seqenc.serverSequenceNo
          c.seqenc.trafficSecrets.server with
      | (res, r, seqNo, _) =>
        let c := { c with
          plaintext := { p with receiver := r }
          seqenc := { c.seqenc with serverSequenceNo := seqNo } }
        match res with
        | .pending => (.pending, c)
        | .ready (.error e) => (.ready (.error e), c)
        | .ready (.ok (some (.handshake (.newSessionTicket _)))) => fillLoop cr n c
        | .ready (.ok (some (.applicationData data))) =>
          (.ready (.ok ()), { c with incomingDecrypted := c.incomingDecrypted ++ data })
        | .ready (.ok (some (.alert alert))) =>
          if alert.description = .closeNotify then (.ready (.ok ()), { c with readState := .eof })
          else (.ready (.error (.unexpectedAlert alert)), { c with readState := .error (.unexpectedAlert alert) })
        | .ready (.ok (some m)) =>
          (.ready (.error (.unexpectedMessage m.name)), { c with readState := .error (.unexpectedMessage m.name) })
        | .ready (.ok none) => (.ready (.error .unexpectedEof), { c with readState := .error .unexpectedEof })

/-- `poll_fill_incoming`, client.rs:967-1023. -/
def Conn.pollFillIncoming {X K : Type} (cr : Crypto X K) (c : Conn) : Poll (Except TlsErr Unit) × Conn :=
  if c.incomingDecrypted.length > 0 then (.ready (.ok ()), c)
  else c.fillLoop cr (c.plaintext.inner.reads.length + 1)

/-- `AsyncRead::poll_read`, client.rs:1027-1049: with room for `room` bytes; the bytes delivered. -/
def Conn.pollRead {X K : Type} (cr : Crypto X K) (c : Conn) (room : Nat) : Poll (Except TlsErr Bytes) × Conn :=
  match c.readState with
  | .eof => (.ready (.ok []), c)
  | .error e => (.ready (.error e), c)
  | .active =>
    match c.pollFillIncoming cr with
    | (.pending, c) => (.pending, c)
    | (.ready (.error e), c) => (.ready (.error e), c)
    | (.ready (.ok ()), c) =>
      let amt := min c.incomingDecrypted.length room
      (.ready (.ok (c.incomingDecrypted.take amt)), { c with incomingDecrypted := c.incomingDecrypted.drop amt })

/-- `poll_flush_encrypted`, client.rs:963-965. -/
def Conn.pollFlushEncrypted (c : Conn) : Poll (Except TlsErr Unit) × Conn :=
  match c.plaintext.pollFlush with
  | (res, p) => (res, { c with plaintext := p })

/-- `AsyncWrite::poll_write`, client.rs:1053-1080: the number of bytes accepted. -/
def Conn.pollWrite {X K : Type} (cr : Crypto X K) (c : Conn) (buf : Bytes) : Poll (Except TlsErr Nat) × Conn :=
  match c.plaintext.writeState with
  | .error e => (.ready (.error e), c)
  | .inShutdown => (.ready (.error (.ioError .brokenPipe)), c)
  | .active =>
    match c.pollFlushEncrypted with
    | (.ready (.error e), c) => (.ready (.error e), c)
    | (.pending, c) => (.pending, c)
    | (.ready (.ok ()), c) =>
      let amt := min buf.length maxPlaintextRecordSize
      match c.appendRecord cr (buf.take amt) .applicationData with
      | (.ok (), c) => (.ready (.ok amt), c)
      | (.error e, c) => (.ready (.error e), c)

/-- `AsyncWrite::poll_flush`, client.rs:1082-1099. -/
def Conn.pollFlush (c : Conn) : Poll (Except TlsErr Unit) × Conn :=
  match c.plaintext.writeState with
  | .error e => (.ready (.error e), c)
  | .inShutdown => (.ready (.error (.ioError .brokenPipe)), c)
  | .active => c.pollFlushEncrypted

/-- The second half of `poll_shutdown`, client.rs:1125-1143. -/
def Conn.finishShutdown (c : Conn) : Poll (Except TlsErr Unit) × Conn :=
  match c.pollFlushEncrypted with
  | (.pending, c) => (.pending, c)
  | (.ready (.error e), c) => (.ready (.error e), c)
  | (.ready (.ok ()), c) =>
    match c.plaintext.inner.pollShutdown with
    | (.pending, t) => (.pending, { c with plaintext := { c.plaintext with inner := t } })
    | (.error k, t) => (.ready (.error (.ioError k)), { c with plaintext := { c.plaintext with inner := t } })
    | (.ok, t) =>
      (.ready (.ok ()), { c with plaintext :=
        { c.plaintext with inner := t, writeState := .error (.ioError .brokenPipe) } })

/-- `AsyncWrite::poll_shutdown`, client.rs:1101-1144. -/
def Conn.pollShutdown {X K : Type} (cr : Crypto X K) (c : Conn) : Poll (Except TlsErr Unit) × Conn :=
  match c.plaintext.writeState with
  | .error e => (.ready (.error e), c)
  | .inShutdown => c.finishShutdown
  | .active =>
    match c.appendCloseNotify cr with
    | (.error e, c) => (.ready (.error e), c)
    | (.ok (), c) =>
      { c with plaintext := { c.plaintext with writeState := .inShutdown } }.finishShutdown

end Ngfs.Tls
