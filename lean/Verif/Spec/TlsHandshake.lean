import Verif.Model.TlsClient
import Verif.Spec.TlsConn

/-!
Vocabulary for the claims about the TLS handshake (C29, C30, C55, C59, C61): the key schedule of RFC 8446 section 7.1,
written out with the bytes of its labels, and what it means that the server has been authenticated.
-/
namespace Ngfs.Tls

/-! ### Key schedule (RFC 8446, 7.1 to 7.3) -/

/-- HKDF-Expand-Label; `tls13 ` with its space is 116 108 115 49 51 32. -/
def expandLabel {X K : Type} (cr : Crypto X K) (alg : HashAlg) (secret label context : Bytes) (len : Nat) : Option Bytes :=
  cr.hkdfExpand alg secret
    ([UInt8.ofNat (len / 256), UInt8.ofNat (len % 256), UInt8.ofNat (6 + label.length)] ++
      [116, 108, 115, 49, 51, 32] ++ label ++ [UInt8.ofNat context.length] ++ context) len

/-- The length of a hash. -/
def hashLen : HashAlg → Nat
  | .sha256 => 32
  | .sha384 => 48

/-- The length of a key. -/
def aeadKeyLen : AeadAlg → Nat
  | .aes128Gcm => 16
  | .aes256Gcm => 32

def labelDerived : Bytes := [100, 101, 114, 105, 118, 101, 100]
def labelKey : Bytes := [107, 101, 121]
def labelIv : Bytes := [105, 118]
def labelFinished : Bytes := [102, 105, 110, 105, 115, 104, 101, 100]
/-- `c hs traffic` -/
def labelClientHs : Bytes := [99, 32, 104, 115, 32, 116, 114, 97, 102, 102, 105, 99]
/-- `s hs traffic` -/
def labelServerHs : Bytes := [115, 32, 104, 115, 32, 116, 114, 97, 102, 102, 105, 99]
/-- `c ap traffic` -/
def labelClientAp : Bytes := [99, 32, 97, 112, 32, 116, 114, 97, 102, 102, 105, 99]
/-- `s ap traffic` -/
def labelServerAp : Bytes := [115, 32, 97, 112, 32, 116, 114, 97, 102, 102, 105, 99]

/-- Early secret without a pre-shared key. -/
def earlySecret {X K : Type} (cr : Crypto X K) (alg : HashAlg) : Bytes :=
  cr.hkdfExtract alg (List.replicate (hashLen alg) 0) (List.replicate (hashLen alg) 0)

/-- `secret` is the handshake secret for the shared secret `dhe`. -/
def IsHandshakeSecret {X K : Type} (cr : Crypto X K) (alg : HashAlg) (dhe secret : Bytes) : Prop :=
  ∃ salt, expandLabel cr alg (earlySecret cr alg) labelDerived (cr.hash alg []) (hashLen alg) = some salt ∧
    secret = cr.hkdfExtract alg salt dhe

/-- `secret` is the master secret that follows a handshake secret. -/
def IsMasterSecret {X K : Type} (cr : Crypto X K) (alg : HashAlg) (handshake secret : Bytes) : Prop :=
  ∃ salt, expandLabel cr alg handshake labelDerived (cr.hash alg []) (hashLen alg) = some salt ∧
    secret = cr.hkdfExtract alg salt (List.replicate (hashLen alg) 0)

/-- The keys for one direction: traffic secret for a label and transcript, key and iv. -/
structure IsTrafficKey {X K : Type} (cr : Crypto X K) (alg : HashAlg) (aead : AeadAlg) (secret label transcript : Bytes)
    (key : EncryptionKey) : Prop where
  hraw : expandLabel cr alg secret label (cr.hash alg transcript) (hashLen alg) = some key.raw
  hkey : expandLabel cr alg key.raw labelKey [] (aeadKeyLen aead) = some key.writeKey
  hiv : expandLabel cr alg key.raw labelIv [] 12 = some key.writeIv
  haead : key.aeadAlg = aead

/-! ### Authentication -/

/-- What the server signs (RFC 8446, 4.4.3): 64 spaces, `TLS 1.3, server CertificateVerify`, a zero, the transcript hash. -/
def signedContent (hash : Bytes) : Bytes :=
  List.replicate 64 32 ++
    [84, 76, 83, 32, 49, 46, 51, 44, 32, 115, 101, 114, 118, 101, 114, 32, 67, 101, 114, 116, 105, 102, 105, 99, 97,
     116, 101, 86, 101, 114, 105, 102, 121] ++ [0] ++ hash

/-- The bytes are the handshake message, as the parser reads it. -/
def Parses {X K : Type} (cr : Crypto X K) (raw : Bytes) (h : Handshake X) : Prop :=
  Message.fromRaw cr.x509 raw .handshake = .ok (.handshake h)

/-- The trust anchor of a configuration for the certificate that the server shows. -/
def trustAnchor : ServerAuth → Bytes → Option Bytes
  | .none, _ => none
  | .certificateAuthority ca, _ => some ca
  | .selfSigned, shown => some shown

/-- Expansion gives as many bytes as asked for. -/
def Crypto.Expands {X K : Type} (cr : Crypto X K) : Prop :=
  ∀ alg prk info n okm, cr.hkdfExpand alg prk info n = some okm → okm.length = n

/-- Everything the server sent in a handshake: the raw messages and what they parse to. -/
structure Flight (X : Type) where
  shRaw : Bytes
  eeRaw : Bytes
  reqRaws : List Bytes
  certRaw : Bytes
  cvRaw : Bytes
  finRaw : Bytes
  sh : ServerHello
  ee : List Extension
  cert : Certificate X
  cv : CertificateVerify
  verifyData : Bytes

/-- The messages are a legal server flight, in this order: ServerHello, EncryptedExtensions, at most one CertificateRequest,
Certificate, CertificateVerify, Finished. -/
structure Flight.Legal {X K : Type} (cr : Crypto X K) (f : Flight X) : Prop where
  sh : Parses cr f.shRaw (.serverHello f.sh)
  ee : Parses cr f.eeRaw (.encryptedExtensions f.ee)
  req : f.reqRaws = [] ∨ ∃ raw req, f.reqRaws = [raw] ∧ Parses cr raw (.certificateRequest req)
  cert : Parses cr f.certRaw (.certificate f.cert)
  cv : Parses cr f.cvRaw (.certificateVerify f.cv)
  fin : Parses cr f.finRaw (.finished f.verifyData)

/-- The raw messages after ServerHello. -/
def Flight.encrypted {X : Type} (f : Flight X) : List Bytes :=
  [f.eeRaw] ++ f.reqRaws ++ [f.certRaw, f.cvRaw, f.finRaw]

/-- The transcript up to the certificate. -/
def Flight.toCertificate {X : Type} (f : Flight X) (ch : Bytes) : Bytes :=
  ch ++ f.shRaw ++ f.eeRaw ++ f.reqRaws.flatten ++ f.certRaw

/-- The transcript up to the signature. -/
def Flight.toSignature {X : Type} (f : Flight X) (ch : Bytes) : Bytes := f.toCertificate ch ++ f.cvRaw

/-- The transcript up to the Finished message. -/
def Flight.toFinished {X : Type} (f : Flight X) (ch : Bytes) : Bytes := f.toSignature ch ++ f.finRaw

/-- The key agreement: shared secret, cipher suite, handshake secret, key of the server for the handshake. -/
structure Agreed {X K : Type} (cr : Crypto X K) (sh : ServerHello) (shRaw : Bytes) (privateKey : K) (ch : Bytes)
    (ciphers : Ciphers) (hsSecret : Bytes) (hsServer : EncryptionKey) : Prop where
  shared : ∃ share dhe, Extension.keyShareServerHello ⟨.x25519, share⟩ ∈ sh.extensions ∧
    cr.agree privateKey share = some dhe ∧ IsHandshakeSecret cr ciphers.hashAlg dhe hsSecret
  suite : (sh.cipherSuite = .tlsAes128GcmSha256 ∧ ciphers = ⟨.sha256, .aes128Gcm⟩) ∨
    (sh.cipherSuite = .tlsAes256GcmSha384 ∧ ciphers = ⟨.sha384, .aes256Gcm⟩)
  key : IsTrafficKey cr ciphers.hashAlg ciphers.aeadAlg hsSecret labelServerHs (ch ++ shRaw) hsServer

/-- The server has been authenticated (RFC 8446, 4.4). -/
structure Flight.Authenticated {X K : Type} (cr : Crypto X K) (f : Flight X) (config : ClientConfig) (ch : Bytes)
    (ciphers : Ciphers) (hsServer : EncryptionKey) : Prop where
  /-- The first certificate is accepted with the trust anchor, and its key made the signature. -/
  certificate : ∃ entry more anchor, f.cert.certificateList = entry :: more ∧
    trustAnchor config.serverAuth entry.data = some anchor ∧ cr.verifyCertificate anchor entry.data = .ok () ∧
    cr.sigVerify f.cv.algorithm (cr.publicKey entry.certificate)
      (signedContent (cr.hash ciphers.hashAlg (f.toCertificate ch))) f.cv.signature = true
  scheme : f.cv.algorithm ∈
    [.ecdsaSecp256r1Sha256, .rsaPssRsaeSha256, .rsaPssRsaeSha384, .rsaPssRsaeSha512, .ed25519]
  /-- The Finished message is the right one. -/
  finished : ∃ finishedKey,
    expandLabel cr ciphers.hashAlg hsServer.raw labelFinished [] (hashLen ciphers.hashAlg) = some finishedKey ∧
    f.verifyData = cr.hmac ciphers.hashAlg finishedKey (cr.hash ciphers.hashAlg (f.toSignature ch))

/-- The messages arrived in this order, each in a record of its own, with nothing between them but records of the type
ChangeCipherSpec (20), which TLS 1.3 ignores: ServerHello in the clear, the others protected with the server's handshake
key and numbered from 0. `total` is all that arrives, `rest` what is left. -/
def Arrived {X K : Type} (cr : Crypto X K) (shRaw : Bytes) (encrypted : List Bytes) (hsServer : EncryptionKey)
    (total rest : Bytes) : Prop :=
  ∃ (w0 : WireRecord) (ws all : List WireRecord), (∀ w ∈ all, w.Legal) ∧ all.filter (fun w => w.typ != 20) = w0 :: ws ∧
    total = wire all ++ rest ∧ w0.typ = 22 ∧ w0.fragment = shRaw ∧
    ProtectsAll cr hsServer 0 ws (encrypted.map fun raw => (22, raw))

/-- The keys are the application keys that follow the handshake. -/
structure Flight.Keys {X K : Type} (cr : Crypto X K) (f : Flight X) (ch : Bytes) (ciphers : Ciphers) (hsSecret : Bytes)
    (keys : TrafficSecrets) : Prop where
  keys : ∃ master, IsMasterSecret cr ciphers.hashAlg hsSecret master ∧
    IsTrafficKey cr ciphers.hashAlg ciphers.aeadAlg master labelClientAp (f.toFinished ch) keys.client ∧
    IsTrafficKey cr ciphers.hashAlg ciphers.aeadAlg master labelServerAp (f.toFinished ch) keys.server

/-- What a client signs: 64 spaces, `TLS 1.3, client CertificateVerify`, a zero, the transcript hash. -/
def clientSignedContent (hash : Bytes) : Bytes :=
  List.replicate 64 32 ++
    [84, 76, 83, 32, 49, 46, 51, 44, 32, 99, 108, 105, 101, 110, 116, 32, 67, 101, 114, 116, 105, 102, 105, 99, 97,
     116, 101, 86, 101, 114, 105, 102, 121] ++ [0] ++ hash

/-- `msg` is the client's Finished message after the transcript `before`. -/
def IsClientFinished {X K : Type} (cr : Crypto X K) (alg : HashAlg) (hsClient : EncryptionKey) (before msg : Bytes) : Prop :=
  ∃ finishedKey, expandLabel cr alg hsClient.raw labelFinished [] (hashLen alg) = some finishedKey ∧
    Parses cr msg (.finished (cr.hmac alg finishedKey (cr.hash alg before)))

/-- `content` is what the client answers to a server flight with the transcript `before`: its certificate and signature,
if it has a certificate, and Finished. -/
def IsClientFlight {X K : Type} (cr : Crypto X K) (alg : HashAlg) (hsClient : EncryptionKey) (before : Bytes) :
    ClientAuth → Bytes → Prop
  | .none, content => IsClientFinished cr alg hsClient before content
  | .certificate cert isRsa key, content => ∃ c v fin x signature, content = c ++ v ++ fin ∧ cr.x509 cert = some x ∧
      Parses cr c (.certificate ⟨[], [⟨cert, x, []⟩]⟩) ∧
      cr.sign isRsa key (clientSignedContent (cr.hash alg (before ++ c))) = some signature ∧
      Parses cr v (.certificateVerify ⟨if isRsa then .rsaPssRsaeSha256 else .ed25519, signature⟩) ∧
      IsClientFinished cr alg hsClient (before ++ c ++ v) fin

/-- What the client has sent: its hello in one record, and its answer in one protected record. -/
structure Flight.Answered {X K : Type} (cr : Crypto X K) (f : Flight X) (config : ClientConfig) (ch : Bytes)
    (ciphers : Ciphers) (hsSecret : Bytes) (sent : Bytes) (seals : List SealCall) : Prop where
  answered : ∃ hsClient w content,
    IsTrafficKey cr ciphers.hashAlg ciphers.aeadAlg hsSecret labelClientHs (ch ++ f.shRaw) hsClient ∧
    IsClientFlight cr ciphers.hashAlg hsClient (f.toFinished ch) config.clientAuth content ∧
    w.Legal ∧ Protects cr hsClient 0 w 22 content ∧
    sent = (⟨22, 3, 1, ch⟩ : WireRecord).bytes ++ w.bytes ∧
    seals = [⟨hsClient.writeKey, nonceSpec hsClient.writeIv 0⟩]

/-- What is still to be read of a stream of records. -/
def PlaintextStream.unread (p : PlaintextStream) : Bytes := p.receiver.incoming ++ readData p.inner.reads

/-- A connection on which nothing has happened yet. -/
structure Conn.Fresh (c : Conn) : Prop where
  clientSeq : c.seqenc.clientSequenceNo = 0
  serverSeq : c.seqenc.serverSequenceNo = 0
  reading : c.readState = .active
  writing : c.plaintext.writeState = .active
  outgoing : c.plaintext.outgoing = []
  decrypted : c.incomingDecrypted = []
  clientIv : c.seqenc.trafficSecrets.client.writeIv.length = 12
  serverIv : c.seqenc.trafficSecrets.server.writeIv.length = 12

/-- Polling the handshake `k` times. -/
def pollTimes {X K : Type} (cr : Crypto X K) : Nat → ECState X K → ECState X K
  | 0, s => s
  | k + 1, s => pollTimes cr k (establishPoll cr s).2

end Ngfs.Tls
