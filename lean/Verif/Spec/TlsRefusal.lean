import Verif.Spec.TlsHonest

/-!
Vocabulary for the claim that a refusal by the server is reported with the reason that the server gave (C202): the alerts
of RFC 8446, 6 and B.2, with their names as the code writes them.
-/
namespace Ngfs.Tls

/-- The alerts of RFC 8446 that are in use: the code on the wire and the name. -/
def alertReasons : List (UInt8 × String) :=
  [(0, "CloseNotify"), (10, "UnexpectedMessage"), (20, "BadRecordMac"), (22, "RecordOverflow"), (40, "HandshakeFailure"),
   (42, "BadCertificate"), (43, "UnsupportedCertificate"), (44, "CertificateRevoked"), (45, "CertificateExpired"),
   (46, "CertificateUnknown"), (47, "IllegalParameter"), (48, "UnknownCa"), (49, "AccessDenied"), (50, "DecodeError"),
   (51, "DecryptError"), (70, "ProtocolVersion"), (71, "InsufficientSecurity"), (80, "InternalError"),
   (86, "InappropriateFallback"), (90, "UserCanceled"), (109, "MissingExtension"), (110, "UnsupportedExtension"),
   (112, "UnrecognizedName"), (113, "BadCertificateStatusResponse"), (115, "UnknownPskIdentity"),
   (116, "CertificateRequired"), (120, "NoApplicationProtocol")]

/-- What a user is told about an alert with this code. -/
def alertReason (code : UInt8) : String := "Alert." ++ (alertReasons.lookup code).getD "Unknown"

/-- The contents of an alert with this level and code: two bytes (what may come behind them is not looked at). -/
def IsAlert (level code : UInt8) (content : Bytes) : Prop := ∃ more, content = level :: code :: more

/-- An alert with this code is what arrives (records of type 20, ChangeCipherSpec, apart): unprotected and before anything
else, or, after a ServerHello and some handshake messages under the key agreed on with it, protected with that key. -/
def AlertArrived {X K : Type} (cr : Crypto X K) (privateKey : K) (ch total : Bytes) (code : UInt8) : Prop :=
  (∃ (w : WireRecord) (all : List WireRecord) (rest : Bytes) (level : UInt8), (∀ w ∈ all, w.Legal) ∧
    all.filter (fun w => w.typ != 20) = [w] ∧ total = wire all ++ rest ∧ w.typ = 21 ∧ IsAlert level code w.fragment) ∨
  ∃ (shRaw : Bytes) (sh : ServerHello) (ciphers : Ciphers) (hsSecret : Bytes) (hsServer : EncryptionKey)
    (before : List Bytes) (w0 w : WireRecord) (ws all : List WireRecord) (rest content : Bytes) (level : UInt8),
    Parses cr shRaw (.serverHello sh) ∧ Agreed cr sh shRaw privateKey ch ciphers hsSecret hsServer ∧
    (∀ w ∈ all, w.Legal) ∧ all.filter (fun w => w.typ != 20) = w0 :: ws ++ [w] ∧ total = wire all ++ rest ∧
    w0.typ = 22 ∧ w0.fragment = shRaw ∧ ProtectsAll cr hsServer 0 ws (before.map fun raw => (22, raw)) ∧
    Protects cr hsServer before.length w 21 content ∧ IsAlert level code content

/-- What is still to arrive on a connection contains this alert, protected with the key of the server, as the last one of the
messages that are accepted; and it is not the one that ends the data. -/
def AlertReceived {X K : Type} (cr : Crypto X K) (c : Conn) (a : Alert) : Prop :=
  ∃ (all taken : List WireRecord) (msgs : List (UInt8 × Bytes)) (level code : UInt8) (content rest : Bytes),
    (∀ w ∈ all, w.Legal) ∧ c.plaintext.unread = wire all ++ rest ∧ taken.Sublist all ∧
    ProtectsAll cr c.seqenc.trafficSecrets.server c.seqenc.serverSequenceNo taken (msgs ++ [(21, content)]) ∧
    IsAlert level code content ∧ code ≠ 0 ∧ a = ⟨AlertLevel.fromRaw level, AlertDescription.fromRaw code⟩

/-- Reads of these sizes, one after the other: the answers, and the connection afterwards. -/
def readTimes {X K : Type} (cr : Crypto X K) (c : Conn) (rooms : List Nat) : List ConnEvent × Conn :=
  connRun cr c (rooms.map ConnOp.read)

end Ngfs.Tls
