import Verif.Model.TlsClient
import Verif.Model.Pem

/-! The program `src/bin/tls_client.rs`. -/
namespace Ngfs.Tls

/-- `Opt`, tls_client.rs 27-41: the names of files, and the address. -/
structure ToolOpt where
  caCert : Option String
  clientCert : Option String
  clientKey : Option String
  address : Option String

/-- The errors with which the program ends. -/
inductive ToolErr where
  | io (kind : IoKind)
  | pem (e : Pem.Err)
  | unknownKeyType (label : String)
  | needsClientKey
  | needsClientCert
  | tls (e : TlsErr)
  | writeZero
  deriving DecidableEq, Repr

/-- `fs::read(filename)?` followed by `decode_pem`, tls_client.rs 49-50, 55-56, 61-62. `files` is what the file system
answers, `n` bounds the loops of the decoder (see `Verif/Model/Pem.lean`). -/
def readPem (n : Nat) (files : String → Except IoKind Bytes) (filename : String) : Except ToolErr (String × Bytes) :=
  match files filename with
  | .error k => .error (.io k)
  | .ok data => match Pem.decodePem n data with
    | .error e => .error (.pem e)
    | .ok r => .ok r

/-- `fs::read(filename)?` followed by `decode_pem_with_label(.., "CERTIFICATE")`. -/
def readCertificate (n : Nat) (files : String → Except IoKind Bytes) (filename : String) : Except ToolErr Bytes :=
  match files filename with
  | .error k => .error (.io k)
  | .ok data => match Pem.decodePemWithLabel n data "CERTIFICATE" with
    | .error e => .error (.pem e)
    | .ok r => .ok r

/-- An option that need not be given. -/
def optional {α : Type} (f : String → Except ToolErr α) : Option String → Except ToolErr (Option α)
  | none => .ok none
  | some name => match f name with
    | .error e => .error e
    | .ok a => .ok (some a)

/-- The key of the client, tls_client.rs 60-73: whether it is an RSA key, and its bytes. -/
def readKey (n : Nat) (files : String → Except IoKind Bytes) (filename : String) : Except ToolErr (Bool × Bytes) := do
  let (label, decoded) ← readPem n files filename
  if label = "RSA PRIVATE KEY" then .ok (true, decoded)
  else if label = "PRIVATE KEY" then .ok (false, decoded)
  else .error (.unknownKeyType label)

/-- tls_client.rs 75-78. -/
def serverAuthOf : Option Bytes → ServerAuth
  | some crt => .certificateAuthority crt
  | none => .none

/-- `parse_args`, tls_client.rs 43-103. -/
def parseArgs (n : Nat) (files : String → Except IoKind Bytes) (opt : ToolOpt) : Except ToolErr ClientConfig := do
  let caCert ← optional (readCertificate n files) opt.caCert
  let clientCert ← optional (readCertificate n files) opt.clientCert
  let clientKey ← optional (readKey n files) opt.clientKey
  let clientAuth ← match clientCert, clientKey with
    | some cert, some key => Except.ok (ClientAuth.certificate cert key.1 key.2)
    | some _, none => .error ToolErr.needsClientKey
    | none, some _ => .error ToolErr.needsClientCert
    | none, none => .ok ClientAuth.none
  .ok ⟨clientAuth, serverAuthOf caCert, none⟩

/-- What the program prints: the bytes of one read (with their number and as a hex dump, see `Verif/Model/HexDump.lean`),
or that the stream has ended; tls_client.rs 159-165. -/
inductive Shown where
  | data (bytes : Bytes)
  | eof
  deriving DecidableEq, Repr

/-- Where the program is: in one of its `await`s (tls_client.rs 179 for the handshake, 154, 155, 158), or at its end. -/
inductive Stage (X K : Type) where
  | connecting (s : ECState X K)
  | writing (c : Conn) (rest : Bytes)
  | flushing (c : Conn)
  | reading (c : Conn)
  | ended (c : Conn)
  | failed (e : ToolErr)

/-- The program and what it has printed. -/
structure Tool (X K : Type) where
  stage : Stage X K
  shown : List Shown

/-- The request, tls_client.rs 154. -/
@[irreducible] def request : Bytes := ascii "GET / HTTP/1.1\r\nHost: localhost\r\nConnection: close\r\n\r\n"

/-- The size of the buffer, tls_client.rs 157. -/
def bufSize : Nat := 65536

/-- `test_client` with `test_http` (tls_client.rs 150-185), from one poll to the next. `write_all` of tokio writes what
is left, again and again, and fails if nothing is taken; then come `flush` and the reads. A poll that is pending
leaves the program where it is. -/
def Tool.step {X K : Type} (cr : Crypto X K) (t : Tool X K) : Tool X K :=
  match t.stage with
  | .connecting s => match establishPoll cr s with
    | (.pending, s) => { t with stage := .connecting s }
    | (.ready (.error e), _) => { t with stage := .failed (.tls e) }
    | (.ready (.ok c), _) => { t with stage := .writing c request }
  | .writing c rest => if rest = [] then { t with stage := .flushing c } else
    match c.pollWrite cr rest with
    | (.pending, c) => { t with stage := .writing c rest }
    | (.ready (.error e), _) => { t with stage := .failed (.tls e) }
    | (.ready (.ok n), c) => if n = 0 then { t with stage := .failed .writeZero } else { t with stage := .writing c (rest.drop n) }
  | .flushing c => match c.pollFlush with
    | (.pending, c) => { t with stage := .flushing c }
    | (.ready (.error e), _) => { t with stage := .failed (.tls e) }
    | (.ready (.ok ()), c) => { t with stage := .reading c }
  | .reading c => match c.pollRead cr bufSize with
    | (.pending, c) => { t with stage := .reading c }
    | (.ready (.error e), _) => { t with stage := .failed (.tls e) }
    | (.ready (.ok data), c) =>
      if data.length = 0 then ⟨.ended c, t.shown ++ [.eof]⟩ else ⟨.reading c, t.shown ++ [.data data]⟩
  | .ended _ => t
  | .failed _ => t

/-- `test_client`, tls_client.rs 170-185: `socket` is what `TcpStream::connect` gives for an address. -/
def Tool.start {X K : Type} (n : Nat) (files : String → Except IoKind Bytes) (opt : ToolOpt)
    (socket : String → Except IoKind Transport) (privateKey : K) (publicKey random sessionId : Bytes) : Tool X K :=
  match parseArgs n files opt with
  | .error e => ⟨.failed e, []⟩
  | .ok config =>
    match socket (opt.address.getD "localhost:443") with
    | .error k => ⟨.failed (.io k), []⟩
    | .ok transport =>
      ⟨.connecting (initialState transport { config with serverName := some "localhost" } ["h2", "http/1.1"] privateKey
        publicKey random sessionId), []⟩

/-- The program after `k` polls. -/
def Tool.run {X K : Type} (cr : Crypto X K) : Nat → Tool X K → Tool X K
  | 0, t => t
  | k + 1, t => Tool.run cr k (t.step cr)

end Ngfs.Tls
