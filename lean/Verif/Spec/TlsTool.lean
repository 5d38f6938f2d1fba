import Verif.Model.TlsTool
import Verif.Spec.TlsHandshake
import Verif.Spec.Pem

/-!
Vocabulary for the claims about the TLS client program (C150, C151).
-/
namespace Ngfs.Tls
open Ngfs.Spec

/-- The file contains PEM text with this label, and this is the data in it (see `Verif/Spec/Pem.lean`). -/
def PemFile (files : String → Except IoKind Bytes) (name label : String) (raw : Bytes) : Prop :=
  ∃ h body f, files name = .ok (h ++ body ++ f) ∧ Header (utf8Encode label) h ∧ BodyText body ∧
    Footer (utf8Encode label) f ∧ bodyData body = some raw

/-- What the options say about the server: nothing, or that it has to show a certificate of an authority. -/
def SaysServer (files : String → Except IoKind Bytes) (opt : ToolOpt) (auth : ServerAuth) : Prop :=
  (opt.caCert = none ∧ auth = .none) ∨
  ∃ name raw, opt.caCert = some name ∧ PemFile files name "CERTIFICATE" raw ∧ auth = .certificateAuthority raw

/-- What the options say about the client: nothing, or its certificate together with its key. -/
def SaysClient (files : String → Except IoKind Bytes) (opt : ToolOpt) (auth : ClientAuth) : Prop :=
  (opt.clientCert = none ∧ opt.clientKey = none ∧ auth = .none) ∨
  ∃ name raw keyName rawKey isRsa, opt.clientCert = some name ∧ PemFile files name "CERTIFICATE" raw ∧
    opt.clientKey = some keyName ∧
    PemFile files keyName (if isRsa then "RSA PRIVATE KEY" else "PRIVATE KEY") rawKey ∧
    auth = .certificate raw isRsa rawKey

/-- The bytes that have been shown. -/
def shownBytes : List Shown → Bytes
  | [] => []
  | .data d :: rest => d ++ shownBytes rest
  | .eof :: rest => shownBytes rest

/-- The connection that the program has. -/
def Stage.conn {X K : Type} : Stage X K → Option Conn
  | .writing c _ | .flushing c | .reading c | .ended c => some c
  | _ => none

/-- The program has begun to wait for the answer of the server. -/
def Tool.Waits {X K : Type} (t : Tool X K) : Prop := t.shown ≠ [] ∨ ∃ c, t.stage = .reading c ∨ t.stage = .ended c

/-- The handshake yields this connection after some number of polls. -/
def Established {X K : Type} (cr : Crypto X K) (s : ECState X K) (conn : Conn) : Prop :=
  ∃ k, (establishPoll cr (pollTimes cr k s)).1 = .ready (.ok conn)

end Ngfs.Tls
