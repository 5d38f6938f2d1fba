import Verif.Model.Io
import Verif.Spec.TlsHandshake

/-!
Model of how the program `/repo/src/bin/ipfs.rs` makes its connection, lines 185-225: multistream negotiation over the socket, TLS over
the socket, multistream negotiation over the TLS connection.
-/
namespace Ngfs.Ipfs
open Io Tls

/-- The bytes of `/tls/1.0.0\n`, ipfs.rs 196. -/
def tlsProtocol : Bytes := [47, 116, 108, 115, 47, 49, 46, 48, 46, 48, 10]

/-- The bytes of `/mplex/6.7.0\n`, ipfs.rs 218. -/
def mplexProtocol : Bytes := [47, 109, 112, 108, 101, 120, 47, 54, 46, 55, 46, 48, 10]

/-- Why a negotiation fails. -/
inductive UpErr where
  | io (k : IoKind)
  /-- "… is unsupported", ipfs.rs 199, 221 -/
  | unsupported
  deriving DecidableEq, Repr

/-- The negotiation of a protocol, ipfs.rs 187-201 (over the socket) and 209-223 (over the TLS connection), with the names that are
printed. -/
def upgrade (r : Reader) (protocol : Bytes) : Poll (Except UpErr (List Bytes)) × Reader :=
  match handshake r with
  | (.pending, r) => (.pending, r)
  | (.ready (.error k), r) => (.ready (.error (.io k)), r)
  | (.ready (.ok ()), r) =>
    match list r with
    | (.pending, r) => (.pending, r)
    | (.ready (.error k), r) => (.ready (.error (.io k)), r)
    | (.ready (.ok names), r) =>
      match select r protocol with
      | (.pending, r) => (.pending, r)
      | (.ready (.error k), r) => (.ready (.error (.io k)), r)
      | (.ready (.ok .accepted), r) => (.ready (.ok names), r)
      | (.ready (.ok .unsupported), r) => (.ready (.error .unsupported), r)

/-- Why no connection is made. -/
inductive ConnErr where
  | upgrade (e : UpErr)
  | tls (e : TlsErr)
  deriving DecidableEq, Repr

/-- A connection, and what was sent over the socket before TLS began. -/
structure Connected where
  before : Bytes
  conn : Conn

/-- The connection, ipfs.rs 185-205, after the negotiation over the socket and `k` further polls of `establish_connection`. What TLS sends
is recorded from the point where it begins. -/
def connectTls {X K : Type} (cr : Crypto X K) (socket : Transport) (config : ClientConfig) (privateKey : K)
    (publicKey random sessionId : Bytes) (k : Nat) : Poll (Except ConnErr Connected) :=
  match upgrade ⟨socket, []⟩ tlsProtocol with
  | (.pending, _) => .pending
  | (.ready (.error e), _) => .ready (.error (.upgrade e))
  | (.ready (.ok _), r) =>
    match (establishPoll cr (pollTimes cr k
      (initialState { r.t with sent := [] } config ["libp2p"] privateKey publicKey random sessionId))).1 with
    | .pending => .pending
    | .ready (.error e) => .ready (.error (.tls e))
    | .ready (.ok conn) => .ready (.ok ⟨r.t.sent, conn⟩)

/-- An error of the connection as its user sees it, tls/error.rs 41-49 (`other 0` stands for `ErrorKind::Other`). -/
def ioKind : TlsErr → IoKind
  | .ioError k => k
  | .unexpectedEof => .unexpectedEof
  | _ => .other 0

/-- The answers that a user of the connection gets to its reads. -/
def readAnswers : List ConnEvent → List ReadEvent
  | [] => []
  | .read _ .pending :: es => .pending :: readAnswers es
  | .read _ (.ready (.ok d)) :: es => .ready d :: readAnswers es
  | .read _ (.ready (.error e)) :: es => .error (ioKind e) :: readAnswers es
  | _ :: es => readAnswers es

/-- The answers that a user of the connection gets to its writes. -/
def writeAnswers : List ConnEvent → List WriteEvent
  | [] => []
  | .write _ .pending :: es => .pending :: writeAnswers es
  | .write _ (.ready (.ok n)) :: es => .accept n :: writeAnswers es
  | .write _ (.ready (.error e)) :: es => .error (ioKind e) :: writeAnswers es
  | _ :: es => writeAnswers es

/-- The answers that a user of the connection gets when flushing. -/
def flushAnswers : List ConnEvent → List DoneEvent
  | [] => []
  | .flush .pending :: es => .pending :: flushAnswers es
  | .flush (.ready (.ok ())) :: es => .ok :: flushAnswers es
  | .flush (.ready (.error e)) :: es => .error (ioKind e) :: flushAnswers es
  | _ :: es => flushAnswers es

/-- The TLS connection as the negotiation over it meets it, ipfs.rs 209-223: a transport with the answers to the calls. -/
def overTls (evs : List ConnEvent) : Transport := ⟨readAnswers evs, writeAnswers evs, flushAnswers evs, [], []⟩

end Ngfs.Ipfs
