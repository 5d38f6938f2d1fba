import Verif.Model.Ipfs
import Verif.Model.Handler

/-!
Model of `main` in the program `/repo/src/bin/ipfs.rs`: the order in which it connects, reads its command line, and runs a command.
What it prints on the way and what `accept_loop` does meanwhile (see `Model/Listen.lean`) is left out.
-/
namespace Ngfs.Ipfs
open Io Tls

/-- The bytes of `/ipfs/bitswap/1.2.0\n` (`BITSWAP_PROTOCOL`, ipfs.rs 13). -/
def bitswapName : Bytes :=
  [47, 105, 112, 102, 115, 47, 98, 105, 116, 115, 119, 97, 112, 47, 49, 46, 50, 46, 48, 10]

/-- `SubCommand` and `Show`, ipfs.rs 57-68. -/
inductive Command where
  | test
  | show (cid : List Char)
  | identify

/-- Why `main` returns an error. -/
inductive MainErr where
  | connect (k : IoKind)
  | upgrade (e : UpErr)
  | tls (e : TlsErr)
  /-- `connector.connect`, or the negotiation over the stream -/
  | stream (k : IoKind)
  /-- "… protocol unsupported", ipfs.rs 278, 296 -/
  | unsupported
  deriving DecidableEq, Repr

/-- What the program finds. -/
structure World where
  /-- what `TcpStream::connect` gives, ipfs.rs 185 -/
  socket : Except IoKind Transport
  /-- what `establish_connection` gives over what the negotiation leaves of the socket, ipfs.rs 205: the TLS connection, as its user meets
  it (`overTls`) -/
  tls : Reader → Poll (Except TlsErr Transport)
  /-- what `Opt::parse` (of `clap`) makes of the command line, ipfs.rs 264; if it does not accept it, it ends the process with an exit
  code -/
  args : Except Nat Command
  /-- what `connector.connect(None)` gives, ipfs.rs 270, 287 -/
  stream : Poll (Except IoKind Transport)
  sha256 : Bytes → Bytes
  blake2b256 : Bytes → Bytes

/-- A command that is run by a task of its own: `bitswap_handler_show` (handler.rs 129-141) and `identify_client` (ipfs.rs 314-326), with
how far it has come. -/
inductive Task where
  | none
  | show (cid : List Char) (state : Poll (Except Handler.Error Unit)) (shown : List Handler.Event)
  | identify (state : Poll (Except Handler.Error (Option Identify.Identify)))

/-- How the process ends, or what it is doing. -/
inductive Ending where
  /-- some `await` has not returned yet -/
  | waiting
  /-- `main` has returned -/
  | returned (x : Except MainErr Unit)
  /-- `Opt::parse` has ended the process -/
  | exit (code : Nat)
  /-- in the loop of ipfs.rs 305-308, beside a task -/
  | sleeping (task : Task)

/-- What has been sent over the socket before TLS, over the TLS connection before the multiplexer, and over the stream of the command; and
the state of the process. -/
structure Run where
  overSocket : Bytes
  overTls : Bytes
  overStream : Bytes
  ending : Ending

/-- A stream for a command, ipfs.rs 270-283 and 287-300: `start` is what is spawned. -/
def onStream (w : World) (protocol : Bytes) (start : Reader → Task × Reader) : Bytes × Ending :=
  match w.stream with
  | .pending => ([], .waiting)
  | .ready (.error k) => ([], .returned (.error (.stream k)))
  | .ready (.ok stream) =>
    match negotiate ⟨stream, []⟩ protocol with
    | (.pending, r) => (r.t.sent, .waiting)
    | (.ready (.error k), r) => (r.t.sent, .returned (.error (.stream k)))
    | (.ready (.ok .unsupported), r) => (r.t.sent, .returned (.error .unsupported))
    | (.ready (.ok .accepted), r) => ((start r).2.t.sent, .sleeping (start r).1)

/-- `bitswap_handler_show`, as started in ipfs.rs 285. -/
def showTask (w : World) (cid : List Char) (r : Reader) : Task × Reader :=
  match Handler.handle w.sha256 w.blake2b256 (some cid) r with
  | (state, r', log) => (.show cid state log, r')

/-- `identify_client`, as started in ipfs.rs 302. -/
def identifyTask (r : Reader) : Task × Reader :=
  match Handler.identifyClient r with
  | (state, r') => (.identify state, r')

/-- The command, ipfs.rs 264-308. -/
def runCommand (w : World) : Bytes × Ending :=
  match w.args with
  | .error code => ([], .exit code)
  | .ok .test => ([], .sleeping .none)
  | .ok (.show cid) => onStream w bitswapName (showTask w cid)
  | .ok .identify => onStream w idProtocol identifyTask

/-- `main`, ipfs.rs 155-311. Making the keys and the certificate (156-164) does not fail. -/
def run (w : World) : Run :=
  match w.socket with
  | .error k => ⟨[], [], [], .returned (.error (.connect k))⟩
  | .ok socket =>
    match upgrade ⟨socket, []⟩ tlsProtocol with
    | (.pending, r) => ⟨r.t.sent, [], [], .waiting⟩
    | (.ready (.error e), r) => ⟨r.t.sent, [], [], .returned (.error (.upgrade e))⟩
    | (.ready (.ok _), r) =>
      match w.tls r with
      | .pending => ⟨r.t.sent, [], [], .waiting⟩
      | .ready (.error e) => ⟨r.t.sent, [], [], .returned (.error (.tls e))⟩
      | .ready (.ok conn) =>
        match upgrade ⟨conn, []⟩ mplexProtocol with
        | (.pending, r') => ⟨r.t.sent, r'.t.sent, [], .waiting⟩
        | (.ready (.error e), r') => ⟨r.t.sent, r'.t.sent, [], .returned (.error (.upgrade e))⟩
        | (.ready (.ok _), r') =>
          match runCommand w with
          | (sent, ending) => ⟨r.t.sent, r'.t.sent, sent, ending⟩

end Ngfs.Ipfs
