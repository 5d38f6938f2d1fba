import Verif.Model.Io

/-!
Models of the small socket programs `/repo/src/bin/sock.rs`, `/repo/src/bin/iotest.rs` and `/repo/src/bin/client.rs`.

Listening, the numbering of connections, the delay of `sock` (76-78) and the queues of `iotest` that nothing uses are left out. A
connection is a task of its own that shares nothing with the others, so that one connection is modelled.
-/
namespace Ngfs.Sock
open Io

/-- `ServerMode`, sock.rs 18-22. -/
inductive Mode where
  | read | write | echo
deriving DecidableEq

/-- `FromStr for ServerMode`, sock.rs 24-34. -/
def Mode.fromText (s : String) : Option Mode :=
  if s = "read" then some .read else if s = "write" then some .write else if s = "echo" then some .echo else none

/-- What is printed for a connection, sock.rs 67, 71, 75; iotest.rs 56, 80, 84, 88. -/
inductive Line where
  | bytes (n : Nat)
  | text (d : Bytes)
  | eof
  | error (k : IoKind)
deriving DecidableEq

/-- The options of `sock`, 43-55, without the delay and the port. -/
structure Opt where
  mode : Mode
  readBufSize : Option Nat

/-- The loop of `process_connection`, sock.rs 64-96. -/
def readLoop (size : Nat) : Nat → Reader → List Line × Reader
  | 0, r => ([], r)
  | fuel + 1, r =>
    match r.read (scriptSize r.t.reads + 1) size with
    | (.pending, r') => ([], r')
    | (.ready (.error k), r') => ([.error k], r')
    | (.ready (.ok []), r') => ([.eof], r')
    | (.ready (.ok (b :: d)), r') =>
      let (lines, r'') := readLoop size fuel r'
      (.bytes (b :: d).length :: lines, r'')

/-- `process_connection`, sock.rs 60-97: `opt.mode` is not looked at. Every round but the last takes a byte of what is to come. -/
def processConnection (opt : Opt) (stream : Transport) : List Line × Transport :=
  let (lines, r) := readLoop (opt.readBufSize.getD 4096) (scriptSize stream.reads + 1) ⟨stream, []⟩
  (lines, r.t)

/-- `AsyncWriteExt::write`, awaited: one `poll_write` that is not pending. -/
def write : List WriteEvent → Bytes → Poll (Except IoKind Nat) × List WriteEvent × Bytes
  | [], _ => (.pending, [], [])
  | .pending :: ws, data => write ws data
  | .accept n :: ws, data => (.ready (.ok (data.take n).length), ws, data.take n)
  | .error k :: ws, _ => (.ready (.error k), ws, [])

/-- `welcome`, iotest.rs 97: "=======\nWelcome\n=======\n". -/
def welcome : Bytes :=
  [61, 61, 61, 61, 61, 61, 61, 10, 87, 101, 108, 99, 111, 109, 101, 10, 61, 61, 61, 61, 61, 61, 61, 10]

/-- `connection_writer`, iotest.rs 95-108: what is sent. -/
def connectionWriter (writes : List WriteEvent) : Bytes := (write writes welcome).2.2

/-- The message of client.rs 11: "hello world\n". -/
def hello : Bytes := [104, 101, 108, 108, 111, 32, 119, 111, 114, 108, 100, 10]

/-- `main` of client.rs, 7-13, once connected: what is sent, and whether it prints that it succeeded. -/
def client (writes : List WriteEvent) : Bytes × Option Bool :=
  match write writes hello with
  | (.pending, _, sent) => (sent, none)
  | (.ready (.ok _), _, sent) => (sent, some true)
  | (.ready (.error _), _, sent) => (sent, some false)

/-- `connection_reader`, iotest.rs 75-93, with `on_receive`, 55-57. -/
def connectionReader : Nat → Reader → List Line
  | 0, _ => []
  | fuel + 1, r =>
    match r.read (scriptSize r.t.reads + 1) 1024 with
    | (.pending, _) => []
    | (.ready (.error k), _) => [.error k]
    | (.ready (.ok []), _) => [.eof]
    | (.ready (.ok (b :: d)), r') => .bytes (b :: d).length :: .text (b :: d) :: connectionReader fuel r'

/-- `process`, iotest.rs 110-116: reading and writing are joined; neither touches the other's half. -/
def process (stream : Transport) : List Line × Bytes :=
  (connectionReader (scriptSize stream.reads + 1) ⟨stream, []⟩, connectionWriter stream.writes)

end Ngfs.Sock
