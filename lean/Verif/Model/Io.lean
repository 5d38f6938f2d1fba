import Verif.Model.Transport
import Verif.Model.Varint

/-!
Model of `/repo/src/libp2p/io.rs` and `/repo/src/libp2p/multistream.rs`.

An `async fn` that awaits a reader or writer is modelled by skipping the answers "pending" of the
transport: between two polls its local variables are kept. Its result is `pending` if the script of the
transport ends before it finishes.
-/
namespace Ngfs.Io
open Varint

/-- A reader: a transport below any number of `AsyncReadExt::take` adapters, with what is left of the limit
of each. -/
structure Reader where
  t : Transport
  limits : List Nat
  deriving DecidableEq, Repr

/-- `AsyncRead::poll_read` into a buffer with room for `room` bytes. tokio's `Take::poll_read` answers
"no bytes" by itself when its limit is used up, and otherwise passes on a buffer no larger than the
limit. A chunk that the transport has ready and that does not fit stays ready. -/
def Reader.pollRead (r : Reader) (room : Nat) : ReadEvent × Reader :=
  let n := r.limits.foldr min room
  if n = 0 then (.ready [], r)
  else
    match r.t.reads with
    | [] => (.pending, r)
    | .ready d :: es =>
      let rest := d.drop n
      let es := if rest.isEmpty then es else .ready rest :: es
      (.ready (d.take n),
        { t := { r.t with reads := es }, limits := r.limits.map (· - (d.take n).length) })
    | e :: es => (e, { r with t := { r.t with reads := es } })

/-- How many more times a reader can be asked before it has nothing left: an upper bound. -/
def scriptSize : List ReadEvent → Nat
  | [] => 0
  | .ready d :: es => d.length + 1 + scriptSize es
  | _ :: es => 1 + scriptSize es

/-- `ReadOptVarInt`, `io.rs` 12-16. -/
structure ReadOptVarInt where
  reader : Reader
  decoder : Decoder
  numBytes : Nat
  deriving DecidableEq, Repr

/-- The loop of `ReadOptVarInt::poll`, `io.rs` 25-60. -/
def ReadOptVarInt.loop : Nat → ReadOptVarInt → Poll (Except IoKind (Option Nat)) × ReadOptVarInt
  | 0, f => (.pending, f)
  | fuel + 1, f =>
    match f.reader.pollRead 1 with
    | (.pending, r) => (.pending, { f with reader := r })
    | (.error k, r) =>
      if f.numBytes = 0 ∧ k = .unexpectedEof then (.ready (.ok none), { f with reader := r })
      else (.ready (.error k), { f with reader := r })
    | (.ready [], r) =>
      if f.numBytes = 0 then (.ready (.ok none), { f with reader := r })
      else (.ready (.error .unexpectedEof), { f with reader := r })
    | (.ready (b :: _), r) =>
      match f.decoder.input b with
      | (.finished v, d) => (.ready (.ok (some v)), ⟨r, d, f.numBytes + 1⟩)
      | (.overflow, d) => (.ready (.error .invalidData), ⟨r, d, f.numBytes + 1⟩)
      | (.pending, d) => loop fuel ⟨r, d, f.numBytes + 1⟩

/-- `ReadOptVarInt::poll`, `io.rs` 22-61. Every round but the last takes a byte. -/
def ReadOptVarInt.poll (f : ReadOptVarInt) : Poll (Except IoKind (Option Nat)) × ReadOptVarInt :=
  f.loop (scriptSize f.reader.t.reads + 1)

/-- Polling until the future is ready, at most `n` times. -/
def ReadOptVarInt.await : Nat → ReadOptVarInt → Poll (Except IoKind (Option Nat)) × Reader
  | 0, f => (.pending, f.reader)
  | n + 1, f =>
    match f.poll with
    | (.pending, f') => f'.await n
    | (.ready x, f') => (.ready x, f'.reader)

/-- `read_opt_varint`, `io.rs` 64-72, awaited. A poll that is not ready has used up at least one answer of
the script, or the script is empty. -/
def readOptVarint (r : Reader) : Poll (Except IoKind (Option Nat)) × Reader :=
  ReadOptVarInt.await (scriptSize r.t.reads + 1) ⟨r, Decoder.new, 0⟩

/-- `.ok_or_else(|| io::ErrorKind::UnexpectedEof.into())`. -/
def orEof {α : Type} : Poll (Except IoKind (Option α)) × Reader → Poll (Except IoKind α) × Reader
  | (.ready (.ok (some v)), r) => (.ready (.ok v), r)
  | (.ready (.ok none), r) => (.ready (.error .unexpectedEof), r)
  | (.ready (.error k), r) => (.ready (.error k), r)
  | (.pending, r) => (.pending, r)

/-- `read_varint`, `io.rs` 74-79. -/
def readVarint (r : Reader) : Poll (Except IoKind Nat) × Reader := orEof (readOptVarint r)

/-- `AsyncReadExt::read(&mut buf).await`. -/
def Reader.read : Nat → Reader → Nat → Poll (Except IoKind Bytes) × Reader
  | 0, r, _ => (.pending, r)
  | fuel + 1, r, room =>
    match r.pollRead room with
    | (.pending, r') => r'.read fuel room
    | (.error k, r') => (.ready (.error k), r')
    | (.ready d, r') => (.ready (.ok d), r')

/-- The loop of `read_opt_length_prefixed_data`, `io.rs` 101-108. -/
def readBody : Nat → Reader → Nat → Bytes → Poll (Except IoKind Bytes) × Reader
  | 0, r, _, _ => (.pending, r)
  | fuel + 1, r, expectedLen, incoming =>
    if incoming.length < expectedLen then
      match r.read (scriptSize r.t.reads + 1) 1024 with
      | (.pending, r') => (.pending, r')
      | (.ready (.error k), r') => (.ready (.error k), r')
      | (.ready (.ok d), r') =>
        if d.length = 0 then (.ready (.error .unexpectedEof), r')
        else readBody fuel r' expectedLen (incoming ++ d)
    else (.ready (.ok incoming), r)

/-- `reader.take(n)`. -/
def Reader.take (r : Reader) (n : Nat) : Reader := { r with limits := n :: r.limits }

/-- The reader below the outermost `take`. -/
def Reader.untake (r : Reader) : Reader := { r with limits := r.limits.tail }

/-- `read_opt_length_prefixed_data`, `io.rs` 91-110. `v as usize` changes nothing on 64-bit targets. -/
def readOptLengthPrefixed (r : Reader) : Poll (Except IoKind (Option Bytes)) × Reader :=
  match readOptVarint r with
  | (.pending, r') => (.pending, r')
  | (.ready (.error k), r') => (.ready (.error k), r')
  | (.ready (.ok none), r') => (.ready (.ok none), r')
  | (.ready (.ok (some expectedLen)), r') =>
    match readBody (scriptSize r'.t.reads + 1) (r'.take expectedLen) expectedLen [] with
    | (.pending, r'') => (.pending, r''.untake)
    | (.ready (.error k), r'') => (.ready (.error k), r''.untake)
    | (.ready (.ok d), r'') => (.ready (.ok (some d)), r''.untake)

/-- `read_length_prefixed_data`, `io.rs` 112-117. -/
def readLengthPrefixed (r : Reader) : Poll (Except IoKind Bytes) × Reader := orEof (readOptLengthPrefixed r)

/-- `AsyncWriteExt::write_all(data).await`: the answers still to come, and what has been sent. -/
def writeAllLoop : List WriteEvent → Bytes → Bytes → Poll (Except IoKind Unit) × List WriteEvent × Bytes
  | ws, [], sent => (.ready (.ok ()), ws, sent)
  | [], _ :: _, sent => (.pending, [], sent)
  | .pending :: ws, o :: os, sent => writeAllLoop ws (o :: os) sent
  | .error k :: ws, _ :: _, sent => (.ready (.error k), ws, sent)
  | .accept n :: ws, o :: os, sent =>
    if n = 0 then (.ready (.error .writeZero), ws, sent)
    else writeAllLoop ws ((o :: os).drop n) (sent ++ (o :: os).take n)

/-- `AsyncWriteExt::write_all(data).await`. -/
def writeAll (t : Transport) (data : Bytes) : Poll (Except IoKind Unit) × Transport :=
  match writeAllLoop t.writes data t.sent with
  | (r, ws, sent) => (r, { t with writes := ws, sent := sent })

/-- `write_varint`, `io.rs` 81-88. -/
def writeVarint (t : Transport) (value : Nat) : Poll (Except IoKind Unit) × Transport :=
  writeAll t (encodeU64 value)

/-- `write_length_prefixed_data`, `io.rs` 119-127. -/
def writeLengthPrefixed (t : Transport) (data : Bytes) : Poll (Except IoKind Unit) × Transport :=
  match writeAll t (encodeU64 data.length) with
  | (.ready (.ok ()), t') => writeAll t' data
  | (r, t') => (r, t')

/-- `AsyncWriteExt::flush().await`: the answers still to come. -/
def flushLoop : List DoneEvent → Poll (Except IoKind Unit) × List DoneEvent
  | [] => (.pending, [])
  | .pending :: es => flushLoop es
  | .ok :: es => (.ready (.ok ()), es)
  | .error k :: es => (.ready (.error k), es)

/-- `AsyncWriteExt::flush().await`. -/
def flush (t : Transport) : Poll (Except IoKind Unit) × Transport :=
  match flushLoop t.flushes with
  | (r, es) => (r, { t with flushes := es })

/-! ### `multistream.rs` -/

/-- `SelectResponse`, `multistream.rs` 6-9. -/
inductive SelectResponse where
  | accepted
  | unsupported
  deriving DecidableEq, Repr

/-- The bytes of `na\n`. -/
def naMessage : Bytes := [110, 97, 10]

/-- The bytes of `ls\n`. -/
def lsMessage : Bytes := [108, 115, 10]

/-- The bytes of `/multistream/1.0.0\n`. -/
def multistreamId : Bytes :=
  [47, 109, 117, 108, 116, 105, 115, 116, 114, 101, 97, 109, 47, 49, 46, 48, 46, 48, 10]

/-- Writing and flushing a request, `multistream.rs` 28-29 and 46-47. -/
def request (r : Reader) (data : Bytes) : Poll (Except IoKind Unit) × Reader :=
  match writeLengthPrefixed r.t data with
  | (.ready (.ok ()), t) =>
    match flush t with
    | (x, t') => (x, { r with t := t' })
  | (x, t) => (x, { r with t := t })

/-- `multistream_select`, `multistream.rs` 22-39. -/
def select (r : Reader) (protocol : Bytes) : Poll (Except IoKind SelectResponse) × Reader :=
  match request r protocol with
  | (.pending, r') => (.pending, r')
  | (.ready (.error k), r') => (.ready (.error k), r')
  | (.ready (.ok ()), r') =>
    match readLengthPrefixed r' with
    | (.pending, r'') => (.pending, r'')
    | (.ready (.error k), r'') => (.ready (.error k), r'')
    | (.ready (.ok data), r'') =>
      if data = protocol then (.ready (.ok .accepted), r'')
      else if data = naMessage then (.ready (.ok .unsupported), r'')
      else (.ready (.error .invalidData), r'')

/-- `multistream_handshake`, `multistream.rs` 11-20. -/
def handshake (r : Reader) : Poll (Except IoKind Unit) × Reader :=
  match select r multistreamId with
  | (.pending, r') => (.pending, r')
  | (.ready (.ok .accepted), r') => (.ready (.ok ()), r')
  | (.ready (.ok .unsupported), r') => (.ready (.error .invalidData), r')
  | (.ready (.error k), r') => (.ready (.error k), r')

/-- The loop of `multistream_list`, `multistream.rs` 55-69. The names are kept as bytes
(`String::from_utf8_lossy` is left out). Every round but the last takes at least a byte. -/
def listLoop : Nat → Reader → List Bytes → Poll (Except IoKind (List Bytes)) × Reader
  | 0, r, _ => (.pending, r)
  | fuel + 1, r, protocols =>
    match readLengthPrefixed r with
    | (.pending, r') => (.pending, r')
    | (.ready (.error k), r') =>
      if k = .unexpectedEof then (.ready (.ok protocols), r') else (.ready (.error k), r')
    | (.ready (.ok p), r') => listLoop fuel r' (protocols ++ [p])

/-- `multistream_list`, `multistream.rs` 41-72. -/
def list (r : Reader) : Poll (Except IoKind (List Bytes)) × Reader :=
  match request r lsMessage with
  | (.pending, r') => (.pending, r')
  | (.ready (.error k), r') => (.ready (.error k), r')
  | (.ready (.ok ()), r') =>
    match readVarint r' with
    | (.pending, r'') => (.pending, r'')
    | (.ready (.error k), r'') => (.ready (.error k), r'')
    | (.ready (.ok responseLen), r'') =>
      if responseLen > 65536 then (.ready (.error .invalidData), r'')
      else
        match listLoop (scriptSize r''.t.reads + 1) (r''.take responseLen) [] with
        | (x, r3) => (x, r3.untake)

/-- How a stream is opened for a protocol, `bin/ipfs.rs` 271-285 and 288-300: the handshake, then the
selection. -/
def negotiate (r : Reader) (protocol : Bytes) : Poll (Except IoKind SelectResponse) × Reader :=
  match handshake r with
  | (.pending, r') => (.pending, r')
  | (.ready (.error k), r') => (.ready (.error k), r')
  | (.ready (.ok ()), r') => select r' protocol

/-- The bytes of `/ipfs/id/1.0.0\n` (`ID_PROTOCOL`, `bin/ipfs.rs` 10). -/
def idProtocol : Bytes := [47, 105, 112, 102, 115, 47, 105, 100, 47, 49, 46, 48, 46, 48, 10]

/-- The loop of `connection_handler2`, `bin/ipfs.rs` 84-109, with the names the services are registered under
(`ServiceRegistry::lookup`, `ipfs/node.rs` 49-56): the service whose handler is started, or `none` if the peer ends
the stream. Every round but the last takes at least a byte. -/
def serveLoop (services : List Bytes) : Nat → Reader → Poll (Except IoKind (Option Bytes)) × Reader
  | 0, r => (.pending, r)
  | fuel + 1, r =>
    match readOptLengthPrefixed r with
    | (.pending, r') => (.pending, r')
    | (.ready (.error k), r') => (.ready (.error k), r')
    | (.ready (.ok none), r') => (.ready (.ok none), r')
    | (.ready (.ok (some data)), r') =>
      if services.contains data then
        match request r' idProtocol with
        | (.ready (.ok ()), r'') => (.ready (.ok (some data)), r'')
        | (.ready (.error k), r'') => (.ready (.error k), r'')
        | (.pending, r'') => (.pending, r'')
      else
        match request r' naMessage with
        | (.ready (.ok ()), r'') => serveLoop services fuel r''
        | (.ready (.error k), r'') => (.ready (.error k), r'')
        | (.pending, r'') => (.pending, r'')

/-- `connection_handler2`, `bin/ipfs.rs` 75-110. -/
def serve (services : List Bytes) (r : Reader) : Poll (Except IoKind (Option Bytes)) × Reader :=
  match handshake r with
  | (.pending, r') => (.pending, r')
  | (.ready (.error k), r') => (.ready (.error k), r')
  | (.ready (.ok ()), r') => serveLoop services (scriptSize r'.t.reads + 1) r'

end Ngfs.Io
