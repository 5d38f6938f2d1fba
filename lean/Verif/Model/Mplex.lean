import Verif.Model.Transport
import Verif.Model.Varint

/-!
Model of `src/libp2p/mplex/frame.rs` and `src/libp2p/mplex/stream.rs`: the mplex multiplexer.

Not modelled: logging. Wakers (`accept_waker`, `InternalReader::waker`), which only decide when the next
poll happens, are in `Model/MplexWake.lean`; theorems about this file quantify over all orders of polls. `Bytes`/`BytesMut` are
lists of bytes. The table of writers (`MplexStreams::writers`) is only written, never read, by the
code and is left out.
-/
namespace Ngfs.Mplex
open Varint

/-- `frame.rs` 11-15. -/
inductive StreamId where
  | receiver (num : Nat)
  | initiator (num : Nat)
  deriving DecidableEq, Repr

/-- `StreamId::inverse`, `frame.rs` 18-23. -/
def StreamId.inverse : StreamId → StreamId
  | .receiver num => .initiator num
  | .initiator num => .receiver num

/-- `frame.rs` 26-35. -/
inductive Flag where
  | newStream
  | messageReceiver
  | messageInitiator
  | closeReceiver
  | closeInitiator
  | resetReceiver
  | resetInitiator
  deriving DecidableEq, Repr

/-- `Flag::to_raw`, `frame.rs` 38-48. -/
def Flag.toRaw : Flag → Nat
  | .newStream => 0
  | .messageReceiver => 1
  | .messageInitiator => 2
  | .closeReceiver => 3
  | .closeInitiator => 4
  | .resetReceiver => 5
  | .resetInitiator => 6

/-- What can go wrong: an `io::Error`, a panic, or (never, see `Lemmas/Mplex.lean`) the fuel of a
loop of the model running out. -/
inductive Fault where
  | io (kind : IoKind)
  | panic
  | fuel
  deriving DecidableEq, Repr

/-- `Flag::from_raw`, `frame.rs` 50-61. -/
def Flag.fromRaw : Nat → Except Fault Flag
  | 0 => .ok .newStream
  | 1 => .ok .messageReceiver
  | 2 => .ok .messageInitiator
  | 3 => .ok .closeReceiver
  | 4 => .ok .closeInitiator
  | 5 => .ok .resetReceiver
  | 6 => .ok .resetInitiator
  | _ => .error (.io .invalidData)

/-- `frame.rs` 65-70. -/
inductive FrameOp where
  | new
  | message
  | close
  | reset
  deriving DecidableEq, Repr

/-- `frame.rs` 73-77. -/
structure Frame where
  streamId : StreamId
  op : FrameOp
  data : Bytes
  deriving DecidableEq, Repr

/-- `Frame::from_message_parts`, `frame.rs` 80-118. -/
def Frame.fromMessageParts (num : Nat) (flag : Flag) (data : Bytes) : Frame :=
  match flag with
  | .newStream => ⟨.initiator num, .new, []⟩
  | .messageReceiver => ⟨.receiver num, .message, data⟩
  | .messageInitiator => ⟨.initiator num, .message, data⟩
  | .closeReceiver => ⟨.receiver num, .close, data⟩
  | .closeInitiator => ⟨.initiator num, .close, data⟩
  | .resetReceiver => ⟨.receiver num, .reset, data⟩
  | .resetInitiator => ⟨.initiator num, .reset, data⟩

/-- `FrameStream`, `frame.rs` 121-127. -/
structure FrameStream where
  transport : Transport
  incoming : Bytes
  outgoing : Bytes
  readEof : Bool
  deriving DecidableEq, Repr

/-- `FrameStream::new`, `frame.rs` 134-143. -/
def FrameStream.new (t : Transport) : FrameStream := ⟨t, [], [], false⟩

/-- `extract_varint_u64`, `frame.rs` 300-317: skip bytes with the high bit set; the value and the
bytes behind it, or `none` when the data ends before a byte without the high bit. The offset of the
code is the part of the data already passed. -/
def extractVarint (data : Bytes) : Except Fault (Option (Nat × Bytes)) :=
  let cont := data.takeWhile (fun b => b &&& 0x80 != 0)
  match data.drop cont.length with
  | [] => .ok none
  | b :: rest =>
    match decodeU64 (cont ++ [b]) with
    | .error _ => .error (.io .invalidData)
    | .ok v => .ok (some (v, rest))

/-- The part of `poll_read_frame` that looks for a complete frame in the buffer, `frame.rs` 151-166.
The frame and the bytes behind it. `offset + payload_len as usize` (line 156) can exceed `2^64 - 1`:
with overflow checks that panics; without them the sum wraps to something below `offset`, the
comparison succeeds and `split_to` (line 158) panics because the buffer is shorter. -/
def nextFrame (incoming : Bytes) : Except Fault (Option (Frame × Bytes)) :=
  match extractVarint incoming with
  | .error e => .error e
  | .ok none => .ok none
  | .ok (some (header, rest)) =>
    match Flag.fromRaw (header % 256 % 8) with
    | .error e => .error e
    | .ok flag =>
      match extractVarint rest with
      | .error e => .error e
      | .ok none => .ok none
      | .ok (some (len, body)) =>
        if 2 ^ 64 ≤ (incoming.length - body.length) + len then .error .panic
        else if (incoming.length - body.length) + len ≤ incoming.length then
          .ok (some (Frame.fromMessageParts (header >>> 3) flag (body.take len), body.drop len))
        else .ok none

/-- The answer `poll_read_frame` gives without reading from the transport, and the buffer after it,
`frame.rs` 151-181; `none` when it has to read. -/
def readyFrame (incoming : Bytes) (eof : Bool) : Option (Except Fault (Option Frame) × Bytes) :=
  match nextFrame incoming with
  | .error e => some (.error e, incoming)
  | .ok (some (f, rest)) => some (.ok (some f), rest)
  | .ok none =>
    if eof then
      if incoming.isEmpty then some (.ok none, incoming)
      else some (.error (.io .unexpectedEof), incoming)
    else none

/-- The loop of `poll_read_frame`, `frame.rs` 146-203, over the answers the transport will give. -/
def readFrameLoop : List ReadEvent → Bytes → Bool →
    Poll (Except Fault (Option Frame)) × List ReadEvent × Bytes × Bool
  | [], incoming, eof =>
    match readyFrame incoming eof with
    | some (r, incoming') => (.ready r, [], incoming', eof)
    | none => (.pending, [], incoming, eof)
  | e :: es, incoming, eof =>
    match readyFrame incoming eof with
    | some (r, incoming') => (.ready r, e :: es, incoming', eof)
    | none =>
      match e with
      | .pending => (.pending, es, incoming, eof)
      | .error k => (.ready (.error (.io k)), es, incoming, eof)
      | .ready d =>
        if d.isEmpty then readFrameLoop es incoming true
        else readFrameLoop es (incoming ++ d) eof

/-- `FrameStream::poll_read_frame`, `frame.rs` 146-203. -/
def FrameStream.pollReadFrame (s : FrameStream) :
    Poll (Except Fault (Option Frame)) × FrameStream :=
  match readFrameLoop s.transport.reads s.incoming s.readEof with
  | (r, reads, incoming, eof) =>
    (r, { s with transport := { s.transport with reads := reads }, incoming := incoming, readEof := eof })

/-- `FrameStream::poll_drain`, `frame.rs` 205-224. -/
def FrameStream.pollDrain (s : FrameStream) : Poll (Except IoKind Unit) × FrameStream :=
  match writeLoop s.transport.writes s.outgoing s.transport.sent with
  | (r, ws, out, sent) =>
    let s' := { s with transport := { s.transport with writes := ws, sent := sent }, outgoing := out }
    match r with
    | .pending => (.pending, s')
    | .ready (.error k) => (.ready (.error k), s')
    | .ready (.ok ()) =>
      match s'.transport.pollFlush with
      | (.pending, t) => (.pending, { s' with transport := t })
      | (.error k, t) => (.ready (.error k), { s' with transport := t })
      | (.ok, t) => (.ready (.ok ()), { s' with transport := t })

/-- `append_frame`, `frame.rs` 266-270. -/
def FrameStream.appendFrame (s : FrameStream) (header : Nat) (data : Bytes) : FrameStream :=
  { s with outgoing := s.outgoing ++ encodeU64 header ++ encodeU64 data.length ++ data }

/-- `(num << 3) | flag` on `u64`. -/
def header (num : Nat) (flag : Flag) : Nat := (num <<< 3) % 2 ^ 64 ||| flag.toRaw

/-- `append_new`, `frame.rs` 226-239; the name as its bytes. -/
def FrameStream.appendNew (s : FrameStream) (num : Nat) (name : Option Bytes) : FrameStream :=
  match name with
  | some name => s.appendFrame (header num .newStream) name
  | none => s.appendFrame (header num .newStream) []

/-- `append_message`, `frame.rs` 241-252. -/
def FrameStream.appendMessage (s : FrameStream) (id : StreamId) (data : Bytes) : FrameStream :=
  match id with
  | .receiver num => s.appendFrame (header num .messageReceiver) data
  | .initiator num => s.appendFrame (header num .messageInitiator) data

/-- `append_close`, `frame.rs` 254-264. -/
def FrameStream.appendClose (s : FrameStream) (id : StreamId) : FrameStream :=
  match id with
  | .receiver num => s.appendFrame (header num .closeReceiver) []
  | .initiator num => s.appendFrame (header num .closeInitiator) []

/-! ### `stream.rs` -/

/-- `MplexShared`, `stream.rs` 123-130, with the keys of `MplexStreams::readers` (34-38) in
`readers`. -/
structure Shared where
  frames : FrameStream
  noMoreFrames : Bool
  incoming : Option Frame
  nextStreamNum : Nat
  closed : Bool
  readers : List StreamId
  deriving DecidableEq, Repr

/-- `MplexShared::new`, `stream.rs` 133-143. -/
def Shared.new (t : Transport) : Shared := ⟨FrameStream.new t, false, none, 33, false, []⟩

/-- `MplexStreams::add`, `stream.rs` 79-85. -/
def Shared.add (m : Shared) (id : StreamId) : Shared :=
  { m with readers := id :: m.readers.filter (· ≠ id) }

/-- `MplexStreams::remove_reader`, `stream.rs` 87-91. -/
def Shared.removeReader (m : Shared) (id : StreamId) : Shared :=
  { m with readers := m.readers.filter (· ≠ id) }

/-- `MplexStreams::have_reader`, `stream.rs` 98-100. -/
def Shared.haveReader (m : Shared) (id : StreamId) : Bool := m.readers.contains id

/-- `want_another_frame`, `stream.rs` 145-148. -/
def Shared.wantAnotherFrame (m : Shared) : Shared := { m with incoming := none }

/-- The first `match` in the loop of `poll_fill_incoming`, `stream.rs` 236-248: is there a frame
that somebody can still take? -/
def Shared.frameWanted (m : Shared) : Bool :=
  match m.incoming with
  | some f => if f.op = .new then true else m.haveReader f.streamId
  | none => false

/-- The loop of `poll_fill_incoming`, `stream.rs` 230-272. The last component lists the frames taken
from the transport (history). -/
def fillLoop : Nat → Shared → Poll (Except Fault Unit) × Shared × List Frame
  | 0, m => (.ready (.error .fuel), m, [])
  | fuel + 1, m =>
    if m.closed then (.ready (.error (.io .brokenPipe)), m, [])
    else if m.frameWanted then (.ready (.ok ()), m, [])
    else
      match m.frames.pollReadFrame with
      | (.pending, fs) => (.pending, { m with incoming := none, frames := fs }, [])
      | (.ready (.error e), fs) => (.ready (.error e), { m with incoming := none, frames := fs }, [])
      | (.ready (.ok none), fs) =>
        (.ready (.ok ()), { m with incoming := none, frames := fs, noMoreFrames := true }, [])
      | (.ready (.ok (some f)), fs) =>
        match fillLoop fuel { m with incoming := some f, frames := fs } with
        | (r, m', taken) => (r, m', f :: taken)

/-- All bytes that a list of answers of the transport brings. -/
def readBytes : List ReadEvent → Bytes
  | [] => []
  | .ready d :: es => d ++ readBytes es
  | _ :: es => readBytes es

/-- `poll_fill_incoming`, `stream.rs` 230-272. Every round of the loop but the last takes a frame,
and a frame has at least two bytes: the fuel is enough. -/
def Shared.pollFill (m : Shared) : Poll (Except Fault Unit) × Shared × List Frame :=
  fillLoop (m.frames.incoming.length + (readBytes m.frames.transport.reads).length + 1) m

/-- `poll_accept_id`, `stream.rs` 150-179. -/
def Shared.pollAcceptId (m : Shared) :
    Poll (Except Fault (Option StreamId)) × Shared × List Frame :=
  match m.pollFill with
  | (.pending, m', taken) => (.pending, m', taken)
  | (.ready (.error e), m', taken) => (.ready (.error e), m', taken)
  | (.ready (.ok ()), m', taken) =>
    match m'.incoming with
    | some f =>
      if f.op = .new then (.ready (.ok (some f.streamId)), (m'.add f.streamId).wantAnotherFrame, taken)
      else (.pending, m', taken)
    | none => (.ready (.ok none), m', taken)

/-- `MplexShared::poll_read`, `stream.rs` 181-228, with a buffer that has room for `room` bytes: the
bytes put into the buffer. -/
def Shared.pollRead (m : Shared) (id : StreamId) (room : Nat) :
    Poll (Except Fault Bytes) × Shared × List Frame :=
  match m.pollFill with
  | (.pending, m', taken) => (.pending, m', taken)
  | (.ready (.error e), m', taken) => (.ready (.error e), m', taken)
  | (.ready (.ok ()), m', taken) =>
    match m'.incoming with
    | some f =>
      if f.streamId = id then
        if f.op = .close then (.ready (.ok []), m'.wantAnotherFrame, taken)
        else
          let amt := min f.data.length room
          let rest := f.data.drop amt
          if rest.isEmpty then (.ready (.ok (f.data.take amt)), m'.wantAnotherFrame, taken)
          else (.ready (.ok (f.data.take amt)), { m' with incoming := some { f with data := rest } }, taken)
      else (.pending, m', taken)
    | none => (.ready (.ok []), m', taken)

/-- `MplexShared::append_new`, `stream.rs` 274-284. `+= 1` on `u64` as it is without overflow
checks. -/
def Shared.appendNew (m : Shared) (name : Option Bytes) : StreamId × Shared :=
  let num := m.nextStreamNum
  let m1 := { m with nextStreamNum := (m.nextStreamNum + 1) % 2 ^ 64 }
  let id := StreamId.receiver num
  let m2 := m1.add id
  (id, { m2 with frames := m2.frames.appendNew num name })

/-- A stream handed to the user: `Stream`, `StreamReader`, `StreamWriter`, `stream.rs` 384-387,
416-420, 503-506. Reader and writer carry the same identifier; only the writer has more state. -/
structure Handle where
  id : StreamId
  writeError : Option IoKind
  deriving DecidableEq, Repr

/-- A multiplexed connection: the shared state behind the mutex, whether a panic has poisoned the
mutex (every later `lock().unwrap()` then panics), the `Connect` futures polled but not finished
(`stream.rs` 300-304), and the streams handed out so far. -/
structure Conn where
  shared : Shared
  poisoned : Bool
  connecting : List StreamId
  handles : List Handle
  deriving DecidableEq, Repr

/-- `Mplex::new`, `stream.rs` 363-367. -/
def Conn.new (t : Transport) : Conn := ⟨Shared.new t, false, [], []⟩

/-- What a user can do with a connection; streams are named by their position among those handed
out. -/
inductive Op where
  /-- poll `Acceptor::accept` -/
  | accept
  /-- first poll of a new `Connector::connect` -/
  | connect (name : Option Bytes)
  /-- poll the `k`-th unfinished connect again -/
  | reconnect (k : Nat)
  /-- poll a read with room for `room` bytes -/
  | read (h : Nat) (room : Nat)
  | write (h : Nat) (data : Bytes)
  | flush (h : Nat)
  | shutdown (h : Nat)
  | dropReader (h : Nat)
  deriving DecidableEq, Repr

/-- What the user gets back from a poll. -/
inductive Answer where
  | pending
  | failed (kind : IoKind)
  | panicked
  /-- a new stream, with its identifier -/
  | stream (id : StreamId)
  /-- `accept` reports that there will be no more streams -/
  | noMore
  | bytes (data : Bytes)
  | written (n : Nat)
  | done
  deriving DecidableEq, Repr

/-- What happened, for the statements about histories: frames taken from the transport, identifiers
entered into and removed from the table of readers, and the bytes each stream's user read, wrote, and
closed. -/
inductive Event where
  | taken (f : Frame)
  | opened (id : StreamId)
  | announced (num : Nat) (name : Bytes)
  | dropped (id : StreamId)
  | got (id : StreamId) (data : Bytes)
  | wrote (id : StreamId) (data : Bytes)
  | shut (id : StreamId)
  deriving DecidableEq, Repr

/-- The answer for a fault, and whether the mutex is poisoned by it. -/
def faultAnswer : Fault → Answer
  | .io k => .failed k
  | _ => .panicked

/-- Does a fault poison the mutex? -/
def Fault.poisons : Fault → Bool
  | .io _ => false
  | _ => true

/-- `Accept::poll` and `Acceptor::poll_accept_stream`, `stream.rs` 290-298, 339-350. -/
def Conn.accept (c : Conn) : Answer × Conn × List Event :=
  match c.shared.pollAcceptId with
  | (.pending, m, taken) => (.pending, { c with shared := m }, taken.map .taken)
  | (.ready (.error e), m, taken) =>
    (faultAnswer e, { c with shared := m, poisoned := e.poisons }, taken.map .taken)
  | (.ready (.ok none), m, taken) => (.noMore, { c with shared := m }, taken.map .taken)
  | (.ready (.ok (some id)), m, taken) =>
    (.stream id, { c with shared := m, handles := c.handles ++ [⟨id, none⟩] },
      taken.map .taken ++ [.opened id])

/-- The second half of `Connect::poll`, `stream.rs` 324-329: drain, then hand out the stream. -/
def Conn.finishConnect (c : Conn) (id : StreamId) : Answer × Conn × Bool :=
  match c.shared.frames.pollDrain with
  | (.pending, fs) => (.pending, { c with shared := { c.shared with frames := fs } }, false)
  | (.ready (.error k), fs) => (.failed k, { c with shared := { c.shared with frames := fs } }, true)
  | (.ready (.ok ()), fs) =>
    (.stream id, { c with shared := { c.shared with frames := fs }, handles := c.handles ++ [⟨id, none⟩] },
      true)

/-- First poll of `Connect`, `stream.rs` 306-330. -/
def Conn.connect (c : Conn) (name : Option Bytes) : Answer × Conn × List Event :=
  match c.shared.appendNew name with
  | (id, m) =>
    match ({ c with shared := m } : Conn).finishConnect id with
    | (a, c', fin) =>
      (a, { c' with connecting := if fin then c'.connecting else c'.connecting ++ [id] },
        [.opened id, .announced c.shared.nextStreamNum (name.getD [])])

/-- A later poll of `Connect`, `stream.rs` 319-330. -/
def Conn.reconnect (c : Conn) (k : Nat) : Answer × Conn × List Event :=
  match c.connecting[k]? with
  | none => (.pending, c, [])
  | some id =>
    match c.finishConnect id with
    | (a, c', fin) =>
      (a, { c' with connecting := if fin then c'.connecting.eraseIdx k else c'.connecting }, [])

/-- `StreamReader::poll_read`, `stream.rs` 397-404. -/
def Conn.read (c : Conn) (id : StreamId) (room : Nat) : Answer × Conn × List Event :=
  match c.shared.pollRead id room with
  | (.pending, m, taken) => (.pending, { c with shared := m }, taken.map .taken)
  | (.ready (.error e), m, taken) =>
    (faultAnswer e, { c with shared := m, poisoned := e.poisons }, taken.map .taken)
  | (.ready (.ok data), m, taken) =>
    (.bytes data, { c with shared := m }, taken.map .taken ++ [.got id data])

/-- `StreamWriter::poll_drain`, `stream.rs` 423-442, for the stream at position `h`. -/
def Conn.drain (c : Conn) (h : Nat) (w : Handle) : Poll (Except IoKind Unit) × Conn :=
  match w.writeError with
  | some k => (.ready (.error k), c)
  | none =>
    match c.shared.frames.pollDrain with
    | (.pending, fs) => (.pending, { c with shared := { c.shared with frames := fs } })
    | (.ready (.ok ()), fs) => (.ready (.ok ()), { c with shared := { c.shared with frames := fs } })
    | (.ready (.error k), fs) =>
      (.ready (.error k), { c with shared := { c.shared with frames := fs },
                                   handles := c.handles.set h { w with writeError := some k } })

/-- `StreamWriter::poll_write`, `stream.rs` 453-467. -/
def Conn.write (c : Conn) (h : Nat) (w : Handle) (data : Bytes) : Answer × Conn × List Event :=
  match c.drain h w with
  | (.pending, c') => (.pending, c', [])
  | (.ready (.error k), c') => (.failed k, c', [])
  | (.ready (.ok ()), c') =>
    (.written data.length,
      { c' with shared := { c'.shared with frames := c'.shared.frames.appendMessage w.id.inverse data } },
      [.wrote w.id data])

/-- `StreamWriter::poll_flush`, `stream.rs` 469-474. -/
def Conn.flush (c : Conn) (h : Nat) (w : Handle) : Answer × Conn × List Event :=
  match c.drain h w with
  | (.pending, c') => (.pending, c', [])
  | (.ready (.error k), c') => (.failed k, c', [])
  | (.ready (.ok ()), c') => (.done, c', [])

/-- `StreamWriter::poll_shutdown`, `stream.rs` 476-490. -/
def Conn.shutdown (c : Conn) (h : Nat) (w : Handle) : Answer × Conn × List Event :=
  match c.drain h w with
  | (.pending, c') => (.pending, c', [])
  | (.ready (.error k), c') => (.failed k, c', [])
  | (.ready (.ok ()), c') =>
    (.done,
      { c' with shared := { c'.shared with frames := c'.shared.frames.appendClose w.id.inverse },
                handles := c'.handles.set h { w with writeError := some .brokenPipe } },
      [.shut w.id])

/-- One poll. Operations on a stream that does not exist do nothing. `dropReader` is
`Drop for StreamReader`, `stream.rs` 389-394. -/
def Conn.step (c : Conn) (op : Op) : Answer × Conn × List Event :=
  if c.poisoned then (.panicked, c, [])
  else
    match op with
    | .accept => c.accept
    | .connect name => c.connect name
    | .reconnect k => c.reconnect k
    | .read h room =>
      match c.handles[h]? with
      | none => (.pending, c, [])
      | some w => c.read w.id room
    | .write h data =>
      match c.handles[h]? with
      | none => (.pending, c, [])
      | some w => c.write h w data
    | .flush h =>
      match c.handles[h]? with
      | none => (.pending, c, [])
      | some w => c.flush h w
    | .shutdown h =>
      match c.handles[h]? with
      | none => (.pending, c, [])
      | some w => c.shutdown h w
    | .dropReader h =>
      match c.handles[h]? with
      | none => (.pending, c, [])
      | some w => (.done, { c with shared := c.shared.removeReader w.id }, [.dropped w.id])

/-- Any number of polls, in any order: the answers, the connection, and what happened. -/
def Conn.run (c : Conn) : List Op → List Answer × Conn × List Event
  | [] => ([], c, [])
  | op :: ops =>
    match c.step op with
    | (a, c', ev) =>
      match c'.run ops with
      | (as, c'', evs) => (a :: as, c'', ev ++ evs)

end Ngfs.Mplex
