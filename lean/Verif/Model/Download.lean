import Verif.Model.Binary
import Verif.Model.Utf8

/-!
Model of `/repo/src/bin/download.rs`: the exchange of messages with one peer. Looking up the name, connecting, reading the torrent file and all
printing are left out.
-/
namespace Ngfs.Download

/-! ### Reading -/

/-- What follows the last byte of a connection. -/
inductive Ending where
  /-- orderly end: every read gives no bytes, from then on -/
  | eof
  /-- the connection broke -/
  | error
  /-- nothing, for ever -/
  | silent
deriving DecidableEq

/-- The receiving half of a connection: the bytes to come, and how many of them each read finds (at least one; all there is room for where the
list has ended). -/
structure Source where
  bytes : Bytes
  cuts : List Nat
  ending : Ending
deriving DecidableEq

/-- The result of one `read` into a buffer. -/
inductive Chunk where
  | data (d : Bytes) (s : Source)
  | ended
deriving DecidableEq

/-- How many bytes there are room for and the next read finds. -/
def Source.next (s : Source) (room : Nat) : Nat :=
  match s.cuts with
  | [] => room
  | c :: _ => min room (max c 1)

/-- `AsyncReadExt::read` into a buffer of `room` bytes, not zero. -/
def Source.read (s : Source) (room : Nat) : Chunk :=
  if s.bytes = [] then .ended
  else .data (s.bytes.take (s.next room)) { s with bytes := s.bytes.drop (s.next room), cuts := s.cuts.tail }

/-- Errors of `read_message` and `recv_handshake`. -/
inductive Err where
  | broken
  | unexpectedEof
  | badLength
  | badHandshake
deriving DecidableEq

/-- The result of a function that reads. -/
inductive Got (α : Type) where
  | done (a : α) (s : Source)
  | failed (e : Err)
  /-- waits for data that never comes -/
  | waiting
  /-- not finished after the given number of rounds -/
  | busy
deriving DecidableEq

/-- `read_exact`: reads until the buffer is full; no bytes are an error. Every round fills a byte. -/
def readExact : Nat → Source → Nat → Bytes → Got Bytes
  | 0, s, n, acc => if n = 0 then .done acc s else .busy
  | fuel + 1, s, n, acc =>
    if n = 0 then .done acc s
    else
      match s.read n with
      | .data d s' => readExact fuel s' (n - d.length) (acc ++ d)
      | .ended =>
        match s.ending with
        | .eof => .failed .unexpectedEof
        | .error => .failed .broken
        | .silent => .waiting

/-- `BUFSIZE`, 204. -/
def bufSize : Nat := 4

/-- The loop of `read_message_raw`, 219-228. A read that gives no bytes appends nothing. -/
def bodyLoop (len : Nat) : Nat → Source → Bytes → Got Bytes
  | 0, s, body => if body.length < len then .busy else .done body s
  | fuel + 1, s, body =>
    if body.length < len then
      let remaining := len - body.length
      let toread := if remaining > bufSize then bufSize else remaining
      match s.read toread with
      | .data d s' => bodyLoop len fuel s' (body ++ d)
      | .ended =>
        match s.ending with
        | .eof => bodyLoop len fuel s body
        | .error => .failed .broken
        | .silent => .waiting
    else .done body s

/-- `read_message_raw`, 206-231. -/
def readMessageRaw (fuel : Nat) (s : Source) : Got Bytes :=
  match readExact 4 s 4 [] with
  | .done lenBuf s' => bodyLoop (Binary.beNat lenBuf) fuel s' []
  | .failed e => .failed e
  | .waiting => .waiting
  | .busy => .busy

/-- `Message`, 191-202. -/
inductive Message where
  | keepAlive
  | choke
  | unchoke
  | interested
  | notInterested
  | have (piece : Nat)
  | bitField (data : Bytes)
  | piece (index start : Nat) (block : Bytes)
  | unknown (id : UInt8) (data : Bytes)
deriving DecidableEq

/-- The parsing in `read_message`, 240-307. -/
def parseBody : Bytes → Except Err Message
  | [] => .ok .keepAlive
  | id :: body =>
    if id = 0 then if body ≠ [] then .error .badLength else .ok .choke
    else if id = 1 then if body ≠ [] then .error .badLength else .ok .unchoke
    else if id = 2 then if body ≠ [] then .error .badLength else .ok .interested
    else if id = 3 then if body ≠ [] then .error .badLength else .ok .notInterested
    else if id = 4 then if body.length ≠ 4 then .error .badLength else .ok (.have (Binary.beNat (body.take 4)))
    else if id = 5 then .ok (.bitField body)
    else if id = 7 then
      if body.length < 8 then .error .badLength
      else .ok (.piece (Binary.beNat (body.take 4)) (Binary.beNat ((body.drop 4).take 4)) (body.drop 8))
    else .ok (.unknown id body)

/-- `read_message`, 235-308. -/
def readMessage (fuel : Nat) (s : Source) : Got Message :=
  match readMessageRaw fuel s with
  | .done body s' =>
    match parseBody body with
    | .ok m => .done m s'
    | .error e => .failed e
  | .failed e => .failed e
  | .waiting => .waiting
  | .busy => .busy

/-- The messages `connection_reader` (310-327) gets one after the other, at most `count`, and what stops it (`none`: nothing yet). -/
def readMessages (fuel : Nat) : Nat → Source → List Message × Option (Got Unit)
  | 0, _ => ([], none)
  | count + 1, s =>
    match readMessage fuel s with
    | .done m s' => let (ms, stop) := readMessages fuel count s'; (m :: ms, stop)
    | .failed e => ([], some (.failed e))
    | .waiting => ([], some .waiting)
    | .busy => ([], some .busy)

/-- "BitTorrent protocol", 161, 176. -/
def protocolName : Bytes := utf8Encode "BitTorrent protocol"

/-- The request of `send_handshake`, 159-164. -/
def sendHandshake (infoHash peerId : Bytes) : Bytes := [19] ++ protocolName ++ List.replicate 8 0 ++ infoHash ++ peerId

/-- `recv_handshake`, 170-189: the info hash and the id of the peer. -/
def recvHandshake (s : Source) : Got (Bytes × Bytes) :=
  match readExact 68 s 68 [] with
  | .done buf s' =>
    if buf.head? ≠ some 19 then .failed .badHandshake
    else if (buf.drop 1).take 19 ≠ protocolName then .failed .badHandshake
    else .done ((buf.drop 28).take 20, (buf.drop 48).take 20) s'
  | .failed e => .failed e
  | .waiting => .waiting
  | .busy => .busy

/-- The beginning of `do_peer_connection`, 521-527: what is sent, and whether the exchange of messages begins. The hash the peer names is only
printed (526). -/
def handshake (infoHash peerId : Bytes) (s : Source) : Bytes × Got (Bytes × Bytes) := (sendHandshake infoHash peerId, recvHandshake s)

/-! ### The reader and the writer together -/

/-- `bitfield_bytes_required`, 53-55. -/
def bitfieldBytesRequired (piecesLen : Nat) : Nat := (piecesLen + 8 - 1) / 8

/-- `WriterAction`, 329-333. -/
inductive WriterAction where
  | interested
  | bitField
  | request
deriving DecidableEq

/-- The body of the message for an action, 364, 374-376, 387-394. -/
def WriterAction.body (piecesLen : Nat) : WriterAction → Bytes
  | .interested => [2]
  | .bitField => [5] ++ List.replicate (bitfieldBytesRequired piecesLen) 0
  | .request => [6] ++ Binary.beBytes 4 0 ++ Binary.beBytes 4 0 ++ Binary.beBytes 4 (16 * 1024)

/-- `write_raw_message`, 335-340: the bytes. -/
def rawMessage (body : Bytes) : Bytes := Binary.beBytes 4 (body.length % 2 ^ 32) ++ body

/-- Where `connection_reader`, 310-327, is. -/
inductive ReaderAt where
  /-- before it looks at `disconnect`, 312 -/
  | top
  /-- in `read_message`, 315 -/
  | reading
  | returned
deriving DecidableEq

/-- Where `connection_writer`, 412-432, is. -/
inductive WriterAt where
  /-- before it looks at `disconnect`, 415 -/
  | top
  /-- in `writer_iteration`, before the lock, 349 -/
  | deciding
  /-- in `write_raw_message`, 365, 377, 395 -/
  | writing (a : WriterAction)
  /-- after it, before the lock, 368, 380, 398 -/
  | marking (a : WriterAction)
  /-- in `rx.recv()`, 429 -/
  | waiting
  | returned
deriving DecidableEq

/-- `PeerConnection`, 38-51, as far as it is used, the channel `rx` (the number of commands in it), the two tasks, and what was sent. -/
structure State where
  piecesLen : Nat
  disconnect : Bool
  choked : Bool
  interested : Bool
  sentBitfield : Bool
  activeRequest : Bool
  commands : Nat
  reader : ReaderAt
  writer : WriterAt
  sent : Bytes
  panicked : Bool
deriving DecidableEq

/-- `PeerConnection::new`, 58-75, and the command sent at 531. -/
def State.init (piecesLen : Nat) : State := ⟨piecesLen, false, true, false, false, false, 1, .top, .top, [], false⟩

/-- `tx.send`, 110: the receiver exists until `connection_writer` returns; without it, `unwrap` panics. A panic ends both tasks, which are joined. -/
def State.sendCommand (s : State) : State :=
  if s.writer = .returned then { s with panicked := true } else { s with commands := s.commands + 1 }

/-- `on_received_message`, 80-111. -/
def State.onReceivedMessage (s : State) : Message → State
  | .choke => { s with choked := true }.sendCommand
  | .unchoke => { s with choked := false }.sendCommand
  | .bitField b => if b.length ≠ bitfieldBytesRequired s.piecesLen then { s with disconnect := true } else s.sendCommand
  | _ => s.sendCommand

/-- The decision of `writer_iteration`, 349-359. -/
def State.nextAction (s : State) : Option WriterAction :=
  if !s.sentBitfield then some .bitField
  else if !s.interested then some .interested
  else if !s.choked && !s.activeRequest then some .request
  else none

/-- What `writer_iteration` records once a message is sent, 369, 381, 399. -/
def State.mark (s : State) : WriterAction → State
  | .interested => { s with interested := true }
  | .bitField => { s with sentBitfield := true }
  | .request => { s with activeRequest := true }

/-- What can happen next. -/
inductive Action where
  /-- the reader looks at `disconnect`, 312 -/
  | readerTop
  /-- a message has come, 316-319 -/
  | received (m : Message)
  /-- reading failed, 320-324 -/
  | receiveError
  /-- the writer looks at `disconnect`, 415 -/
  | writerTop
  /-- the writer decides what to do, 349-362 -/
  | decide
  /-- a message is sent, 365, 377, 395 -/
  | write
  /-- sending fails after some bytes, 422-425 -/
  | writeError (n : Nat)
  /-- the writer records what it has sent, 368-369, 380-381, 398-399 -/
  | mark
  /-- the writer takes a command, 429 -/
  | command

/-- One action. An action that is not possible changes nothing. -/
def State.step (s : State) (a : Action) : State :=
  if s.panicked then s
  else
    match a with
    | .readerTop =>
      if s.reader = .top then { s with reader := if s.disconnect then .returned else .reading } else s
    | .received m => if s.reader = .reading then { s with reader := .top }.onReceivedMessage m else s
    | .receiveError => if s.reader = .reading then { s with reader := .top, disconnect := true } else s
    | .writerTop =>
      if s.writer = .top then { s with writer := if s.disconnect then .returned else .deciding } else s
    | .decide =>
      if s.writer = .deciding then
        { s with writer := match s.nextAction with | some a => .writing a | none => .waiting }
      else s
    | .write =>
      match s.writer with
      | .writing a => { s with writer := .marking a, sent := s.sent ++ rawMessage (a.body s.piecesLen) }
      | _ => s
    | .writeError n =>
      match s.writer with
      | .writing a => { s with writer := .returned, disconnect := true, sent := s.sent ++ (rawMessage (a.body s.piecesLen)).take n }
      | _ => s
    | .mark =>
      match s.writer with
      | .marking a => { s with writer := .deciding }.mark a
      | _ => s
    | .command =>
      if s.writer = .waiting ∧ 0 < s.commands then { s with writer := .top, commands := s.commands - 1 } else s

/-- A sequence of actions. -/
def State.run (s : State) : List Action → State
  | [] => s
  | a :: as => (s.step a).run as

end Ngfs.Download
