import Verif.Model.Torrent
import Verif.Model.Binary

/-! `src/bin/torrent_client.rs`: the transfer of a torrent from one peer. -/
namespace Ngfs.Torrent
open Util

/-- `Request` (`bittorrent/protocol.rs` 56-61); the fields are `u32`. -/
structure Request where
  index : Nat
  start : Nat
  length : Nat
deriving DecidableEq, Repr

/-- `ReceivedBlock`, torrent_client.rs 391-395. -/
structure Block where
  index : Nat
  start : Nat
  data : Bytes
deriving DecidableEq, Repr

/-- `Transfer`, torrent_client.rs 397-406; `we_have` is never used. -/
structure Transfer where
  torrent : Torrent
  pending : List Request
  active : List Request
  completed : List Block
deriving DecidableEq, Repr

/-- The inner loop of `Transfer::new`, torrent_client.rs 430-442, from position `start` on. Each round moves by 16384 bytes except the
last, so `length / 16384 + 1` rounds are enough. -/
def blockLoop (index length : Nat) : Nat → Nat → List Request
  | 0, _ => []
  | n + 1, start =>
    if start < length then
      let requestLength := min 16384 (length - start)
      ⟨index % 2 ^ 32, start % 2 ^ 32, requestLength % 2 ^ 32⟩ :: blockLoop index length n (start + requestLength)
    else []

/-- The length of a piece, torrent_client.rs 424-428. -/
def lengthOfPiece (t : Torrent) (i : Nat) : Except Err Nat :=
  if i + 1 = t.pieces.length then t.lastPieceLength.map fun last => if t.pieceLength > last then last else t.pieceLength
  else .ok t.pieceLength

/-- One round of the outer loop of `Transfer::new`, torrent_client.rs 424-442. -/
def pieceRequests (t : Torrent) (i : Nat) : Except Err (List Request) :=
  (lengthOfPiece t i).map fun length => blockLoop i length (length / 16384 + 1) 0

/-- The outer loop of `Transfer::new`, torrent_client.rs 423-443, over the given indexes. -/
def pieceLoop (t : Torrent) : List Nat → Except Err (List Request)
  | [] => pure []
  | i :: is => do
    let rs ← pieceRequests t i
    let rest ← pieceLoop t is
    pure (rs ++ rest)

/-- `Transfer::new`, torrent_client.rs 409-448. -/
def Transfer.new (t : Torrent) : Except Err Transfer := do
  let pending ← pieceLoop t (List.range t.pieces.length)
  pure ⟨t, pending, [], []⟩

/-- `start_request`, torrent_client.rs 458-467. -/
def Transfer.startRequest (s : Transfer) : Option Request × Transfer :=
  match s.pending with
  | [] => (none, s)
  | req :: rest => (some req, { s with pending := rest, active := s.active ++ [req] })

/-- The comparison of a request with a block, torrent_client.rs 472. -/
def matchesBlock (index start length : Nat) (req : Request) : Bool := req.index = index ∧ req.start = start ∧ req.length = length

/-- `complete_request`, torrent_client.rs 469-491: the first active request with this index, position and length is removed. -/
def Transfer.completeRequest (s : Transfer) (index start : Nat) (data : Bytes) : Transfer :=
  match s.active.findIdx? (matchesBlock index start data.length) with
  | none => s
  | some i => { s with active := s.active.eraseIdx i, completed := s.completed ++ [⟨index, start, data⟩] }

/-- `Message` (`bittorrent/protocol.rs` 63-77). -/
inductive Message where
  | handshake (reserved infoHash peerId : Bytes)
  | keepAlive
  | choke
  | unchoke
  | interested
  | notInterested
  | have (piece : Nat)
  | bitField (data : Bytes)
  | request (r : Request)
  | piece (index start : Nat) (data : Bytes)
  | cancel (r : Request)
  | port (port : Nat)
deriving DecidableEq, Repr

/-- `ProtocolError` (`bittorrent/protocol.rs` 79-84), and panics. -/
inductive MsgErr where
  | incorrectLength
  | unknownMessage
  | invalidHandshake
  | panic
deriving DecidableEq, Repr

/-- `check_message_len`, torrent_client.rs 814-821. -/
def checkLen (body : Bytes) (expected : Nat) : Except MsgErr Unit :=
  if body.length ≠ expected then .error .incorrectLength else .ok ()

/-- `parse_message`, torrent_client.rs 832-892. `get_u32` panics if fewer than four bytes are left. -/
def parseMessage (id : UInt8) (body : Bytes) : Except MsgErr Message :=
  if id = 0 then (checkLen body 0).map fun _ => .choke
  else if id = 1 then (checkLen body 0).map fun _ => .unchoke
  else if id = 2 then (checkLen body 0).map fun _ => .interested
  else if id = 3 then (checkLen body 0).map fun _ => .notInterested
  else if id = 4 then (checkLen body 4).map fun _ => .have (Binary.beNat body)
  else if id = 5 then .ok (.bitField body)
  else if id = 6 then .error .panic
  else if id = 7 then
    if body.length < 8 then .error .panic
    else .ok (.piece (Binary.beNat (body.take 4)) (Binary.beNat ((body.drop 4).take 4)) (body.drop 8))
  else if id = 8 then .error .panic
  else if id = 9 then .error .panic
  else .error .unknownMessage

/-- `PeerConnection`, torrent_client.rs 494-514, without the four flags that are never used, and without `done`,
`peer_finished_sending` and `error_message`, which are the outcome of `peerLoop`. -/
structure Conn where
  theyHave : BitField
  incoming : Bytes
  receivedHandshake : Bool
  receivedFirstMessage : Bool
deriving DecidableEq, Repr

/-- `PeerConnection::new`, torrent_client.rs 517-534. -/
def Conn.new (pieceCount : Nat) : Conn := ⟨.new pieceCount, [], false, false⟩

/-- `b"\x13BitTorrent protocol"`, torrent_client.rs 764, 896-897. -/
def protocolName : Bytes :=
  [19, 66, 105, 116, 84, 111, 114, 114, 101, 110, 116, 32, 112, 114, 111, 116, 111, 99, 111, 108]

/-- What `get_next_message` answers. -/
inductive Next where
  | pending
  | message (m : Message)
  | error (e : MsgErr)
deriving DecidableEq, Repr

/-- `get_next_message`, torrent_client.rs 755-812. -/
def getNextMessage (c : Conn) : Next × Conn :=
  let buf := c.incoming
  if c.receivedHandshake = false then
    if buf.length < 68 then (.pending, c)
    else if buf.take 20 ≠ protocolName then (.error .invalidHandshake, c)
    else
      (.message (.handshake (slice buf 20 28) (slice buf 28 48) (slice buf 48 68)),
        { c with incoming := buf.drop 68, receivedHandshake := true })
  else if buf.length < 4 then (.pending, c)
  else
    let len := Binary.beNat (buf.take 4)
    if len = 0 then (.message .keepAlive, { c with incoming := buf.drop 4 })
    else
      match buf[4]? with
      | none => (.pending, c)
      | some id =>
        if buf.length < 4 + len then (.pending, c)
        else
          let c := { c with incoming := buf.drop (4 + len) }
          match parseMessage id (slice buf 5 (4 + len)) with
          | .ok m => (.message m, c)
          | .error e => (.error e, c)

/-- `queue_msg`, torrent_client.rs 580-584. -/
def queueMsg (body : Bytes) : Bytes := Binary.beBytes 4 body.length ++ body

/-- `queue_unchoke`, torrent_client.rs 566-570. -/
def queueUnchoke : Bytes := queueMsg [1]

/-- `queue_interested`, torrent_client.rs 572-574. -/
def queueInterested : Bytes := queueMsg [2]

/-- `queue_not_interested`, torrent_client.rs 576-578. -/
def queueNotInterested : Bytes := queueMsg [3]

/-- `queue_request`, torrent_client.rs 586-599. -/
def queueRequest (r : Request) : Bytes :=
  queueMsg ([6] ++ Binary.beBytes 4 r.index ++ Binary.beBytes 4 r.start ++ Binary.beBytes 4 r.length)

/-- The loop that sends requests, torrent_client.rs 731-749. Every round but the last makes one more request active, so 102 rounds are
enough. -/
def requestLoop : Nat → Transfer → Bytes × Transfer
  | 0, s => ([], s)
  | n + 1, s =>
    if s.active.length ≤ 100 then
      match s.startRequest with
      | (some r, s) =>
        let (out, s) := requestLoop n s
        (queueRequest r ++ out, s)
      | (none, s) => (queueNotInterested, s)
    else ([], s)

/-- `handle_message`, torrent_client.rs 619-753: the bytes queued and the new state, or an error. -/
def handleMessage (s : Transfer) (c : Conn) : Message → Except Unit (Bytes × Transfer × Conn)
  | .unchoke =>
    let (out, s) := requestLoop 102 s
    .ok (out, s, c)
  | .bitField data =>
    if c.receivedFirstMessage then .error ()
    else if data.length ≠ (s.torrent.pieces.length + 7) / 8 then .error ()
    else .ok (queueUnchoke ++ queueInterested, s, { c with theyHave := c.theyHave.updateFromBytes data })
  | .piece index start data =>
    let (out, s) := requestLoop 102 (s.completeRequest index start data)
    .ok (out, s, c)
  | _ => .ok ([], s, c)

/-- How a connection ends. -/
inductive Outcome where
  /-- the peer closed the connection -/
  | finished
  /-- `report_protocol_violation` -/
  | violation (e : MsgErr)
  /-- `handle_message` failed -/
  | failed
  /-- the connection broke -/
  | broken
  | panic
  /-- the number of rounds of the model was too small -/
  | fuel
deriving DecidableEq, Repr

/-- What a connection did: the state of the transfer, the bytes sent, the messages received, and how it ended. -/
structure PeerRun where
  transfer : Transfer
  sent : Bytes
  received : List Message
  outcome : Outcome
deriving DecidableEq, Repr

/-- The receive loop of `do_peer`, torrent_client.rs 920-938, with `recv_more_data` (602-614). `chunks` are the answers of the reads; after
them the connection is closed, or breaks if `broken`. An answer of no bytes means that it was closed. -/
def peerLoop (broken : Bool) : Nat → List Bytes → Transfer → Conn → Bytes → List Message → PeerRun
  | 0, _, s, _, sent, ms => ⟨s, sent, ms, .fuel⟩
  | n + 1, chunks, s, c, sent, ms =>
    match getNextMessage c with
    | (.pending, c) =>
      match chunks with
      | [] => ⟨s, sent, ms, if broken then .broken else .finished⟩
      | chunk :: chunks =>
        if chunk.length = 0 then ⟨s, sent, ms, .finished⟩
        else peerLoop broken n chunks s { c with incoming := c.incoming ++ chunk } sent ms
    | (.message m, c) =>
      match handleMessage s c m with
      | .ok (out, s, c) => peerLoop broken n chunks s c (sent ++ out) (ms ++ [m])
      | .error () => ⟨s, sent, ms ++ [m], .failed⟩
    | (.error .panic, _) => ⟨s, sent, ms, .panic⟩
    | (.error e, _) => ⟨s, sent, ms, .violation e⟩

/-- `encode_handshake`, torrent_client.rs 894-902. -/
def encodeHandshake (infoHash peerId : Bytes) : Bytes := protocolName ++ List.replicate 8 0 ++ infoHash ++ peerId

/-- `do_peer`, torrent_client.rs 904-948, from the established connection on; sending does not fail. Each round takes an answer or at
least four bytes, so the number of rounds is enough. -/
def doPeer (s : Transfer) (peerId : Bytes) (broken : Bool) (chunks : List Bytes) : PeerRun :=
  peerLoop broken (chunks.length + chunks.flatten.length + 2) chunks s (.new s.torrent.pieces.length) (encodeHandshake s.torrent.infoHash peerId) []

end Ngfs.Torrent
