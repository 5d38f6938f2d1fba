import Verif.Model.Peer
import Verif.Spec.Binary

/-!
Vocabulary for the claims about the transfer of torrents (C49, C50, C86-C90). Of the model only the types of requests, blocks,
messages, torrents and transfers are used, and the two operations on transfers to say what a history is.
-/
namespace Ngfs.Spec.Torrent
open Ngfs.Torrent

/-- A number in big-endian form. -/
def Field (w n : Nat) (bs : Bytes) : Prop := bs.length = w ∧ bigEndian bs = n

/-- Identifier and fields of a message, BEP 3. -/
inductive Body : Message → Bytes → Prop
  | choke : Body .choke [0]
  | unchoke : Body .unchoke [1]
  | interested : Body .interested [2]
  | notInterested : Body .notInterested [3]
  | have {i f} : Field 4 i f → Body (.have i) (4 :: f)
  | bitField {data} : Body (.bitField data) (5 :: data)
  | request {i s l fi fs fl} : Field 4 i fi → Field 4 s fs → Field 4 l fl → Body (.request ⟨i, s, l⟩) (6 :: (fi ++ fs ++ fl))
  | piece {i s data fi fs} : Field 4 i fi → Field 4 s fs → Body (.piece i s data) (7 :: (fi ++ fs ++ data))
  | cancel {i s l fi fs fl} : Field 4 i fi → Field 4 s fs → Field 4 l fl → Body (.cancel ⟨i, s, l⟩) (8 :: (fi ++ fs ++ fl))
  | port {p f} : Field 2 p f → Body (.port p) (9 :: f)

/-- A message as it is sent: its length, then its body; a keep-alive has length zero. -/
inductive Wire : Message → Bytes → Prop
  | keepAlive : Wire .keepAlive [0, 0, 0, 0]
  | body {m len body} : Field 4 body.length len → Body m body → Wire m (len ++ body)

/-- The handshake as it is sent. -/
def HandshakeWire (reserved infoHash peerId bs : Bytes) : Prop :=
  reserved.length = 8 ∧ infoHash.length = 20 ∧ peerId.length = 20 ∧
    bs = 19 :: (utf8Encode "BitTorrent protocol" ++ reserved ++ infoHash ++ peerId)

/-- Messages the client can receive. -/
def Supported : Message → Prop
  | .request _ | .cancel _ | .port _ => False
  | _ => True

/-- A body the client cannot receive though a peer may send it (requests and cancellations of the peer, its DHT port), or a `piece` message
that is too short to be one. -/
def Panics : Bytes → Prop
  | 6 :: _ | 8 :: _ | 9 :: _ => True
  | 7 :: rest => rest.length < 8
  | _ => False

/-- A message of a bit field that does not have one bit per piece. -/
def BadBitField (t : Torrent) : Message → Prop
  | .bitField data => data.length ≠ (t.pieces.length + 7) / 8
  | _ => False

/-- Nothing complete is left: neither a keep-alive nor a length with that many bytes behind it. -/
def Incomplete (bs : Bytes) : Prop :=
  bs.length < 4 ∨ bs.length < 4 + bigEndian (bs.take 4)

/-- The byte at position `o` of piece `i` is part of the request. -/
def Request.Has (i o : Nat) (r : Request) : Prop := r.index = i ∧ r.start ≤ o ∧ o < r.start + r.length

instance (i o : Nat) (r : Request) : Decidable (Request.Has i o r) := inferInstanceAs (Decidable (_ ∧ _))

/-- The piece `i` of a torrent has a byte at position `o`. -/
def HasByte (t : Torrent) (i o : Nat) : Prop := o < t.pieceLength ∧ i * t.pieceLength + o < t.totalLength

instance (t : Torrent) (i o : Nat) : Decidable (HasByte t i o) := inferInstanceAs (Decidable (_ ∧ _))

/-- The requests contain each byte of the torrent exactly once, nothing else, and at most 16384 bytes each. -/
def Tiles (t : Torrent) (rs : List Request) : Prop :=
  (∀ i o, rs.countP (fun r => decide (Request.Has i o r)) = if HasByte t i o then 1 else 0) ∧ ∀ r ∈ rs, 0 < r.length ∧ r.length ≤ 16384

/-- The request a block answers. -/
def answered (b : Block) : Request := ⟨b.index, b.start, b.data.length⟩

/-- All requests of a transfer. -/
def allRequests (s : Transfer) : List Request := s.pending ++ s.active ++ s.completed.map answered

/-- What can happen to a transfer. -/
inductive Op where
  | start
  | complete (index start : Nat) (data : Bytes)

/-- What happens to a transfer, one after the other. -/
def run : Transfer → List Op → Transfer
  | s, [] => s
  | s, .start :: ops => run s.startRequest.2 ops
  | s, .complete i b data :: ops => run (s.completeRequest i b data) ops

/-- The numbers of pieces fit the lengths: all pieces but the last are full. -/
def Consistent (t : Torrent) : Prop :=
  t.pieceLength * t.pieces.length < 2 ^ 64 ∧ t.pieceLength * (t.pieces.length - 1) ≤ t.totalLength ∧
    t.totalLength ≤ t.pieceLength * t.pieces.length

/-- The requests among messages. -/
def requestsOf (ms : List Message) : List Request :=
  ms.filterMap fun
    | .request r => some r
    | _ => none

/-- The fields of a request have 32 bits. -/
def Fits (r : Request) : Prop := r.index < 2 ^ 32 ∧ r.start < 2 ^ 32 ∧ r.length < 2 ^ 32

/-- The messages received, from the handshake on, and the bytes they came as. -/
inductive Arrived : List Message → Bytes → Prop
  | nothing : Arrived [] []
  | handshake {reserved infoHash peerId bs ms ws} : HandshakeWire reserved infoHash peerId bs → List.Forall₂ Wire ms ws →
      (∀ m ∈ ms, Supported m) → Arrived (.handshake reserved infoHash peerId :: ms) (bs ++ ws.flatten)

/-- A complete message of which `P` holds is at the start of the bytes. -/
def Starts (P : Bytes → Prop) (bs : Bytes) : Prop :=
  ∃ len body rest, bs = len ++ body ++ rest ∧ Field 4 body.length len ∧ body ≠ [] ∧ P body

/-- Why a connection ended, given the messages received and the bytes behind them. -/
def Ended (t : Torrent) (broken : Bool) (ms : List Message) (rest : Bytes) : Outcome → Prop
  | .finished => broken = false ∧ if ms = [] then rest.length < 68 else Incomplete rest
  | .broken => broken = true ∧ if ms = [] then rest.length < 68 else Incomplete rest
  | .violation _ =>
    if ms = [] then 68 ≤ rest.length ∧ ¬ ∃ reserved infoHash peerId bs more, HandshakeWire reserved infoHash peerId bs ∧ rest = bs ++ more
    else Starts (fun body => ¬ Panics body ∧ ∀ m, Body m body → ¬ Supported m) rest
  | .panic => ms ≠ [] ∧ Starts Panics rest
  | .failed => ∃ m, ms.getLast? = some m ∧ BadBitField t m
  | .fuel => False

/-- Messages the client sends. -/
def Sendable : Message → Prop
  | .unchoke | .interested | .notInterested | .request _ => True
  | _ => False

/-- The data of a piece, as far as it was received, in the order of arrival. -/
def pieceData (s : Transfer) (i : Nat) : Bytes := (s.completed.filter fun b => b.index = i).flatMap (·.data)

/-- The part of the contents that a request asks for. -/
def contents (t : Torrent) (S : Bytes) (r : Request) : Bytes := (S.drop (r.index * t.pieceLength + r.start)).take r.length

end Ngfs.Spec.Torrent
