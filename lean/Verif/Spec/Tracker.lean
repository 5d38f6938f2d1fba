import Verif.Model.Tracker
import Verif.Spec.Binary

/-! The datagrams of BEP 15. Of the model only the types of results are used. -/
namespace Ngfs.Spec.Tracker
open Ngfs.Tracker

/-- A number in big-endian form. -/
def Num (w n : Nat) (bs : Bytes) : Prop := bs.length = w ∧ bigEndian bs = n

/-- The parts one after the other, of the given widths and values. -/
inductive Nums : List (Nat × Nat) → Bytes → Prop
  | nil : Nums [] []
  | cons {w n b ws bs} : Num w n b → Nums ws bs → Nums ((w, n) :: ws) (b ++ bs)

/-- connect request: protocol, action 0, transaction. -/
def ConnectRequest (t : Nat) (bs : Bytes) : Prop := Nums [(8, 0x41727101980), (4, 0), (4, t)] bs

/-- connect response: action 0, transaction, connection. -/
def ConnectResponse (t c : Nat) (bs : Bytes) : Prop := Nums [(4, 0), (4, t), (8, c)] bs

/-- IPv4 announce request: connection, action 1, transaction, hash, peer, downloaded, left, uploaded, event, IP address, key, number wanted, port. -/
def AnnounceRequest (r : Request) (bs : Bytes) : Prop :=
  ∃ a b, Nums [(8, r.connectionId), (4, r.action), (4, r.transactionId)] a ∧ r.infoHash.length = 20 ∧ r.peerId.length = 20 ∧
    Nums [(8, r.downloaded), (8, r.left), (8, r.uploaded), (4, r.event), (4, r.ipAddress), (4, r.key), (4, r.numWant), (2, r.port)] b ∧
    bs = a ++ r.infoHash ++ r.peerId ++ b

/-- The numbers fit their fields. -/
def Request.Fits (r : Request) : Prop :=
  r.connectionId < 2 ^ 64 ∧ r.action < 2 ^ 32 ∧ r.transactionId < 2 ^ 32 ∧ r.infoHash.length = 20 ∧ r.peerId.length = 20 ∧ r.downloaded < 2 ^ 64 ∧
    r.left < 2 ^ 64 ∧ r.uploaded < 2 ^ 64 ∧ r.event < 2 ^ 32 ∧ r.ipAddress < 2 ^ 32 ∧ r.key < 2 ^ 32 ∧ r.numWant < 2 ^ 32 ∧ r.port < 2 ^ 16

/-- An address and a port. -/
def Peer (p : Nat × Nat) (bs : Bytes) : Prop := Nums [(4, p.1), (2, p.2)] bs

/-- IPv4 announce response: action 1, transaction, interval, leechers, seeders, and peers. -/
def AnnounceResponse (a : Announce) (bs : Bytes) : Prop :=
  ∃ h ps, Nums [(4, 1), (4, a.transactionId), (4, a.interval), (4, a.leechers), (4, a.seeders)] h ∧ List.Forall₂ Peer a.peers ps ∧ bs = h ++ ps.flatten

end Ngfs.Spec.Tracker
