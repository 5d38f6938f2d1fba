import Verif.Model.Slice
import Verif.Model.Binary

/-!
UDP trackers (BEP 15): `src/bin/torrent_client.rs` 92-360 and `src/bin/tracker.rs`. Random numbers are arguments; the network is the
datagrams that are received. Sending succeeds.
-/
namespace Ngfs.Tracker
open Binary

/-- Why an exchange fails. `panic` is a Rust panic (arithmetic overflow). -/
inductive Err where
  | length
  | action
  | transaction
  | exit
  | panic
deriving DecidableEq, Repr

/-- `recv_from` into a buffer of `n` bytes: the rest of a longer datagram is lost. -/
def receive (n : Nat) (datagram : Bytes) : Bytes := datagram.take n

/-! ### torrent_client.rs -/

/-- What `open_tracker_connection` sends, torrent_client.rs 106-109. -/
def connectRequest (transactionId : Nat) : Bytes :=
  beBytes 8 0x41727101980 ++ beBytes 4 0 ++ beBytes 4 transactionId

/-- The checks of `open_tracker_connection`, torrent_client.rs 118-149, on the datagram received. -/
def checkConnectResponse (transactionId : Nat) (datagram : Bytes) : Except Err Nat :=
  let buf := receive 4096 datagram
  if buf.length ≠ 16 then .error .length
  else if beNat (slice buf 0 4) ≠ 0 then .error .action
  else if beNat (slice buf 4 8) ≠ transactionId then .error .transaction
  else .ok (beNat (slice buf 8 16))

/-- What `send_tracker_request` sends, torrent_client.rs 177-208. -/
def announceRequest (connectionId transactionId : Nat) (infoHash : Bytes) (port : Nat) : Bytes :=
  beBytes 8 connectionId ++ beBytes 4 1 ++ beBytes 4 transactionId ++ infoHash ++ List.replicate 20 0 ++ beBytes 8 0 ++ beBytes 8 0 ++ beBytes 8 0 ++
    beBytes 4 0 ++ beBytes 4 0 ++ beBytes 4 0 ++ beBytes 4 (2 ^ 32 - 1) ++ beBytes 2 port

/-- `AnnounceResponse`, torrent_client.rs 285-291. A peer is its address and port. -/
structure Announce where
  transactionId : Nat
  interval : Nat
  leechers : Nat
  seeders : Nat
  peers : List (Nat × Nat)
deriving DecidableEq, Repr

/-- The loop over the peers, torrent_client.rs 337-354, from the bytes at `offset` on. -/
def peerList (data : Bytes) : List (Nat × Nat) :=
  if 6 ≤ data.length then (beNat (slice data 0 4), beNat (slice data 4 6)) :: peerList (data.drop 6) else []
termination_by data.length
decreasing_by rw [List.length_drop]; omega

/-- `AnnounceResponse::parse`, torrent_client.rs 294-357. -/
def parseAnnounce (data : Bytes) : Except Err Announce :=
  if data.length < 4 then .error .length
  else if beNat (slice data 0 4) ≠ 1 then .error .action
  else if data.length < 20 then .error .length
  else .ok ⟨beNat (slice data 4 8), beNat (slice data 8 12), beNat (slice data 12 16), beNat (slice data 16 20), peerList (data.drop 20)⟩

/-- `run_with_tracker`, torrent_client.rs 233-282, after the addresses are resolved: the datagrams sent, and the result. `t1` and `t2` are the
random transaction numbers, `d1` and `d2` the datagrams received. -/
def runWithTracker (infoHash : Bytes) (port t1 t2 : Nat) (d1 d2 : Bytes) : List Bytes × Except Err Announce :=
  match checkConnectResponse t1 d1 with
  | .error e => ([connectRequest t1], .error e)
  | .ok connectionId => ([connectRequest t1, announceRequest connectionId t2 infoHash port], parseAnnounce (receive 4096 d2))

/-! ### tracker.rs -/

/-- `AnnounceRequest`, tracker.rs 42-56; `numWant` as the 32 bits of an `i32`. -/
structure Request where
  connectionId : Nat
  action : Nat
  transactionId : Nat
  infoHash : Bytes
  peerId : Bytes
  downloaded : Nat
  left : Nat
  uploaded : Nat
  event : Nat
  ipAddress : Nat
  key : Nat
  numWant : Nat
  port : Nat
deriving DecidableEq, Repr

/-- `buf[a..a + bs.len()].copy_from_slice(bs)`, within bounds. -/
def setSlice (buf : Bytes) (a : Nat) (bs : Bytes) : Bytes := buf.take a ++ bs ++ buf.drop (a + bs.length)

/-- `AnnounceRequest::to_bytes`, tracker.rs 59-88. -/
def Request.toBytes (r : Request) : Bytes :=
  let b := List.replicate 98 0
  let b := setSlice b 0 (beBytes 8 r.connectionId)
  let b := setSlice b 8 (beBytes 4 r.action)
  let b := setSlice b 12 (beBytes 4 r.transactionId)
  let b := setSlice b 16 r.infoHash
  let b := setSlice b 36 r.peerId
  let b := setSlice b 56 (beBytes 8 r.downloaded)
  let b := setSlice b 64 (beBytes 8 r.left)
  let b := setSlice b 72 (beBytes 8 r.uploaded)
  let b := setSlice b 80 (beBytes 4 r.event)
  let b := setSlice b 84 (beBytes 4 r.ipAddress)
  let b := setSlice b 88 (beBytes 4 r.key)
  let b := setSlice b 92 (beBytes 4 r.numWant)
  setSlice b 96 (beBytes 2 r.port)

/-- `ConnectResponse::from`, tracker.rs 29-39: action, transaction and connection. -/
def connectFrom (buf : Bytes) : Except Err (Nat × Nat × Nat) :=
  if buf.length ≠ 16 then .error .length
  else .ok (beNat (slice buf 0 4), beNat (slice buf 4 8), beNat (slice buf 8 16))

/-- The loop over the peers, tracker.rs 130-139: `20 + i * 6` is computed with 32 bits, slicing beyond the buffer panics. -/
def peersFrom (buf : Bytes) : Nat → Nat → Except Err (List (Nat × Nat))
  | 0, _ => .ok []
  | n + 1, i =>
    if 2 ^ 32 ≤ 20 + i * 6 then .error .panic
    else if buf.length < 20 + i * 6 + 6 then .error .panic
    else (peersFrom buf n (i + 1)).map fun ps =>
      (beNat (slice buf (20 + i * 6) (20 + i * 6 + 4)), beNat (slice buf (20 + i * 6 + 4) (20 + i * 6 + 6))) :: ps

/-- `AnnonuceResponse::from`, tracker.rs 107-149. -/
def announceFrom (buf : Bytes) : Except Err (Nat × Announce) :=
  if buf.length < 20 then .error .length
  else
    let action := beNat (slice buf 0 4)
    let leechers := beNat (slice buf 12 16)
    let seeders := beNat (slice buf 16 20)
    if action ≠ 1 then .error .action
    else
      let peerCount := leechers + seeders
      if 2 ^ 32 ≤ peerCount then .error .panic
      else if 2 ^ 32 ≤ peerCount * 6 then .error .panic
      else if 2 ^ 32 ≤ 20 + peerCount * 6 then .error .panic
      else if buf.length ≠ 20 + peerCount * 6 then .error .length
      else (peersFrom buf peerCount 0).map fun peers => (action, ⟨beNat (slice buf 4 8), beNat (slice buf 8 12), leechers, seeders, peers⟩)

/-- The exchange of `main`, tracker.rs 208-279: the datagrams sent, and the result. `t` is the random transaction number. -/
def exchange (infoHash peerId : Bytes) (t : Nat) (d1 d2 : Bytes) : List Bytes × Except Err (Nat × Announce) :=
  let request := setSlice (setSlice (setSlice (List.replicate 16 0) 0 (beBytes 8 0x41727101980)) 8 (beBytes 4 0)) 12 (beBytes 4 t)
  let buf := receive 1024 d1
  if buf.length ≠ 16 then ([request], .error .exit)
  else
    match connectFrom buf with
    | .error e => ([request], .error e)
    | .ok (_, _, connectionId) =>
      let r : Request := ⟨connectionId, 1, t, infoHash, peerId, 0, 0, 0, 0, 0x679996cb, 0, 2 ^ 32 - 1, 1234⟩
      ([request, r.toBytes], announceFrom (receive 65536 d2))

end Ngfs.Tracker
