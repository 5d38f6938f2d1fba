import Verif.Lemmas.PeerRun

/-! Claims C49, C50, C86-C90: downloading a torrent from a peer. -/
namespace Ngfs.Torrent
open Spec Spec.Torrent

/-! ## C49: the requests tile the torrent -/

/-- C49: for every torrent file that is accepted, the requests tile the torrent. -/
def C49_statement : Prop :=
  ∀ (sha1 : Bytes → Bytes) (data : Bytes) (t : Torrent), fromBytes sha1 data = .ok t → ∃ s, Transfer.new t = .ok s ∧ Tiles t s.pending

/-- `d13:announce-listle4:infod5:filesle4:name1:a12:piece lengthi1e6:pieces40:` and forty zero bytes, `ee`. -/
def emptyTorrent : Bytes :=
  utf8Encode "d13:announce-listle4:infod5:filesle4:name1:a12:piece lengthi1e6:pieces40:" ++ List.replicate 40 0 ++ utf8Encode "ee"

/-- C49 is false: a torrent with more pieces than its files need is accepted, and stops the program. -/
theorem C49_false : ¬ C49_statement := by
  intro h
  have hb : fromBytes (fun _ => []) emptyTorrent = .ok ⟨[], "a", [], [], 1, [List.replicate 20 0, List.replicate 20 0], 0⟩ := by decide +kernel
  obtain ⟨s, hs, -⟩ := h _ _ _ hb
  revert hs
  have : Transfer.new ⟨[], "a", [], [], 1, [List.replicate 20 0, List.replicate 20 0], 0⟩ = .error .panic := by decide
  rw [this]
  simp

/-- C49, for torrents in which all pieces but the last are full, with pieces of at most 2^32 bytes, and at most 2^32 of them.
Missing: other torrents, for which it is false. -/
theorem C49_tiles_partial (t : Torrent) (hc : Consistent t) (hp : t.pieceLength ≤ 2 ^ 32) (hn : t.pieces.length ≤ 2 ^ 32) :
    ∃ s, Transfer.new t = .ok s ∧ Tiles t s.pending :=
  ⟨_, new_ok hc, new_tiles hc hp hn (new_ok hc)⟩

/-- C49: whatever is started and completed, each request of the transfer is pending, active or complete, and just once. -/
theorem C49_conserved (s : Transfer) (ops : List Op) : (allRequests (run s ops)).Perm (allRequests s) := (run_perm ops s).1

/-- C49: and that is all a peer can do, whatever it sends. -/
theorem C49_any_peer (s : Transfer) (peerId : Bytes) (broken : Bool) (chunks : List Bytes) :
    (allRequests (doPeer s peerId broken chunks).transfer).Perm (allRequests s) := by
  obtain ⟨ops, h⟩ := doPeer_run s peerId broken chunks
  rw [h]
  exact C49_conserved s ops

/-- C49: once no request is left, each byte of the torrent is in exactly one block received, and nothing else is. If the blocks carry the
contents they were asked for, all of the contents have been received. -/
theorem C49_complete_partial (t : Torrent) (s : Transfer) (ops : List Op) (S : Bytes) (hc : Consistent t) (hp : t.pieceLength ≤ 2 ^ 32)
    (hn : t.pieces.length ≤ 2 ^ 32) (hs : Transfer.new t = .ok s) (h1 : (run s ops).pending = []) (h2 : (run s ops).active = []) :
    (∀ i o, (run s ops).completed.countP (fun b => decide (Request.Has i o (answered b))) = if HasByte t i o then 1 else 0) ∧
    ((∀ b ∈ (run s ops).completed, b.data = contents t S (answered b)) → ∀ i o b, b ∈ (run s ops).completed →
      Request.Has i o (answered b) → b.data[o - b.start]? = S[i * t.pieceLength + o]?) := by
  constructor
  · intro i o
    have hperm := C49_conserved s ops
    obtain ⟨-, ha, hco, -⟩ := new_parts hs
    rw [allRequests, h1, h2, allRequests, ha, hco] at hperm
    simp only [List.nil_append, List.map_nil, List.append_nil] at hperm
    rw [← (new_tiles hc hp hn hs).1 i o, ← hperm.countP_eq, List.countP_map]
    rfl
  · rintro hd i o b hb ⟨g1, g2, g3⟩
    have := hd b hb
    simp only [answered] at g1 g2 g3
    rw [this, contents, List.getElem?_take_of_lt (by simp only [answered]; omega), List.getElem?_drop]
    simp only [answered]
    rw [← g1]
    congr 1
    omega

/-- C49: pieces of more than 2^32 bytes are not tiled: their first byte is in two requests, since only the low 32 bits of a position
are sent. -/
theorem C49_large_pieces (t : Torrent) (s : Transfer) (hc : Consistent t) (hp : 2 ^ 32 < t.pieceLength) (hn : 2 ≤ t.pieces.length)
    (hs : Transfer.new t = .ok s) : 2 ≤ s.pending.countP (fun r => decide (Request.Has 0 0 r)) := by
  have key : ∀ (L n start : Nat), 2 ^ 32 < L → start ≤ 2 ^ 32 → start % 16384 = 0 → (L - start) / 16384 + 1 ≤ n →
      (if start = 0 then 2 else 1) ≤ (blockLoop 0 L n start).countP (fun r => decide (Request.Has 0 0 r)) := by
    intro L n
    induction n with
    | zero => intro start _ _ _ h; omega
    | succ n ih =>
      intro start hL hle hm hn
      have hlt : start < L := by omega
      rw [blockLoop, if_pos hlt]
      simp only
      rw [List.countP_cons]
      by_cases h32 : start = 2 ^ 32
      · rw [if_neg (by omega)]
        have : decide (Request.Has 0 0 ⟨0 % 2 ^ 32, start % 2 ^ 32, min 16384 (L - start) % 2 ^ 32⟩) = true := by
          rw [decide_eq_true_eq]
          refine ⟨rfl, ?_, ?_⟩ <;> simp only <;> omega
        rw [this]
        simp
      · have e : start + min 16384 (L - start) = start + 16384 := by omega
        rw [e]
        have := ih (start + 16384) hL (by omega) (by omega) (by omega)
        rw [if_neg (by omega)] at this
        split
        · have h0 : decide (Request.Has 0 0 ⟨0 % 2 ^ 32, start % 2 ^ 32, min 16384 (L - start) % 2 ^ 32⟩) = true := by
            rw [decide_eq_true_eq]
            refine ⟨rfl, ?_, ?_⟩ <;> simp only <;> omega
          rw [h0]
          simp only [if_true]
          omega
        · omega
  rw [new_ok hc] at hs
  injection hs with hs
  subst hs
  simp only
  obtain ⟨n, hn'⟩ : ∃ n, t.pieces.length = n + 1 := ⟨t.pieces.length - 1, by omega⟩
  rw [hn', List.range_succ_eq_map, List.flatMap_cons, List.countP_append]
  have hl : pieceLen t 0 = t.pieceLength := by unfold pieceLen; rw [if_neg (by omega)]
  have := key (pieceLen t 0) (pieceLen t 0 / 16384 + 1) 0 (by rw [hl]; exact hp) (by omega) rfl (by omega)
  rw [if_pos rfl] at this
  omega

/-- C49: the conditions can be met: three pieces of 20000 bytes, the last of 5 bytes. -/
def smallTorrent : Torrent := ⟨List.replicate 20 1, "a", [], [⟨40005, "f"⟩], 20000, [[1], [2], [3]], 40005⟩

example : Consistent smallTorrent := ⟨by decide, by decide, by decide⟩

example : Transfer.new smallTorrent = .ok ⟨smallTorrent, [⟨0, 0, 16384⟩, ⟨0, 16384, 3616⟩, ⟨1, 0, 16384⟩, ⟨1, 16384, 3616⟩, ⟨2, 0, 5⟩], [], []⟩ := by
  decide

/-! ## C50: peer messages -/

/-- C50: whatever the peer sends, the client does not panic. -/
def C50_statement : Prop :=
  ∀ (s : Transfer) (peerId : Bytes) (broken : Bool) (chunks : List Bytes), (doPeer s peerId broken chunks).outcome ≠ .panic

/-- A handshake. -/
def sampleHandshake : Bytes := encodeHandshake (List.replicate 20 1) (List.replicate 20 2)

/-- C50 is false: a peer that asks for a block stops the program. -/
theorem C50_false : ¬ C50_statement := by
  intro h
  apply h ⟨smallTorrent, [], [], []⟩ [] false [sampleHandshake, [0, 0, 0, 13, 6, 0, 0, 0, 0, 0, 0, 0, 0, 0, 0, 64, 0]]
  decide +kernel

/-- C50: how the bytes are split makes no difference: to the messages received, to the transfer, to what is sent and to how the
connection ends. -/
theorem C50_chunking (s : Transfer) (peerId : Bytes) (broken : Bool) (chunks chunks' : List Bytes) (h : ∀ ch ∈ chunks, ch ≠ [])
    (h' : ∀ ch ∈ chunks', ch ≠ []) (he : chunks.flatten = chunks'.flatten) :
    doPeer s peerId broken chunks = doPeer s peerId broken chunks' := by
  rw [doPeer_chunks s peerId broken chunks h, doPeer_chunks s peerId broken chunks' h', he]

/-- C50: the messages received are those the bytes carry, in order, and the connection ends for a reason: the bytes are used up, or break
the rules, or panic. -/
theorem C50_received (s : Transfer) (peerId : Bytes) (broken : Bool) (chunks : List Bytes) (h : ∀ ch ∈ chunks, ch ≠ []) :
    ∃ bs rest, chunks.flatten = bs ++ rest ∧ Arrived (doPeer s peerId broken chunks).received bs ∧
      Ended s.torrent broken (doPeer s peerId broken chunks).received rest (doPeer s peerId broken chunks).outcome := by
  rw [doPeer_chunks s peerId broken chunks h]
  generalize chunks.flatten = data
  generalize hc : ({ Conn.new s.torrent.pieces.length with incoming := data } : Conn) = c
  have hh : c.receivedHandshake = false := by rw [← hc]; rfl
  have hi : c.incoming = data := by rw [← hc]
  rcases next_handshake hh with ⟨g, g1⟩ | ⟨g, g1, g2⟩ | ⟨reserved, infoHash, pid, bs, rest, hw, hb, hl, g⟩
  · rw [hi] at g
    refine ⟨[], data, rfl, ?_⟩
    rw [peerLoop, g1]
    refine ⟨.nothing, ?_⟩
    cases broken <;> simp [Ended, g]
  · rw [hi] at g g2
    refine ⟨[], data, rfl, ?_⟩
    rw [peerLoop, g1]
    refine ⟨.nothing, ?_⟩
    simp only [Ended, if_true]
    exact ⟨g, g2⟩
  · rw [← hc] at hb
    simp only at hb
    subst hb
    rw [← hc, loop_handshake broken _ s _ reserved infoHash pid bs rest _ hw]
    obtain ⟨ms', ws, rest', g1, g2, g3, g4, g5⟩ := loop_sound s.torrent broken (bs ++ rest).length s
      { Conn.new s.torrent.pieces.length with incoming := rest, receivedHandshake := true } (encodeHandshake s.torrent.infoHash peerId)
      [.handshake reserved infoHash pid] rfl rfl rfl (by simp) (by simp only [List.length_append]; omega)
    simp only at g2
    refine ⟨bs ++ ws.flatten, rest', by rw [g2, List.append_assoc], ?_, ?_⟩
    · rw [g1]
      exact .handshake hw g3 g4
    · rw [g1]
      exact g5

/-- C50: messages that arrive complete are received, whatever arrives behind them; and if nothing complete is behind them, the connection
goes on until the peer ends it. (Bit fields of the wrong size end the connection.) -/
theorem C50_complete (s : Transfer) (peerId : Bytes) (broken : Bool) (chunks : List Bytes) (ms : List Message) (bs rest : Bytes)
    (h : ∀ ch ∈ chunks, ch ≠ []) (hd : chunks.flatten = bs ++ rest) (hm : Arrived ms bs) (hb : ∀ m ∈ ms, ¬ BadBitField s.torrent m) :
    ms <+: (doPeer s peerId broken chunks).received ∧ (ms ≠ [] → Incomplete rest →
      (doPeer s peerId broken chunks).received = ms ∧ (doPeer s peerId broken chunks).outcome = if broken then .broken else .finished) := by
  rw [doPeer_chunks s peerId broken chunks h, hd]
  cases hm with
  | nothing => exact ⟨List.nil_prefix, fun h => (h rfl).elim⟩
  | @handshake reserved infoHash pid hs ms ws hw hws hsup =>
    rw [List.append_assoc, loop_handshake broken _ s _ reserved infoHash pid hs _ _ hw]
    obtain ⟨out, s', c', hall⟩ := handleAll_ok (t := s.torrent) ms s
      { Conn.new s.torrent.pieces.length with incoming := ws.flatten ++ rest, receivedHandshake := true } rfl rfl
      (fun m hm => hb m (by simp [hm]))
    obtain ⟨n', c2, g1, g2, g3, g4, g5⟩ := loop_complete broken ms ws (hs ++ (ws.flatten ++ rest)).length s s' _ c'
      (encodeHandshake s.torrent.infoHash peerId) out rest [.handshake reserved infoHash pid] hws hsup rfl rfl hall (by
        have : 0 < hs.length := by rw [hw.2.2.2]; simp
        simp only [List.length_append] at *; omega)
    rw [g1]
    refine ⟨loop_prefix .., fun _ hinc => ?_⟩
    obtain ⟨n', rfl⟩ : ∃ k, n' = k + 1 := ⟨n' - 1, by omega⟩
    rw [peerLoop]
    rcases next_cases g3 with ⟨m, b, r, e1, e2, e3, -, -⟩ | ⟨e1, -⟩ | ⟨e, len, id, body, r, -, e2, e3, -, -⟩
    · rw [← g2, e2] at hinc; exact (not_incomplete e3 hinc).elim
    · simp only [e1]; exact ⟨rfl, trivial⟩
    · rw [← g2, e2] at hinc; exact (not_incomplete_frame e3 hinc).elim

/-- C50, except for the messages that do make the client panic: a request, a cancellation, a port, and a `piece` message of less than
eight bytes. -/
theorem C50_panics_partial (s : Transfer) (peerId : Bytes) (broken : Bool) (chunks : List Bytes) (h : ∀ ch ∈ chunks, ch ≠ [])
    (hp : (doPeer s peerId broken chunks).outcome = .panic) :
    ∃ bs rest, chunks.flatten = bs ++ rest ∧ Arrived (doPeer s peerId broken chunks).received bs ∧ Starts Panics rest := by
  obtain ⟨bs, rest, h1, h2, h3⟩ := C50_received s peerId broken chunks h
  rw [hp] at h3
  exact ⟨bs, rest, h1, h2, h3.2⟩

/-- C50: the handshake sent is one that is received. -/
theorem C50_handshake (infoHash peerId : Bytes) (h1 : infoHash.length = 20) (h2 : peerId.length = 20) :
    Arrived [.handshake (List.replicate 8 0) infoHash peerId] (encodeHandshake infoHash peerId) := by
  have : HandshakeWire (List.replicate 8 0) infoHash peerId (encodeHandshake infoHash peerId) :=
    ⟨by simp, h1, h2, by rw [encodeHandshake, protocolName_eq]; simp⟩
  simpa using Arrived.handshake (ms := []) (ws := []) this .nil (by simp)

/-- C50: messages cut in the middle of a length. -/
example : (doPeer ⟨smallTorrent, [⟨0, 0, 2⟩], [], []⟩ (List.replicate 20 3) false
    [sampleHandshake ++ [0, 0, 0], [1, 1, 0], [0, 0, 0, 0, 0, 0, 11, 7, 0, 0, 0, 0, 0], [0, 0, 0, 8, 9, 0]]).received =
    [.handshake (List.replicate 8 0) (List.replicate 20 1) (List.replicate 20 2), .unchoke, .keepAlive, .piece 0 0 [8, 9]] := by
  decide +kernel

/-! ## C86: verification of pieces -/

/-- C86: when a download is complete, every piece has the hash the torrent tells. -/
def C86_statement : Prop :=
  ∀ (sha1 : Bytes → Bytes) (t : Torrent) (s : Transfer) (peerId : Bytes) (broken : Bool) (chunks : List Bytes), Transfer.new t = .ok s →
    Consistent t → (doPeer s peerId broken chunks).transfer.pending = [] → (doPeer s peerId broken chunks).transfer.active = [] →
    ∀ i, i < t.pieces.length → t.pieces[i]? = some (sha1 (pieceData (doPeer s peerId broken chunks).transfer i))

/-- C86 is false: hashes are not looked at. (Here the hash of data is the data itself.) -/
theorem C86_false : ¬ C86_statement := by
  intro h
  have := h id ⟨List.replicate 20 1, "a", [], [⟨1, "f"⟩], 1, [[7]], 1⟩ ⟨⟨List.replicate 20 1, "a", [], [⟨1, "f"⟩], 1, [[7]], 1⟩, [⟨0, 0, 1⟩], [], []⟩ []
    false [sampleHandshake, [0, 0, 0, 1, 1], [0, 0, 0, 10, 7, 0, 0, 0, 0, 0, 0, 0, 0, 8]] (by decide) ⟨by decide, by decide, by decide⟩
    (by decide +kernel) (by decide +kernel) 0 (by decide)
  revert this
  decide +kernel

/-- C86: what is checked of a block is that it has been asked for and has the length asked for. -/
theorem C86_asked_for_partial (t : Torrent) (s : Transfer) (peerId : Bytes) (broken : Bool) (chunks : List Bytes) (hs : Transfer.new t = .ok s) :
    ∀ b ∈ (doPeer s peerId broken chunks).transfer.completed, answered b ∈ s.pending := by
  intro b hb
  have hperm := C49_any_peer s peerId broken chunks
  obtain ⟨-, ha, hc, -⟩ := new_parts hs
  have : answered b ∈ allRequests s := by
    rw [← hperm.mem_iff]
    simp only [allRequests, List.mem_append, List.mem_map]
    exact .inr ⟨b, hb, rfl⟩
  simpa [allRequests, ha, hc] using this

/-! ## C87: the torrent of the peer -/

/-- C87: messages are exchanged only with a peer that serves the same torrent. -/
def C87_statement : Prop :=
  ∀ (s : Transfer) (peerId : Bytes) (broken : Bool) (chunks : List Bytes) (reserved infoHash pid : Bytes) (ms : List Message),
    (doPeer s peerId broken chunks).received = .handshake reserved infoHash pid :: ms → ms ≠ [] → infoHash = s.torrent.infoHash

/-- C87 is false: the hash in the handshake is not compared. -/
theorem C87_false : ¬ C87_statement := by
  intro h
  have hs : (doPeer ⟨{ smallTorrent with infoHash := List.replicate 20 9 }, [⟨0, 0, 1⟩], [], []⟩ [] false
      [sampleHandshake, [0, 0, 0, 1, 1]]).received = [.handshake (List.replicate 8 0) (List.replicate 20 1) (List.replicate 20 2), .unchoke] := by
    decide +kernel
  have := h _ _ _ _ _ _ _ _ hs (by simp)
  revert this
  decide

/-- C87: what does hold: nothing is exchanged with a peer that does not begin with a handshake of this protocol. -/
theorem C87_protocol_partial (s : Transfer) (peerId : Bytes) (broken : Bool) (chunks : List Bytes) (h : ∀ ch ∈ chunks, ch ≠ [])
    (hr : (doPeer s peerId broken chunks).received ≠ []) :
    ∃ reserved infoHash pid bs rest, HandshakeWire reserved infoHash pid bs ∧ chunks.flatten = bs ++ rest := by
  obtain ⟨bs, rest, h1, h2, -⟩ := C50_received s peerId broken chunks h
  generalize (doPeer s peerId broken chunks).received = ms at *
  cases h2 with
  | nothing => exact (hr rfl).elim
  | @handshake reserved infoHash pid hs ms ws hw _ _ => exact ⟨reserved, infoHash, pid, hs, ws.flatten ++ rest, hw, by rw [h1, List.append_assoc]⟩

/-! ## C88: what is sent -/

/-- C88: whatever the peer does, what is sent to it is the handshake followed by well-formed messages; the requests among them are those
of the transfer, in order, each at most once, and those not sent are still pending. -/
theorem C88_sent (t : Torrent) (s : Transfer) (peerId : Bytes) (broken : Bool) (chunks : List Bytes) (hs : Transfer.new t = .ok s)
    (hi : t.infoHash.length = 20) (hp : peerId.length = 20) :
    ∃ hsk outs ws k, (doPeer s peerId broken chunks).sent = hsk ++ ws.flatten ∧ HandshakeWire (List.replicate 8 0) t.infoHash peerId hsk ∧
      List.Forall₂ Wire outs ws ∧ (∀ m ∈ outs, Sendable m) ∧ requestsOf outs = s.pending.take k ∧
      (doPeer s peerId broken chunks).transfer.pending = s.pending.drop k := by
  obtain ⟨ht, -, -, hf⟩ := new_parts hs
  have hinv := doPeer_inv (P := fun s' sent _ => SentInv s (encodeHandshake s.torrent.infoHash peerId) s' sent)
    (fun s1 c sent ms m o s' c' h hm => sentInv_step hf h hm) (fun s1 c sent ms m h _ => h) s peerId broken chunks
    ⟨[], [], 0, by simp, .nil, by simp, by simp [requestsOf], by simp⟩
  obtain ⟨outs, ws, k, h1, h2, h3, h4, h5⟩ := hinv
  refine ⟨_, outs, ws, k, h1, ⟨by simp, hi, hp, ?_⟩, h2, h3, h4, h5⟩
  rw [ht, encodeHandshake, protocolName_eq]
  simp

/-- C88: the bytes sent tell the messages: the same bytes cannot be read as other messages. -/
theorem C88_unambiguous (m m' : Message) (bs bs' rest rest' : Bytes) (h : Wire m bs) (h' : Wire m' bs') (he : bs ++ rest = bs' ++ rest') :
    bs = bs' ∧ rest = rest' := by
  have key : ∀ {m : Message} {bs rest : Bytes}, Wire m bs → bs = (bs ++ rest).take (4 + bigEndian ((bs ++ rest).take 4)) := by
    intro m bs rest h
    cases h with
    | keepAlive => rfl
    | @body m len body hf hb =>
      obtain ⟨h1, h2⟩ := hf
      have t4 : (len ++ body ++ rest).take 4 = len := by
        rw [List.append_assoc, List.take_append_of_le_length (by omega), List.take_of_length_le (by omega)]
      rw [t4, h2, List.take_append_of_le_length (by rw [List.length_append]; omega), List.take_of_length_le (by rw [List.length_append]; omega)]
  have e : bs = bs' := by rw [key (rest := rest) h, he, ← key h']
  subst e
  exact ⟨rfl, List.append_cancel_left he⟩

example : (doPeer ⟨smallTorrent, [⟨0, 0, 2⟩, ⟨0, 2, 1⟩], [], []⟩ (List.replicate 20 3) false [sampleHandshake, [0, 0, 0, 1, 1]]).sent =
    encodeHandshake (List.replicate 20 1) (List.replicate 20 3) ++ [0, 0, 0, 13, 6, 0, 0, 0, 0, 0, 0, 0, 0, 0, 0, 0, 2] ++
      [0, 0, 0, 13, 6, 0, 0, 0, 0, 0, 0, 0, 2, 0, 0, 0, 1] ++ [0, 0, 0, 1, 3] := by decide +kernel

/-! ## C89: outstanding requests -/

/-- C89: no more than 100 requests are outstanding. -/
def C89_statement : Prop :=
  ∀ (t : Torrent) (s : Transfer) (peerId : Bytes) (broken : Bool) (chunks : List Bytes), Transfer.new t = .ok s →
    (doPeer s peerId broken chunks).transfer.active.length ≤ 100

/-- A torrent of 101 pieces of one byte. -/
def manyPieces : Torrent := ⟨List.replicate 20 1, "a", [], [⟨101, "f"⟩], 1, List.replicate 101 [7], 101⟩

/-- C89 is false: it is 101. -/
theorem C89_false : ¬ C89_statement := by
  intro h
  have hs : Transfer.new manyPieces = .ok ⟨manyPieces, (List.range 101).map fun i => ⟨i, 0, 1⟩, [], []⟩ := by decide +kernel
  have := h _ _ [] false [sampleHandshake, [0, 0, 0, 1, 1]] hs
  revert this
  decide +kernel

/-- C89, with 101. -/
theorem C89_at_most_101_partial (t : Torrent) (s : Transfer) (peerId : Bytes) (broken : Bool) (chunks : List Bytes)
    (hs : Transfer.new t = .ok s) : (doPeer s peerId broken chunks).transfer.active.length ≤ 101 := by
  obtain ⟨-, ha, -, -⟩ := new_parts hs
  refine doPeer_inv (P := fun s' _ _ => s'.active.length ≤ 101) ?_ (fun _ _ _ _ _ h _ => h) s peerId broken chunks (by simp [ha])
  intro s1 c sent ms m o s' c' h hm
  rcases handle_cases hm with ⟨-, -, rfl⟩ | ⟨i, b, d, -, -, rfl⟩ | ⟨-, -, rfl, -⟩
  · exact (requestLoop_active s1 h).1
  · exact (requestLoop_active _ (Nat.le_trans (complete_active s1 i b d).1 h)).1
  · exact h

/-! ## C90: progress -/

/-- C90: once the peer has allowed requests, the client always has a request outstanding until there is nothing left to ask for. -/
theorem C90_never_idle (t : Torrent) (s : Transfer) (peerId : Bytes) (broken : Bool) (chunks : List Bytes) (hs : Transfer.new t = .ok s)
    (hu : .unchoke ∈ (doPeer s peerId broken chunks).received) (ha : (doPeer s peerId broken chunks).transfer.active = []) :
    (doPeer s peerId broken chunks).transfer.pending = [] := by
  obtain ⟨-, ha0, -, -⟩ := new_parts hs
  have := doPeer_inv (P := fun s' _ ms => s'.active.length ≤ 101 ∧ (.unchoke ∈ ms → s'.active = [] → s'.pending = [])) ?_ ?_ s peerId broken chunks
    ⟨by simp [ha0], by simp⟩
  · exact this.2 hu ha
  · intro s1 c sent ms m o s' c' ⟨h1, h2⟩ hm
    rcases handle_cases hm with ⟨-, -, rfl⟩ | ⟨i, b, d, -, -, rfl⟩ | ⟨h3, -, rfl, -⟩
    · exact ⟨(requestLoop_active s1 h1).1, fun _ => (requestLoop_active s1 h1).2⟩
    · have := requestLoop_active _ (Nat.le_trans (complete_active s1 i b d).1 h1)
      exact ⟨this.1, fun _ => this.2⟩
    · refine ⟨h1, fun h => h2 ?_⟩
      rcases List.mem_append.mp h with h | h
      · exact h
      · rw [List.mem_singleton] at h; exact (h3 h.symm).elim
  · intro s1 c sent ms m ⟨h1, h2⟩ hm
    refine ⟨h1, fun h => h2 ?_⟩
    rcases List.mem_append.mp h with h | h
    · exact h
    · rw [List.mem_singleton] at h; subst h; rw [handle_requestLoop] at hm; simp at hm

/-- The pieces, sent in order, complete the requests. -/
theorem handle_in_order (blk : Request → Bytes) (c : Conn) : ∀ (L : List Request) (s : Transfer), s.active ++ s.pending = L →
    s.active.length = min 101 L.length → (∀ r ∈ L, (blk r).length = r.length) →
    ∃ out, handleAll s c (L.map fun r => .piece r.index r.start (blk r)) =
      .ok (out, ⟨s.torrent, [], [], s.completed ++ L.map fun r => ⟨r.index, r.start, blk r⟩⟩, c) := by
  intro L
  induction L with
  | nil =>
    intro s h _ _
    obtain ⟨h1, h2⟩ := List.append_eq_nil_iff.mp h
    refine ⟨[], ?_⟩
    simp only [List.map_nil, handleAll, List.append_nil]
    congr 3
    rcases s with ⟨t, p, a, cm⟩
    simp only at h1 h2
    simp [h1, h2]
  | cons r L ih =>
    intro s h hl hb
    rcases ha : s.active with _ | ⟨r', A⟩
    · rw [ha] at hl; simp only [List.length_nil, List.length_cons] at hl; omega
    · rw [ha] at h
      simp only [List.cons_append, List.cons.injEq] at h
      obtain ⟨rfl, hL⟩ := h
      have hcr : s.completeRequest r'.index r'.start (blk r') =
          { s with active := A, completed := s.completed ++ [⟨r'.index, r'.start, blk r'⟩] } := by
        have : s.active.findIdx? (matchesBlock r'.index r'.start (blk r').length) = some 0 := by
          rw [ha, List.findIdx?_cons, matchesBlock, hb r' (by simp)]
          simp
        simp only [Transfer.completeRequest, this]
        simp only [ha, List.eraseIdx_zero, List.tail_cons]
      have hAl : A.length ≤ 100 := by rw [ha] at hl; simp only [List.length_cons] at hl; omega
      rw [List.map_cons, handleAll, handle_piece, hcr, requestLoop_eq 102 _ (by omega)]
      simp only
      obtain ⟨out, ho⟩ := ih ⟨s.torrent, s.pending.drop (101 - A.length), A ++ s.pending.take (101 - A.length),
        s.completed ++ [⟨r'.index, r'.start, blk r'⟩]⟩ (by simp only; rw [List.append_assoc, List.take_append_drop]; exact hL)
        (by
          simp only [List.length_append, List.length_take]
          rw [← hL, List.length_append]
          omega)
        (fun r hr => hb r (by simp [hr]))
      refine ⟨(s.pending.take (101 - A.length)).flatMap queueRequest ++
        ((if s.pending.length < 101 - A.length then queueNotInterested else []) ++ out), ?_⟩
      rw [ho]
      simp only [Except.map, List.map_cons, List.append_assoc, List.cons_append, List.nil_append]

/-- C90: a peer that sends its handshake, allows requests and then sends each block asked for, in the order they were asked for: all of the
torrent is received, each block with the contents sent. -/
theorem C90_completes (t : Torrent) (s : Transfer) (S peerId hs hsk : Bytes) (reserved infoHash pid : Bytes) (us : Bytes) (ws : List Bytes)
    (broken : Bool) (chunks : List Bytes) (hc : Consistent t) (hp : t.pieceLength ≤ 2 ^ 32) (hn : t.pieces.length ≤ 2 ^ 32)
    (hS : S.length = t.totalLength) (hnew : Transfer.new t = .ok s) (hw : HandshakeWire reserved infoHash pid hsk) (hu : Wire .unchoke us)
    (hws : List.Forall₂ Wire (s.pending.map fun r => .piece r.index r.start (contents t S r)) ws)
    (hch : ∀ ch ∈ chunks, ch ≠ []) (hfl : chunks.flatten = hsk ++ us ++ ws.flatten) :
    (doPeer s peerId broken chunks).transfer.pending = [] ∧ (doPeer s peerId broken chunks).transfer.active = [] ∧
      (doPeer s peerId broken chunks).transfer.completed = s.pending.map fun r => ⟨r.index, r.start, contents t S r⟩ := by
  obtain ⟨ht, ha, hcm, -⟩ := new_parts hnew
  have htile := new_tiles hc hp hn hnew
  have hlen : ∀ r ∈ s.pending, (contents t S r).length = r.length := by
    intro r hr
    obtain ⟨h1, -⟩ := htile.2 r hr
    have hcount := htile.1 r.index (r.start + r.length - 1)
    have hpos : 0 < s.pending.countP (fun q => decide (Request.Has r.index (r.start + r.length - 1) q)) := by
      rw [List.countP_pos_iff]
      exact ⟨r, hr, by rw [decide_eq_true_eq]; exact ⟨rfl, by omega, by omega⟩⟩
    have hbyte : HasByte t r.index (r.start + r.length - 1) := by
      by_contra hno
      rw [if_neg hno] at hcount
      omega
    obtain ⟨-, h3⟩ := hbyte
    rw [contents, List.length_take, List.length_drop, hS]
    omega
  rw [doPeer_chunks s peerId broken chunks hch, hfl, List.append_assoc, loop_handshake broken _ s _ reserved infoHash pid hsk _ _ hw]
  -- the state after the permission
  obtain ⟨c, hcdef⟩ : ∃ c : Conn, c = { Conn.new s.torrent.pieces.length with incoming := us ++ ws.flatten, receivedHandshake := true } := ⟨_, rfl⟩
  rw [← hcdef]
  obtain ⟨out, ho⟩ := handle_in_order (contents t S) c s.pending (requestLoop 102 s).2
    (by rw [requestLoop_eq 102 s (by omega)]; simp only [ha, List.nil_append]; exact List.take_append_drop _ _)
    (by rw [requestLoop_eq 102 s (by omega)]; simp only [ha, List.nil_append, List.length_take, List.length_nil]) hlen
  have hst : (requestLoop 102 s).2.torrent = s.torrent ∧ (requestLoop 102 s).2.completed = [] := by
    rw [requestLoop_eq 102 s (by omega)]; exact ⟨rfl, hcm⟩
  have hall : handleAll s c (.unchoke :: s.pending.map fun r => .piece r.index r.start (contents t S r)) =
      .ok ((requestLoop 102 s).1 ++ out, ⟨s.torrent, [], [], s.pending.map fun r => ⟨r.index, r.start, contents t S r⟩⟩, c) := by
    rw [handleAll, handle_requestLoop]
    simp only [ho, Except.map, hst.1, hst.2, List.nil_append]
  have hsup : ∀ m ∈ (Message.unchoke :: s.pending.map fun r => .piece r.index r.start (contents t S r)), Supported m := by
    intro m hm
    rcases List.mem_cons.mp hm with rfl | hm
    · trivial
    · obtain ⟨r, -, rfl⟩ := List.mem_map.mp hm; trivial
  obtain ⟨n', c2, g1, g2, g3, g4, g5⟩ := loop_complete broken _ (us :: ws) (hsk ++ (us ++ ws.flatten)).length s _ c c
    (encodeHandshake s.torrent.infoHash peerId) _ [] [.handshake reserved infoHash pid] (.cons hu hws) hsup (by rw [hcdef])
    (by rw [hcdef]; simp) hall (by
      have : 0 < hsk.length := by rw [hw.2.2.2]; simp
      rw [hcdef]; simp only [List.length_append] at *; omega)
  rw [g1]
  obtain ⟨n', rfl⟩ : ∃ k, n' = k + 1 := ⟨n' - 1, by omega⟩
  rw [peerLoop]
  rcases next_cases g3 with ⟨m, b, r, e1, e2, e3, -, e4⟩ | ⟨e1, -⟩ | ⟨e, len, id, body, r, -, e2, e3, -, -⟩
  · rw [g2] at e2
    have : b = [] := (List.append_eq_nil_iff.mp e2.symm).1
    rw [this] at e4; simp at e4
  · simp only [e1]
    exact ⟨trivial, trivial, trivial⟩
  · rw [g2] at e2
    simp at e2

/-- C90: the same, with two blocks in three chunks. -/
example : (doPeer ⟨smallTorrent, [⟨0, 0, 2⟩, ⟨0, 2, 1⟩], [], []⟩ (List.replicate 20 3) false
    [sampleHandshake ++ [0, 0, 0, 1, 1, 0, 0], [0, 11, 7, 0, 0, 0, 0, 0, 0, 0, 0, 8, 9, 0, 0, 0, 10, 7, 0, 0], [0, 0, 0, 0, 0, 2, 5]]).transfer =
    ⟨smallTorrent, [], [], [⟨0, 0, [8, 9]⟩, ⟨0, 2, [5]⟩]⟩ := by decide +kernel

end Ngfs.Torrent
