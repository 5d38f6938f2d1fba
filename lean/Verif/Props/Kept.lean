import Verif.Props.Peer
import Verif.Props.Io
import Verif.Props.Chat

/-! C189, C190, C191: how much the torrent client, the chat server and the negotiation of protocols keep of what others send. -/

namespace Ngfs.Torrent
open Spec Spec.Torrent

theorem sum_perm {a b : List Nat} (h : a.Perm b) : a.sum = b.sum := by
  induction h with
  | nil => rfl
  | cons x _ ih => simp [ih]
  | swap x y l => simp only [List.sum_cons]; omega
  | trans _ _ h1 h2 => rw [h1, h2]

/-- **C189**: whatever a peer sends and however it arrives, the blocks that are kept have no more bytes together than all requests that were to be
made; and if the client waits for more, what it has received and not used yet is less than one message with the longest length that four bytes can
state. -/
theorem C189_kept (t : Torrent) (s : Transfer) (peerId : Bytes) (broken : Bool) (chunks : List Bytes) (hs : Transfer.new t = .ok s)
    (h : ∀ ch ∈ chunks, ch ≠ []) :
    ((doPeer s peerId broken chunks).transfer.completed.map (·.data.length)).sum ≤ (s.pending.map (·.length)).sum ∧
    ((doPeer s peerId broken chunks).outcome = .finished ∨ (doPeer s peerId broken chunks).outcome = .broken →
      ∃ used unused, chunks.flatten = used ++ unused ∧ Arrived (doPeer s peerId broken chunks).received used ∧ unused.length < 2 ^ 32 + 3) := by
  constructor
  · obtain ⟨-, ha, hco, -⟩ := new_parts hs
    have hp := sum_perm ((C49_any_peer s peerId broken chunks).map (·.length))
    rw [allRequests, allRequests, ha, hco] at hp
    simp only [List.append_nil, List.map_nil, List.map_append, List.sum_append, List.map_map] at hp
    have he : ((doPeer s peerId broken chunks).transfer.completed.map ((·.length) ∘ answered)) =
        (doPeer s peerId broken chunks).transfer.completed.map (·.data.length) := List.map_congr_left (fun _ _ => rfl)
    rw [he] at hp
    omega
  · intro ho
    obtain ⟨bs, rest, h1, h2, h3⟩ := C50_received s peerId broken chunks h
    refine ⟨bs, rest, h1, h2, ?_⟩
    have key : (if (doPeer s peerId broken chunks).received = [] then rest.length < 68 else Incomplete rest) := by
      rcases ho with ho | ho <;> rw [ho] at h3 <;> exact h3.2
    split at key
    · omega
    · rcases key with key | key
      · omega
      · have h4 := Binary.bigEndian_lt (rest.take 4)
        have h5 : 256 ^ (rest.take 4).length ≤ 256 ^ 4 := Nat.pow_le_pow_right (by decide) (by rw [List.length_take]; omega)
        omega

/-- **C189**: and that much may be kept: after the handshake, a peer announces a message of `n` bytes, of which all but the last are kept. -/
theorem C189_reached (s : Transfer) (peerId : Bytes) (broken : Bool) (reserved infoHash pid hsk len part : Bytes) (n : Nat)
    (hh : HandshakeWire reserved infoHash pid hsk) (hl : Field 4 n len) (hp : part.length < n) (chunks : List Bytes) (h : ∀ ch ∈ chunks, ch ≠ [])
    (hc : chunks.flatten = hsk ++ len ++ part) :
    (doPeer s peerId broken chunks).received = [.handshake reserved infoHash pid] ∧
    (doPeer s peerId broken chunks).outcome = if broken then .broken else .finished := by
  have ha : Arrived [.handshake reserved infoHash pid] hsk := by simpa using Arrived.handshake (ms := []) (ws := []) hh .nil (by simp)
  refine (C50_complete s peerId broken chunks _ hsk (len ++ part) h (by rw [hc, List.append_assoc]) ha (by simp [BadBitField])).2 (by simp) (.inr ?_)
  rw [List.take_left' hl.1, hl.2, List.length_append, hl.1]
  omega

/-- C189: two bytes of a message of which 65536 are announced. -/
example : (doPeer ⟨smallTorrent, [⟨0, 0, 2⟩], [], []⟩ (List.replicate 20 3) false [sampleHandshake ++ [0, 1], [0, 0, 5, 255]]).received =
    [.handshake (List.replicate 8 0) (List.replicate 20 1) (List.replicate 20 2)] := by decide +kernel

end Ngfs.Torrent

namespace Ngfs.Chat
open Spec.Chat

/-- The bytes that wait to be sent to a client. When its writer has ended, nothing waits (the queue is dropped). -/
def Conn.unsent (c : Conn) : Nat :=
  match c.writer with
  | .waiting => (c.queue.map fun m => match m with | .write d => d.length | .close => 0).sum
  | .writing rest => rest.length + (c.queue.map fun m => match m with | .write d => d.length | .close => 0).sum
  | .finished => 0

/-- C190: there is a number of bytes that no client makes the server keep for it. -/
def C190_statement : Prop := ∃ b : Nat, ∀ (lossy : Bytes → String) (as : List Action) (i : Nat), ((State.init.run lossy as).conn i).unsent ≤ b

/-- What happens when client 0, alone, says `A`, and takes nothing. -/
def oneRound : List Action := [.recv 0 [65], .list 0, .push 0, .push 0]

theorem texts_length (q : List WriterMessage) : (q.map fun m => match m with | .write d => d.length | .close => 0).sum = (texts q).length := by
  induction q with
  | nil => rfl
  | cons m q ih => cases m <;> simp [texts, ih]

theorem oneRound_run (lossy : Bytes → String) (s : State) (hl : s.connlist = [0]) (hr : (s.conn 0).reader = .waiting)
    (hw : (s.conn 0).writer = .waiting) :
    (s.run lossy oneRound).connlist = [0] ∧ ((s.run lossy oneRound).conn 0).reader = .waiting ∧ ((s.run lossy oneRound).conn 0).writer = .waiting ∧
    ((s.run lossy oneRound).conn 0).queue = (s.conn 0).queue ++ [.write (announcement lossy 0 [65])] := by
  simp [oneRound, State.run, State.step, State.set, hl, hr, hw, Conn.send]

theorem rounds_run (lossy : Bytes → String) (n : Nat) : ∀ (s : State), s.connlist = [0] → (s.conn 0).reader = .waiting → (s.conn 0).writer = .waiting →
    (s.conn 0).unsent + n ≤ ((s.run lossy (List.replicate n oneRound).flatten).conn 0).unsent := by
  induction n with
  | zero => intro s _ _ _; exact Nat.le_refl _
  | succ n ih =>
    intro s hl hr hw
    obtain ⟨h1, h2, h3, h4⟩ := oneRound_run lossy s hl hr hw
    rw [List.replicate_succ, List.flatten_cons, run_append]
    have h5 := ih _ h1 h2 h3
    have h6 : (s.conn 0).unsent + 1 ≤ ((s.run lossy oneRound).conn 0).unsent := by
      have := List.length_pos_iff.mpr (announcement_ne lossy 0 [65])
      unfold Conn.unsent
      rw [hw, h3, h4]
      simp only [List.map_append, List.sum_append, List.map_cons, List.map_nil, List.sum_cons, List.sum_nil]
      omega
    omega

/-- C190 is false: a client that takes nothing and goes on talking. -/
theorem C190_false : ¬ C190_statement := by
  rintro ⟨b, h⟩
  have h1 := h (fun _ => "") ([.accept, .join 0] ++ (List.replicate (b + 1) oneRound).flatten) 0
  rw [run_append] at h1
  have h2 := rounds_run (fun _ => "") (b + 1) (State.init.run (fun _ => "") [.accept, .join 0]) rfl rfl rfl
  omega

/-- C190, what holds: what the server keeps for a client whose writer has not ended is exactly the announcements made to it without what it has been
sent, and these are announcements of contiguous parts of what everybody said. Missing from C190: a limit to how far a client may be behind. -/
theorem C190_exact_partial (lossy : Bytes → String) (as : List Action) (i : Nat) :
    ∃ q : Talk, (((State.init.run lossy as).conn i).writer ≠ .finished →
      ((State.init.run lossy as).conn i).sent.length + ((State.init.run lossy as).conn i).unsent = (seen lossy q).length) ∧
      ∀ j, saidBy j q <:+: ((State.init.run lossy as).conn j).reads := by
  have h := (Inv.init lossy).run as
  generalize State.init.run lossy as = s at h
  have hR : ∀ j, ∃ l', l' <:+: (s.conn j).reads ∧ saidBy j (s.conn i).queued = l'.map (announcement lossy j) := by
    intro j
    apply infix_map
    rw [← (h.each j).reads]
    exact ((h.order i j).2).trans (List.prefix_append _ _).isInfix
  choose R hR1 hR2 using hR
  obtain ⟨q, h1, h2⟩ := talk_of (announcement lossy) _ R hR2
  refine ⟨q, fun hw => ?_, fun j => h2 j ▸ hR1 j⟩
  rw [seen_eq, h1, ← (h.each i).bytes hw, List.length_append, List.length_append]
  unfold Conn.unsent
  cases hc : (s.conn i).writer with
  | waiting => simp only [rest, texts_length, List.length_nil]; omega
  | writing r => simp only [rest, texts_length]; omega
  | finished => exact absurd hc hw

/-- C190: two words, of which one waits and five bytes of the other have been sent. -/
example : ((State.init.run (fun _ => "A") ([.accept, .join 0] ++ oneRound ++ oneRound ++ [.pop 0, .write 0 5])).conn 0).unsent = 37 := by
  decide +kernel

end Ngfs.Chat

namespace Ngfs.Io
open Varint Spec Spec.Io

/-- C191: negotiating a protocol or asking for the list of protocols, the client does not wait for more once the peer has sent 65546 bytes (a length
of ten bytes, and the 65536 bytes it may announce). -/
def C191_statement : Prop :=
  ∀ (r : Reader) (protocol : Bytes), (request r protocol).1 = .ready (.ok ()) → 65546 ≤ (view r).1.length →
    (select r protocol).1 ≠ .pending ∧ (list r).1 ≠ .pending

theorem listLoop_pending (fuel : Nat) : ∀ (r : Reader) (acc : List Bytes), scriptSize r.t.reads < fuel → (listLoop fuel r acc).1 = .pending →
    ∃ bs, view r = (bs, .silent) := by
  induction fuel with
  | zero => intro r acc h; omega
  | succ fuel ih =>
    intro r acc hf h
    have hs := readOptLengthPrefixed_spec r
    unfold listLoop readLengthPrefixed at h
    generalize readOptLengthPrefixed r = P at hs h
    obtain ⟨x, r1⟩ := P
    rcases x with _ | (k | (_ | p))
    · obtain ⟨bs, h1, -⟩ := hs
      exact ⟨bs, h1⟩
    · simp only [orEof] at h
      split at h <;> cases h
    · simp [orEof] at h
    · simp only [orEof] at h
      obtain ⟨m, hm, ht⟩ := hs.2 p rfl
      have hsz := ht.size
      have hpos := List.length_pos_iff.mpr (prefixed_ne_nil hm)
      obtain ⟨bs, h1⟩ := ih r1 _ (by omega) h
      obtain ⟨b0, e0, hv, hv1⟩ := ht.view
      rw [h1] at hv1
      cases hv1
      exact ⟨_, hv⟩

/-- C191, what holds: the list of protocols. Missing from C191: the answer to the choice of a protocol. -/
theorem C191_list_partial (r : Reader) (hreq : (request r lsMessage).1 = .ready (.ok ())) (h : (list r).1 = .pending) :
    (view r).1.length < 65546 := by
  have hv := request_view r lsMessage
  unfold list at h
  generalize request r lsMessage = Q at *
  obtain ⟨q, r1⟩ := Q
  simp only at hreq
  subst hreq
  simp only at h hv
  have hs := readOptVarint_spec r1
  unfold readVarint at h
  generalize readOptVarint r1 = V at *
  obtain ⟨x, r2⟩ := V
  rcases x with _ | (k | (_ | v))
  · obtain ⟨p, h1, h2⟩ := hs
    have := (feed_pending h2).2
    rw [← hv, h1]
    show p.length < 65546
    omega
  · simp [orEof] at h
  · simp [orEof] at h
  · simp only [orEof] at h
    obtain ⟨p, h1, h2, h3⟩ := hs
    simp only at h1 h3
    obtain ⟨hp1, hp2, hp3⟩ := feed_finished h3
    split at h
    · cases h
    · rename_i hle
      simp only at h
      obtain ⟨bs, h4⟩ := listLoop_pending _ (r2.take v) [] (Nat.lt_succ_self _) h
      obtain ⟨after, e, hv1, hv2⟩ := h1.view
      have h5 : view (r2.take v) = trunc v (after, e) := by rw [← hv2]; rfl
      rw [h5] at h4
      unfold trunc at h4
      split at h4
      · cases h4
      · rename_i hlt
        simp only at hlt
        rw [← hv, hv1]
        show (p ++ after).length < 65546
        rw [List.length_append]
        omega

/-- C191, what holds: if the choice of a protocol has to wait, the peer has sent less than one message. Missing from C191: a limit on the length it
announces, other than that of 64 bits. -/
theorem C191_select_partial (r : Reader) (protocol : Bytes) (hreq : (request r protocol).1 = .ready (.ok ()))
    (h : (select r protocol).1 = .pending) : Unfinished (view r).1 ∧ (view r).1.length < 2 ^ 64 + 10 := by
  have hv := request_view r protocol
  unfold select at h
  generalize request r protocol = Q at *
  obtain ⟨q, r1⟩ := Q
  simp only at hreq
  subst hreq
  simp only at h hv
  have hu : Unfinished (view r).1 := by
    have hs := readOptLengthPrefixed_spec r1
    unfold readLengthPrefixed at h
    generalize readOptLengthPrefixed r1 = P at hs h
    obtain ⟨x, r2⟩ := P
    rcases x with _ | (k | (_ | p))
    · obtain ⟨bs, h1, h2⟩ := hs
      rw [← hv, h1]
      exact h2
    · simp [orEof] at h
    · simp [orEof] at h
    · simp only [orEof] at h
      split at h
      · cases h
      · split at h <;> cases h
  refine ⟨hu, ?_⟩
  rcases hu with ⟨-, h2⟩ | ⟨p, data, h1, -, h3, h4⟩
  · omega
  · have : base128 p % 2 ^ 64 < 2 ^ 64 := Nat.mod_lt _ (by decide)
    rw [h1, List.length_append]
    omega

/-- A peer that announces 2^20 bytes and sends some. -/
def slowPeer (d : Bytes) : Reader := ⟨⟨[.ready ([128, 128, 64] ++ d)], [.accept 1], [.ok], [], []⟩, []⟩

theorem slowPeer_request (d : Bytes) : (request (slowPeer d) []).1 = .ready (.ok ()) := by
  have he : encodeU64 ([] : Bytes).length = [0] := by decide +kernel
  unfold request writeLengthPrefixed
  rw [he]
  rfl

theorem slowPeer_view (d : Bytes) : view (slowPeer d) = ([128, 128, 64] ++ d, .silent) := by
  show (([128, 128, 64] ++ d ++ [] : Bytes), End.silent) = _
  rw [List.append_nil]

theorem slowPeer_select (d : Bytes) (hd : d.length < 2 ^ 20) : (select (slowPeer d) []).1 = .pending := by
  have hv := request_view (slowPeer d) []
  have hreq := slowPeer_request d
  unfold select
  generalize request (slowPeer d) [] = Q at *
  obtain ⟨q, r1⟩ := Q
  simp only at hreq hv
  subst hreq
  have hu : Unfinished (([128, 128, 64] : Bytes) ++ d) :=
    .inr ⟨[128, 128, 64], d, rfl, ⟨[128, 128], 64, rfl, by decide, by decide⟩, by decide, by
      have : base128 ([128, 128, 64] : Bytes) % 2 ^ 64 = 2 ^ 20 := by decide +kernel
      rw [this]; exact hd⟩
  have hp : (readOptLengthPrefixed r1).1 = .pending := by
    cases hx : (readOptLengthPrefixed r1).1 with
    | pending => rfl
    | ready x =>
      rw [C40_read_exact, hv, slowPeer_view] at hx
      exact (reads_not_unfinished hu x hx).elim
  simp only
  unfold readLengthPrefixed
  generalize readOptLengthPrefixed r1 = P at hp
  obtain ⟨x, r2⟩ := P
  simp only at hp
  subst hp
  rfl

/-- C191 is false: a peer that announces a megabyte keeps the client waiting, and all that arrives is kept. -/
theorem C191_false : ¬ C191_statement := by
  intro h
  have h1 := (h (slowPeer (List.replicate 65546 0)) [] (slowPeer_request _) (by
    rw [slowPeer_view]
    show 65546 ≤ (_ ++ List.replicate 65546 0 : Bytes).length
    rw [List.length_append, List.length_replicate]
    omega)).1
  exact h1 (slowPeer_select _ (by rw [List.length_replicate]; decide))

/-- C191: a list of which seven bytes are announced and four arrive. -/
example : (request ⟨⟨[.ready [7, 2, 47], .ready [97, 1]], List.replicate 9 (.accept 99), [.ok], [], []⟩, []⟩ lsMessage).1 = .ready (.ok ()) ∧
    (list ⟨⟨[.ready [7, 2, 47], .ready [97, 1]], List.replicate 9 (.accept 99), [.ok], [], []⟩, []⟩).1 = .pending := by decide +kernel

end Ngfs.Io
