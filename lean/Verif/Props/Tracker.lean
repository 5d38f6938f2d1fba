import Verif.Spec.Tracker
import Verif.Lemmas.Binary
import Verif.Lemmas.Slice

/-! Claims C94-C97: UDP trackers. -/
namespace Ngfs.Tracker
open Spec Spec.Tracker Binary

theorem num_be {w n : Nat} (h : n < 256 ^ w) : Num w n (beBytes w n) := ⟨beBytes_length w n, by rw [bigEndian_beBytes, Nat.mod_eq_of_lt h]⟩

theorem nums_length : ∀ {ws : List (Nat × Nat)} {bs : Bytes}, Nums ws bs → bs.length = (ws.map Prod.fst).sum
  | _, _, .nil => rfl
  | _, _, .cons h hs => by rw [List.length_append, h.1, nums_length hs]; simp

theorem nums_append {ws ws' : List (Nat × Nat)} {bs bs' : Bytes} (h : Nums ws bs) (h' : Nums ws' bs') : Nums (ws ++ ws') (bs ++ bs') := by
  induction h with
  | nil => exact h'
  | cons h _ ih => rw [List.append_assoc]; exact .cons h ih

/-- A number at the front of the bytes. -/
theorem nums_cons_iff {w n : Nat} {ws : List (Nat × Nat)} {bs : Bytes} :
    Nums ((w, n) :: ws) bs ↔ w ≤ bs.length ∧ bigEndian (bs.take w) = n ∧ Nums ws (bs.drop w) := by
  constructor
  · intro h
    cases h with
    | cons h hs =>
      obtain ⟨h1, h2⟩ := h
      refine ⟨by rw [List.length_append]; omega, ?_, ?_⟩
      · rw [List.take_left' h1, h2]
      · rw [List.drop_left' h1]; exact hs
  · rintro ⟨h1, h2, h3⟩
    rw [← List.take_append_drop w bs]
    exact .cons ⟨by rw [List.length_take]; omega, h2⟩ h3

theorem nums_nil_iff {bs : Bytes} : Nums [] bs ↔ bs = [] := by
  constructor
  · intro h; cases h; rfl
  · rintro rfl; exact .nil

theorem slice_zero (bs : Bytes) (b : Nat) : slice bs 0 b = bs.take b := rfl

/-- A slice as the front of what is left. -/
theorem slice_drop (bs : Bytes) (a b : Nat) : slice bs a b = (bs.drop a).take (b - a) := rfl

/-! ## C94: the exchange follows BEP 15 -/

/-- C94: the connect request. -/
theorem C94_connect_request (t : Nat) (h : t < 2 ^ 32) : ConnectRequest t (connectRequest t) := by
  rw [connectRequest, List.append_assoc]
  refine .cons (num_be (by omega)) (.cons (num_be (by omega)) ?_)
  rw [← List.append_nil (beBytes 4 t)]
  exact .cons (num_be (by omega)) .nil

/-- C94: a connect response is accepted if and only if it is one, for this transaction; the connection is the one it names. -/
theorem C94_connect_response (t c : Nat) (d : Bytes) : checkConnectResponse t d = .ok c ↔ ConnectResponse t c d := by
  unfold checkConnectResponse ConnectResponse
  simp only [receive, nums_cons_iff, nums_nil_iff, beNat_eq, slice]
  constructor
  · intro h
    split at h
    · cases h
    · rename_i hl
      rw [ne_eq, Decidable.not_not, List.length_take] at hl
      have hd : d.take 4096 = d := List.take_of_length_le (by omega)
      rw [hd] at h
      split at h
      · cases h
      · rename_i h0
        split at h
        · cases h
        · rename_i h1
          injection h with h
          rw [ne_eq, Decidable.not_not] at h0 h1
          refine ⟨by omega, h0, by rw [List.length_drop]; omega, h1, by rw [List.length_drop, List.length_drop]; omega, ?_, ?_⟩
          · rw [List.drop_drop]; exact h
          · rw [List.drop_drop, List.drop_drop, List.drop_eq_nil_iff]; omega
  · rintro ⟨h1, h2, h3, h4, h5, h6, h7⟩
    rw [List.drop_drop, List.drop_drop, List.drop_eq_nil_iff] at h7
    rw [List.length_drop, List.length_drop] at h5
    rw [List.length_drop] at h3
    rw [List.drop_drop] at h6
    have hd : d.take 4096 = d := List.take_of_length_le (by omega)
    rw [hd, if_neg (by omega), if_neg (by rw [ne_eq, Decidable.not_not]; exact h2), if_neg (by rw [ne_eq, Decidable.not_not]; exact h4)]
    exact congrArg _ h6

theorem request_layout (r : Request) (hr : Request.Fits r) : AnnounceRequest r (beBytes 8 r.connectionId ++ beBytes 4 r.action ++ beBytes 4 r.transactionId ++
    r.infoHash ++ r.peerId ++ beBytes 8 r.downloaded ++ beBytes 8 r.left ++ beBytes 8 r.uploaded ++ beBytes 4 r.event ++ beBytes 4 r.ipAddress ++
    beBytes 4 r.key ++ beBytes 4 r.numWant ++ beBytes 2 r.port) := by
  obtain ⟨h1, h2, h3, h4, h5, h6, h7, h8, h9, h10, h11, h12, h13⟩ := hr
  refine ⟨beBytes 8 r.connectionId ++ (beBytes 4 r.action ++ (beBytes 4 r.transactionId ++ [])), beBytes 8 r.downloaded ++ (beBytes 8 r.left ++
    (beBytes 8 r.uploaded ++ (beBytes 4 r.event ++ (beBytes 4 r.ipAddress ++ (beBytes 4 r.key ++ (beBytes 4 r.numWant ++ (beBytes 2 r.port ++ []))))))), ?_, h4, h5, ?_, ?_⟩
  · exact .cons (num_be (by omega)) (.cons (num_be (by omega)) (.cons (num_be (by omega)) .nil))
  · exact .cons (num_be (by omega)) (.cons (num_be (by omega)) (.cons (num_be (by omega)) (.cons (num_be (by omega)) (.cons (num_be (by omega))
      (.cons (num_be (by omega)) (.cons (num_be (by omega)) (.cons (num_be (by omega)) .nil)))))))
  · simp only [List.append_assoc, List.append_nil]

/-- C94: the announce request of the client: default address, no statistics, as many peers as the tracker likes. -/
theorem C94_announce_request (c t port : Nat) (infoHash : Bytes) (hc : c < 2 ^ 64) (ht : t < 2 ^ 32) (hp : port < 2 ^ 16) (hi : infoHash.length = 20) :
    AnnounceRequest ⟨c, 1, t, infoHash, List.replicate 20 0, 0, 0, 0, 0, 0, 0, 2 ^ 32 - 1, port⟩ (announceRequest c t infoHash port) :=
  request_layout ⟨c, 1, t, infoHash, List.replicate 20 0, 0, 0, 0, 0, 0, 0, 2 ^ 32 - 1, port⟩
    (by refine ⟨hc, ?_, ht, hi, List.length_replicate, ?_, ?_, ?_, ?_, ?_, ?_, ?_, hp⟩ <;> first | (simp only; omega) | simp)

theorem setSlice_append (pre bs mid : Bytes) (a : Nat) (h : pre.length = a) (h' : bs.length = mid.length) (suf : Bytes) :
    setSlice (pre ++ (mid ++ suf)) a bs = pre ++ (bs ++ suf) := by
  rw [setSlice, List.take_left' h, List.append_assoc]
  congr 2
  rw [← List.append_assoc, List.drop_left' (by rw [List.length_append]; omega)]

theorem setSlice_zeros (pre bs : Bytes) (a n : Nat) (h : pre.length = a) (hn : bs.length ≤ n) :
    setSlice (pre ++ List.replicate n 0) a bs = (pre ++ bs) ++ List.replicate (n - bs.length) 0 := by
  have : List.replicate n (0 : UInt8) = List.replicate bs.length 0 ++ List.replicate (n - bs.length) 0 := by
    rw [List.replicate_append_replicate]; congr 1; omega
  rw [this, setSlice_append pre bs _ a h (by simp), List.append_assoc]

/-- C94: the announce request of the tracker tool. -/
theorem C94_tool_request (r : Request) (hr : Request.Fits r) : AnnounceRequest r r.toBytes := by
  have key : r.toBytes = beBytes 8 r.connectionId ++ beBytes 4 r.action ++ beBytes 4 r.transactionId ++
    r.infoHash ++ r.peerId ++ beBytes 8 r.downloaded ++ beBytes 8 r.left ++ beBytes 8 r.uploaded ++ beBytes 4 r.event ++ beBytes 4 r.ipAddress ++
    beBytes 4 r.key ++ beBytes 4 r.numWant ++ beBytes 2 r.port := by
    obtain ⟨-, -, -, h4, h5, -⟩ := hr
    unfold Request.toBytes
    simp only
    rw [← List.nil_append (List.replicate 98 0)]
    rw [setSlice_zeros _ (beBytes 8 r.connectionId) 0 98 rfl (by simp)]
    rw [setSlice_zeros _ (beBytes 4 r.action) 8 _ (by simp) (by simp)]
    rw [setSlice_zeros _ (beBytes 4 r.transactionId) 12 _ (by simp) (by simp)]
    rw [setSlice_zeros _ r.infoHash 16 _ (by simp) (by simp [h4])]
    rw [setSlice_zeros _ r.peerId 36 _ (by simp [h4]) (by simp [h4, h5])]
    rw [setSlice_zeros _ (beBytes 8 r.downloaded) 56 _ (by simp [h4, h5]) (by simp [h4, h5])]
    rw [setSlice_zeros _ (beBytes 8 r.left) 64 _ (by simp [h4, h5]) (by simp [h4, h5])]
    rw [setSlice_zeros _ (beBytes 8 r.uploaded) 72 _ (by simp [h4, h5]) (by simp [h4, h5])]
    rw [setSlice_zeros _ (beBytes 4 r.event) 80 _ (by simp [h4, h5]) (by simp [h4, h5])]
    rw [setSlice_zeros _ (beBytes 4 r.ipAddress) 84 _ (by simp [h4, h5]) (by simp [h4, h5])]
    rw [setSlice_zeros _ (beBytes 4 r.key) 88 _ (by simp [h4, h5]) (by simp [h4, h5])]
    rw [setSlice_zeros _ (beBytes 4 r.numWant) 92 _ (by simp [h4, h5]) (by simp [h4, h5])]
    rw [setSlice_zeros _ (beBytes 2 r.port) 96 _ (by simp [h4, h5]) (by simp [h4, h5])]
    simp only [h4, h5, beBytes_length, List.nil_append]
    simp
  rw [key]
  exact request_layout r hr

theorem peer_iff {p : Nat × Nat} {bs : Bytes} : Peer p bs ↔ bs.length = 6 ∧ bigEndian (bs.take 4) = p.1 ∧ bigEndian (bs.drop 4) = p.2 := by
  unfold Peer
  simp only [nums_cons_iff, nums_nil_iff, List.length_drop]
  constructor
  · rintro ⟨h1, h2, h3, h4, h5⟩
    rw [List.drop_drop, List.drop_eq_nil_iff] at h5
    refine ⟨by omega, h2, ?_⟩
    rw [List.take_of_length_le (by rw [List.length_drop]; omega)] at h4
    exact h4
  · rintro ⟨h1, h2, h3⟩
    refine ⟨by omega, h2, by omega, ?_, ?_⟩
    · rw [List.take_of_length_le (by rw [List.length_drop]; omega)]; exact h3
    · rw [List.drop_drop, List.drop_eq_nil_iff]; omega

theorem peerList_iff (data : Bytes) : ∀ ps, peerList data = ps ↔ ∃ bs rest, data = bs.flatten ++ rest ∧ rest.length < 6 ∧ List.Forall₂ Peer ps bs := by
  induction data using peerList.induct with
  | case1 data h ih =>
    intro ps
    rw [peerList, if_pos h]
    have hp : Peer (beNat (slice data 0 4), beNat (slice data 4 6)) (data.take 6) := by
      rw [peer_iff]
      refine ⟨by rw [List.length_take]; omega, ?_, ?_⟩
      · rw [List.take_take, beNat_eq]; rfl
      · simp only [beNat_eq, slice, List.drop_take]
    constructor
    · rintro rfl
      obtain ⟨bs, rest, h1, h2, h3⟩ := (ih _).mp rfl
      exact ⟨data.take 6 :: bs, rest, by rw [List.flatten_cons, List.append_assoc, ← h1, List.take_append_drop], h2, .cons hp h3⟩
    · rintro ⟨bs, rest, h1, h2, h3⟩
      cases h3 with
      | nil => rw [h1] at h; simp at h; omega
      | @cons p b ps bs g gs =>
        rw [List.flatten_cons, List.append_assoc] at h1
        obtain ⟨e1, e2, e3⟩ := peer_iff.mp g
        obtain ⟨-, e4, e5⟩ := peer_iff.mp hp
        have ht : data.take 6 = b := by rw [h1, List.take_left' e1]
        rw [ht] at e4 e5
        congr 1
        · exact Prod.ext (by rw [← e2, e4]) (by rw [← e3, e5])
        · exact (ih ps).mpr ⟨bs, rest, by rw [h1, List.drop_left' e1], h2, gs⟩
  | case2 data h =>
    intro ps
    rw [peerList, if_neg h]
    constructor
    · rintro rfl; exact ⟨[], data, rfl, by omega, .nil⟩
    · rintro ⟨bs, rest, h1, h2, h3⟩
      cases h3 with
      | nil => rfl
      | cons g gs =>
        have := (peer_iff.mp g).1
        rw [h1] at h
        simp only [List.flatten_cons, List.length_append] at h
        omega

/-- C94: an announce response is accepted if and only if it is one, up to less than six bytes behind it; everything it tells is returned. -/
theorem C94_announce_response (d : Bytes) (a : Announce) :
    parseAnnounce d = .ok a ↔ ∃ bs rest, d = bs ++ rest ∧ rest.length < 6 ∧ AnnounceResponse a bs := by
  unfold parseAnnounce AnnounceResponse
  simp only [beNat_eq, slice]
  constructor
  · intro h
    split at h
    · cases h
    split at h
    · cases h
    rename_i h0 h1
    rw [ne_eq, Decidable.not_not] at h1
    split at h
    · cases h
    rename_i h2
    injection h with h
    subst h
    simp only
    obtain ⟨ps, rest, g1, g2, g3⟩ := (peerList_iff (d.drop 20) _).mp rfl
    refine ⟨d.take 20 ++ ps.flatten, rest, by rw [List.append_assoc, ← g1, List.take_append_drop], g2, d.take 20, ps, ?_, g3, rfl⟩
    simp only [nums_cons_iff, nums_nil_iff, List.length_drop, List.length_take, List.drop_drop, List.take_take, List.drop_take, List.drop_eq_nil_iff]
    refine ⟨by omega, h1, by omega, rfl, by omega, rfl, by omega, rfl, by omega, rfl, ?_⟩
    trivial
  · rintro ⟨bs, rest, rfl, h2, h, ps, h3, h4, rfl⟩
    have hl : h.length = 20 := nums_length h3
    simp only [nums_cons_iff, nums_nil_iff, List.drop_drop] at h3
    obtain ⟨-, g1, -, g2, -, g3, -, g4, -, g5, -⟩ := h3
    have ht : ∀ a, a + 4 ≤ 20 → List.take 4 (List.drop a (h ++ ps.flatten ++ rest)) = List.take 4 (List.drop a h) := by
      intro a ha
      rw [List.append_assoc, List.drop_append_of_le_length (by omega), List.take_append_of_le_length (by rw [List.length_drop]; omega)]
    have e0 := ht 0 (by omega)
    have e1 := ht 4 (by omega)
    have e2 := ht 8 (by omega)
    have e3 := ht 12 (by omega)
    have e4 := ht 16 (by omega)
    simp only [Nat.reduceSub, Nat.reduceAdd] at *
    rw [if_neg (by simp only [List.length_append]; omega), e0, if_neg (by rw [ne_eq, Decidable.not_not]; exact g1), if_neg (by simp only [List.length_append]; omega),
      e1, e2, e3, e4, g2, g3, g4, g5]
    have : peerList ((h ++ ps.flatten ++ rest).drop 20) = a.peers := by
      rw [peerList_iff]
      exact ⟨ps, rest, by rw [List.append_assoc, List.drop_left' hl], h2, h4⟩
    rw [this]

/-- C94: the whole exchange: the connect request is sent; the announce request is sent if and only if the answer is a connect response to it, and names the
connection it tells. -/
theorem C94_exchange (infoHash : Bytes) (port t1 t2 : Nat) (d1 d2 : Bytes) :
    (∃ rest, (runWithTracker infoHash port t1 t2 d1 d2).1 = connectRequest t1 :: rest ∧
      ∀ b, b ∈ rest ↔ ∃ c, ConnectResponse t1 c d1 ∧ b = announceRequest c t2 infoHash port) ∧
    ∀ a, (runWithTracker infoHash port t1 t2 d1 d2).2 = .ok a → ∃ c, ConnectResponse t1 c d1 := by
  unfold runWithTracker
  cases h : checkConnectResponse t1 d1 with
  | error e =>
    have hno : ∀ c, ¬ ConnectResponse t1 c d1 := by
      intro c hc
      rw [(C94_connect_response t1 c d1).mpr hc] at h
      cases h
    exact ⟨⟨[], rfl, by simp [hno]⟩, by simp⟩
  | ok c =>
    have hc := (C94_connect_response t1 c d1).mp h
    refine ⟨⟨[announceRequest c t2 infoHash port], rfl, fun b => ?_⟩, fun _ _ => ⟨c, hc⟩⟩
    rw [List.mem_singleton]
    constructor
    · rintro rfl; exact ⟨c, hc, rfl⟩
    · rintro ⟨c', hc', rfl⟩
      have := (C94_connect_response t1 c' d1).mpr hc'
      rw [h] at this
      injection this with this
      rw [this]

/-- C94: the exchange of the tracker tool: the connect request, and, after a connect response, an announce request for the connection it names. -/
theorem C94_tool_exchange (infoHash peerId : Bytes) (t c : Nat) (d1 d2 : Bytes) (ht : t < 2 ^ 32) (hi : infoHash.length = 20) (hp : peerId.length = 20)
    (hc : ConnectResponse t c d1) : ∃ b1 b2, (exchange infoHash peerId t d1 d2).1 = [b1, b2] ∧ ConnectRequest t b1 ∧
      AnnounceRequest ⟨c, 1, t, infoHash, peerId, 0, 0, 0, 0, 0x679996cb, 0, 2 ^ 32 - 1, 1234⟩ b2 := by
  have hcl : c < 2 ^ 64 := by
    have h := hc
    simp only [ConnectResponse, nums_cons_iff] at h
    obtain ⟨-, -, -, -, h5, h6, -⟩ := h
    have := bigEndian_lt (((d1.drop 4).drop 4).take 8)
    rw [h6, List.length_take] at this
    exact Nat.lt_of_lt_of_le this (Nat.le_trans (Nat.pow_le_pow_right (by omega) (Nat.min_le_left 8 _)) (by decide))
  have hl : d1.length = 16 := nums_length hc
  have hr : receive 1024 d1 = d1 := List.take_of_length_le (by omega)
  have hcf : connectFrom d1 = .ok (0, t, c) := by
    have h := (C94_connect_response t c d1).mpr hc
    unfold checkConnectResponse at h
    have hr' : receive 4096 d1 = d1 := List.take_of_length_le (by omega)
    simp only [hr'] at h
    unfold connectFrom
    rw [if_neg (by omega)] at h ⊢
    split at h
    · cases h
    split at h
    · cases h
    rename_i h0 h1
    rw [ne_eq, Decidable.not_not] at h0 h1
    injection h with h
    rw [h0, h1, h]
  unfold exchange
  simp only [hr, hcf]
  rw [if_neg (by omega)]
  refine ⟨_, _, rfl, ?_, C94_tool_request _ ?_⟩
  · rw [← List.nil_append (List.replicate 16 0), setSlice_zeros _ (beBytes 8 _) 0 16 rfl (by simp), setSlice_zeros _ (beBytes 4 0) 8 _ (by simp) (by simp),
      setSlice_zeros _ (beBytes 4 t) 12 _ (by simp) (by simp)]
    have := C94_connect_request t ht
    simpa [connectRequest] using this
  · refine ⟨hcl, ?_, ht, hi, hp, ?_, ?_, ?_, ?_, ?_, ?_, ?_, ?_⟩ <;> first | (simp only; omega) | simp

example : parseAnnounce [0, 0, 0, 1, 0, 0, 0, 9, 0, 0, 1, 0, 0, 0, 0, 2, 0, 0, 0, 3, 10, 0, 0, 1, 26, 225, 7] =
    .ok ⟨9, 256, 2, 3, [(0x0a000001, 6881)]⟩ := by decide +kernel

example : checkConnectResponse 7 [0, 0, 0, 0, 0, 0, 0, 7, 0, 0, 0, 0, 0, 0, 1, 2] = .ok 258 := by decide

/-! ## C95: the announce response answers the request -/

/-- C95: peers are only taken from a response to the request that was sent. -/
def C95_statement : Prop :=
  ∀ (infoHash : Bytes) (port t1 t2 : Nat) (d1 d2 : Bytes) (a : Announce), (runWithTracker infoHash port t1 t2 d1 d2).2 = .ok a → a.transactionId = t2

/-- C95 is false: only the transaction of the connect response is compared. -/
theorem C95_false : ¬ C95_statement := by
  intro h
  have := h [] 0 0 5 (List.replicate 16 0) [0, 0, 0, 1, 0, 0, 0, 9, 0, 0, 0, 0, 0, 0, 0, 0, 0, 0, 0, 0] ⟨9, 0, 0, 0, []⟩ (by decide +kernel)
  revert this
  decide

/-- C95, for the first half of the exchange. -/
theorem C95_connect_partial (infoHash : Bytes) (port t1 t2 : Nat) (d1 d2 : Bytes) (a : Announce)
    (h : (runWithTracker infoHash port t1 t2 d1 d2).2 = .ok a) : ∃ c, ConnectResponse t1 c d1 :=
  (C94_exchange infoHash port t1 t2 d1 d2).2 a h

/-- C95 of the tracker tool. -/
def C95_tool_statement : Prop :=
  ∀ (infoHash peerId : Bytes) (t : Nat) (d1 d2 : Bytes) (a : Nat × Announce), (exchange infoHash peerId t d1 d2).2 = .ok a →
    a.2.transactionId = t ∧ ∃ c, ConnectResponse t c d1

/-- C95 is false of the tracker tool as well: it compares neither transaction. -/
theorem C95_tool_false : ¬ C95_tool_statement := by
  intro h
  have := (h [] [] 0 (List.replicate 16 0) [0, 0, 0, 1, 0, 0, 0, 9, 0, 0, 0, 0, 0, 0, 0, 0, 0, 0, 0, 0] (1, ⟨9, 0, 0, 0, []⟩) (by decide +kernel)).1
  revert this
  decide

/-! ## C96: every peer is returned -/

/-- C96: all the peers a tracker sends are returned. -/
def C96_statement : Prop :=
  ∀ (infoHash : Bytes) (port t1 t2 c : Nat) (d1 d2 : Bytes) (a : Announce), ConnectResponse t1 c d1 → AnnounceResponse a d2 →
    (runWithTracker infoHash port t1 t2 d1 d2).2 = .ok a

/-- C96, for responses of at most 4096 bytes. -/
theorem C96_short_partial (infoHash : Bytes) (port t1 t2 c : Nat) (d1 d2 : Bytes) (a : Announce) (hc : ConnectResponse t1 c d1)
    (ha : AnnounceResponse a d2) (hl : d2.length ≤ 4096) : (runWithTracker infoHash port t1 t2 d1 d2).2 = .ok a := by
  unfold runWithTracker
  rw [(C94_connect_response t1 c d1).mpr hc]
  simp only
  rw [receive, List.take_of_length_le hl]
  exact (C94_announce_response d2 a).mpr ⟨d2, [], by simp, by simp, ha⟩

/-- C96: of longer responses the first 679 peers are returned. -/
theorem C96_long (infoHash : Bytes) (port t1 t2 c : Nat) (d1 d2 : Bytes) (a : Announce) (hc : ConnectResponse t1 c d1)
    (ha : AnnounceResponse a d2) : (runWithTracker infoHash port t1 t2 d1 d2).2 = .ok { a with peers := a.peers.take 679 } := by
  obtain ⟨h, ps, h1, h2, h3⟩ := ha
  have hl : h.length = 20 := nums_length h1
  unfold runWithTracker
  rw [(C94_connect_response t1 c d1).mpr hc]
  simp only
  rw [receive, C94_announce_response]
  have key : ∀ (n : Nat) (qs : List (Nat × Nat)) (ps : List Bytes) (m : Nat), List.Forall₂ Peer qs ps → 6 * n ≤ m → m < 6 * n + 6 →
      ∃ rs rest, ps.flatten.take m = rs.flatten ++ rest ∧ rest.length < 6 ∧ List.Forall₂ Peer (qs.take n) rs := by
    intro n
    induction n with
    | zero =>
      intro qs ps m _ _ hm
      exact ⟨[], _, rfl, by rw [List.length_take]; omega, by rw [List.take_zero]; exact .nil⟩
    | succ n ih =>
      intro qs ps m hf h1 h2
      cases hf with
      | nil => exact ⟨[], [], by simp, by simp, by simp⟩
      | @cons q p qs ps g gs =>
        obtain ⟨rs, rest, k1, k2, k3⟩ := ih qs ps (m - 6) gs (by omega) (by omega)
        have hp := (peer_iff.mp g).1
        refine ⟨p :: rs, rest, ?_, k2, ?_⟩
        · rw [List.flatten_cons, List.flatten_cons, List.take_append, hp, k1, List.take_of_length_le (by omega), List.append_assoc]
        · rw [List.take_succ_cons]; exact .cons g k3
  obtain ⟨rs, rest, k1, k2, k3⟩ := key 679 a.peers ps 4076 h2 (by omega) (by omega)
  refine ⟨h ++ rs.flatten, rest, ?_, k2, h, rs, h1, k3, rfl⟩
  rw [h3, List.take_append, hl, List.take_of_length_le (by omega), k1, List.append_assoc]

theorem nums_zeros : Peer (0, 0) (List.replicate 6 0) := by rw [peer_iff]; decide

/-- C96 is false. -/
theorem C96_false : ¬ C96_statement := by
  intro h
  have hc : ConnectResponse 0 0 (List.replicate 16 0) := (C94_connect_response _ _ _).mp (by decide +kernel)
  have ha : AnnounceResponse ⟨0, 0, 680, 0, List.replicate 680 (0, 0)⟩
      ([0, 0, 0, 1, 0, 0, 0, 0, 0, 0, 0, 0, 0, 0, 2, 168, 0, 0, 0, 0] ++ (List.replicate 680 (List.replicate 6 0)).flatten) := by
    refine ⟨_, List.replicate 680 (List.replicate 6 0), ?_, ?_, rfl⟩
    · simp only [nums_cons_iff, nums_nil_iff]
      decide
    · generalize 680 = n
      induction n with
      | zero => exact .nil
      | succ n ih => rw [List.replicate_succ, List.replicate_succ]; exact .cons nums_zeros ih
  have h1 := h [] 0 0 0 0 _ _ _ hc ha
  rw [C96_long [] 0 0 0 0 _ _ _ hc ha] at h1
  injection h1 with h1
  have := congrArg (fun a => a.peers.length) h1
  simp only [List.length_take, List.length_replicate] at this
  omega

/-! ## C97: the tracker tool reads every response -/

/-- C97: a response of a tracker never stops the tool, and is accepted if it is well-formed. -/
def C97_statement : Prop :=
  ∀ d : Bytes, announceFrom d ≠ .error .panic ∧ ∀ a, AnnounceResponse a d → announceFrom d = .ok (1, a)

theorem peersFrom_ok (buf : Bytes) : ∀ (n i : Nat) (ps : List (Nat × Nat)) (bs : List Bytes), List.Forall₂ Peer ps bs → ps.length = n →
    buf.drop (20 + i * 6) = bs.flatten → 20 + i * 6 ≤ buf.length → 20 + (i + n) * 6 < 2 ^ 32 → peersFrom buf n i = .ok ps
  | 0, i, ps, bs, h, hn, hd, hb, hlt => by
    cases h with
    | nil => rfl
    | cons => simp at hn
  | n + 1, i, ps, bs, h, hn, hd, hb, hlt => by
    cases h with
    | nil => simp at hn
    | @cons p b ps bs g gs =>
      obtain ⟨e1, e2, e3⟩ := peer_iff.mp g
      rw [List.flatten_cons] at hd
      have hlen := congrArg List.length hd
      rw [List.length_drop, List.length_append, e1] at hlen
      have hb' : buf.drop (20 + (i + 1) * 6) = bs.flatten := by
        have : 20 + (i + 1) * 6 = 20 + i * 6 + 6 := by omega
        rw [this, ← List.drop_drop, hd, List.drop_left' e1]
      rw [peersFrom, if_neg (by omega), if_neg (by omega), peersFrom_ok buf n (i + 1) ps bs gs (by simpa using hn) hb' (by omega) (by omega)]
      simp only [Except.map]
      congr 2
      refine Prod.ext ?_ ?_
      · rw [← e2, beNat_eq, slice, hd, Nat.add_sub_cancel_left, List.take_append_of_le_length (by omega)]
      · have e4 : buf.drop (20 + i * 6 + 4) = b.drop 4 ++ bs.flatten := by
          rw [← List.drop_drop, hd, List.drop_append_of_le_length (by omega)]
        have e5 : 20 + i * 6 + 6 - (20 + i * 6 + 4) = 2 := by omega
        show beNat (slice buf (20 + i * 6 + 4) (20 + i * 6 + 6)) = p.2
        rw [← e3, beNat_eq, slice, e4, e5, List.take_left' (by rw [List.length_drop]; omega)]

/-- C97, for responses that list all leechers and seeders they count. -/
theorem C97_complete_partial (a : Announce) (d : Bytes) (h : AnnounceResponse a d) (hn : a.peers.length = a.leechers + a.seeders) (hl : d.length < 2 ^ 32) :
    announceFrom d = .ok (1, a) := by
  obtain ⟨h, ps, h1, h2, rfl⟩ := h
  have hl' : h.length = 20 := nums_length h1
  have hps : ps.flatten.length = 6 * a.peers.length := by
    clear hn hl h1
    revert h2
    generalize a.peers = qs
    intro h2
    induction h2 with
    | nil => rfl
    | cons g _ ih => rw [List.flatten_cons, List.length_append, ih, (peer_iff.mp g).1, List.length_cons]; omega
  simp only [nums_cons_iff, nums_nil_iff, List.drop_drop] at h1
  obtain ⟨-, g1, -, g2, -, g3, -, g4, -, g5, -⟩ := h1
  rw [List.length_append] at hl
  have ht : ∀ a, a + 4 ≤ 20 → List.take 4 (List.drop a (h ++ ps.flatten)) = List.take 4 (List.drop a h) := by
    intro a ha
    rw [List.drop_append_of_le_length (by omega), List.take_append_of_le_length (by rw [List.length_drop]; omega)]
  have e0 := ht 0 (by omega)
  have e1 := ht 4 (by omega)
  have e2 := ht 8 (by omega)
  have e3 := ht 12 (by omega)
  have e4 := ht 16 (by omega)
  unfold announceFrom
  simp only [beNat_eq, slice, Nat.reduceSub, Nat.reduceAdd] at *
  rw [if_neg (by simp only [List.length_append]; omega), e0, if_neg (by rw [ne_eq, Decidable.not_not]; exact g1),
      e1, e2, e3, e4, g2, g3, g4, g5]
  rw [if_neg (by omega), if_neg (by omega), if_neg (by omega), if_neg (by rw [List.length_append]; omega)]
  rw [peersFrom_ok _ _ 0 a.peers ps h2 hn (by rw [List.drop_left' (by omega)]) (by rw [List.length_append]; omega) (by omega)]
  have g1' : bigEndian (List.take 4 (List.drop 0 h)) = 1 := g1
  rw [g1']
  rfl

/-- C97: the panics: exactly the responses whose counts do not fit 32 bits. -/
theorem C97_panics (d : Bytes) : announceFrom d = .error .panic ↔ 20 ≤ d.length ∧ bigEndian (d.take 4) = 1 ∧
    2 ^ 32 ≤ 20 + 6 * (bigEndian ((d.drop 12).take 4) + bigEndian ((d.drop 16).take 4)) := by
  have hmap : ∀ (n i : Nat), 20 + (i + n) * 6 = d.length → d.length < 2 ^ 32 → peersFrom d n i ≠ .error .panic := by
    intro n
    induction n with
    | zero => intro i _ _; simp [peersFrom]
    | succ n ih =>
      intro i h1 h2
      rw [peersFrom, if_neg (by omega), if_neg (by omega)]
      have := ih (i + 1) (by omega) h2
      cases h : peersFrom d n (i + 1) with
      | error e => simp only [Except.map]; rw [h] at this; exact this
      | ok r => simp [Except.map]
  unfold announceFrom
  simp only [beNat_eq, slice, Nat.reduceSub, List.drop_zero]
  generalize hL : bigEndian ((d.drop 12).take 4) = L
  generalize hS : bigEndian ((d.drop 16).take 4) = S
  split
  · simp only [Except.error.injEq, reduceCtorEq, false_iff]; omega
  split
  · rename_i h; simp only [Except.error.injEq, reduceCtorEq, false_iff]; rintro ⟨-, h1, -⟩; exact h h1
  rename_i h0 h1
  rw [ne_eq, Decidable.not_not] at h1
  split
  · simp only [true_iff]; exact ⟨by omega, h1, by omega⟩
  split
  · simp only [true_iff]; exact ⟨by omega, h1, by omega⟩
  split
  · simp only [true_iff]; exact ⟨by omega, h1, by omega⟩
  split
  · simp only [Except.error.injEq, reduceCtorEq, false_iff]; omega
  rename_i h5 h6
  have hno := hmap (L + S) 0 (by omega) (by omega)
  constructor
  · intro h
    cases hp : peersFrom d (L + S) 0 with
    | error e => rw [hp] at h hno; simp only [Except.map, Except.error.injEq] at h; subst h; exact (hno rfl).elim
    | ok r => rw [hp] at h; simp [Except.map] at h
  · intro h; omega

/-- C97 is false. -/
theorem C97_false : ¬ C97_statement := by
  intro h
  refine (h [0, 0, 0, 1, 0, 0, 0, 9, 0, 0, 1, 0, 255, 255, 255, 255, 0, 0, 0, 1]).1 ?_
  decide +kernel

/-- C97: the other way in which it is false: a tracker that counts two leechers and sends one is refused. -/
theorem C97_fewer_refused (a : Announce) (d : Bytes) (h : AnnounceResponse a d) (hn : a.peers.length ≠ a.leechers + a.seeders) (r : Nat × Announce) :
    announceFrom d ≠ .ok r := by
  obtain ⟨h, ps, h1, h2, rfl⟩ := h
  have hl' : h.length = 20 := nums_length h1
  have hps : ps.flatten.length = 6 * a.peers.length := by
    clear hn h1
    revert h2
    generalize a.peers = qs
    intro h2
    induction h2 with
    | nil => rfl
    | cons g _ ih => rw [List.flatten_cons, List.length_append, ih, (peer_iff.mp g).1, List.length_cons]; omega
  simp only [nums_cons_iff, nums_nil_iff, List.drop_drop] at h1
  obtain ⟨-, g1, -, g2, -, g3, -, g4, -, g5, -⟩ := h1
  have ht : ∀ a, a + 4 ≤ 20 → List.take 4 (List.drop a (h ++ ps.flatten)) = List.take 4 (List.drop a h) := by
    intro a ha
    rw [List.drop_append_of_le_length (by omega), List.take_append_of_le_length (by rw [List.length_drop]; omega)]
  have e3 := ht 12 (by omega)
  have e4 := ht 16 (by omega)
  unfold announceFrom
  simp only [beNat_eq, slice, Nat.reduceSub, Nat.reduceAdd] at *
  rw [e3, e4, g4, g5]
  split
  · simp
  split
  · simp
  split
  · simp
  split
  · simp
  split
  · simp
  split
  · simp
  rename_i hx
  rw [ne_eq, Decidable.not_not, List.length_append] at hx
  omega

example : announceFrom [0, 0, 0, 1, 0, 0, 0, 9, 0, 0, 1, 0, 0, 0, 0, 1, 0, 0, 0, 1, 10, 0, 0, 1, 26, 225, 10, 0, 0, 2, 0, 80] =
    .ok (1, ⟨9, 256, 1, 1, [(0x0a000001, 6881), (0x0a000002, 80)]⟩) := by decide +kernel

end Ngfs.Tracker
