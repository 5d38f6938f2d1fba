import Verif.Lemmas.IpfsHonest

/-! C175: the side that opens a stream and the side that accepts it, both of this program, negotiate with each other. -/
namespace Ngfs.Io
open Varint Spec Spec.Io Spec.Ipfs Tls

/-- Two sides that are connected reliably, after all that was sent has arrived: what each transport brings, in any pieces with pauses
anywhere, is what the other side has sent; nothing fails, and everything written is taken. -/
structure Connected (services : List Bytes) (protocol : Bytes) (client server : Transport) : Prop where
  fresh : client.sent = [] ∧ server.sent = []
  toClient : content client.reads = ((serve services ⟨server, []⟩).2.t.sent, .silent)
  toServer : content server.reads = ((negotiate ⟨client, []⟩ protocol).2.t.sent, .silent)
  clientTakes : WillTake client.writes ((framed multistreamId).length + (framed protocol).length) ∧ WillFlush client.flushes 2
  serverTakes : WillTake server.writes ((framed multistreamId).length + 16) ∧ WillFlush server.flushes 2

/-- **C175**, as stated: the two sides come to a result, and to the same one. -/
def C175_statement : Prop :=
  ∀ (services : List Bytes) (protocol : Bytes) (client server : Transport), protocol ≠ naMessage → protocol.length < 2 ^ 64 →
    Connected services protocol client server →
    (protocol ∈ services → (negotiate ⟨client, []⟩ protocol).1 = .ready (.ok .accepted) ∧
      (serve services ⟨server, []⟩).1 = .ready (.ok (some protocol))) ∧
    (protocol ∉ services → (negotiate ⟨client, []⟩ protocol).1 = .ready (.ok .unsupported) ∧
      (serve services ⟨server, []⟩).1 = .pending)

theorem view_plain (r : Reader) (h : r.limits = []) : view r = content r.t.reads := by simp [Spec.Io.view, h]

theorem handshake_sent (r : Reader) (n k : Nat) (hw : WillTake r.t.writes ((framed multistreamId).length + n))
    (hf : WillFlush r.t.flushes (k + 1)) : (handshake r).2.t.sent = r.t.sent ++ framed multistreamId := by
  obtain ⟨h1, -⟩ := request_honest r multistreamId n k hw hf
  obtain ⟨ws, fl, pre, h2, -, h3⟩ := request_spec r multistreamId
  have hq := (select_quiet r multistreamId).1
  rw [handshake_eq, hq, h2]
  simp only
  rw [h3 h1]

theorem handshake_honest (r : Reader) (rest : Bytes) (e : End) (n k : Nat) (hv : view r = (framed multistreamId ++ rest, e))
    (hw : WillTake r.t.writes ((framed multistreamId).length + n)) (hf : WillFlush r.t.flushes (k + 1)) :
    ∃ r1, handshake r = (.ready (.ok ()), r1) ∧ view r1 = (rest, e) ∧ WillTake r1.t.writes n ∧ WillFlush r1.t.flushes k ∧
      r1.t.sent = r.t.sent ++ framed multistreamId := by
  have hm : Prefixed (framed multistreamId) multistreamId := framed_prefixed (by decide)
  obtain ⟨h1, h2, h3⟩ := select_honest r multistreamId _ rest e n k hv hm hw hf
  obtain ⟨m, rest', e', h4, h5, h6, h7⟩ := select_accepted h1
  refine ⟨(select r multistreamId).2, ?_, ?_, h2, h3, h7⟩
  · unfold handshake
    generalize select r multistreamId = S at h1
    obtain ⟨x, r1⟩ := S
    simp only at h1
    subst h1
    rfl
  · rw [hv] at h4
    obtain ⟨-, -, rfl⟩ := prefixed_unique hm h5 (congrArg Prod.fst h4)
    have he : e = e' := congrArg Prod.snd h4
    rw [h6, he]

theorem serveLoop_sent (services : List Bytes) (fuel : Nat) : ∀ r : Reader, r.t.sent <+: (serveLoop services fuel r).2.t.sent := by
  induction fuel with
  | zero => intro r; exact List.prefix_rfl
  | succ fuel ih =>
    intro r
    have hq := (readOptLengthPrefixed_quiet r).1
    unfold serveLoop
    generalize readOptLengthPrefixed r = P at hq
    obtain ⟨x, r1⟩ := P
    have hs : r1.t.sent = r.t.sent := by rw [hq]
    rcases x with _ | (k | (_ | data))
    · rw [← hs]; exact List.prefix_rfl
    · rw [← hs]; exact List.prefix_rfl
    · rw [← hs]; exact List.prefix_rfl
    · simp only
      have hreq : ∀ d, r.t.sent <+: (request r1 d).2.t.sent := by
        intro d
        obtain ⟨ws, fl, pre, h2, -, -⟩ := request_spec r1 d
        rw [h2, ← hs]
        exact List.prefix_append _ _
      split
      · have := hreq idProtocol
        generalize request r1 idProtocol = Q at this
        obtain ⟨_ | (k | ⟨⟩), r2⟩ := Q <;> exact this
      · have := hreq naMessage
        generalize request r1 naMessage = Q at this
        obtain ⟨_ | (k | ⟨⟩), r2⟩ := Q
        · exact this
        · exact this
        · exact this.trans (ih r2)

theorem serve_sent (services : List Bytes) (r : Reader) (n k : Nat) (hw : WillTake r.t.writes ((framed multistreamId).length + n))
    (hf : WillFlush r.t.flushes (k + 1)) : ∃ more, (serve services r).2.t.sent = r.t.sent ++ framed multistreamId ++ more := by
  have h := handshake_sent r n k hw hf
  unfold serve
  generalize handshake r = H at h
  obtain ⟨_ | (k | ⟨⟩), r1⟩ := H
  · exact ⟨[], by rw [List.append_nil]; exact h⟩
  · exact ⟨[], by rw [List.append_nil]; exact h⟩
  · obtain ⟨more, hm⟩ := serveLoop_sent services (scriptSize r1.t.reads + 1) r1
    exact ⟨more, by rw [← h]; exact hm.symm⟩

theorem readOpt_silent (r : Reader) (h : view r = ([], .silent)) : (readOptLengthPrefixed r).1 = .pending := by
  cases hp : (readOptLengthPrefixed r).1 with
  | pending => rfl
  | ready x =>
    have := (C40_read_exact r x).mp hp
    rw [h] at this
    have key : ∀ v, Reads v x → v = ([], .silent) → False := by
      intro v hv he
      cases hv with
      | message rest e hm =>
        simp only [Prod.mk.injEq, List.append_eq_nil_iff] at he
        exact prefixed_ne_nil hm he.1.1
      | over => cases he
      | overBroken => cases he
      | tooLong rest e h1 h2 h3 =>
        simp only [Prod.mk.injEq, List.append_eq_nil_iff] at he
        exact h3 he.1.2
      | cut h1 h2 => cases he
      | broken h1 h2 => cases he
    exact (key _ this rfl).elim

theorem serveLoop_silent (services : List Bytes) (fuel : Nat) (r : Reader) (h : view r = ([], .silent)) :
    (serveLoop services fuel r).1 = .pending ∧ (serveLoop services fuel r).2.t.sent = r.t.sent := by
  cases fuel with
  | zero => exact ⟨rfl, rfl⟩
  | succ fuel =>
    have hp := readOpt_silent r h
    have hq := (readOptLengthPrefixed_quiet r).1
    unfold serveLoop
    generalize readOptLengthPrefixed r = P at hp hq
    obtain ⟨x, r1⟩ := P
    simp only at hp
    subst hp
    exact ⟨rfl, by simp only; rw [hq]⟩

/-- What the server does with one request behind the header. -/
theorem serve_one (services : List Bytes) (protocol : Bytes) (server : Transport) (hlen : protocol.length < 2 ^ 64)
    (hs : server.sent = []) (hc : content server.reads = (framed multistreamId ++ framed protocol, .silent))
    (hw : WillTake server.writes ((framed multistreamId).length + 16)) (hf : WillFlush server.flushes 2) :
    (serve services ⟨server, []⟩).1 = (if services.contains protocol then .ready (.ok (some protocol)) else .pending) ∧
    (serve services ⟨server, []⟩).2.t.sent =
      framed multistreamId ++ (if services.contains protocol then framed idProtocol else framed naMessage) := by
  obtain ⟨r1, h1, h2, h3, h4, h5⟩ := handshake_honest ⟨server, []⟩ (framed protocol) .silent 16 1 (by rw [view_plain _ rfl]; exact hc) hw hf
  have h5' : r1.t.sent = framed multistreamId := by rw [h5]; show server.sent ++ _ = _; rw [hs]; rfl
  unfold serve
  rw [h1]
  simp only
  have hread : (readOptLengthPrefixed r1).1 = .ready (.ok (some protocol)) := by
    rw [C40_read_exact, h2]
    have := Reads.message [] .silent (framed_prefixed hlen)
    rwa [List.append_nil] at this
  obtain ⟨m, rest, e, g1, g2, g3⟩ := C40_takes_exactly_the_message r1 protocol hread
  have hrest : rest = [] ∧ e = .silent := by
    rw [h2] at g2
    obtain ⟨-, -, hr⟩ := prefixed_unique (framed_prefixed hlen) g1 (r := []) (r' := rest) (by
      rw [List.append_nil]; exact congrArg Prod.fst g2)
    exact ⟨hr.symm, (congrArg Prod.snd g2).symm⟩
  obtain ⟨rfl, rfl⟩ := hrest
  have hq := (readOptLengthPrefixed_quiet r1).1
  have hone : ∀ fuel, (serveLoop services (fuel + 1) r1).1 = (if services.contains protocol then .ready (.ok (some protocol)) else .pending) ∧
      (serveLoop services (fuel + 1) r1).2.t.sent =
        framed multistreamId ++ (if services.contains protocol then framed idProtocol else framed naMessage) := by
    intro fuel
    unfold serveLoop
    generalize readOptLengthPrefixed r1 = P at hread g3 hq
    obtain ⟨x, r2⟩ := P
    simp only at hread g3 hq
    subst hread
    simp only
    have hw2 : r2.t.writes = r1.t.writes := by rw [hq]
    have hf2 : r2.t.flushes = r1.t.flushes := by rw [hq]
    have hs2 : r2.t.sent = framed multistreamId := by rw [hq]; exact h5'
    have hreq : ∀ d, (framed d).length ≤ 16 → (request r2 d).1 = .ready (.ok ()) ∧
        (request r2 d).2.t.sent = framed multistreamId ++ framed d ∧ view (request r2 d).2 = ([], .silent) := by
      intro d hd
      obtain ⟨q1, -, -⟩ := request_honest r2 d (16 - (framed d).length) 0 (by
        rw [hw2, show (framed d).length + (16 - (framed d).length) = 16 by omega]; exact h3) (by rw [hf2]; exact h4)
      obtain ⟨ws, fl, pre, q2, -, q3⟩ := request_spec r2 d
      refine ⟨q1, ?_, ?_⟩
      · rw [q2]
        simp only
        rw [hs2, q3 q1]
      · rw [request_view]; exact g3
    by_cases hc : services.contains protocol = true
    · simp only [hc, if_true]
      obtain ⟨q1, q2, -⟩ := hreq idProtocol (by decide +kernel)
      generalize request r2 idProtocol = Q at q1 q2
      obtain ⟨x, r3⟩ := Q
      simp only at q1 q2
      subst q1
      exact ⟨rfl, q2⟩
    · simp only [hc, Bool.false_eq_true, if_false]
      obtain ⟨q1, q2, q3⟩ := hreq naMessage (by decide +kernel)
      generalize request r2 naMessage = Q at q1 q2 q3
      obtain ⟨x, r3⟩ := Q
      simp only at q1 q2 q3
      subst q1
      simp only
      rw [← q2]
      exact serveLoop_silent services fuel r3 q3
  exact hone _

/-- What the two sides have sent each other, when all has arrived. -/
theorem both (services : List Bytes) (protocol : Bytes) (client server : Transport) (hlen : protocol.length < 2 ^ 64)
    (h : Connected services protocol client server) :
    (serve services ⟨server, []⟩).1 = (if services.contains protocol then .ready (.ok (some protocol)) else .pending) ∧
    (negotiate ⟨client, []⟩ protocol).2.t.sent = framed multistreamId ++ framed protocol ∧
    ∃ r1, negotiate ⟨client, []⟩ protocol = select r1 protocol ∧ (request r1 protocol).1 = .ready (.ok ()) ∧
      view r1 = (if services.contains protocol then framed idProtocol else framed naMessage, .silent) := by
  obtain ⟨more, hm⟩ := serve_sent services ⟨server, []⟩ 16 1 h.serverTakes.1 h.serverTakes.2
  have hm' : (serve services ⟨server, []⟩).2.t.sent = framed multistreamId ++ more := by
    rw [hm]; show server.sent ++ _ ++ _ = _; rw [h.fresh.2]; rfl
  obtain ⟨r1, h1, h2, h3, h4, h5⟩ := handshake_honest ⟨client, []⟩ more .silent (framed protocol).length 1 (by
    rw [view_plain _ rfl]; show content client.reads = _; rw [h.toClient, hm']) h.clientTakes.1 h.clientTakes.2
  have h5' : r1.t.sent = framed multistreamId := by rw [h5]; show client.sent ++ _ = _; rw [h.fresh.1]; rfl
  have hneg : negotiate ⟨client, []⟩ protocol = select r1 protocol := by
    unfold negotiate
    rw [h1]
  have hreq := (request_honest r1 protocol 0 0 h3 h4).1
  have hsent : (negotiate ⟨client, []⟩ protocol).2.t.sent = framed multistreamId ++ framed protocol := by
    rw [hneg]
    obtain ⟨ws, fl, pre, q2, -, q3⟩ := request_spec r1 protocol
    rw [(select_quiet r1 protocol).1, q2]
    simp only
    rw [h5', q3 hreq]
  have hts := h.toServer
  rw [hsent] at hts
  obtain ⟨s1, s2⟩ := serve_one services protocol server hlen h.fresh.2 hts h.serverTakes.1 h.serverTakes.2
  refine ⟨s1, hsent, r1, hneg, hreq, ?_⟩
  rw [s2] at hm'
  rw [h2, List.append_cancel_left hm']

/-- **C175**, partial: a protocol that is not offered. The opener learns it, the acceptor goes on waiting for another request. -/
theorem C175_unsupported_partial (services : List Bytes) (protocol : Bytes) (client server : Transport) (hna : protocol ≠ naMessage)
    (hlen : protocol.length < 2 ^ 64) (h : Connected services protocol client server) (hp : protocol ∉ services) :
    (negotiate ⟨client, []⟩ protocol).1 = .ready (.ok .unsupported) ∧ (serve services ⟨server, []⟩).1 = .pending := by
  obtain ⟨h1, -, r1, h2, h3, h4⟩ := both services protocol client server hlen h
  have hc : services.contains protocol = false := by simpa using hp
  rw [hc] at h1 h4
  refine ⟨?_, h1⟩
  rw [h2, ((C39_select_exact r1 protocol h3).2)]
  exact ⟨hna, framed naMessage, [], .silent, by rw [List.append_nil]; exact h4, framed_prefixed (by decide)⟩

/-- **C175**, partial: identification. Both sides agree on it. -/
theorem C175_identify_partial (services : List Bytes) (client server : Transport) (h : Connected services idProtocol client server)
    (hp : idProtocol ∈ services) : (negotiate ⟨client, []⟩ idProtocol).1 = .ready (.ok .accepted) ∧
      (serve services ⟨server, []⟩).1 = .ready (.ok (some idProtocol)) := by
  obtain ⟨h1, -, r1, h2, h3, h4⟩ := both services idProtocol client server (by decide) h
  have hc : services.contains idProtocol = true := by simpa using hp
  rw [hc] at h1 h4
  refine ⟨?_, h1⟩
  rw [h2, ((C39_select_exact r1 idProtocol h3).1)]
  exact ⟨framed idProtocol, [], .silent, by rw [List.append_nil]; exact h4, framed_prefixed (by decide)⟩

/-- **C175**, what happens otherwise: for every other protocol that is offered the acceptor starts the service, but the opener takes
the answer for an error. Missing, therefore: that they agree (`C175_false`). -/
theorem C175_others_disagree (services : List Bytes) (protocol : Bytes) (client server : Transport)
    (hlen : protocol.length < 2 ^ 64) (h : Connected services protocol client server) (hp : protocol ∈ services) (hid : protocol ≠ idProtocol) :
    (negotiate ⟨client, []⟩ protocol).1 = .ready (.error .invalidData) ∧
      (serve services ⟨server, []⟩).1 = .ready (.ok (some protocol)) := by
  obtain ⟨h1, -, r1, h2, h3, h4⟩ := both services protocol client server hlen h
  have hc : services.contains protocol = true := by simpa using hp
  rw [hc] at h1 h4
  refine ⟨?_, h1⟩
  rw [h2]
  have hv := request_view r1 protocol
  rw [h4] at hv
  unfold select
  generalize request r1 protocol = Q at h3 hv
  obtain ⟨x, r2⟩ := Q
  simp only at h3 hv
  subst h3
  simp only
  have hr : (readLengthPrefixed r2).1 = .ready (.ok idProtocol) := by
    rw [readLengthPrefixed_ok, C40_read_exact, hv]
    have := Reads.message [] .silent (framed_prefixed (data := idProtocol) (by decide))
    rwa [List.append_nil] at this
  generalize readLengthPrefixed r2 = R at hr
  obtain ⟨y, r3⟩ := R
  simp only at hr
  subst hr
  simp only
  rw [if_neg (fun e => hid e.symm), if_neg (by decide)]

/-- The opener of the examples, and the acceptor, which has two services. -/
def openerOf (sent : Bytes) : Transport := ⟨[.ready (sent.take 7), .pending, .ready (sent.drop 7)], List.replicate 80 (.accept 3), [.pending, .ok, .ok], [], []⟩

@[inherit_doc openerOf] def acceptorOf (sent : Bytes) : Transport :=
  ⟨[.pending, .ready (sent.take 22), .ready (sent.drop 22)], List.replicate 80 (.accept 3), [.ok, .pending, .ok], [], []⟩

theorem takes_example (n : Nat) (hn : n ≤ 80) : WillTake (List.replicate 80 (.accept 3)) n := by
  refine ⟨fun e he => .inr ⟨3, by decide, List.eq_of_mem_replicate he⟩, ?_⟩
  rw [List.filter_replicate]
  simpa using hn

/-- The hypotheses can be met: for a protocol that is not offered, for identification, and for bitswap. -/
theorem connected_example : ∀ p ∈ [[47, 120, 10], idProtocol, bitswapProtocol], Connected [idProtocol, bitswapProtocol] p
    (openerOf (framed multistreamId ++ if p = [47, 120, 10] then framed naMessage else framed idProtocol))
    (acceptorOf (framed multistreamId ++ framed p)) := by
  intro p hp
  refine ⟨⟨rfl, rfl⟩, ?_, ?_, ⟨takes_example _ ?_, by simp [openerOf, WillFlush]⟩, ⟨takes_example _ (by decide +kernel), by simp [acceptorOf, WillFlush]⟩⟩
  all_goals (revert p; decide +kernel)

/-- **C175** is false: with bitswap, the acceptor starts the service and the opener gives up. -/
theorem C175_false : ¬ C175_statement := by
  intro h
  have hc := connected_example bitswapProtocol (by simp)
  have h1 := ((h _ _ _ _ (by decide) (by decide) hc).1 (by simp)).1
  have h2 := (C175_others_disagree _ _ _ _ (by decide) hc (by simp) (by decide)).1
  rw [h1] at h2
  cases h2

end Ngfs.Io
