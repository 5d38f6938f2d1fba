import Verif.Spec.Stack
import Verif.Props.TlsAttack
import Verif.Lemmas.MplexPair

/-!
Lemmas for C149: a multiplexer over a TLS connection does nothing that a multiplexer over a transport that keeps the order of
the bytes could not do.
-/
namespace Ngfs.Spec.Stack
open Ngfs.Tls Ngfs.Spec.Mplex

/-- Everything that the connection has sealed so far. -/
def onWire (c : Conn) : Bytes := c.plaintext.inner.sent ++ c.plaintext.outgoing

theorem append_onWire {X K : Type} (cr : Crypto X K) (c : Conn) (d : Bytes) (t : ContentType) :
    onWire c <+: onWire (c.appendRecord cr d t).2 := by
  unfold Conn.appendRecord encryptRecord
  by_cases hl : d.length > maxPlaintextRecordSize
  · simp only [if_pos hl]; exact List.prefix_rfl
  · simp only [if_neg hl]
    cases encryptTraffic cr c.seqenc.trafficSecrets.client c.seqenc.clientSequenceNo (d ++ [t.toRaw]) with
    | error e => exact List.prefix_rfl
    | ok data =>
      simp only [onWire, ← List.append_assoc]
      exact List.prefix_append _ _

theorem flush_onWire (c : Conn) : onWire c.pollFlushEncrypted.2 = onWire c := (pollFlush_frame c.plaintext).1

theorem finish_onWire (c : Conn) : onWire c.finishShutdown.2 = onWire c := (finishShutdown_frame c).1

theorem step_onWire {X K : Type} (cr : Crypto X K) (c : Conn) (op : ConnOp) : onWire c <+: onWire (op.step cr c).2 := by
  cases op with
  | read room =>
    have := pollRead_tx cr c room
    have h1 := congrArg Tx.sent this
    have h2 := congrArg Tx.outgoing this
    simp only [Conn.tx] at h1 h2
    simp only [ConnOp.step, onWire, h1, h2]
    exact List.prefix_rfl
  | write buf =>
    simp only [ConnOp.step]
    unfold Conn.pollWrite
    rcases c.plaintext.writeState with _ | _ | e
    · simp only
      have hf := flush_onWire c
      generalize c.pollFlushEncrypted = P at hf ⊢
      obtain ⟨res, c'⟩ := P
      rcases res with _ | (e | u)
      · exact (hf.symm ▸ List.prefix_rfl : onWire c <+: onWire c')
      · exact (hf.symm ▸ List.prefix_rfl : onWire c <+: onWire c')
      · simp only at hf ⊢
        have ha := append_onWire cr c' (buf.take (min buf.length maxPlaintextRecordSize)) .applicationData
        generalize c'.appendRecord cr (buf.take (min buf.length maxPlaintextRecordSize)) .applicationData = Q at ha ⊢
        obtain ⟨res, c''⟩ := Q
        rw [← hf]
        rcases res <;> exact ha
    · exact List.prefix_rfl
    · exact List.prefix_rfl
  | flush =>
    simp only [ConnOp.step]
    unfold Conn.pollFlush
    rcases c.plaintext.writeState with _ | _ | e
    · exact flush_onWire c ▸ List.prefix_rfl
    · exact List.prefix_rfl
    · exact List.prefix_rfl
  | shutdown =>
    simp only [ConnOp.step]
    unfold Conn.pollShutdown
    rcases c.plaintext.writeState with _ | _ | e
    · simp only
      unfold Conn.appendCloseNotify
      have ha := append_onWire cr c [AlertLevel.warning.toRaw, AlertDescription.closeNotify.toRaw] .alert
      generalize c.appendRecord cr [AlertLevel.warning.toRaw, AlertDescription.closeNotify.toRaw] .alert = Q at ha ⊢
      obtain ⟨res, c''⟩ := Q
      rcases res with e | u
      · exact ha
      · simp only at ha ⊢
        rw [finish_onWire]
        exact ha
    · exact finish_onWire c ▸ List.prefix_rfl
    · exact List.prefix_rfl

theorem run_onWire {X K : Type} (cr : Crypto X K) (ops : List ConnOp) : ∀ c : Conn, onWire c <+: onWire (connRun cr c ops).2 := by
  induction ops with
  | nil => exact fun _ => List.prefix_rfl
  | cons op ops ih => exact fun c => (step_onWire cr c op).trans (ih _)

/-- What could not be forged when less had been sent has still not been forged. -/
theorem notForged_mono {X K : Type} {cr : Crypto X K} {c0 c c' : Conn} {acc : List Bytes} {k : Nat} {closed : Bool} {arrived : Bytes}
    (hfresh : c0.plaintext.inner.sent = [] ∧ c0.plaintext.outgoing = []) (hs : SendInv cr c0 acc k closed c)
    (hp : onWire c <+: onWire c')
    (h : NotForged cr c0.seqenc.trafficSecrets.client c0.seqenc.clientSequenceNo (onWire c) arrived) :
    NotForged cr c0.seqenc.trafficSecrets.client c0.seqenc.clientSequenceNo (onWire c') arrived := by
  obtain ⟨_, _, hs⟩ := hs
  obtain ⟨ws1, -, h1, h2, -⟩ := hs.stream
  simp only [Conn.tx] at h1 h2
  rw [hfresh.1, hfresh.2, List.nil_append, List.nil_append] at h1
  have hl : ∀ w ∈ ws1, w.Legal := by
    intro w' hw'
    obtain ⟨i, hi', hii⟩ := List.getElem_of_mem hw'
    obtain ⟨-, -, hl, -⟩ := protectsAll_get h2 i w' (List.getElem?_eq_some_iff.mpr ⟨hi', hii⟩)
    exact hl
  intro all ws rest g1 g2 g3 g4 w hw i hi typ content ht hpr
  have hw1 := h all ws1 rest g1 g2 hl h1 w hw i hi typ content ht hpr
  obtain ⟨more, hm⟩ := hp
  obtain ⟨r, hr⟩ := wire_begins hl g3 (rest := more) (by
    show wire ws = wire ws1 ++ more
    rw [← g4, ← h1]; exact hm.symm)
  rw [← hr]
  have := (List.getElem?_eq_some_iff.mp hw1).1
  rw [List.getElem?_append_left this]
  exact hw1

theorem accepted_append (a b : List ConnEvent) : accepted (a ++ b) = accepted a ++ accepted b := by
  induction a with
  | nil => rfl
  | cons e a ih => rw [List.cons_append, accepted_one, ih, ← List.append_assoc, ← accepted_one]

theorem readBytes_append (a b : List ConnEvent) : Tls.readBytes (a ++ b) = Tls.readBytes a ++ Tls.readBytes b := by
  induction a with
  | nil => rfl
  | cons e a ih => rw [List.cons_append, readBytes_one, ih, ← List.append_assoc, ← readBytes_one]

theorem readBytes_noRead {X K : Type} (cr : Crypto X K) (ops : List ConnOp) (h : ∀ room, .read room ∉ ops) :
    ∀ c : Conn, Tls.readBytes (connRun cr c ops).1 = [] := by
  induction ops with
  | nil => exact fun _ => rfl
  | cons op ops ih =>
    intro c
    simp only [connRun]
    rw [readBytes_one, ih (fun room hm => h room (by simp [hm])), List.append_nil]
    exact (step_rx cr c op (fun room e => h room (by simp [e]))).2

theorem readData_snoc (es : List ReadEvent) (e : ReadEvent) : readData (es ++ [e]) = readData es ++ readData [e] := by
  induction es with
  | nil => rfl
  | cons x es ih => cases x <;> simp [readData, ih]

theorem readInv_receive {X K : Type} {cr : Crypto X K} {c0 c : Conn} {got : Bytes} {msgs : List (UInt8 × Bytes)}
    (h : ReadInv cr c0 got msgs c) (e : ReadEvent) : ReadInv cr (receive c0 e) got msgs (receive c e) := by
  obtain ⟨all, taken, hr⟩ := h.received
  refine ⟨⟨all, taken, ?_, hr.legal, hr.sub, hr.auth, hr.types⟩, h.secrets, h.seqNo, h.data, h.eof, h.last⟩
  simp only [receive]
  rw [readData_snoc, readData_snoc, ← List.append_assoc, hr.framed]
  simp

/-- What holds of two sides of which `y` sends to `x`. -/
structure Dir {X K : Type} (cr : Crypto X K) (y x : Side) : Prop where
  other : OtherEnd y.start x.start
  iv : y.start.seqenc.trafficSecrets.client.writeIv.length = 12
  fresh : y.start.plaintext.inner.sent = [] ∧ y.start.plaintext.outgoing = []
  send : ∃ k closed, SendInv cr y.start (accepted y.evs) k closed y.tls
  read : ∃ msgs, ReadInv cr x.start (Tls.readBytes x.evs) msgs x.tls
  forged : NotForged cr y.start.seqenc.trafficSecrets.client y.start.seqenc.clientSequenceNo (onWire y.tls)
    (readData x.start.plaintext.inner.reads)
  sent : y.mux.sent = (accepted y.evs).flatten
  recv : x.mux.received = Tls.readBytes x.evs

theorem Dir.beginning {X K : Type} {cr : Crypto X K} {y x : Side} (h : Dir cr y x) : x.mux.received <+: y.mux.sent := by
  obtain ⟨k, closed, hs⟩ := h.send
  obtain ⟨msgs, hr⟩ := h.read
  rw [h.recv, h.sent]
  exact (msgs_beginning h.other h.fresh hs hr h.forged).2.2

theorem answers_mux (x : End) (ws : List WriteEvent) (fs : List DoneEvent) :
    (answers x ws fs).received = x.received ∧ (answers x ws fs).sent = x.sent := by
  have h1 : ∀ (fs : List DoneEvent) (x : End), (fs.foldl End.takeFlush x).received = x.received ∧ (fs.foldl End.takeFlush x).sent = x.sent := by
    intro fs
    induction fs with
    | nil => exact fun _ => ⟨rfl, rfl⟩
    | cons e fs ih => exact fun x => ih _
  have h2 : ∀ (ws : List WriteEvent) (x : End), (ws.foldl End.takeWrite x).received = x.received ∧ (ws.foldl End.takeWrite x).sent = x.sent := by
    intro ws
    induction ws with
    | nil => exact fun _ => ⟨rfl, rfl⟩
    | cons e ws ih => exact fun x => ih _
  exact ⟨(h1 fs _).1.trans (h2 ws x).1, (h1 fs _).2.trans (h2 ws x).2⟩

theorem seen_mux (k : IoKind) (x : End) (a : Poll (Except TlsErr Bytes)) (room : Nat) :
    (seen k x a).received = x.received ++ Tls.readBytes [.read room a] ∧ (seen k x a).sent = x.sent := by
  rcases a with _ | (e | d)
  · exact ⟨(List.append_nil _).symm, rfl⟩
  · refine ⟨?_, rfl⟩
    simp [seen, End.received, End.arrive, Ngfs.Mplex.readBytes_append, Ngfs.Mplex.readBytes, Tls.readBytes]
  · refine ⟨?_, rfl⟩
    simp [seen, End.received, End.arrive, Ngfs.Mplex.readBytes_append, Ngfs.Mplex.readBytes, Tls.readBytes]

/-- The side that moves, as the receiver. -/
theorem dir_receiver {X K : Type} {cr : Crypto X K} {y x : Side} (h : Dir cr y x) (m : Move) (ha : Allowed cr x y m) :
    Dir cr y (x.move cr m) := by
  have hriv : x.start.seqenc.trafficSecrets.server.writeIv.length = 12 := by rw [h.other.key]; exact h.iv
  cases m with
  | network e =>
    obtain ⟨msgs, hr⟩ := h.read
    exact ⟨⟨⟨h.other.key, h.other.number, h.other.active, h.other.nothing⟩, h.other.receiver⟩, h.iv, h.fresh, h.send,
      ⟨msgs, readInv_receive hr e⟩, ha, h.sent, h.recv⟩
  | poll op ws fs calls =>
    obtain ⟨msgs, hr⟩ := h.read
    obtain ⟨msgs', hr', -⟩ := readInv_run cr x.start hriv calls x.tls _ _ hr
    have hno := readBytes_noRead cr calls ha.2 x.tls
    refine ⟨h.other, h.iv, h.fresh, h.send, ⟨msgs', ?_⟩, h.forged, h.sent, ?_⟩
    · simp only [Side.move]
      rw [readBytes_append]
      exact hr'
    · simp only [Side.move]
      rw [readBytes_append, hno, List.append_nil, ← h.recv]
      exact (answers_mux x.mux ws fs).1
  | read room k =>
    obtain ⟨msgs, hr⟩ := h.read
    obtain ⟨msgs', hr', -⟩ := readInv_read cr x.start hriv x.tls _ _ hr room
    refine ⟨h.other, h.iv, h.fresh, h.send, ⟨msgs', ?_⟩, h.forged, h.sent, ?_⟩
    · simp only [Side.move]
      rw [readBytes_append]
      exact hr'
    · simp only [Side.move]
      rw [readBytes_append, ← h.recv]
      exact (seen_mux k x.mux _ room).1

/-- The side that moves, as the sender. -/
theorem dir_sender {X K : Type} {cr : Crypto X K} (hc : cr.Correct) {y x : Side} (h : Dir cr x y) (m : Move) (ha : Allowed cr x y m) :
    Dir cr (x.move cr m) y := by
  cases m with
  | network e =>
    exact ⟨⟨⟨h.other.key, h.other.number, h.other.active, h.other.nothing⟩, h.other.receiver⟩, h.iv, h.fresh, h.send, h.read,
      h.forged, h.sent, h.recv⟩
  | poll op ws fs calls =>
    obtain ⟨k, closed, hs⟩ := h.send
    obtain ⟨closed', hs', -⟩ := sendInv_run hc h.iv calls hs
    refine ⟨h.other, h.iv, h.fresh, ⟨k + calls.length, closed', ?_⟩, h.read, ?_, ?_, h.recv⟩
    · simp only [Side.move]
      rw [accepted_append]
      exact hs'
    · exact notForged_mono h.fresh hs (run_onWire cr calls x.tls) h.forged
    · simp only [Side.move]
      rw [accepted_append, List.flatten_append, ← h.sent]
      exact ha.1
  | read room k =>
    obtain ⟨n, closed, hs⟩ := h.send
    obtain ⟨closed', hs', -⟩ := sendInv_step hc h.iv hs (.read room)
    refine ⟨h.other, h.iv, h.fresh, ⟨n + 1, closed', ?_⟩, h.read, ?_, ?_, h.recv⟩
    · simp only [Side.move]
      rw [accepted_append]
      exact hs'
    · exact notForged_mono h.fresh hs (step_onWire cr x.tls (.read room)) h.forged
    · simp only [Side.move]
      rw [accepted_append]
      show (seen k x.mux _).sent = (accepted x.evs ++ []).flatten
      rw [List.append_nil, ← h.sent]
      exact (seen_mux k x.mux _ room).2

/-- What a move is to the multiplexer. -/
def acts {X K : Type} (cr : Crypto X K) (x : Side) : Move → List Act
  | .network _ => []
  | .poll op ws fs _ => ws.map .takeWrite ++ fs.map .takeFlush ++ [.poll op]
  | .read room k =>
    match (x.tls.pollRead cr room).1 with
    | .pending => []
    | .ready (.ok d) => if d = [] then [.readEnd] else [.deliver d.length]
    | .ready (.error _) => [.readError k]

theorem acts_move {X K : Type} {cr : Crypto X K} {y x : Side} (h : Dir cr y x) (m : Move) (ha : Allowed cr x y m) :
    (acts cr x m).foldl (fun e a => e.act y.mux a) x.mux = (x.move cr m).mux := by
  cases m with
  | network e => rfl
  | poll op ws fs calls =>
    simp only [acts, Side.move, List.foldl_append, List.foldl_map, List.foldl_cons, List.foldl_nil, answers]
    rfl
  | read room k =>
    have hb := (dir_receiver h (.read room k) ha).beginning
    simp only [acts, Side.move] at hb ⊢
    rcases hp : (x.tls.pollRead cr room).1 with _ | (e | d)
    · rfl
    · rfl
    · simp only [hp] at hb ⊢
      by_cases hd : d = []
      · subst hd; rfl
      · rw [if_neg hd]
        simp only [List.foldl_cons, List.foldl_nil, End.act]
        have hf : (inFlight y.mux x.mux).take d.length = d := by
          obtain ⟨r, hr⟩ := hb
          rw [(seen_mux k x.mux (.ready (.ok d)) room).1] at hr
          unfold inFlight
          rw [← hr]
          simp [Tls.readBytes]
        rw [hf, if_neg hd]
        rfl

theorem foldl_side (s : Bool) (as : List Act) (p : Pair) :
    (as.map (s, ·)).foldl Pair.step p =
      if s then ⟨as.foldl (fun e a => e.act p.b a) p.a, p.b⟩ else ⟨p.a, as.foldl (fun e a => e.act p.a a) p.b⟩ := by
  induction as generalizing p with
  | nil => cases s <;> rfl
  | cons a as ih =>
    rw [List.map_cons, List.foldl_cons, ih]
    cases s <;> rfl

theorem opensAt_append (s : Bool) (a b : List (Bool × Act)) : opensAt s (a ++ b) = opensAt s a + opensAt s b := by
  simp [opensAt, List.countP_append]

theorem opensAt_acts {X K : Type} (cr : Crypto X K) (x : Side) (t s : Bool) (m : Move) :
    opensAt s ((acts cr x m).map (t, ·)) = opens s [(t, m)] := by
  cases m with
  | network e => rfl
  | poll op ws fs calls =>
    simp only [acts, List.map_append, opensAt_append]
    have h1 : opensAt s ((ws.map Act.takeWrite).map (t, ·)) = 0 := by
      simp [opensAt, List.countP_map, List.countP_eq_zero]
    have h2 : opensAt s ((fs.map Act.takeFlush).map (t, ·)) = 0 := by
      simp [opensAt, List.countP_map, List.countP_eq_zero]
    rw [h1, h2]
    cases op <;> simp [opensAt, opens]
  | read room k =>
    simp only [acts]
    rcases (x.tls.pollRead cr room).1 with _ | (e | d)
    · rfl
    · rfl
    · simp only
      split <;> rfl

/-- Every run of the two sides is, for the multiplexers, a run over a transport that keeps the order of the bytes. -/
theorem run_pair {X K : Type} {cr : Crypto X K} (hc : cr.Correct) (ms : List (Bool × Move)) :
    ∀ (s : Stack) (as : List (Bool × Act)), Dir cr s.a s.b → Dir cr s.b s.a → s.Possible cr ms →
      Pair.run as = ⟨s.a.mux, s.b.mux⟩ →
      Dir cr (s.run cr ms).a (s.run cr ms).b ∧ Dir cr (s.run cr ms).b (s.run cr ms).a ∧
      ∃ as', Pair.run as' = ⟨(s.run cr ms).a.mux, (s.run cr ms).b.mux⟩ ∧
        ∀ t, opensAt t as' = opensAt t as + opens t ms := by
  induction ms with
  | nil => exact fun s as h1 h2 _ h3 => ⟨h1, h2, as, h3, fun t => rfl⟩
  | cons m ms ih =>
    intro s as h1 h2 h3 h4
    obtain ⟨h3, h5⟩ := h3
    obtain ⟨t, m⟩ := m
    have hcount : ∀ u, opens u ((t, m) :: ms) = opens u [(t, m)] + opens u ms := by
      intro u
      rw [show (t, m) :: ms = [(t, m)] ++ ms from rfl, opens, List.countP_append]
      rfl
    cases t with
    | true =>
      simp only [if_true] at h3
      have g1 : Dir cr (s.move cr (true, m)).a (s.move cr (true, m)).b := dir_sender hc h1 m h3
      have g2 : Dir cr (s.move cr (true, m)).b (s.move cr (true, m)).a := dir_receiver h2 m h3
      obtain ⟨i1, i2, as', i3, i4⟩ := ih (s.move cr (true, m)) (as ++ (acts cr s.a m).map (true, ·)) g1 g2 h5 (by
        unfold Pair.run
        rw [List.foldl_append]
        show ((acts cr s.a m).map (true, ·)).foldl Pair.step (Pair.run as) = _
        rw [h4, foldl_side]
        simp only [if_true, acts_move h2 m h3]
        rfl)
      refine ⟨i1, i2, as', i3, fun u => ?_⟩
      rw [i4, opensAt_append, opensAt_acts, hcount]
      omega
    | false =>
      simp only [Bool.false_eq_true, if_false] at h3
      have g1 : Dir cr (s.move cr (false, m)).a (s.move cr (false, m)).b := dir_receiver h1 m h3
      have g2 : Dir cr (s.move cr (false, m)).b (s.move cr (false, m)).a := dir_sender hc h2 m h3
      obtain ⟨i1, i2, as', i3, i4⟩ := ih (s.move cr (false, m)) (as ++ (acts cr s.b m).map (false, ·)) g1 g2 h5 (by
        unfold Pair.run
        rw [List.foldl_append]
        show ((acts cr s.b m).map (false, ·)).foldl Pair.step (Pair.run as) = _
        rw [h4, foldl_side]
        simp only [Bool.false_eq_true, if_false, acts_move h1 m h3]
        rfl)
      refine ⟨i1, i2, as', i3, fun u => ?_⟩
      rw [i4, opensAt_append, opensAt_acts, hcount]
      omega

end Ngfs.Spec.Stack
