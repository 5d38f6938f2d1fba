import Verif.Lemmas.MplexPair
import Mathlib.Tactic.ByContra
import Mathlib.Data.List.Induction

/-! Lemmas for two connected multiplexers: the invariant of the pair. -/
namespace Ngfs.Mplex
open Ngfs.Spec Ngfs.Spec.Mplex

/-! ### The transport takes more and more -/

theorem writeLoop_sent (ws : List WriteEvent) : ∀ (out sent : Bytes), sent <+: (writeLoop ws out sent).2.2.2 := by
  induction ws with
  | nil => intro out sent; cases out <;> simp [writeLoop]
  | cons w ws ih =>
    intro out sent
    cases out with
    | nil => simp [writeLoop]
    | cons o os =>
      cases w with
      | pending => simp [writeLoop]
      | error k => simp [writeLoop]
      | accept n => rw [writeLoop]; exact (List.prefix_append _ _).trans (ih _ _)

theorem pollDrain_sent (s : FrameStream) : s.transport.sent <+: s.pollDrain.2.transport.sent := by
  have h := writeLoop_sent s.transport.writes s.outgoing s.transport.sent
  unfold FrameStream.pollDrain
  generalize writeLoop s.transport.writes s.outgoing s.transport.sent = W at h
  obtain ⟨r, ws, out, sent⟩ := W
  simp only at h ⊢
  rcases r with _ | (_ | _)
  · exact h
  · exact h
  · simp only [Transport.pollFlush]
    cases s.transport.flushes with
    | nil => exact h
    | cons e es => cases e <;> exact h

theorem finishConnect_sent (c : Conn) (id : StreamId) :
    c.shared.frames.transport.sent <+: (c.finishConnect id).2.1.shared.frames.transport.sent := by
  have h := pollDrain_sent c.shared.frames
  unfold Conn.finishConnect
  generalize c.shared.frames.pollDrain = P at h
  obtain ⟨r, fs⟩ := P
  rcases r with _ | (_ | _) <;> exact h

theorem drain_sent (c : Conn) (i : Nat) (w : Handle) :
    c.shared.frames.transport.sent <+: (c.drain i w).2.shared.frames.transport.sent := by
  have h := pollDrain_sent c.shared.frames
  unfold Conn.drain
  cases w.writeError with
  | some k => exact List.prefix_rfl
  | none =>
    simp only
    generalize c.shared.frames.pollDrain = P at h
    obtain ⟨r, fs⟩ := P
    rcases r with _ | (_ | _) <;> exact h

theorem step_sent {t : Transport} {c : Conn} {evs : List Event} (h : Inv t c.shared evs) (op : Op) :
    c.shared.frames.transport.sent <+: (c.step op).2.1.shared.frames.transport.sent := by
  have hfill : c.shared.pollFill.2.1.frames.transport.sent = c.shared.frames.transport.sent := by
    obtain ⟨hst, -⟩ := pollFill_step c.shared h.closed
    rw [hst.transport]
  unfold Conn.step
  cases c.poisoned with
  | true => exact List.prefix_rfl
  | false =>
    simp only [Bool.false_eq_true, if_false]
    cases op with
    | accept =>
      have h1 := pollAccept_frames c.shared
      simp only [Conn.accept]
      generalize c.shared.pollAcceptId = P at h1
      obtain ⟨r, m', taken⟩ := P
      simp only at h1
      rw [← hfill, ← h1]
      rcases r with _ | (_ | (_ | _)) <;> exact List.prefix_rfl
    | connect name =>
      simp only [Conn.connect]
      have h0 : (c.shared.appendNew name).2.frames.transport.sent = c.shared.frames.transport.sent := by
        cases name <;> rfl
      generalize c.shared.appendNew name = P at h0
      obtain ⟨id, m⟩ := P
      simp only at h0 ⊢
      rw [← h0]
      exact finishConnect_sent { c with shared := m } id
    | reconnect k =>
      simp only [Conn.reconnect]
      cases c.connecting[k]? with
      | none => exact List.prefix_rfl
      | some id => exact finishConnect_sent c id
    | read i room =>
      simp only
      cases c.handles[i]? with
      | none => exact List.prefix_rfl
      | some w =>
        have h1 := pollRead_frames c.shared w.id room
        simp only [Conn.read]
        generalize c.shared.pollRead w.id room = P at h1
        obtain ⟨r, m', taken⟩ := P
        simp only at h1
        rw [← hfill, ← h1]
        rcases r with _ | (_ | _) <;> exact List.prefix_rfl
    | write i data =>
      simp only
      cases c.handles[i]? with
      | none => exact List.prefix_rfl
      | some w =>
        have h1 := drain_sent c i w
        simp only [Conn.write]
        generalize c.drain i w = P at h1
        obtain ⟨r, c'⟩ := P
        rcases r with _ | (_ | _)
        · exact h1
        · exact h1
        · cases w.id <;> exact h1
    | flush i =>
      simp only
      cases c.handles[i]? with
      | none => exact List.prefix_rfl
      | some w =>
        have h1 := drain_sent c i w
        simp only [Conn.flush]
        generalize c.drain i w = P at h1
        obtain ⟨r, c'⟩ := P
        rcases r with _ | (_ | _) <;> exact h1
    | shutdown i =>
      simp only
      cases c.handles[i]? with
      | none => exact List.prefix_rfl
      | some w =>
        have h1 := drain_sent c i w
        simp only [Conn.shutdown]
        generalize c.drain i w = P at h1
        obtain ⟨r, c'⟩ := P
        rcases r with _ | (_ | _)
        · exact h1
        · exact h1
        · cases w.id <;> exact h1
    | dropReader i =>
      simp only
      cases c.handles[i]? with
      | none => exact List.prefix_rfl
      | some w => exact List.prefix_rfl

/-! ### One end's frames at the other -/

/-- Bytes that begin with a sequence of frames and are a sequence of frames. -/
theorem frames_prefix {bs x : Bytes} {fs gs : List Frame} (h1 : Frames bs fs) (h2 : Frames (bs ++ x) gs) :
    ∃ hs, gs = fs ++ hs ∧ Frames x hs := by
  induction fs generalizing bs gs with
  | nil =>
    have := frames_nil_inv h1
    subst this
    exact ⟨gs, rfl, h2⟩
  | cons f fs ih =>
    obtain ⟨b, r, rfl, hb, hr⟩ := frames_cons_inv h1
    cases gs with
    | nil =>
      have := frames_nil_inv h2
      have := isFrame_length hb
      simp_all
    | cons g gs =>
      obtain ⟨b', r', he, hb', hr'⟩ := frames_cons_inv h2
      rw [List.append_assoc] at he
      obtain ⟨rfl, rfl⟩ := isFrame_unique hb hb' he
      obtain ⟨hs, rfl, hx⟩ := ih hr hr'
      exact ⟨hs, rfl, hx⟩

/-- What has been sent and what is to be sent are the frames that were asked for. -/
theorem inv_out_frames {t : Transport} {m : Shared} {evs : List Event} (h : Inv t m evs) (ht : t.sent = [])
    (hfit : ∀ o ∈ outIn evs, o.Fits) :
    Frames (m.frames.transport.sent ++ m.frames.outgoing) ((outIn evs).map OutFrame.seen) := by
  obtain ⟨bs, hb, hf⟩ := sendAll_bytes _ (FrameStream.new t) hfit
  have ho := h.out
  rw [hb, ht] at ho
  simp only [FrameStream.new, List.nil_append] at ho
  rw [← ho]; exact hf

/-- What one end has taken are the first of the frames the other was asked to send. -/
theorem taken_prefix {x y : End} (hx : Inv ⟨x.arrived, [], [], [], []⟩ x.conn.shared x.evs)
    (hy : Inv ⟨y.arrived, [], [], [], []⟩ y.conn.shared y.evs) (hl : y.received <+: x.sent)
    (hfit : ∀ o ∈ outIn x.evs, o.Fits) :
    takenIn y.evs <+: (outIn x.evs).map OutFrame.seen := by
  have h1 := inv_out_frames hx rfl hfit
  obtain ⟨used, bs, hu, hb, hf⟩ := hy.wire
  obtain ⟨z, hz⟩ := hl
  have : ∃ r, x.conn.shared.frames.transport.sent ++ x.conn.shared.frames.outgoing = bs ++ r := by
    refine ⟨y.conn.shared.frames.incoming ++ (readBytes y.conn.shared.frames.transport.reads ++
      (z ++ x.conn.shared.frames.outgoing)), ?_⟩
    have e : x.conn.shared.frames.transport.sent = y.received ++ z := hz.symm
    rw [e]
    simp only at hu
    unfold End.received
    rw [hu, readBytes_append, hb]
    simp only [List.append_assoc]
  obtain ⟨r, hr⟩ := this
  rw [hr] at h1
  obtain ⟨hs, he, -⟩ := frames_prefix hf h1
  exact ⟨hs, he.symm⟩

/-! ### The invariant -/

/-- Bytes are written to streams known to the other end, or announced to it. -/
def Known (pre : List Event) : StreamId → Prop
  | .receiver n => ∃ name, .announced n name ∈ pre
  | .initiator n => .opened (.initiator n) ∈ pre

structure EInv (x : End) : Prop where
  inv : Inv ⟨x.arrived, [], [], [], []⟩ x.conn.shared x.evs
  own : ∀ id ∈ x.conn.own, .opened id ∈ x.evs
  acc : ∀ n, slotNew x.conn.shared (.initiator n) + x.evs.count (.opened (.initiator n)) =
    countNew (.initiator n) (takenIn x.evs)
  wrote : ∀ pre id d post, x.evs = pre ++ .wrote id d :: post → Known pre id
  recv : ∀ n, .opened (.receiver n) ∈ x.evs → n < x.conn.shared.nextStreamNum ∧ ∃ name, .announced n name ∈ x.evs
  recvOnce : ∀ n, x.evs.count (.opened (.receiver n)) ≤ 1
  ann : ∀ n name, .announced n name ∈ x.evs → n < x.conn.shared.nextStreamNum ∧ .opened (.receiver n) ∈ x.evs
  annOnce : ∀ n, countNew (.initiator n) ((outIn x.evs).map OutFrame.seen) ≤ 1

/-- Data arrives only for streams that have been opened. -/
def Ord (evs : List Event) : Prop :=
  ∀ pre f post, evs = pre ++ .taken f :: post → f.op = .message → .opened f.streamId ∈ pre

/-- The frames that history asks for, seen by the other end, contain a frame that opens `n` just if `n` was
announced. -/
theorem new_mem_outs (evs : List Event) (n : Nat) :
    1 ≤ countNew (.initiator n) ((outIn evs).map OutFrame.seen) → ∃ name, .announced n name ∈ evs := by
  intro h
  have := List.countP_pos_iff.mp (show 0 < _ from h)
  obtain ⟨f, hf, hp⟩ := this
  simp only [decide_eq_true_eq] at hp
  obtain ⟨o, ho, rfl⟩ := List.mem_map.mp hf
  unfold outIn at ho
  obtain ⟨e, he, heo⟩ := List.mem_filterMap.mp ho
  cases e with
  | announced num name =>
    simp only [Option.some.injEq] at heo
    subst heo
    simp only [OutFrame.seen, StreamId.initiator.injEq, true_and] at hp
    subst hp
    exact ⟨name, he⟩
  | wrote id d => cases id <;> (simp only [Option.some.injEq] at heo; subst heo; simp [OutFrame.seen] at hp)
  | shut id => cases id <;> (simp only [Option.some.injEq] at heo; subst heo; simp [OutFrame.seen] at hp)
  | _ => simp at heo

/-- Splitting what was asked for at a message. -/
theorem outs_split (evs : List Event) (a : List Frame) (f : Frame) (b : List Frame)
    (h : (outIn evs).map OutFrame.seen = a ++ f :: b) (hf : f.op = .message) :
    ∃ pre d post, evs = pre ++ .wrote (peerId f.streamId) d :: post ∧ a = (outIn pre).map OutFrame.seen ∧ d = f.data := by
  induction evs generalizing a with
  | nil => simp [outIn] at h
  | cons e es ih =>
    have skip : ∀ g : List Frame, (outIn [e]).map OutFrame.seen = g → ∀ a', a = g ++ a' →
        (outIn es).map OutFrame.seen = a' ++ f :: b →
        ∃ pre d post, e :: es = pre ++ .wrote (peerId f.streamId) d :: post ∧
          a = (outIn pre).map OutFrame.seen ∧ d = f.data := by
      intro g hg a' ha h'
      obtain ⟨pre, d, post, h1, h2, h3⟩ := ih a' h'
      refine ⟨e :: pre, d, post, by rw [h1]; rfl, ?_, h3⟩
      rw [show e :: pre = [e] ++ pre from rfl, outIn_append, List.map_append, hg, ← h2, ha]
    rw [show e :: es = [e] ++ es from rfl, outIn_append, List.map_append] at h
    generalize hg : (outIn [e]).map OutFrame.seen = g at h
    cases g with
    | nil => exact skip [] hg a rfl h
    | cons g0 gs =>
      have hgs : gs = [] := by
        cases e with
        | wrote id d => cases id <;> (simp [outIn] at hg; exact hg.2)
        | shut id => cases id <;> (simp [outIn] at hg; exact hg.2)
        | announced num name => simp [outIn] at hg; exact hg.2
        | _ => simp [outIn] at hg
      subst hgs
      cases a with
      | cons a0 as =>
        simp only [List.cons_append, List.nil_append, List.cons.injEq] at h
        obtain ⟨rfl, h⟩ := h
        exact skip [g0] hg as rfl h
      | nil =>
        simp only [List.cons_append, List.nil_append, List.cons.injEq] at h
        obtain ⟨hgf, -⟩ := h
        rw [hgf] at hg
        refine ⟨[], f.data, es, ?_, rfl, rfl⟩
        cases e with
        | wrote id d =>
          cases id <;> (simp [outIn, OutFrame.seen] at hg; subst hg; rfl)
        | shut id => cases id <;> (simp [outIn, OutFrame.seen] at hg; subst hg; cases hf)
        | announced num name => simp [outIn, OutFrame.seen] at hg; subst hg; cases hf
        | _ => simp [outIn] at hg

theorem mem_takenIn {evs : List Event} {f : Frame} : f ∈ takenIn evs ↔ Event.taken f ∈ evs := by
  unfold takenIn
  rw [List.mem_filterMap]
  constructor
  · rintro ⟨e, he, h⟩
    cases e <;> simp at h
    subst h; exact he
  · intro h; exact ⟨_, h, rfl⟩

theorem taken_tail {c c' : Conn} {tail : List Event} (h : Tail c c' tail) : takenIn tail = [] := by
  cases h <;> rfl

theorem countNew_pos {id : StreamId} {fs : List Frame} {f : Frame} (hf : f ∈ fs) (h1 : f.op = .new)
    (h2 : f.streamId = id) : 1 ≤ countNew id fs :=
  List.countP_pos_iff.mpr ⟨f, hf, by simp [h1, h2]⟩

theorem countNew_prefix {id : StreamId} {fs gs : List Frame} (h : fs <+: gs) : countNew id fs ≤ countNew id gs := by
  obtain ⟨r, rfl⟩ := h
  rw [countNew_append]; exact Nat.le_add_right _ _

/-- Data that one end has taken belongs to a stream that was open before. -/
theorem poll_ord {x y : End} (op : Op) (hx : EInv x) (hy : EInv y) (hxy : y.received <+: x.sent)
    (hfx : ∀ o ∈ outIn x.evs, o.Fits) (ho : Ord x.evs) {fs : List Frame} {tail : List Event}
    (hs : Shape x.conn (x.conn.step op).2.1 (x.conn.step op).2.2 fs tail)
    (hp : takenIn (x.poll op).evs <+: (outIn y.evs).map OutFrame.seen) :
    Ord (x.poll op).evs := by
  intro pre f post he hf
  have hev : (x.poll op).evs = x.evs ++ (fs.map .taken ++ tail) := by rw [← hs.ev]; rfl
  rw [hev] at he
  -- the frame was taken before, or by this poll
  have key : (∃ q, x.evs = pre ++ .taken f :: q) ∨
      ∃ pre' post', fs = pre' ++ f :: post' ∧ pre = x.evs ++ pre'.map .taken := by
    rw [List.append_eq_append_iff] at he
    rcases he with ⟨as, h1, h2⟩ | ⟨bs, h1, h2⟩
    · right
      rw [List.append_eq_append_iff] at h2
      rcases h2 with ⟨cs, h3, h4⟩ | ⟨cs, h3, h4⟩
      · have hm : Event.taken f ∈ tail := by rw [h4]; simp
        have := mem_takenIn.mpr hm
        rw [taken_tail hs.tail] at this
        cases this
      · cases cs with
        | nil =>
          simp only [List.nil_append] at h4
          have hm : Event.taken f ∈ tail := by rw [← h4]; simp
          have := mem_takenIn.mpr hm
          rw [taken_tail hs.tail] at this
          cases this
        | cons e cs =>
          simp only [List.cons_append, List.cons.injEq] at h4
          obtain ⟨rfl, -⟩ := h4
          obtain ⟨p1, p2, hp12, e1, e2⟩ := List.map_eq_append_iff.mp h3
          cases p2 with
          | nil => simp at e2
          | cons g p2 =>
            simp only [List.map_cons, List.cons.injEq, Event.taken.injEq] at e2
            obtain ⟨rfl, -⟩ := e2
            exact ⟨p1, p2, hp12, by rw [h1, e1]⟩
    · cases bs with
      | nil =>
        simp only [List.append_nil, List.nil_append] at h1 h2
        right
        cases fs with
        | nil =>
          have hm : Event.taken f ∈ tail := by
            simp only [List.map_nil, List.nil_append] at h2; rw [← h2]; simp
          have := mem_takenIn.mpr hm
          rw [taken_tail hs.tail] at this
          cases this
        | cons g fs =>
          simp only [List.map_cons, List.cons_append, List.cons.injEq, Event.taken.injEq] at h2
          obtain ⟨rfl, -⟩ := h2
          exact ⟨[], fs, rfl, by simp [h1]⟩
      | cons e bs =>
        simp only [List.cons_append, List.cons.injEq] at h2
        obtain ⟨rfl, -⟩ := h2
        exact .inl ⟨bs, h1⟩
  rcases key with ⟨q, hq⟩ | ⟨pre', post', hfs, hpre⟩
  · exact ho pre f q hq hf
  · rw [hpre]
    apply List.mem_append_left
    -- the other end has written it
    obtain ⟨r, hr⟩ := hp
    have htk : takenIn (x.poll op).evs = (takenIn x.evs ++ pre') ++ f :: post' := by
      rw [hev, takenIn_append, takenIn_append, takenIn_map, taken_tail hs.tail, hfs]; simp
    rw [htk] at hr
    obtain ⟨p, d, q, h1, h2, -⟩ := outs_split y.evs (takenIn x.evs ++ pre') f (post' ++ r) (by rw [← hr]; simp) hf
    have hk := hy.wrote p _ d q h1
    cases hid : f.streamId with
    | initiator n =>
      simp only [hid, peerId, Known] at hk
      obtain ⟨name, hk⟩ := hk
      have hnew : (⟨.initiator n, .new, []⟩ : Frame) ∈ takenIn x.evs ++ pre' := by
        rw [h2]
        refine List.mem_map.mpr ⟨.new n (some name), ?_, rfl⟩
        exact List.mem_filterMap.mpr ⟨_, hk, rfl⟩
      have hb := hs.before pre' f post' hfs (.initiator n)
      have ha := hx.acc n
      have hc := countNew_pos (id := .initiator n) hnew rfl rfl
      rw [countNew_append] at hc
      have : 0 < x.evs.count (.opened (.initiator n)) := by omega
      exact List.count_pos_iff.mp this
    | receiver n =>
      simp only [hid, peerId, Known] at hk
      have hk' : Event.opened (.initiator n) ∈ y.evs := by rw [h1]; exact List.mem_append_left _ hk
      have h3 := hy.acc n
      have h4 := List.count_pos_iff.mpr hk'
      have h5 := countNew_prefix (id := .initiator n) (taken_prefix hx.inv hy.inv hxy hfx)
      obtain ⟨name, h6⟩ := new_mem_outs x.evs n (by omega)
      exact (hx.ann n name h6).2

/-- The invariant of one end is kept when its user polls. -/
theorem poll_einv {x y : End} (op : Op) (hx : EInv x)
    (hn : x.conn.shared.nextStreamNum + connects [op] < 2 ^ 64) {fs : List Frame} {tail : List Event}
    (hy : ∀ n, countNew (.initiator n) ((outIn y.evs).map OutFrame.seen) ≤ 1)
    (hs : Shape x.conn (x.conn.step op).2.1 (x.conn.step op).2.2 fs tail)
    (hp : takenIn (x.poll op).evs <+: (outIn y.evs).map OutFrame.seen) :
    EInv (x.poll op) := by
  have hev : (x.poll op).evs = x.evs ++ (fs.map .taken ++ tail) := by rw [← hs.ev]; rfl
  have htk : takenIn (x.poll op).evs = takenIn x.evs ++ fs := by
    rw [hev, takenIn_append, takenIn_append, takenIn_map, taken_tail hs.tail]; simp
  have hmem : ∀ e, (∀ f, e ≠ .taken f) → (e ∈ (x.poll op).evs ↔ e ∈ x.evs ∨ e ∈ tail) := by
    intro e he
    rw [hev, List.mem_append, List.mem_append, List.mem_map]
    constructor
    · rintro (h | ⟨f, -, h⟩ | h)
      · exact .inl h
      · exact (he f h.symm).elim
      · exact .inr h
    · rintro (h | h)
      · exact .inl h
      · exact .inr (.inr h)
  have hcount : ∀ id, (x.poll op).evs.count (.opened id) = x.evs.count (.opened id) + tail.count (.opened id) := by
    intro id
    rw [hev, List.count_append, List.count_append]
    have : (fs.map Event.taken).count (.opened id) = 0 := by
      rw [List.count_eq_zero]; simp
    omega
  have hout : outIn (x.poll op).evs = outIn x.evs ++ outIn tail := by
    rw [hev, outIn_append, outIn_append, outIn_map, List.nil_append]
  have hnext : x.conn.shared.nextStreamNum ≤ (x.poll op).conn.shared.nextStreamNum := by
    show _ ≤ (x.conn.step op).2.1.shared.nextStreamNum
    cases hs.tail <;> omega
  refine ⟨(step_inv hx.inv op hn).1, ?_, ?_, ?_, ?_, ?_, ?_, ?_⟩
  · intro id hid
    rw [hmem _ (by simp)]
    rcases hs.own id hid with h | h
    · exact .inl (hx.own id h)
    · exact .inr h
  · intro n
    rw [htk, countNew_append, hcount, ← hx.acc n]
    rcases hs.slot with h | ⟨k, hk, h1⟩
    · have := h n
      show slotNew (x.conn.step op).2.1.shared _ + _ = _
      omega
    · have h2 := List.count_pos_iff.mpr (hx.own _ hk)
      have h3 := hx.acc k
      have h4 := countNew_prefix (id := .initiator k) hp
      rw [htk, countNew_append] at h4
      have := hy k
      omega
  · intro pre id d post he
    rw [hev] at he
    have key : (∃ q, x.evs = pre ++ .wrote id d :: q) ∨ (id ∈ x.conn.own ∧ x.evs <+: pre) := by
      rw [List.append_eq_append_iff] at he
      rcases he with ⟨as, h1, h2⟩ | ⟨bs, h1, h2⟩
      · right
        refine ⟨?_, ⟨as, h1.symm⟩⟩
        have hm : Event.wrote id d ∈ fs.map .taken ++ tail := by rw [h2]; simp
        rcases List.mem_append.mp hm with h | h
        · simp at h
        · cases hs.tail <;> simp at h
          obtain ⟨rfl, rfl⟩ := h
          assumption
      · cases bs with
        | nil =>
          simp only [List.append_nil, List.nil_append] at h1 h2
          right
          refine ⟨?_, by rw [h1]; exact List.prefix_rfl⟩
          have hm : Event.wrote id d ∈ fs.map .taken ++ tail := by rw [← h2]; simp
          rcases List.mem_append.mp hm with h | h
          · simp at h
          · cases hs.tail <;> simp at h
            obtain ⟨rfl, rfl⟩ := h
            assumption
        | cons e bs =>
          simp only [List.cons_append, List.cons.injEq] at h2
          obtain ⟨rfl, -⟩ := h2
          exact .inl ⟨bs, h1⟩
    rcases key with ⟨q, hq⟩ | ⟨h1, h2⟩
    · exact hx.wrote pre id d q hq
    · have h3 := hx.own id h1
      cases id with
      | receiver n =>
        obtain ⟨-, name, h4⟩ := hx.recv n h3
        exact ⟨name, h2.subset h4⟩
      | initiator n => exact h2.subset h3
  · intro n h
    rw [hmem _ (by simp)] at h
    rcases h with h | h
    · obtain ⟨h1, name, h2⟩ := hx.recv n h
      exact ⟨Nat.lt_of_lt_of_le h1 hnext, name, (hmem _ (by simp)).mpr (.inl h2)⟩
    · show n < (x.conn.step op).2.1.shared.nextStreamNum ∧ _
      have ht := hs.tail
      generalize htl : tail = tl at ht
      cases ht <;> rw [htl] at h <;> simp at h
      rename_i name hn'
      refine ⟨by omega, name, (hmem _ (by simp)).mpr (.inr ?_)⟩
      rw [htl]; simp [h]
  · intro n
    rw [hcount]
    have h1 := hx.recvOnce n
    cases hs.tail <;> simp
    all_goals try exact h1
    by_cases e : x.conn.shared.nextStreamNum = n
    · subst e
      have : x.evs.count (.opened (.receiver x.conn.shared.nextStreamNum)) = 0 := by
        rw [List.count_eq_zero]
        intro h
        have := (hx.recv _ h).1
        omega
      simp [this, List.count_cons]
    · simp [List.count_cons, e]; exact h1
  · intro n name h
    rw [hmem _ (by simp)] at h
    rcases h with h | h
    · obtain ⟨h1, h2⟩ := hx.ann n name h
      exact ⟨Nat.lt_of_lt_of_le h1 hnext, (hmem _ (by simp)).mpr (.inl h2)⟩
    · show n < (x.conn.step op).2.1.shared.nextStreamNum ∧ _
      have ht := hs.tail
      generalize htl : tail = tl at ht
      cases ht <;> rw [htl] at h <;> simp at h
      refine ⟨by omega, (hmem _ (by simp)).mpr (.inr ?_)⟩
      rw [htl]; simp [h]
  · intro n
    rw [hout, List.map_append, countNew_append]
    have h1 := hx.annOnce n
    have ht := hs.tail
    generalize htl : tail = tl at ht
    cases ht with
    | opened name hn' =>
      by_cases e : x.conn.shared.nextStreamNum = n
      · have h0 : countNew (.initiator n) ((outIn x.evs).map OutFrame.seen) = 0 := by
          by_contra hne
          obtain ⟨nm, h⟩ := new_mem_outs x.evs n (by omega)
          have := (hx.ann n nm h).1
          omega
        rw [h0, Nat.zero_add]
        exact List.countP_le_length
      · simp [outIn, OutFrame.seen, countNew, e] at h1 ⊢; exact h1
    | wrote id d => cases id <;> simpa [outIn, OutFrame.seen, countNew] using h1
    | shut id => cases id <;> simpa [outIn, OutFrame.seen, countNew] using h1
    | _ => simpa [outIn, countNew] using h1

/-- Everything but the transport's future answers is as it was. -/
theorem inv_transport {t : Transport} {m : Shared} {evs : List Event} (h : Inv t m evs) (es : List ReadEvent)
    (ws : List WriteEvent) (fl : List DoneEvent) :
    Inv ⟨t.reads ++ es, t.writes, t.flushes, t.shutdowns, t.sent⟩
      { m with frames := { m.frames with transport := { m.frames.transport with
        reads := m.frames.transport.reads ++ es, writes := ws, flushes := fl } } } evs := by
  obtain ⟨used, bs, h1, h2, h3⟩ := h.wire
  refine ⟨h.closed, ⟨used, bs, by simp only [h1, List.append_assoc], h2, h3⟩, ?_, h.owed, h.newEmpty, h.readerNums,
    h.frameNums, h.last⟩
  have ho := h.out
  have same : ∀ (outs : List OutFrame) (s s' : FrameStream), s.outgoing = s'.outgoing →
      (sendAll s outs).outgoing = (sendAll s' outs).outgoing := by
    intro outs
    induction outs with
    | nil => intro s s' h; exact h
    | cons o os ih =>
      intro s s' h
      cases o with
      | new num name => cases name <;> exact ih _ _ (by simp [FrameStream.appendNew, FrameStream.appendFrame, h])
      | message id data => cases id <;> exact ih _ _ (by simp [FrameStream.appendMessage, FrameStream.appendFrame, h])
      | close id => cases id <;> exact ih _ _ (by simp [FrameStream.appendClose, FrameStream.appendFrame, h])
  have hs := same (outIn evs)
    (FrameStream.new ⟨t.reads ++ es, t.writes, t.flushes, t.shutdowns, t.sent⟩) (FrameStream.new t) rfl
  rw [hs]
  exact ho

theorem einv_of {x x' : End} (h : EInv x) (hi : Inv ⟨x'.arrived, [], [], [], []⟩ x'.conn.shared x'.evs)
    (h1 : x'.evs = x.evs) (h2 : x'.conn.own = x.conn.own) (h3 : x'.conn.shared.incoming = x.conn.shared.incoming)
    (h4 : x'.conn.shared.nextStreamNum = x.conn.shared.nextStreamNum) : EInv x' := by
  refine ⟨hi, ?_, ?_, ?_, ?_, ?_, ?_, ?_⟩
  · rw [h1, h2]; exact h.own
  · intro n; have := h.acc n; simp only [slotNew] at this ⊢; rw [h1, h3]; exact this
  · rw [h1]; exact h.wrote
  · rw [h1, h4]; exact h.recv
  · rw [h1]; exact h.recvOnce
  · rw [h1, h4]; exact h.ann
  · rw [h1]; exact h.annOnce

theorem arrive_einv {x : End} (h : EInv x) (e : ReadEvent) : EInv (x.arrive e) :=
  einv_of h (inv_transport h.inv [e] x.conn.shared.frames.transport.writes x.conn.shared.frames.transport.flushes)
    rfl rfl rfl rfl

theorem takeWrite_einv {x : End} (h : EInv x) (e : WriteEvent) : EInv (x.takeWrite e) :=
  einv_of h (by
    have := inv_transport h.inv [] (x.conn.shared.frames.transport.writes ++ [e]) x.conn.shared.frames.transport.flushes
    simp only [List.append_nil] at this
    exact this) rfl rfl rfl rfl

theorem takeFlush_einv {x : End} (h : EInv x) (e : DoneEvent) : EInv (x.takeFlush e) :=
  einv_of h (by
    have := inv_transport h.inv [] x.conn.shared.frames.transport.writes (x.conn.shared.frames.transport.flushes ++ [e])
    simp only [List.append_nil] at this
    exact this) rfl rfl rfl rfl

/-- The invariant of the pair. -/
structure PInv (x y : End) : Prop where
  left : EInv x
  right : EInv y
  there : y.received <+: x.sent
  back : x.received <+: y.sent
  leftOrd : Ord x.evs
  rightOrd : Ord y.evs

theorem PInv.symm {x y : End} (h : PInv x y) : PInv y x :=
  ⟨h.right, h.left, h.back, h.there, h.rightOrd, h.leftOrd⟩

theorem pinv_new : PInv End.new End.new := by
  have h : EInv End.new := by
    refine ⟨inv_new _, ?_, ?_, ?_, ?_, ?_, ?_, ?_⟩
    · intro id h; simp [End.new, Conn.new, Conn.own] at h
    · intro n; rfl
    · intro pre id d post h; simp [End.new] at h
    · intro n h; simp [End.new] at h
    · intro n; simp [End.new]
    · intro n name h; simp [End.new] at h
    · intro n; simp [End.new, outIn, countNew]
  have ho : Ord End.new.evs := by intro pre f post h; simp [End.new] at h
  exact ⟨h, h, List.nil_prefix, List.nil_prefix, ho, ho⟩

/-- How many streams an act opens. -/
def _root_.Ngfs.Spec.Mplex.Act.opens : Act → Nat
  | .poll op => connects [op]
  | _ => 0

theorem received_arrive (x : End) (e : ReadEvent) : (x.arrive e).received = x.received ++ readBytes [e] := by
  simp [End.received, End.arrive, readBytes_append]

theorem act_pinv {x y : End} (h : PInv x y) (m : Act) (hn : x.conn.shared.nextStreamNum + m.opens < 2 ^ 64)
    (hfx : ∀ o ∈ outIn x.evs, o.Fits) (hfy : ∀ o ∈ outIn y.evs, o.Fits) :
    PInv (x.act y m) y ∧ (x.act y m).conn.shared.nextStreamNum ≤ x.conn.shared.nextStreamNum + m.opens := by
  cases m with
  | poll op =>
    refine ⟨?_, (step_inv h.left.inv op hn).2⟩
    show PInv (x.poll op) y
    obtain ⟨fs, tail, hs⟩ := step_shape h.left.inv op hn
    have hi := (step_inv h.left.inv op hn).1
    have hp : takenIn (x.poll op).evs <+: (outIn y.evs).map OutFrame.seen :=
      taken_prefix (x := y) (y := x.poll op) h.right.inv hi h.back hfy
    refine ⟨poll_einv op h.left hn h.right.annOnce hs hp, h.right, ?_, h.back,
      poll_ord op h.left h.right h.there hfx h.leftOrd hs hp, h.rightOrd⟩
    exact h.there.trans (step_sent h.left.inv op)
  | deliver n =>
    simp only [End.act, Act.opens]
    split
    · exact ⟨h, Nat.le_refl _⟩
    · refine ⟨⟨arrive_einv h.left _, h.right, h.there, ?_, h.leftOrd, h.rightOrd⟩, Nat.le_refl _⟩
      rw [received_arrive]
      obtain ⟨z, hz⟩ := h.back
      have : inFlight y x = z := by
        unfold inFlight; rw [← hz]; simp
      rw [this, ← hz]
      simp only [readBytes, List.append_nil]
      exact List.prefix_append_right_inj _ |>.mpr (List.take_prefix n z)
  | readError k =>
    refine ⟨⟨arrive_einv h.left _, h.right, h.there, ?_, h.leftOrd, h.rightOrd⟩, Nat.le_refl _⟩
    show (x.arrive _).received <+: _
    rw [received_arrive]; simpa [readBytes] using h.back
  | readEnd =>
    refine ⟨⟨arrive_einv h.left _, h.right, h.there, ?_, h.leftOrd, h.rightOrd⟩, Nat.le_refl _⟩
    show (x.arrive _).received <+: _
    rw [received_arrive]; simpa [readBytes] using h.back
  | takeWrite e => exact ⟨⟨takeWrite_einv h.left e, h.right, h.there, h.back, h.leftOrd, h.rightOrd⟩, Nat.le_refl _⟩
  | takeFlush e => exact ⟨⟨takeFlush_einv h.left e, h.right, h.there, h.back, h.leftOrd, h.rightOrd⟩, Nat.le_refl _⟩

theorem act_evs (x y : End) (m : Act) : x.evs <+: (x.act y m).evs := by
  cases m with
  | poll op => exact List.prefix_append _ _
  | deliver n => simp only [End.act]; split <;> exact List.prefix_rfl
  | _ => exact List.prefix_rfl

theorem fits_prefix {evs evs' : List Event} (h : evs <+: evs') (hf : ∀ o ∈ outIn evs', o.Fits) :
    ∀ o ∈ outIn evs, o.Fits := by
  obtain ⟨r, rfl⟩ := h
  intro o ho
  exact hf o (by rw [outIn_append]; exact List.mem_append_left _ ho)

theorem opensAt_append (side : Bool) (ms : List (Bool × Act)) (m : Bool × Act) :
    opensAt side (ms ++ [m]) = opensAt side ms + if m.1 = side then m.2.opens else 0 := by
  unfold opensAt
  rw [List.countP_append]
  congr 1
  obtain ⟨s, a⟩ := m
  cases a with
  | poll op => cases op <;> cases s <;> cases side <;> rfl
  | _ => cases s <;> cases side <;> rfl

theorem run_snoc (ms : List (Bool × Act)) (m : Bool × Act) : Pair.run (ms ++ [m]) = (Pair.run ms).step m := by
  simp [Pair.run]

/-- The pair, whatever has happened. -/
theorem run_pinv (ms : List (Bool × Act)) (ha : opensAt true ms < 2 ^ 64 - 33) (hb : opensAt false ms < 2 ^ 64 - 33)
    (hfa : ∀ o ∈ outIn (Pair.run ms).a.evs, o.Fits) (hfb : ∀ o ∈ outIn (Pair.run ms).b.evs, o.Fits) :
    PInv (Pair.run ms).a (Pair.run ms).b ∧
    (Pair.run ms).a.conn.shared.nextStreamNum ≤ 33 + opensAt true ms ∧
    (Pair.run ms).b.conn.shared.nextStreamNum ≤ 33 + opensAt false ms := by
  induction ms using List.reverseRecOn with
  | nil => exact ⟨pinv_new, Nat.le_refl _, Nat.le_refl _⟩
  | append_singleton ms m ih =>
    obtain ⟨s, m⟩ := m
    rw [run_snoc] at hfa hfb ⊢
    rw [opensAt_append] at ha hb ⊢
    rw [opensAt_append]
    cases s with
    | true =>
      simp only [Pair.step, if_true, Bool.true_eq_false, if_false, Nat.add_zero] at *
      have hfa' := fits_prefix (act_evs (Pair.run ms).a (Pair.run ms).b m) hfa
      obtain ⟨h1, h2, h3⟩ := ih (by omega) (by omega) hfa' hfb
      obtain ⟨h4, h5⟩ := act_pinv h1 m (by omega) hfa' hfb
      exact ⟨h4, by omega, h3⟩
    | false =>
      simp only [Pair.step, Bool.false_eq_true, if_true, if_false, Nat.add_zero] at *
      have hfb' := fits_prefix (act_evs (Pair.run ms).b (Pair.run ms).a m) hfb
      obtain ⟨h1, h2, h3⟩ := ih (by omega) (by omega) hfa hfb'
      obtain ⟨h4, h5⟩ := act_pinv h1.symm m (by omega) hfb' hfa
      exact ⟨h4.symm, h2, by omega⟩

/-! ### From frames to the bytes read -/

/-- The bytes that have arrived for a stream. -/
def arrivedFor (id : StreamId) (fs : List Frame) : Bytes :=
  fs.flatMap fun f => if f.op = .message ∧ f.streamId = id then f.data else []

theorem arrivedFor_append (id : StreamId) (a b : List Frame) :
    arrivedFor id (a ++ b) = arrivedFor id a ++ arrivedFor id b := List.flatMap_append

theorem readFrom_append (id : StreamId) (a b : List Event) : readFrom id (a ++ b) = readFrom id a ++ readFrom id b :=
  List.flatMap_append

theorem writtenTo_append (id : StreamId) (a b : List Event) : writtenTo id (a ++ b) = writtenTo id a ++ writtenTo id b :=
  List.flatMap_append

/-- What arrives of what is written. -/
theorem arrived_outs (id : StreamId) (evs : List Event) :
    arrivedFor id ((outIn evs).map OutFrame.seen) = writtenTo (peerId id) evs := by
  induction evs with
  | nil => rfl
  | cons e es ih =>
    rw [show e :: es = [e] ++ es from rfl, outIn_append, List.map_append, arrivedFor_append, writtenTo_append, ih]
    congr 1
    cases e with
    | wrote i d =>
      cases i <;> cases id <;>
        simp [outIn, OutFrame.seen, arrivedFor, writtenTo, peerId, eq_comm]
    | shut i => cases i <;> simp [outIn, OutFrame.seen, arrivedFor, writtenTo]
    | announced num name => simp [outIn, OutFrame.seen, arrivedFor, writtenTo]
    | _ => simp [outIn, arrivedFor, writtenTo]

/-- One reader's history: nothing arrived and nothing read before the stream is open; while it is open,
what has been read and what is owed is what has arrived. -/
theorem reader_history (id : StreamId) (evs : List Event) (ho : Ord evs) (hone : evs.count (.opened id) ≤ 1)
    (hreset : ∀ f, .taken f ∈ evs → f.op ≠ .reset) (o : Option Bytes) (hw : owedAfter id none evs = some o) :
    (.opened id ∉ evs ∧ o = none ∧ arrivedFor id (takenIn evs) = [] ∧ readFrom id evs = []) ∨
    (.opened id ∈ evs ∧ ∃ x, o = some x ∧ readFrom id evs ++ x = arrivedFor id (takenIn evs)) ∨
    (.opened id ∈ evs ∧ .dropped id ∈ evs ∧ o = none ∧ readFrom id evs <+: arrivedFor id (takenIn evs)) := by
  induction evs using List.reverseRecOn generalizing o with
  | nil =>
    left
    simp only [owedAfter, Option.some.injEq] at hw
    exact ⟨by simp, hw.symm, rfl, rfl⟩
  | append_singleton evs e ih =>
    rw [owedAfter_append] at hw
    obtain ⟨p, hp, hs⟩ := Option.bind_eq_some_iff.mp hw
    have ho' : Ord evs := fun pre f post h hf => ho pre f (post ++ [e]) (by rw [h]; simp) hf
    have hone' : evs.count (.opened id) ≤ 1 := by rw [List.count_append] at hone; omega
    have hr' : ∀ f, .taken f ∈ evs → f.op ≠ .reset := fun f hf => hreset f (List.mem_append_left _ hf)
    have ih := ih ho' hone' hr' p hp
    simp only [owedAfter, Option.bind_eq_some_iff] at hs
    obtain ⟨o', hs, ho'⟩ := hs
    cases ho'
    have plain : o = p → e ≠ .opened id → takenIn [e] = [] ∨ arrivedFor id (takenIn [e]) = [] → readFrom id [e] = [] →
        (.opened id ∉ evs ++ [e] ∧ o = none ∧ arrivedFor id (takenIn (evs ++ [e])) = [] ∧ readFrom id (evs ++ [e]) = []) ∨
        (.opened id ∈ evs ++ [e] ∧ ∃ x, o = some x ∧ readFrom id (evs ++ [e]) ++ x = arrivedFor id (takenIn (evs ++ [e]))) ∨
        (.opened id ∈ evs ++ [e] ∧ .dropped id ∈ evs ++ [e] ∧ o = none ∧
          readFrom id (evs ++ [e]) <+: arrivedFor id (takenIn (evs ++ [e]))) := by
      intro h1 h2 h3 h4
      have h3' : arrivedFor id (takenIn [e]) = [] := by
        rcases h3 with h | h
        · rw [h]; rfl
        · exact h
      rw [takenIn_append, arrivedFor_append, readFrom_append, h3', h4, List.append_nil, List.append_nil, h1]
      rcases ih with ⟨i1, i2, i3, i4⟩ | ⟨i1, i2⟩ | ⟨i1, i2, i3⟩
      · left
        refine ⟨?_, i2, i3, i4⟩
        rw [List.mem_append, List.mem_singleton]
        rintro (h | h)
        · exact i1 h
        · exact h2 h.symm
      · exact .inr (.inl ⟨List.mem_append_left _ i1, i2⟩)
      · exact .inr (.inr ⟨List.mem_append_left _ i1, List.mem_append_left _ i2, i3⟩)
    cases e with
    | announced num name => exact plain (by simpa [owedStep] using hs.symm) (by simp) (.inl rfl) rfl
    | wrote i d => exact plain (by simpa [owedStep] using hs.symm) (by simp) (.inl rfl) rfl
    | shut i => exact plain (by simpa [owedStep] using hs.symm) (by simp) (.inl rfl) rfl
    | opened i =>
      by_cases hi : i = id
      · subst hi
        simp only [owedStep, if_true, Option.some.injEq] at hs
        have h0 : Event.opened i ∉ evs := by
          intro h
          have := List.count_pos_iff.mpr h
          rw [List.count_append] at hone
          simp at hone
          omega
        rcases ih with ⟨i1, i2, i3, i4⟩ | ⟨i1, -⟩ | ⟨i1, -⟩
        · right; left
          refine ⟨by simp, [], by rw [← hs, i2]; rfl, ?_⟩
          rw [takenIn_append, arrivedFor_append, readFrom_append, i3, i4]; rfl
        · exact (h0 i1).elim
        · exact (h0 i1).elim
      · exact plain (by simpa [owedStep, hi] using hs.symm) (by simpa using hi) (.inl rfl) rfl
    | dropped i =>
      by_cases hi : i = id
      · subst hi
        simp only [owedStep, if_true, Option.some.injEq] at hs
        have e1 : readFrom i [.dropped i] = [] := rfl
        have e2 : arrivedFor i (takenIn [.dropped i]) = [] := rfl
        rw [takenIn_append, arrivedFor_append, readFrom_append, e1, e2, List.append_nil, List.append_nil]
        rcases ih with ⟨i1, i2, i3, i4⟩ | ⟨i1, x, i2, i3⟩ | ⟨i1, i2, i3, i4⟩
        · left; exact ⟨by simpa using i1, hs.symm, i3, i4⟩
        · right; right
          exact ⟨List.mem_append_left _ i1, by simp, hs.symm, ⟨x, i3⟩⟩
        · right; right
          exact ⟨List.mem_append_left _ i1, by simp, hs.symm, i4⟩
      · exact plain (by simpa [owedStep, hi] using hs.symm) (by simp) (.inl rfl) rfl
    | got i d =>
      by_cases hi : i = id
      · subst hi
        have e1 : readFrom i [.got i d] = d := by simp [readFrom]
        have e2 : arrivedFor i (takenIn [.got i d]) = [] := rfl
        rw [takenIn_append, arrivedFor_append, readFrom_append, e1, e2, List.append_nil]
        simp only [owedStep, if_true] at hs
        cases p with
        | none =>
          simp only at hs
          split at hs
          · rename_i hd
            subst hd
            simp only [Option.some.injEq] at hs
            rw [List.append_nil]
            rcases ih with ⟨i1, i2, i3, i4⟩ | ⟨i1, x, i2, i3⟩ | ⟨i1, i2, i3, i4⟩
            · left; exact ⟨by simpa using i1, hs.symm, i3, i4⟩
            · cases i2
            · right; right
              exact ⟨List.mem_append_left _ i1, List.mem_append_left _ i2, hs.symm, i4⟩
          · cases hs
        | some w =>
          simp only at hs
          split at hs
          · rename_i hd
            simp only [Option.some.injEq] at hs
            obtain ⟨r, rfl⟩ := hd
            rcases ih with ⟨i1, i2, i3, i4⟩ | ⟨i1, x, i2, i3⟩ | ⟨i1, i2, i3, i4⟩
            · cases i2
            · right; left
              cases i2
              refine ⟨List.mem_append_left _ i1, r, by rw [← hs]; simp, by rw [← i3]; simp⟩
            · cases i3
          · cases hs
      · exact plain (by simpa [owedStep, hi] using hs.symm) (by simp) (.inl rfl) (by simp [readFrom, hi])
    | taken f =>
      have hnr : f.op ≠ .reset := hreset f (by simp)
      by_cases hi : f.streamId = id ∧ f.op = .message
      · obtain ⟨hi, hop⟩ := hi
        have hop' := ho evs f [] rfl hop
        rw [hi] at hop'
        have e1 : readFrom id [.taken f] = [] := rfl
        have e2 : arrivedFor id (takenIn [.taken f]) = f.data := by simp [takenIn, arrivedFor, hi, hop]
        rw [takenIn_append, arrivedFor_append, readFrom_append, e1, e2, List.append_nil]
        simp only [owedStep, hi, hop, true_and, true_or, if_true, Option.some.injEq] at hs
        rcases ih with ⟨i1, i2, i3, i4⟩ | ⟨i1, x, i2, i3⟩ | ⟨i1, i2, i3, i4⟩
        · exact (i1 hop').elim
        · right; left
          refine ⟨List.mem_append_left _ i1, x ++ f.data, by rw [← hs, i2]; rfl, by rw [← i3]; simp⟩
        · right; right
          exact ⟨List.mem_append_left _ i1, List.mem_append_left _ i2, by rw [← hs, i3]; rfl,
            i4.trans (List.prefix_append _ _)⟩
      · refine plain ?_ (by simp) (.inr ?_) rfl
        · simp only [owedStep] at hs
          rw [if_neg (by rintro ⟨h1, h2 | h2⟩; exacts [hi ⟨h1, h2⟩, hnr h2])] at hs
          simpa using hs.symm
        · simp only [takenIn, List.filterMap_cons, List.filterMap_nil, arrivedFor, List.flatMap_cons, List.flatMap_nil,
            List.append_nil]
          rw [if_neg (by rintro ⟨h1, h2⟩; exact hi ⟨h2, h1⟩)]

end Ngfs.Mplex
