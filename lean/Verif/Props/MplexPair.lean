import Verif.Lemmas.MplexPairQuiet

/-!
C132 and C133: two multiplexers that talk to each other, end to end.
-/
namespace Ngfs.Mplex
open Ngfs.Spec Ngfs.Spec.Mplex

theorem pair_reader {x y : End} (h : PInv x y) (hfx : ∀ o ∈ outIn x.evs, o.Fits) (id : StreamId) :
    Ord y.evs ∧ y.evs.count (.opened id) ≤ 1 ∧ ∀ f, .taken f ∈ y.evs → f.op ≠ .reset := by
  have hp := taken_prefix h.left.inv h.right.inv h.there hfx
  refine ⟨h.rightOrd, ?_, ?_⟩
  · cases id with
    | receiver n => exact h.right.recvOnce n
    | initiator n =>
      have h1 := h.right.acc n
      have h2 := countNew_prefix (id := .initiator n) hp
      have h3 := h.left.annOnce n
      omega
  · intro f hf
    have := hp.subset (mem_takenIn.mpr hf)
    obtain ⟨o, -, rfl⟩ := List.mem_map.mp this
    cases o <;> simp [OutFrame.seen]

theorem pair_prefix {x y : End} (h : PInv x y) (hfx : ∀ o ∈ outIn x.evs, o.Fits) (id : StreamId) :
    readFrom id y.evs <+: writtenTo (peerId id) x.evs := by
  obtain ⟨h1, h2, h3⟩ := pair_reader h hfx id
  have h4 : readFrom id y.evs <+: arrivedFor id (takenIn y.evs) := by
    rcases reader_history id y.evs h1 h2 h3 _ (h.right.inv.owed id) with ⟨-, -, -, h⟩ | ⟨-, x, -, h⟩ | ⟨-, -, -, h⟩
    · rw [h]; exact List.nil_prefix
    · exact ⟨x, h⟩
    · exact h
  refine h4.trans ?_
  rw [← arrived_outs]
  obtain ⟨r, hr⟩ := taken_prefix h.left.inv h.right.inv h.there hfx
  rw [← hr, arrivedFor_append]
  exact List.prefix_append _ _

/-- **C132**: two ends joined by a transport that keeps the order of the bytes, used in any way and with
any behaviour of the transport otherwise (delays, pieces of any size, writes refused or taken in part, errors,
an early end). What has been read from a stream at one end is always the beginning of what has been
written to it at the other, in both directions: nothing is lost in between, repeated, changed, or
mixed up with another stream. -/
theorem C132_end_to_end (ms : List (Bool × Act))
    (ha : opensAt true ms < 2 ^ 64 - 33) (hb : opensAt false ms < 2 ^ 64 - 33)
    (hfa : ∀ o ∈ outIn (Pair.run ms).a.evs, o.Fits) (hfb : ∀ o ∈ outIn (Pair.run ms).b.evs, o.Fits) (id : StreamId) :
    readFrom id (Pair.run ms).b.evs <+: writtenTo (peerId id) (Pair.run ms).a.evs ∧
    readFrom id (Pair.run ms).a.evs <+: writtenTo (peerId id) (Pair.run ms).b.evs := by
  obtain ⟨h, -, -⟩ := run_pinv ms ha hb hfa hfb
  exact ⟨pair_prefix h hfa id, pair_prefix h.symm hfb id⟩

/-- **C132**: a stream that one end hands out as accepted was opened by the other, and no stream is
accepted twice. -/
theorem C132_accepted_was_opened (ms : List (Bool × Act))
    (ha : opensAt true ms < 2 ^ 64 - 33) (hb : opensAt false ms < 2 ^ 64 - 33)
    (hfa : ∀ o ∈ outIn (Pair.run ms).a.evs, o.Fits) (hfb : ∀ o ∈ outIn (Pair.run ms).b.evs, o.Fits) (n : Nat) :
    (Pair.run ms).b.evs.count (.opened (.initiator n)) ≤ (Pair.run ms).a.evs.count (.opened (.receiver n)) ∧
    (Pair.run ms).a.evs.count (.opened (.initiator n)) ≤ (Pair.run ms).b.evs.count (.opened (.receiver n)) ∧
    (Pair.run ms).a.evs.count (.opened (.receiver n)) ≤ 1 ∧ (Pair.run ms).b.evs.count (.opened (.receiver n)) ≤ 1 := by
  obtain ⟨h, -, -⟩ := run_pinv ms ha hb hfa hfb
  have key : ∀ {x y : End}, PInv x y → (∀ o ∈ outIn x.evs, o.Fits) →
      y.evs.count (.opened (.initiator n)) ≤ x.evs.count (.opened (.receiver n)) := by
    intro x y h hf
    by_cases hm : Event.opened (.initiator n) ∈ y.evs
    · have h0 := List.count_pos_iff.mpr hm
      have h1 := h.right.acc n
      have h2 := countNew_prefix (id := .initiator n) (taken_prefix h.left.inv h.right.inv h.there hf)
      have h3 := h.left.annOnce n
      obtain ⟨name, h4⟩ := new_mem_outs x.evs n (by omega)
      have h5 := List.count_pos_iff.mpr (h.left.ann n name h4).2
      omega
    · rw [List.count_eq_zero.mpr hm]; exact Nat.zero_le _
  exact ⟨key h hfa, key h.symm hfb, h.left.recvOnce n, h.right.recvOnce n⟩

/-- Accepting waits only if there is no frame at all, or one for a stream that is in the table. -/
theorem accept_waits {c : Conn} {t : Transport} {evs : List Event} (h : Inv t c.shared evs)
    (hn : .pending ∉ c.shared.frames.transport.reads) (hacc : (c.step .accept).1 = .pending) :
    ((c.step .accept).2.1.shared.frames.transport.reads = [] ∧ (c.step .accept).2.1.shared.incoming = none ∧
      nextFrame (c.step .accept).2.1.shared.frames.incoming = .ok none) ∨
    ((c.step .accept).2.1.shared.frameWanted = true ∧ (c.step .accept).2.1.poisoned = false ∧
      ∃ f, (c.step .accept).2.1.shared.incoming = some f ∧ f.op ≠ .new) := by
  have hs : c.poisoned = false ∧ c.step .accept = c.accept := by
    unfold Conn.step at hacc ⊢
    cases hp : c.poisoned with
    | true => simp [hp] at hacc
    | false => exact ⟨rfl, by simp⟩
  rw [hs.2] at hacc ⊢
  have w1 := fillLoop_waits (c.shared.frames.incoming.length + (readBytes c.shared.frames.transport.reads).length + 1)
    c.shared hn
  have w2 := fillLoop_pending (c.shared.frames.incoming.length + (readBytes c.shared.frames.transport.reads).length + 1)
    c.shared
  obtain ⟨hst, -⟩ := pollFill_step c.shared h.closed
  change c.shared.pollFill.1 = _ → c.shared.pollFill.2.1.frames.transport.reads = [] ∧ _ at w1
  change c.shared.pollFill.1 = _ → nextFrame c.shared.pollFill.2.1.frames.incoming = _ at w2
  change _ → _ ∧ c.shared.pollFill.2.1.incoming = none at w1
  simp only [Conn.accept, Shared.pollAcceptId] at hacc ⊢
  have hw := hst.wanted
  generalize c.shared.pollFill = P at *
  obtain ⟨r, m', taken⟩ := P
  simp only at w1 w2 hw hacc ⊢
  rcases r with _ | (e | _)
  · left
    exact ⟨(w1 rfl).1, (w1 rfl).2, w2 rfl⟩
  · cases e <;> simp [faultAnswer] at hacc
  · simp only at hacc ⊢
    cases hi : m'.incoming with
    | none => simp [hi] at hacc
    | some f =>
      simp only [hi] at hacc ⊢
      by_cases ho : f.op = .new
      · simp [ho] at hacc
      · right
        simp only [ho, if_false] at hacc ⊢
        exact ⟨hw (by rw [hi]; simp), hs.1, f, hi, by exact ho⟩

/-- A frame in the slot is handed over by a read on its stream. -/
theorem read_slot {c : Conn} {f : Frame} (hc : c.shared.closed = false) (hp : c.poisoned = false)
    (hw : c.shared.frameWanted = true) (hi : c.shared.incoming = some f) {h : Nat} {w : Handle}
    (hh : c.handles[h]? = some w) (he : f.streamId = w.id) (room : Nat) : (c.step (.read h room)).1 ≠ .pending := by
  have hfill : c.shared.pollFill = (.ready (.ok ()), c.shared, []) := by
    unfold Shared.pollFill
    rw [fillLoop, if_neg (by simp [hc]), if_pos hw]
  simp only [Conn.step, hp, hh, Conn.read, Shared.pollRead, hfill, hi, he, if_true, Bool.false_eq_true, if_false]
  by_cases ho : f.op = .close
  · simp [ho]
  · simp only [ho, if_false]
    split
    · rename_i heq
      split at heq <;> cases heq
    · rename_i heq
      split at heq <;> cases heq
    · simp

/-- **C133**: when the first end has nothing left to send, nothing is on the way, the second end has no
connect under way, no poll of it ever failed, and after a poll of `accept` that has to wait every one of
its streams has to wait too, then everything is across: every stream the first end opened has been accepted, and what has been
read from each stream that was not dropped is exactly what was written to it. So data can be held up
(see C72), but only until the second end takes what is offered. -/
theorem C133_all_arrives (ms : List (Bool × Act))
    (ha : opensAt true ms < 2 ^ 64 - 33) (hb : opensAt false ms < 2 ^ 64 - 33)
    (hfa : ∀ o ∈ outIn (Pair.run ms).a.evs, o.Fits) (hfb : ∀ o ∈ outIn (Pair.run ms).b.evs, o.Fits)
    (hsent : (Pair.run ms).a.conn.shared.frames.outgoing = [])
    (hway : inFlight (Pair.run ms).a (Pair.run ms).b = [])
    (hconn : (Pair.run ms).b.conn.connecting = []) (hok : ∀ k, Answer.failed k ∉ (Pair.run ms).b.answers)
    (hacc : ((Pair.run ms).b.conn.step .accept).1 = .pending)
    (hread : ∀ h, (((Pair.run ms).b.conn.step .accept).2.1.step (.read h 1)).1 = .pending) :
    (∀ n name, .announced n name ∈ (Pair.run ms).a.evs → .opened (.initiator n) ∈ (Pair.run ms).b.evs) ∧
    ∀ id, .opened id ∈ (Pair.run ms).b.evs → .dropped id ∉ (Pair.run ms).b.evs →
      readFrom id (Pair.run ms).b.evs = writtenTo (peerId id) (Pair.run ms).a.evs := by
  obtain ⟨h, -, hnb⟩ := run_pinv ms ha hb hfa hfb
  obtain ⟨-, hatt, -, hnp⟩ := run_quiet ms ha hb hfa hfb
  have hatt := hatt hok
  generalize Pair.run ms = p at *
  obtain ⟨x, y⟩ := p
  simp only at *
  have hn : y.conn.shared.nextStreamNum + connects [.accept] < 2 ^ 64 := by
    show _ + 0 < _; omega
  have hreads : .pending ∉ y.conn.shared.frames.transport.reads := by
    obtain ⟨used, bs, h1, -⟩ := h.right.inv.wire
    intro hm
    exact hnp (by simp only at h1; rw [h1]; exact List.mem_append_right _ hm)
  -- the state after the poll
  have hq : PInv y x := h.symm
  have hq' : PInv (y.poll .accept) x := (act_pinv hq (.poll .accept) hn hfb hfa).1
  have hatt' : (y.poll .accept).conn.Attended :=
    step_attended h.right.inv hatt .accept (fun k hk => by rw [hacc] at hk; cases hk)
  have hown : ∀ id ∈ (y.poll .accept).conn.shared.readers, ∃ (i : Nat) (w : Handle),
      (y.poll .accept).conn.handles[i]? = some w ∧ w.id = id := by
    intro id hid
    have hcc : (y.poll .accept).conn.connecting = [] := by
      show (y.conn.step .accept).2.1.connecting = []
      unfold Conn.step
      cases y.conn.poisoned with
      | true => exact hconn
      | false =>
        simp only [Bool.false_eq_true, if_false, Conn.accept]
        generalize y.conn.shared.pollAcceptId = P
        obtain ⟨r, m', taken⟩ := P
        rcases r with _ | (_ | (_ | _)) <;> exact hconn
    have := hatt' id hid
    simp only [Conn.own, hcc, List.append_nil, List.mem_map] at this
    obtain ⟨w, hw, he⟩ := this
    obtain ⟨i, hi⟩ := List.mem_iff_getElem?.mp hw
    exact ⟨i, w, hi, he⟩
  rcases accept_waits h.right.inv hreads hacc with ⟨h1, h2, h3⟩ | ⟨h1, h2, f, h3, h4⟩
  · -- all frames have been taken
    have hall : takenIn (y.poll .accept).evs = (outIn x.evs).map OutFrame.seen := by
      have hf := inv_out_frames h.left.inv rfl hfa
      rw [hsent, List.append_nil] at hf
      obtain ⟨used, bs, g1, g2, g3⟩ := hq'.left.inv.wire
      have hrec : x.conn.shared.frames.transport.sent = y.received := by
        obtain ⟨z, hz⟩ := h.there
        have : inFlight x y = z := by unfold inFlight; rw [← hz]; simp
        rw [hway] at this
        rw [← this, List.append_nil] at hz
        exact hz.symm
      have hr0 : (y.poll .accept).conn.shared.frames.transport.reads = [] := h1
      rw [hr0, List.append_nil] at g1
      have : y.received = bs ++ (y.poll .accept).conn.shared.frames.incoming := by
        rw [← g2, ← g1]; rfl
      rw [hrec, this] at hf
      obtain ⟨hs, e1, e2⟩ := frames_prefix g3 hf
      rcases nextFrame_good (rem := []) (by rw [List.append_nil]; exact e2) with ⟨-, h0⟩ | ⟨g, fs', r, h0, -, -⟩
      · rw [e1, (h0 rfl).2, List.append_nil]
      · have h3' : nextFrame (y.poll .accept).conn.shared.frames.incoming = .ok none := h3
        rw [h3'] at h0; cases h0
    have hsame : ∀ e, (∀ f, e ≠ .taken f) → (e ∈ (y.poll .accept).evs ↔ e ∈ y.evs) ∧
        ∀ id, readFrom id (y.poll .accept).evs = readFrom id y.evs := by
      have : ∃ fs : List Frame, (y.conn.step .accept).2.2 = fs.map .taken := by
        clear hread hatt' hown hq' h1 h2 h3 hall
        unfold Conn.step at hacc ⊢
        cases hp : y.conn.poisoned with
        | true => exact ⟨[], by simp⟩
        | false =>
          simp only [hp, Bool.false_eq_true, if_false, Conn.accept] at hacc ⊢
          generalize y.conn.shared.pollAcceptId = P at hacc
          obtain ⟨r, m', taken⟩ := P
          rcases r with _ | (e | (_ | _))
          · exact ⟨taken, rfl⟩
          · exact ⟨taken, rfl⟩
          · exact ⟨taken, rfl⟩
          · simp at hacc
      obtain ⟨fs, hfs⟩ := this
      have he : (y.poll .accept).evs = y.evs ++ fs.map .taken := by rw [← hfs]; rfl
      intro e hne
      refine ⟨?_, fun id => ?_⟩
      · rw [he, List.mem_append, List.mem_map]
        constructor
        · rintro (h | ⟨f, -, h⟩)
          · exact h
          · exact (hne f h.symm).elim
        · exact .inl
      · rw [he, readFrom_append]
        have : readFrom id (fs.map .taken) = [] := by
          unfold readFrom; rw [List.flatMap_eq_nil_iff]; simp
        rw [this, List.append_nil]
    constructor
    · intro n name hm
      rw [← (hsame _ (by simp)).1]
      have hc := hq'.left.acc n
      have hsl : slotNew (y.poll .accept).conn.shared (.initiator n) = 0 := by
        have : (y.poll .accept).conn.shared.incoming = none := h2
        simp [slotNew, this]
      have hpos : 1 ≤ countNew (.initiator n) (takenIn (y.poll .accept).evs) := by
        rw [hall]
        refine countNew_pos (f := ⟨.initiator n, .new, []⟩) ?_ rfl rfl
        exact List.mem_map.mpr ⟨.new n (some name), List.mem_filterMap.mpr ⟨_, hm, rfl⟩, rfl⟩
      exact List.count_pos_iff.mp (by omega)
    · intro id ho hd
      obtain ⟨k1, k2, k3⟩ := pair_reader hq'.symm hfa id
      have ho' := (hsame (.opened id) (by simp)).1.mpr ho
      have hd' : .dropped id ∉ (y.poll .accept).evs := fun hm => hd ((hsame (.dropped id) (by simp)).1.mp hm)
      have hinc : (y.poll .accept).conn.shared.incoming = none := h2
      rcases reader_history id _ k1 k2 k3 _ (hq'.left.inv.owed id) with ⟨g, -⟩ | ⟨-, z, g1, g2⟩ | ⟨-, g, -⟩
      · exact (g ho').elim
      · have hz : z = [] := by
          unfold Shared.owed at g1
          split at g1
          · simp only [Option.some.injEq] at g1
            rw [← g1]
            simp [Shared.waiting, hinc]
          · cases g1
        rw [hz, List.append_nil, hall, arrived_outs, (hsame (.opened id) (by simp)).2] at g2
        exact g2
      · exact (hd' g).elim
  · exfalso
    have hmem : f.streamId ∈ (y.conn.step .accept).2.1.shared.readers := frameWanted_true h1 h3 h4
    obtain ⟨i, w, hi, he⟩ := hown f.streamId hmem
    exact read_slot hq'.left.inv.closed h2 h1 h3 hi he.symm 1 (hread i)

/-- The first end opens a stream and writes three bytes to it; the transport takes them in two pieces and delivers
them in three, one of which ends inside a frame; the second end accepts the stream and reads twice. -/
def examplePair : List (Bool × Act) :=
  [(true, .takeWrite (.accept 1)), (true, .takeWrite (.accept 100)), (true, .takeFlush .ok), (true, .poll (.connect none)),
   (true, .takeFlush .ok), (true, .poll (.write 0 [1, 2, 3])),
   (true, .takeWrite (.accept 100)), (true, .takeFlush .ok), (true, .poll (.flush 0)),
   (false, .deliver 1), (false, .poll .accept), (false, .deliver 3), (false, .poll .accept), (false, .deliver 100),
   (false, .poll (.read 0 2)), (false, .poll (.read 0 10))]

/-- `examplePair` meets the hypotheses of `C132_end_to_end` and `C133_all_arrives`, and three bytes are
read. -/
example : opensAt true examplePair < 2 ^ 64 - 33 ∧ opensAt false examplePair < 2 ^ 64 - 33 ∧
    (∀ o ∈ outIn (Pair.run examplePair).a.evs, o.Fits) ∧ (∀ o ∈ outIn (Pair.run examplePair).b.evs, o.Fits) ∧
    (Pair.run examplePair).a.conn.shared.frames.outgoing = [] ∧
    inFlight (Pair.run examplePair).a (Pair.run examplePair).b = [] ∧
    (Pair.run examplePair).b.conn.connecting = [] ∧ (∀ k, Answer.failed k ∉ (Pair.run examplePair).b.answers) ∧
    ((Pair.run examplePair).b.conn.step .accept).1 = .pending ∧
    (∀ h, (((Pair.run examplePair).b.conn.step .accept).2.1.step (.read h 1)).1 = .pending) ∧
    readFrom (.initiator 33) (Pair.run examplePair).b.evs = [1, 2, 3] ∧
    .opened (.initiator 33) ∈ (Pair.run examplePair).b.evs ∧
    .dropped (.initiator 33) ∉ (Pair.run examplePair).b.evs := by
  have hout : outIn (Pair.run examplePair).a.evs = [.new 33 (some []), .message (.initiator 33) [1, 2, 3]] := by
    have : (Pair.run examplePair).a.evs = [.opened (.receiver 33), .announced 33 [], .wrote (.receiver 33) [1, 2, 3]] := by
      decide +kernel
    rw [this]; rfl
  have hb : (Pair.run examplePair).b.evs = [.taken ⟨.initiator 33, .new, []⟩, .opened (.initiator 33),
      .taken ⟨.initiator 33, .message, [1, 2, 3]⟩, .got (.initiator 33) [1, 2], .got (.initiator 33) [3]] := by
    decide +kernel
  have hans : (Pair.run examplePair).b.answers = [.pending, .stream (.initiator 33), .bytes [1, 2], .bytes [3]] := by
    decide +kernel
  refine ⟨by decide, by decide, ?_, ?_, by decide +kernel, by decide +kernel, by decide +kernel, ?_, by decide +kernel,
    ?_, ?_, ?_, ?_⟩
  · rw [hout]
    intro o ho
    simp only [List.mem_cons, List.not_mem_nil, or_false] at ho
    rcases ho with rfl | rfl <;> simp [OutFrame.Fits, numOf]
  · rw [hb]; simp [outIn]
  · rw [hans]; simp
  · intro h
    have h1 : ((Pair.run examplePair).b.conn.step .accept).2.1.handles = [⟨.initiator 33, none⟩] := by decide +kernel
    have h2 : (((Pair.run examplePair).b.conn.step .accept).2.1.step (.read 0 1)).1 = .pending := by decide +kernel
    have h3 : ((Pair.run examplePair).b.conn.step .accept).2.1.poisoned = false := by decide +kernel
    generalize ((Pair.run examplePair).b.conn.step .accept).2.1 = c at h1 h2 h3 ⊢
    cases h with
    | zero => exact h2
    | succ h => simp [Conn.step, h1, h3]
  · rw [hb]; rfl
  · rw [hb]; simp
  · rw [hb]; simp

end Ngfs.Mplex
