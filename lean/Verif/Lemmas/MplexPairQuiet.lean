import Verif.Lemmas.MplexPairRun

/-! Lemmas for two connected multiplexers: when nothing more is to be expected. -/
namespace Ngfs.Mplex
open Ngfs.Spec Ngfs.Spec.Mplex

/-- While no poll fails, every stream in the table belongs to the user. -/
def Conn.Attended (c : Conn) : Prop := ∀ id ∈ c.shared.readers, id ∈ c.own

theorem pollAccept_readers (m : Shared) (hc : m.closed = false) (id : StreamId) (h : id ∈ m.pollAcceptId.2.1.readers) :
    id ∈ m.readers ∨ m.pollAcceptId.1 = .ready (.ok (some id)) := by
  obtain ⟨hst, -⟩ := pollFill_step m hc
  have hr := hst.readers
  unfold Shared.pollAcceptId at h ⊢
  generalize m.pollFill = P at hr h
  obtain ⟨r, m', taken⟩ := P
  simp only at hr h ⊢
  rcases r with _ | (e | _)
  · left; rwa [← hr]
  · left; rwa [← hr]
  · simp only at h ⊢
    cases hi : m'.incoming with
    | none => simp only [hi] at h; left; rwa [← hr]
    | some f =>
      simp only [hi] at h ⊢
      by_cases ho : f.op = .new
      · simp only [ho, if_true, Shared.add, Shared.wantAnotherFrame, List.mem_cons, List.mem_filter] at h ⊢
        rcases h with rfl | ⟨h, -⟩
        · exact .inr rfl
        · left; rwa [← hr]
      · simp only [ho, if_false] at h; left; rwa [← hr]

theorem pollRead_readers (m : Shared) (hc : m.closed = false) (i : StreamId) (room : Nat) :
    (m.pollRead i room).2.1.readers = m.readers := by
  obtain ⟨hst, -⟩ := pollFill_step m hc
  have hr := hst.readers
  unfold Shared.pollRead
  generalize m.pollFill = P at hr
  obtain ⟨r, m', taken⟩ := P
  simp only at hr ⊢
  rcases r with _ | (e | _)
  · exact hr
  · exact hr
  · simp only
    cases hi : m'.incoming with
    | none => exact hr
    | some f =>
      simp only
      split
      · split
        · exact hr
        · split <;> exact hr
      · exact hr

theorem handles_set_ids {hs : List Handle} {i : Nat} {w : Handle} (hw : hs[i]?.map Handle.id = some w.id) (w' : Handle)
    (he : w'.id = w.id) : (hs.set i w').map Handle.id = hs.map Handle.id := by
  rw [List.map_set]
  apply List.ext_getElem?
  intro j
  rw [List.getElem?_set]
  split
  · rename_i hij
    subst hij
    rw [List.getElem?_map, hw, he]
    split
    · rfl
    · rename_i h
      rw [List.getElem?_eq_none (by simpa using h)] at hw
      cases hw
  · rfl

theorem finishConnect_cases (c : Conn) (id : StreamId) :
    (c.finishConnect id).2.1.shared.readers = c.shared.readers ∧ (c.finishConnect id).2.1.connecting = c.connecting ∧
    (((c.finishConnect id).1 = .pending ∧ (c.finishConnect id).2.1.handles = c.handles ∧ (c.finishConnect id).2.2 = false) ∨
     (∃ k, (c.finishConnect id).1 = .failed k) ∨
     ((c.finishConnect id).2.1.handles = c.handles ++ [⟨id, none⟩] ∧ (c.finishConnect id).2.2 = true)) := by
  unfold Conn.finishConnect
  generalize c.shared.frames.pollDrain = P
  obtain ⟨r, fs⟩ := P
  rcases r with _ | (k | _)
  · exact ⟨rfl, rfl, .inl ⟨rfl, rfl, rfl⟩⟩
  · exact ⟨rfl, rfl, .inr (.inl ⟨k, rfl⟩)⟩
  · exact ⟨rfl, rfl, .inr (.inr ⟨rfl, rfl⟩)⟩

theorem drain_readers (c : Conn) (i : Nat) (w : Handle) (hw : c.handles[i]? = some w) :
    (c.drain i w).2.shared.readers = c.shared.readers ∧
    (c.drain i w).2.handles.map Handle.id = c.handles.map Handle.id := by
  unfold Conn.drain
  cases w.writeError with
  | some k => exact ⟨rfl, rfl⟩
  | none =>
    simp only
    generalize c.shared.frames.pollDrain = P
    obtain ⟨r, fs⟩ := P
    rcases r with _ | (_ | _)
    · exact ⟨rfl, rfl⟩
    · refine ⟨rfl, ?_⟩
      simp only
      exact handles_set_ids (w := w) (by rw [hw]; rfl) _ rfl
    · exact ⟨rfl, rfl⟩

theorem step_attended {t : Transport} {c : Conn} {evs : List Event} (h : Inv t c.shared evs) (ha : c.Attended) (op : Op)
    (hok : ∀ k, (c.step op).1 ≠ .failed k) : (c.step op).2.1.Attended := by
  unfold Conn.step at hok ⊢
  cases hp : c.poisoned with
  | true => simpa using ha
  | false =>
    simp only [hp, Bool.false_eq_true, if_false] at hok ⊢
    have same : ∀ c' : Conn, c'.shared.readers = c.shared.readers → c'.handles.map Handle.id = c.handles.map Handle.id →
        c'.connecting = c.connecting → c'.Attended := by
      intro c' h1 h2 h3 id hid
      rw [h1] at hid
      have := ha id hid
      simpa only [Conn.own, h2, h3] using this
    cases op with
    | accept =>
      have h1 := pollAccept_readers c.shared h.closed
      simp only [Conn.accept] at hok ⊢
      generalize c.shared.pollAcceptId = P at h1 hok
      obtain ⟨r, m', taken⟩ := P
      simp only at h1 hok ⊢
      intro id hid
      rcases r with _ | (e | (_ | id'))
      · rcases h1 id hid with h2 | h2
        · exact ha id h2
        · cases h2
      · rcases h1 id hid with h2 | h2
        · exact ha id h2
        · cases h2
      · rcases h1 id hid with h2 | h2
        · exact ha id h2
        · cases h2
      · simp only [Conn.own, List.map_append, List.map_cons, List.map_nil, List.mem_append, List.mem_singleton]
        rcases h1 id hid with h2 | h2
        · have := ha id h2
          simp only [Conn.own, List.mem_append] at this
          tauto
        · cases h2; tauto
    | connect name =>
      simp only [Conn.connect] at hok ⊢
      have hr : ∀ id ∈ (c.shared.appendNew name).2.readers, id = (c.shared.appendNew name).1 ∨ id ∈ c.shared.readers := by
        intro id hid
        simp only [Shared.appendNew, Shared.add, List.mem_cons, List.mem_filter] at hid
        rcases hid with h | ⟨h, -⟩
        · exact .inl h
        · exact .inr h
      generalize c.shared.appendNew name = P at hr hok
      obtain ⟨id, m⟩ := P
      simp only at hr hok ⊢
      obtain ⟨f1, f2, f3⟩ := finishConnect_cases { c with shared := m } id
      generalize ({ c with shared := m } : Conn).finishConnect id = Q at f1 f2 f3 hok
      obtain ⟨a, c', fin⟩ := Q
      simp only at f1 f2 f3 hok ⊢
      intro x hx
      simp only [f1] at hx
      have hx' : x = id ∨ x ∈ c.handles.map Handle.id ∨ x ∈ c.connecting := by
        rcases hr x hx with h1 | h1
        · exact .inl h1
        · have := ha x h1
          simp only [Conn.own, List.mem_append] at this
          exact .inr this
      rcases f3 with ⟨-, h2, h3⟩ | ⟨k, hk⟩ | ⟨h2, h3⟩
      · simp only [Conn.own, h2, h3, f2, Bool.false_eq_true, if_false, List.mem_append, List.mem_singleton]
        tauto
      · exact (hok k hk).elim
      · simp only [Conn.own, h2, h3, f2, if_true, List.map_append, List.map_cons, List.map_nil, List.mem_append,
          List.mem_singleton]
        tauto
    | reconnect k =>
      simp only [Conn.reconnect] at hok ⊢
      cases hk : c.connecting[k]? with
      | none => exact ha
      | some id =>
        simp only [hk] at hok ⊢
        obtain ⟨f1, f2, f3⟩ := finishConnect_cases c id
        generalize c.finishConnect id = Q at f1 f2 f3 hok
        obtain ⟨a, c', fin⟩ := Q
        simp only at f1 f2 f3 hok ⊢
        intro x hx
        simp only [f1] at hx
        have := ha x hx
        simp only [Conn.own, List.mem_append] at this
        rcases f3 with ⟨-, h2, h3⟩ | ⟨k', hk'⟩ | ⟨h2, h3⟩
        · simp only [Conn.own, h2, h3, f2, Bool.false_eq_true, if_false, List.mem_append]
          exact this
        · exact (hok k' hk').elim
        · simp only [Conn.own, h2, h3, f2, if_true, List.map_append, List.map_cons, List.map_nil, List.mem_append,
            List.mem_singleton]
          rcases this with h1 | h1
          · exact .inl (.inl h1)
          · obtain ⟨hlt, hkk⟩ := List.getElem?_eq_some_iff.mp hk
            by_cases hxe : x = id
            · exact .inl (.inr hxe)
            · right
              obtain ⟨j, hj, hjx⟩ := List.getElem_of_mem h1
              refine List.mem_eraseIdx_iff_getElem.mpr ⟨j, hj, ?_, hjx⟩
              rintro rfl
              exact hxe (hjx.symm.trans hkk)
    | read i room =>
      simp only at hok ⊢
      cases c.handles[i]? with
      | none => exact ha
      | some w =>
        have h1 := pollRead_readers c.shared h.closed w.id room
        simp only [Conn.read]
        generalize c.shared.pollRead w.id room = P at h1
        obtain ⟨r, m', taken⟩ := P
        rcases r with _ | (_ | _) <;> exact same _ h1 rfl rfl
    | write i data =>
      simp only at hok ⊢
      cases hw : c.handles[i]? with
      | none => exact ha
      | some w =>
        obtain ⟨h1, h2⟩ := drain_readers c i w hw
        have h3 := drain_connecting c i w
        simp only [Conn.write]
        generalize c.drain i w = P at h1 h2 h3
        obtain ⟨r, c'⟩ := P
        rcases r with _ | (_ | _) <;> exact same _ h1 h2 h3
    | flush i =>
      simp only at hok ⊢
      cases hw : c.handles[i]? with
      | none => exact ha
      | some w =>
        obtain ⟨h1, h2⟩ := drain_readers c i w hw
        have h3 := drain_connecting c i w
        simp only [Conn.flush]
        generalize c.drain i w = P at h1 h2 h3
        obtain ⟨r, c'⟩ := P
        rcases r with _ | (_ | _) <;> exact same _ h1 h2 h3
    | shutdown i =>
      simp only at hok ⊢
      cases hw : c.handles[i]? with
      | none => exact ha
      | some w =>
        obtain ⟨h1, h2⟩ := drain_readers c i w hw
        have h3 := drain_connecting c i w
        simp only [Conn.shutdown]
        generalize c.drain i w = P at h1 h2 h3
        obtain ⟨r, c'⟩ := P
        rcases r with _ | (_ | _)
        · exact same _ h1 h2 h3
        · exact same _ h1 h2 h3
        · refine same _ h1 ?_ h3
          simp only at h2 ⊢
          rw [handles_set_ids (w := w) ?_ ⟨w.id, some .brokenPipe⟩ rfl, h2]
          rw [← List.getElem?_map, h2, List.getElem?_map, hw]; rfl
    | dropReader i =>
      simp only at hok ⊢
      cases c.handles[i]? with
      | none => exact ha
      | some w =>
        intro id hid
        simp only [Shared.removeReader, List.mem_filter] at hid
        exact ha id hid.1

/-- Nothing has failed at this end so far, so every stream in its table is attended to. -/
theorem act_attended {x y : End} (hx : EInv x) (m : Act)
    (ha : (∀ k, Answer.failed k ∉ x.answers) → x.conn.Attended)
    (hok : ∀ k, Answer.failed k ∉ (x.act y m).answers) : (x.act y m).conn.Attended := by
  cases m with
  | poll op =>
    simp only [End.act, End.poll] at hok ⊢
    refine step_attended hx.inv (ha fun k hk => hok k (List.mem_append_left _ hk)) op fun k hk => hok k ?_
    rw [hk]; simp
  | deliver n =>
    simp only [End.act] at hok ⊢
    split at hok <;> rename_i h
    · rw [if_pos h]; exact ha hok
    · rw [if_neg h]; exact ha hok
  | readError k => exact ha hok
  | readEnd => exact ha hok
  | takeWrite e => exact ha hok
  | takeFlush e => exact ha hok

/-- The transport's answers are never scripted as pauses. -/
theorem act_reads (x y : End) (m : Act) (h : .pending ∉ x.arrived) : .pending ∉ (x.act y m).arrived := by
  cases m with
  | deliver n =>
    simp only [End.act]
    split
    · exact h
    · simpa [End.arrive] using h
  | readError k => simpa [End.act, End.arrive] using h
  | readEnd => simpa [End.act, End.arrive] using h
  | poll op => exact h
  | takeWrite e => exact h
  | takeFlush e => exact h

theorem run_quiet (ms : List (Bool × Act)) (ha : opensAt true ms < 2 ^ 64 - 33) (hb : opensAt false ms < 2 ^ 64 - 33)
    (hfa : ∀ o ∈ outIn (Pair.run ms).a.evs, o.Fits) (hfb : ∀ o ∈ outIn (Pair.run ms).b.evs, o.Fits) :
    ((∀ k, Answer.failed k ∉ (Pair.run ms).a.answers) → (Pair.run ms).a.conn.Attended) ∧
    ((∀ k, Answer.failed k ∉ (Pair.run ms).b.answers) → (Pair.run ms).b.conn.Attended) ∧
    .pending ∉ (Pair.run ms).a.arrived ∧ .pending ∉ (Pair.run ms).b.arrived := by
  induction ms using List.reverseRecOn with
  | nil =>
    refine ⟨?_, ?_, by simp [Pair.run, End.new], by simp [Pair.run, End.new]⟩ <;>
      (intro _ id hid; simp [Pair.run, End.new, Conn.new, Shared.new] at hid)
  | append_singleton ms m ih =>
    obtain ⟨s, m⟩ := m
    rw [run_snoc] at hfa hfb ⊢
    rw [opensAt_append] at ha hb
    cases s with
    | true =>
      simp only [Pair.step, if_true, Bool.true_eq_false, if_false, Nat.add_zero] at *
      have hfa' := fits_prefix (act_evs (Pair.run ms).a (Pair.run ms).b m) hfa
      obtain ⟨h1, -, -⟩ := run_pinv ms (by omega) (by omega) hfa' hfb
      obtain ⟨h2, h3, h4, h5⟩ := ih (by omega) (by omega) hfa' hfb
      exact ⟨act_attended h1.left m h2, h3, act_reads _ _ m h4, h5⟩
    | false =>
      simp only [Pair.step, Bool.false_eq_true, if_true, if_false, Nat.add_zero] at *
      have hfb' := fits_prefix (act_evs (Pair.run ms).b (Pair.run ms).a m) hfb
      obtain ⟨h1, -, -⟩ := run_pinv ms (by omega) (by omega) hfa hfb'
      obtain ⟨h2, h3, h4, h5⟩ := ih (by omega) (by omega) hfa hfb'
      exact ⟨h2, act_attended h1.right m h3, h4, act_reads _ _ m h5⟩

/-- A read that waits has used up all there was. -/
theorem readFrameLoop_waits (reads : List ReadEvent) : ∀ (inc : Bytes) (eof : Bool), .pending ∉ reads →
    (readFrameLoop reads inc eof).1 = .pending → (readFrameLoop reads inc eof).2.1 = [] := by
  induction reads with
  | nil =>
    intro inc eof _ h
    rw [readFrameLoop] at h ⊢
    cases hr : readyFrame inc eof with
    | some r => simp [hr] at h
    | none => rfl
  | cons e es ih =>
    intro inc eof hn h
    rw [readFrameLoop_cons] at h ⊢
    cases hr : readyFrame inc eof with
    | some r => simp [hr] at h
    | none =>
      simp only [hr] at h ⊢
      cases e with
      | pending => simp at hn
      | error k => simp at h
      | ready d =>
        simp only at h ⊢
        split at h <;> rename_i hd
        · rw [if_pos hd]; exact ih _ _ (by simpa using hn) h
        · rw [if_neg hd]; exact ih _ _ (by simpa using hn) h

theorem fillLoop_waits (fuel : Nat) : ∀ (m : Shared), .pending ∉ m.frames.transport.reads →
    (fillLoop fuel m).1 = .pending → (fillLoop fuel m).2.1.frames.transport.reads = [] ∧
      (fillLoop fuel m).2.1.incoming = none := by
  induction fuel with
  | zero => intro m _ h; simp [fillLoop] at h
  | succ fuel ih =>
    intro m hn h
    unfold fillLoop at h ⊢
    split at h
    · simp at h
    · split at h
      · simp at h
      · rename_i h1 h2
        rw [if_neg h1, if_neg h2]
        have hp := readFrameLoop_waits m.frames.transport.reads m.frames.incoming m.frames.readEof hn
        obtain ⟨used, hu, -⟩ := (readFrameLoop_step m.frames.transport.reads m.frames.incoming m.frames.readEof).used
        simp only [FrameStream.pollReadFrame] at h ⊢
        generalize readFrameLoop m.frames.transport.reads m.frames.incoming m.frames.readEof = R at *
        obtain ⟨r, reads', inc', eof'⟩ := R
        simp only at hp hu h ⊢
        rcases r with _ | (e | (_ | f))
        · exact ⟨hp rfl, rfl⟩
        · simp at h
        · simp at h
        · refine ih _ ?_ h
          simp only
          intro hm
          exact hn (by rw [hu]; exact List.mem_append_right _ hm)

end Ngfs.Mplex
