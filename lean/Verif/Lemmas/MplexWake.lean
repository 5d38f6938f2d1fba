import Verif.Lemmas.MplexConn
import Verif.Spec.MplexWake
import Mathlib.Data.List.Nodup
import Mathlib.Data.List.Perm.Basic

/-!
Helper lemmas about wakers. Nothing here is a claim.
-/
namespace Ngfs.Mplex
open Ngfs.Spec.MplexWake

/-- No frame can be taken from the buffer. -/
def FrameStream.Dry (fs : FrameStream) : Prop := readyFrame fs.incoming fs.readEof = none

/-- What filling the frame slot does to the wakers. -/
structure FillWake (t : Task) (m : Shared) (w : Wakers) (r : Poll (Except Fault Unit)) (m' : Shared)
    (taken : List Frame) (w' : Wakers) : Prop where
  accept : ∀ a, w.accept = some a → w'.accept = some a ∨ a ∈ w'.woken
  readers : ∀ id a, (id, a) ∈ w.readers → (id, a) ∈ w'.readers ∨ a ∈ w'.woken
  old : ∀ a ∈ w.woken, a ∈ w'.woken
  pend : r = .pending → w'.transport = some t ∧ m'.frames.Dry
  fresh : taken ≠ [] → ∀ f, m'.incoming = some f → (f.op = .new → ∀ a, w.accept = some a → a ∈ w'.woken) ∧
    (f.op ≠ .new → ∀ a, (f.streamId, a) ∈ w.readers → a ∈ w'.woken)
  ended : r = .ready (.ok ()) → m'.incoming = none → (∀ a, w.accept = some a → a ∈ w'.woken) ∧
    (∀ id a, (id, a) ∈ w.readers → a ∈ w'.woken)
  same : m.frameWanted = true → m' = m ∧ w' = w ∧ taken = [] ∧ r = .ready (.ok ())
  moved : m.frameWanted = false → r = .pending ∨ w'.transport = none
  none : m.frameWanted = false → taken = [] → m'.incoming = Option.none

theorem wakeAccept_accept {w : Wakers} {a : Task} (h : w.accept = some a) : a ∈ w.wakeAccept.woken := by
  simp [Wakers.wakeAccept, h]

theorem wakeReader_readers {w : Wakers} {id : StreamId} {a : Task} (h : (id, a) ∈ w.readers) :
    a ∈ (w.wakeReader id).woken := by
  simp only [Wakers.wakeReader, List.mem_append, List.mem_map, List.mem_filter]
  exact .inr ⟨(id, a), ⟨h, by simp⟩, rfl⟩

theorem wakeReader_other {w : Wakers} {i id : StreamId} {a : Task} (h : (id, a) ∈ w.readers) :
    (id, a) ∈ (w.wakeReader i).readers ∨ a ∈ (w.wakeReader i).woken := by
  by_cases hi : id = i
  · subst hi; exact .inr (wakeReader_readers h)
  · exact .inl (by simp [Wakers.wakeReader, h, hi])

theorem wakeAll_accept {w : Wakers} {a : Task} (h : w.accept = some a) : a ∈ w.wakeAll.woken := by
  simp [Wakers.wakeAll, h]

theorem wakeAll_readers {w : Wakers} {id : StreamId} {a : Task} (h : (id, a) ∈ w.readers) : a ∈ w.wakeAll.woken := by
  simp only [Wakers.wakeAll, List.mem_append, List.mem_map]
  exact .inr ⟨(id, a), h, rfl⟩

theorem wakeAll_old {w : Wakers} {a : Task} (h : a ∈ w.woken) : a ∈ w.wakeAll.woken := by
  simp [Wakers.wakeAll, h]

theorem answered_fields (w : Wakers) (fs : FrameStream) : (w.answered fs).accept = w.accept ∧
    (w.answered fs).readers = w.readers ∧ (w.answered fs).woken = w.woken := by
  unfold Wakers.answered; split <;> exact ⟨rfl, rfl, rfl⟩

theorem answered_transport {w : Wakers} {fs : FrameStream} (h : w.transport ≠ none → fs.Dry) :
    (w.answered fs).transport = none := by
  unfold Wakers.answered
  split
  · rename_i hs
    cases ht : w.transport with
    | none => rfl
    | some a =>
      have := h (by rw [ht]; nofun)
      unfold FrameStream.Dry at this
      rw [this] at hs
      cases hs
  · rfl

theorem readFrameLoop_dry (reads : List ReadEvent) : ∀ (inc : Bytes) (eof : Bool),
    (readFrameLoop reads inc eof).1 = .pending →
    readyFrame (readFrameLoop reads inc eof).2.2.1 (readFrameLoop reads inc eof).2.2.2 = none := by
  induction reads with
  | nil =>
    intro inc eof h
    rw [readFrameLoop] at h ⊢
    cases hr : readyFrame inc eof with
    | some r => simp [hr] at h
    | none => exact hr
  | cons e es ih =>
    intro inc eof h
    rw [readFrameLoop_cons] at h ⊢
    cases hr : readyFrame inc eof with
    | some r => simp [hr] at h
    | none =>
      simp only [hr] at h ⊢
      cases e with
      | pending => exact hr
      | error k => simp at h
      | ready d =>
        simp only at h ⊢
        split at h
        · rename_i hd; rw [if_pos hd]; exact ih _ _ h
        · rename_i hd; rw [if_neg hd]; exact ih _ _ h

theorem pollReadFrame_dry (s : FrameStream) (h : s.pollReadFrame.1 = .pending) : s.pollReadFrame.2.Dry :=
  readFrameLoop_dry _ _ _ h

theorem fillLoop_wake (t : Task) (fuel : Nat) : ∀ (m : Shared) (w : Wakers), m.closed = false →
    (w.transport ≠ none → m.frames.Dry) →
    (fillLoop fuel m).1 ≠ .ready (.error .fuel) →
    FillWake t m w (fillLoop fuel m).1 (fillLoop fuel m).2.1 (fillLoop fuel m).2.2 (fillWakers t fuel m w) := by
  induction fuel with
  | zero => intro m w _ _ h; exact (h rfl).elim
  | succ fuel ih =>
    intro m w hc hd hf
    rw [fillLoop, if_neg (by simp [hc])] at hf ⊢
    rw [fillWakers, if_neg (show ¬ m.closed = true by simp [hc])]
    cases hw : m.frameWanted with
    | true =>
      simp only [if_true]
      refine ⟨fun a h => .inl h, fun id a h => .inl h, fun a h => h, nofun, fun h => (h rfl).elim, ?_,
        fun _ => ⟨rfl, rfl, rfl, rfl⟩, fun h => absurd (hw.symm.trans h) (by decide), fun h => absurd (hw.symm.trans h) (by decide)⟩
      intro _ hn
      simp [Shared.frameWanted, hn] at hw
    | false =>
      simp only [hw, Bool.false_eq_true, if_false] at hf ⊢
      have hdry := pollReadFrame_dry m.frames
      generalize m.frames.pollReadFrame = P at hf hdry
      obtain ⟨r, fs⟩ := P
      obtain ⟨ea, er, eo⟩ := answered_fields w m.frames
      have et := answered_transport hd
      cases r with
      | pending =>
        exact ⟨fun a h => .inl h, fun id a h => .inl h, fun a h => h, fun _ => ⟨rfl, hdry rfl⟩, fun h => (h rfl).elim,
          nofun, fun h => absurd (hw.symm.trans h) (by decide), fun _ => .inl rfl, fun _ _ => rfl⟩
      | ready x =>
        cases x with
        | error e =>
          exact ⟨fun a h => .inl (ea ▸ h), fun id a h => .inl (er ▸ h), fun a h => eo ▸ h, nofun, fun h => (h rfl).elim,
            nofun, fun h => absurd (hw.symm.trans h) (by decide), fun _ => .inr et, fun _ _ => rfl⟩
        | ok o =>
          cases o with
          | none =>
            refine ⟨fun a h => .inr (wakeAll_accept (ea ▸ h)), fun id a h => .inr (wakeAll_readers (id := id) (er ▸ h)),
              fun a h => wakeAll_old (eo ▸ h), nofun, fun h => (h rfl).elim,
              fun _ _ => ⟨fun a h => wakeAll_accept (ea ▸ h), fun id a h => wakeAll_readers (id := id) (er ▸ h)⟩, fun h => absurd (hw.symm.trans h) (by decide),
              fun _ => .inr ?_, fun _ _ => rfl⟩
            exact et
          | some f =>
            simp only at hf ⊢
            set w1 := w.answered m.frames with hw1
            set w2 := (if f.op = .new then w1.wakeAccept else w1.wakeReader f.streamId) with hw2
            have t2 : w2.transport = none := by
              rw [hw2]; split <;> exact et
            have a2 : ∀ a, w.accept = some a → w2.accept = some a ∨ a ∈ w2.woken := by
              intro a h
              rw [← ea] at h
              rw [hw2]; split
              · exact .inr (wakeAccept_accept h)
              · exact .inl h
            have r2 : ∀ id a, (id, a) ∈ w.readers → (id, a) ∈ w2.readers ∨ a ∈ w2.woken := by
              intro id a h
              rw [← er] at h
              rw [hw2]; split
              · exact .inl h
              · exact wakeReader_other h
            have o2 : ∀ a ∈ w.woken, a ∈ w2.woken := by
              intro a h
              rw [← eo] at h
              rw [hw2]; split <;> exact List.mem_append_left _ h
            obtain ⟨h1, h2, h3, h4, h5, h6, h7, h8, h9⟩ := ih { m with incoming := some f, frames := fs } w2 hc
              (fun h => (h t2).elim) hf
            have hstep : ∀ g, (fillLoop fuel { m with incoming := some f, frames := fs }).2.1.incoming = some g →
                (fillLoop fuel { m with incoming := some f, frames := fs }).2.2 = [] →
                g = f ∧ fillWakers t fuel { m with incoming := some f, frames := fs } w2 = w2 := by
              intro g hg ht
              cases hw' : ({ m with incoming := some f, frames := fs } : Shared).frameWanted with
              | true =>
                obtain ⟨e1, e2, -, -⟩ := h7 hw'
                rw [e1] at hg
                cases hg
                exact ⟨rfl, e2⟩
              | false => rw [h9 hw' ht] at hg; cases hg
            refine ⟨?_, ?_, ?_, h4, ?_, ?_, fun h => absurd (hw.symm.trans h) (by decide), ?_, fun _ h => (List.cons_ne_nil _ _ h).elim⟩
            · intro a h
              rcases a2 a h with h | h
              · exact h1 a h
              · exact .inr (h3 a h)
            · intro id a h
              rcases r2 id a h with h | h
              · exact h2 id a h
              · exact .inr (h3 a h)
            · intro a h; exact h3 a (o2 a h)
            · intro _ g hg
              by_cases ht : (fillLoop fuel { m with incoming := some f, frames := fs }).2.2 = []
              · obtain ⟨rfl, e⟩ := hstep g hg ht
                rw [e]
                refine ⟨fun hop a h => ?_, fun hop a h => ?_⟩
                · rw [hw2, if_pos hop]; exact wakeAccept_accept (ea ▸ h)
                · rw [hw2, if_neg hop]; exact wakeReader_readers (er ▸ h)
              · obtain ⟨k1, k2⟩ := h5 ht g hg
                refine ⟨fun hop a h => ?_, fun hop a h => ?_⟩
                · rcases a2 a h with h | h
                  · exact k1 hop a h
                  · exact h3 a h
                · rcases r2 _ a h with h | h
                  · exact k2 hop a h
                  · exact h3 a h
            · intro hr hn
              obtain ⟨k1, k2⟩ := h6 hr hn
              refine ⟨fun a h => ?_, fun id a h => ?_⟩
              · rcases a2 a h with h | h
                · exact k1 a h
                · exact h3 a h
              · rcases r2 _ a h with h | h
                · exact k2 _ a h
                · exact h3 a h
            · intro _
              cases hw' : ({ m with incoming := some f, frames := fs } : Shared).frameWanted with
              | true =>
                obtain ⟨e1, e2, -, -⟩ := h7 hw'
                right; rw [e2]; exact t2
              | false => exact h8 hw'

theorem pollFill_wake (t : Task) (m : Shared) (w : Wakers) (hc : m.closed = false)
    (hd : w.transport ≠ none → m.frames.Dry) :
    FillWake t m w m.pollFill.1 m.pollFill.2.1 m.pollFill.2.2 (m.fillWakers t w) :=
  fillLoop_wake t _ m w hc hd (pollFill_step m hc).2

/-! ### Slots -/

/-- Where a waiting task leaves its waker. -/
inductive Slot where
  | acceptor
  | reader (id : StreamId)

/-- The waker is there. -/
def Reg (w : Wakers) (k : Slot) (a : Task) : Prop :=
  match k with
  | .acceptor => w.accept = some a
  | .reader id => (id, a) ∈ w.readers

/-- The poll waits in the slot. -/
def InSlot (c : Conn) (op : Op) (k : Slot) : Prop :=
  match op, k with
  | .accept, .acceptor => True
  | .read h _, .reader id => ∃ x, c.handles[h]? = some x ∧ x.id = id
  | _, _ => False

/-- The slot a frame is for. -/
def Frame.slot (f : Frame) : Slot := if f.op = .new then .acceptor else .reader f.streamId

theorem inSlot_incoming {c : Conn} {op : Op} {k : Slot} (h : InSlot c op k) : Incoming op := by
  cases op <;> cases k <;> first | exact h.elim | trivial

/-- After filling, a waker is still there or has been used. -/
theorem FillWake.reg {t : Task} {m : Shared} {w : Wakers} {r m' taken w'} (h : FillWake t m w r m' taken w')
    {k : Slot} {a : Task} (hr : Reg w k a) : Reg w' k a ∨ a ∈ w'.woken := by
  cases k with
  | acceptor => exact h.accept a hr
  | reader id => exact h.readers id a hr

theorem FillWake.hit {t : Task} {m : Shared} {w : Wakers} {r m' taken w'} (h : FillWake t m w r m' taken w')
    (ht : taken ≠ []) {f : Frame} (hf : m'.incoming = some f) {a : Task} (hr : Reg w f.slot a) : a ∈ w'.woken := by
  obtain ⟨h1, h2⟩ := h.fresh ht f hf
  unfold Frame.slot at hr
  split at hr
  · exact h1 ‹_› a hr
  · exact h2 ‹_› a hr

theorem FillWake.all {t : Task} {m : Shared} {w : Wakers} {r m' taken w'} (h : FillWake t m w r m' taken w')
    (hr : r = .ready (.ok ())) (hi : m'.incoming = Option.none) {k : Slot} {a : Task} (hk : Reg w k a) : a ∈ w'.woken := by
  obtain ⟨h1, h2⟩ := h.ended hr hi
  cases k with
  | acceptor => exact h1 a hk
  | reader id => exact h2 id a hk

theorem wakeAll_reg {w : Wakers} {k : Slot} {a : Task} (h : Reg w k a) : a ∈ w.wakeAll.woken := by
  cases k with
  | acceptor => exact wakeAll_accept h
  | reader id => exact wakeAll_readers (id := id) h

theorem add_reg {w : Wakers} {i : StreamId} {k : Slot} {a : Task} (h : Reg w k a) (hk : ∀ id, k = .reader id → id ≠ i) :
    Reg (w.add i) k a := by
  cases k with
  | acceptor => exact h
  | reader id => exact List.mem_filter.mpr ⟨h, by simpa using hk id rfl⟩

/-! ### The invariant -/

/-- The identifiers in use. -/
def Conn.ids (c : Conn) : List StreamId := c.handles.map (·.id) ++ c.connecting

/-- The part of the invariant that does not speak about wakers. -/
structure SInv (s : Sys) : Prop where
  key : (s.waits.map (·.1)).Nodup
  res : (s.waits.map (·.2.resource)).Nodup
  closed : s.conn.shared.closed = false
  sane : s.conn.poisoned = false
  ids : s.conn.ids.Nodup
  mine : ∀ n, StreamId.receiver n ∈ s.conn.ids → n < s.conn.shared.nextStreamNum
  theirs : ∀ n, StreamId.initiator n ∈ s.conn.ids → StreamId.initiator n ∈ opened s.taken
  hand : ∀ f, s.conn.shared.incoming = some f → f.op = .new → f.streamId ∈ opened s.taken ∧ f.streamId ∉ s.conn.ids
  live : ∀ (h : Nat) x, h ∉ s.gone → s.conn.handles[h]? = some x → x.id ∈ s.conn.shared.readers
  valid : ∀ p ∈ s.waits, ∀ h r, p.2 = .read h r → h ∉ s.gone ∧ h < s.conn.handles.length
  pend : ∀ id ∈ s.conn.connecting, id ∈ s.conn.shared.readers
  sound : ∀ p ∈ s.waits, ∀ h, p.2 ≠ .dropReader h

theorem mayPoll_sound {s : Sys} {t : Task} {op : Op} (hs : SInv s) (hm : s.mayPoll t op = true) (h : Nat) : op ≠ .dropReader h := by
  rintro rfl
  unfold Sys.mayPoll at hm
  split at hm
  · rename_i u op' hf
    have hmem := List.mem_of_find?_eq_some hf
    have : Op.dropReader h = op' := by simpa using hm
    subst this
    exact hs.sound _ hmem h rfl
  · simp at hm

/-- The part of the invariant about wakers. -/
structure KInv (s : Sys) : Prop where
  woken : s.wakers.woken = []
  reg : ∀ p ∈ s.waits, ∀ k, InSlot s.conn p.2 k → p.1 ∈ s.awake ∨ Reg s.wakers k p.1
  want : ∀ f, s.conn.shared.incoming = some f → ∀ p ∈ s.waits, InSlot s.conn p.2 f.slot → p.1 ∈ s.awake
  drive : s.conn.shared.frameWanted = false → ∀ p ∈ s.waits, Incoming p.2 →
    ∃ q ∈ s.waits, Incoming q.2 ∧ (q.1 ∈ s.awake ∨ s.wakers.transport = some q.1)
  dry : s.wakers.transport ≠ none → s.conn.shared.frames.Dry

/-- The other tasks that wait. -/
def Sys.others (s : Sys) (t : Task) : List (Task × Op) := s.waits.filter (·.1 ≠ t)

theorem others_sub {s : Sys} {t : Task} {p : Task × Op} (h : p ∈ s.others t) : p ∈ s.waits ∧ p.1 ≠ t := by
  simpa [Sys.others] using h

theorem again_resource (c : Conn) (op : Op) : (c.again op).resource = op.resource := by
  cases op <;> rfl

theorem nodup_map_inj {α β : Type} {f : α → β} {l : List α} (h : (l.map f).Nodup) {x y : α} (hx : x ∈ l) (hy : y ∈ l)
    (he : f x = f y) : x = y := by
  induction l with
  | nil => cases hx
  | cons a l ih =>
    rw [List.map_cons, List.nodup_cons] at h
    rcases List.mem_cons.mp hx with rfl | hx' <;> rcases List.mem_cons.mp hy with rfl | hy'
    · rfl
    · exact (h.1 (he ▸ List.mem_map_of_mem hy')).elim
    · exact (h.1 (he ▸ List.mem_map_of_mem hx')).elim
    · exact ih h.2 hx' hy'

theorem mayPoll_others {s : Sys} {t : Task} {op : Op} (hs : SInv s) (hm : s.mayPoll t op = true) :
    ∀ p ∈ s.others t, p.2.resource ≠ op.resource := by
  intro p hp
  obtain ⟨h1, h2⟩ := others_sub hp
  unfold Sys.mayPoll at hm
  split at hm
  · rename_i u op' hf
    have hmem := List.mem_of_find?_eq_some hf
    have hu : u = t := by simpa using List.find?_some hf
    have : op = op' := by simpa using hm
    subst this hu
    intro he
    have := nodup_map_inj hs.res h1 hmem he
    rw [this] at h2
    exact h2 rfl
  · rw [Bool.and_eq_true] at hm
    have := List.all_eq_true.mp hm.2 p h1
    simpa using this

theorem mayPoll_read {s : Sys} {t : Task} {h r : Nat} (hs : SInv s) (hm : s.mayPoll t (.read h r) = true) :
    h ∉ s.gone ∧ h < s.conn.handles.length := by
  unfold Sys.mayPoll at hm
  split at hm
  · rename_i u op' hf
    have hmem := List.mem_of_find?_eq_some hf
    have : Op.read h r = op' := by simpa using hm
    subst this
    exact hs.valid _ hmem h r rfl
  · rw [Bool.and_eq_true] at hm
    simpa using hm.1

theorem others_key {s : Sys} (hs : SInv s) (t : Task) (o : Op) : (((t, o) :: s.others t).map (·.1)).Nodup := by
  rw [List.map_cons, List.nodup_cons]
  refine ⟨?_, hs.key.sublist (List.Sublist.map _ List.filter_sublist)⟩
  intro h
  obtain ⟨p, hp, he⟩ := List.mem_map.mp h
  exact (others_sub hp).2 he

theorem others_res {s : Sys} {t : Task} {op o : Op} (hs : SInv s) (hm : s.mayPoll t op = true)
    (ho : o.resource = op.resource) : (((t, o) :: s.others t).map (·.2.resource)).Nodup := by
  rw [List.map_cons, List.nodup_cons]
  refine ⟨?_, hs.res.sublist (List.Sublist.map _ List.filter_sublist)⟩
  intro h
  obtain ⟨p, hp, he⟩ := List.mem_map.mp h
  exact mayPoll_others hs hm p hp (he.trans ho)

/-- After any poll, who waits. -/
theorem poll_waits {s : Sys} {t : Task} {op : Op} (hs : SInv s) (hm : s.mayPoll t op = true) :
    ((s.poll t op).waits.map (·.1)).Nodup ∧ ((s.poll t op).waits.map (·.2.resource)).Nodup := by
  have h1 := others_key hs t ((s.conn.step op).2.1.again op)
  have h2 := others_res (o := (s.conn.step op).2.1.again op) hs hm (again_resource _ _)
  show ((if _ then _ else _ : List (Task × Op)).map (·.1)).Nodup ∧ ((if _ then _ else _ : List (Task × Op)).map (·.2.resource)).Nodup
  split
  · exact ⟨h1, h2⟩
  · exact ⟨(List.nodup_cons.mp h1).2, (List.nodup_cons.mp h2).2⟩

/-- The invariant about wakers after a poll that waits for something to arrive. -/
theorem kinv_poll {s : Sys} {t : Task} {op : Op} (hm : s.mayPoll t op = true) (hk : KInv s)
    (hslot : ∀ p ∈ s.others t, ∀ k, InSlot (s.poll t op).conn p.2 k → InSlot s.conn p.2 k)
    (hreg : ∀ p ∈ s.others t, ∀ k, InSlot s.conn p.2 k →
      p.1 ∈ s.awake ∨ p.1 ∈ (s.conn.wakers op t s.wakers).woken ∨ Reg (s.conn.wakers op t s.wakers) k p.1)
    (hself : (s.conn.step op).1 = .pending → ∀ k, InSlot (s.poll t op).conn ((s.poll t op).conn.again op) k →
      Reg (s.conn.wakers op t s.wakers) k t)
    (hwant : ∀ f, (s.poll t op).conn.shared.incoming = some f → ∀ p ∈ s.others t, InSlot s.conn p.2 f.slot →
      p.1 ∈ s.awake ∨ p.1 ∈ (s.conn.wakers op t s.wakers).woken)
    (hwantself : (s.conn.step op).1 = .pending → ∀ f, (s.poll t op).conn.shared.incoming = some f →
      ¬ InSlot (s.poll t op).conn ((s.poll t op).conn.again op) f.slot)
    (hdrive : (s.poll t op).conn.shared.frameWanted = false →
      ((s.conn.step op).1 = .pending → Incoming ((s.poll t op).conn.again op) ∧ (s.conn.wakers op t s.wakers).transport = some t) ∧
      ((s.conn.step op).1 ≠ .pending → ∀ p ∈ s.others t, Incoming p.2 →
        p.1 ∈ s.awake ∨ p.1 ∈ (s.conn.wakers op t s.wakers).woken))
    (hdry : (s.conn.wakers op t s.wakers).transport ≠ none → (s.poll t op).conn.shared.frames.Dry) :
    KInv (s.poll t op) := by
  have hawake : ∀ p ∈ s.others t, p.1 ∈ s.awake ∨ p.1 ∈ (s.conn.wakers op t s.wakers).woken → p.1 ∈ (s.poll t op).awake := by
    intro p hp h
    show p.1 ∈ s.awake.filter (· ≠ t) ++ _
    rw [List.mem_append, List.mem_filter]
    rcases h with h | h
    · exact .inl ⟨h, by simpa using (others_sub hp).2⟩
    · exact .inr h
  have hw : (s.poll t op).waits = if (s.conn.step op).1 = .pending then (t, (s.poll t op).conn.again op) :: s.others t else s.others t := rfl
  have hregEq : ∀ k a, Reg (s.poll t op).wakers k a ↔ Reg (s.conn.wakers op t s.wakers) k a := by
    intro k a; cases k <;> exact Iff.rfl
  refine ⟨rfl, ?_, ?_, ?_, hdry⟩
  · intro p hp k hin
    rw [hregEq]
    rw [hw] at hp
    have main : p ∈ s.others t → p.1 ∈ (s.poll t op).awake ∨ Reg (s.conn.wakers op t s.wakers) k p.1 := by
      intro hp
      rcases hreg p hp k (hslot p hp k hin) with h | h | h
      · exact .inl (hawake p hp (.inl h))
      · exact .inl (hawake p hp (.inr h))
      · exact .inr h
    split at hp
    · rename_i hpend
      rcases List.mem_cons.mp hp with rfl | hp
      · exact .inr (hself hpend k hin)
      · exact main hp
    · exact main hp
  · intro f hf p hp hin
    rw [hw] at hp
    have main : p ∈ s.others t → p.1 ∈ (s.poll t op).awake := fun hp => hawake p hp (hwant f hf p hp (hslot p hp _ hin))
    split at hp
    · rename_i hpend
      rcases List.mem_cons.mp hp with rfl | hp
      · exact (hwantself hpend f hf hin).elim
      · exact main hp
    · exact main hp
  · intro hfw p hp hin
    obtain ⟨h1, h2⟩ := hdrive hfw
    rw [hw] at hp ⊢
    split at hp
    · rename_i hpend
      rw [if_pos hpend]
      exact ⟨_, List.mem_cons_self, (h1 hpend).1, .inr (h1 hpend).2⟩
    · rename_i hpend
      rw [if_neg hpend]
      exact ⟨p, hp, hin, .inl (hawake p hp (h2 hpend p hp hin))⟩

theorem takenFrames_map (fs : List Frame) : takenFrames (fs.map .taken) = fs := by
  induction fs with
  | nil => rfl
  | cons f fs ih => simp only [List.map_cons, takenFrames, List.filterMap_cons]; exact congrArg _ ih

theorem takenFrames_got (id : StreamId) (d : Bytes) : takenFrames [.got id d] = [] := rfl

theorem takenFrames_append (a b : List Event) : takenFrames (a ++ b) = takenFrames a ++ takenFrames b := List.filterMap_append ..

theorem opened_append (a b : List Frame) : opened (a ++ b) = opened a ++ opened b := by
  simp [opened]

theorem mem_opened {f : Frame} {fs : List Frame} (h : f ∈ fs) (hop : f.op = .new) : f.streamId ∈ opened fs :=
  List.mem_map.mpr ⟨f, by simpa using ⟨h, hop⟩, rfl⟩

/-- What is known after filling the frame slot. -/
structure Core (s : Sys) (t : Task) (m1 : Shared) (taken : List Frame) (w1 : Wakers) : Prop where
  reg : ∀ p ∈ s.waits, ∀ k, InSlot s.conn p.2 k → p.1 ∈ s.awake ∨ p.1 ∈ w1.woken ∨ Reg w1 k p.1
  want : ∀ f, m1.incoming = some f → ∀ p ∈ s.waits, InSlot s.conn p.2 f.slot → p.1 ∈ s.awake ∨ p.1 ∈ w1.woken
  hand : ∀ f, m1.incoming = some f → f.op = .new → f.streamId ∈ opened (s.taken ++ taken) ∧ f.streamId ∉ s.conn.ids ∧
    ∃ n, f.streamId = .initiator n
  dry : w1.transport ≠ none → m1.frames.Dry
  readers : m1.readers = s.conn.shared.readers
  next : m1.nextStreamNum = s.conn.shared.nextStreamNum
  closed : m1.closed = false
  wanted : m1.incoming ≠ none → m1.frameWanted = true

theorem opened_initiator {bs : Bytes} {fs : List Frame} (h : Spec.Mplex.Frames bs fs) {id : StreamId} (hi : id ∈ opened fs) :
    ∃ n, id = .initiator n := by
  obtain ⟨f, hf, rfl⟩ := List.mem_map.mp hi
  rw [List.mem_filter] at hf
  exact frames_newInit h f hf.1 (by simpa using hf.2)

/-- All streams opened by the other side so far have its kind of number. -/
def Theirs (s : Sys) : Prop := ∀ id ∈ opened s.taken, ∃ n, id = StreamId.initiator n

theorem core {s : Sys} (hs : SInv s) (hk : KInv s) (hth : Theirs s) (t : Task)
    (hn : (opened (s.taken ++ s.conn.shared.pollFill.2.2)).Nodup) :
    Core s t s.conn.shared.pollFill.2.1 s.conn.shared.pollFill.2.2 (s.conn.shared.fillWakers t s.wakers) := by
  have hf := (pollFill_step s.conn.shared hs.closed).1
  have hw := pollFill_wake t s.conn.shared s.wakers hs.closed hk.dry
  refine ⟨?_, ?_, ?_, ?_, hf.readers, hf.next, hf.closed.trans hs.closed, hf.wanted⟩
  · intro p hp k hin
    rcases hk.reg p hp k hin with h | h
    · exact .inl h
    · rcases hw.reg h with h | h
      · exact .inr (.inr h)
      · exact .inr (.inl h)
  · intro f hi p hp hin
    by_cases ht : s.conn.shared.pollFill.2.2 = []
    · rcases hf.last f hi with ⟨-, hl⟩ | hl
      · exact .inl (hk.want f hl p hp hin)
      · rw [ht] at hl; cases hl
    · rcases hk.reg p hp _ hin with h | h
      · exact .inl h
      · exact .inr (hw.hit ht hi h)
  · intro f hi hop
    rcases hf.last f hi with ⟨-, hl⟩ | hl
    · obtain ⟨h1, h2⟩ := hs.hand f hl hop
      refine ⟨?_, h2, hth _ h1⟩
      rw [opened_append]; exact List.mem_append_left _ h1
    · have hmem := mem_opened (List.mem_of_getLast? hl) hop
      obtain ⟨_, bs, _, _, hfr⟩ := hf.wire
      obtain ⟨n, hin⟩ := opened_initiator hfr hmem
      refine ⟨by rw [opened_append]; exact List.mem_append_right _ hmem, ?_, n, hin⟩
      intro hc
      rw [hin] at hc hmem
      rw [opened_append] at hn
      exact (List.nodup_append.mp hn).2.2 _ (hs.theirs n hc) _ hmem rfl
  · intro h
    cases hfw : s.conn.shared.frameWanted with
    | true =>
      obtain ⟨e1, e2, -, -⟩ := hw.same hfw
      rw [e1]; rw [e2] at h; exact hk.dry h
    | false =>
      rcases hw.moved hfw with hp | hp
      · exact (hw.pend hp).2
      · exact (h hp).elim

/-- The same with the outcome named. -/
theorem kinv_poll' {s : Sys} {t : Task} {op : Op} {a : Answer} {c' : Conn} {ev : List Event} {w : Wakers}
    (hst : s.conn.step op = (a, c', ev)) (hwk : s.conn.wakers op t s.wakers = w)
    (hm : s.mayPoll t op = true) (hk : KInv s)
    (hslot : ∀ p ∈ s.others t, ∀ k, InSlot c' p.2 k → InSlot s.conn p.2 k)
    (hreg : ∀ p ∈ s.others t, ∀ k, InSlot s.conn p.2 k → p.1 ∈ s.awake ∨ p.1 ∈ w.woken ∨ Reg w k p.1)
    (hself : a = .pending → ∀ k, InSlot c' (c'.again op) k → Reg w k t)
    (hwant : ∀ f, c'.shared.incoming = some f → ∀ p ∈ s.others t, InSlot s.conn p.2 f.slot →
      p.1 ∈ s.awake ∨ p.1 ∈ w.woken)
    (hwantself : a = .pending → ∀ f, c'.shared.incoming = some f → ¬ InSlot c' (c'.again op) f.slot)
    (hdrive : c'.shared.frameWanted = false →
      (a = .pending → Incoming (c'.again op) ∧ w.transport = some t) ∧
      (a ≠ .pending → ∀ p ∈ s.others t, Incoming p.2 → p.1 ∈ s.awake ∨ p.1 ∈ w.woken))
    (hdry : w.transport ≠ none → c'.shared.frames.Dry) :
    KInv (s.poll t op) := by
  have e1 : (s.conn.step op).1 = a := by rw [hst]
  have e2 : (s.poll t op).conn = c' := by show (s.conn.step op).2.1 = c'; rw [hst]
  subst e1 e2 hwk
  exact kinv_poll hm hk hslot hreg hself hwant hwantself hdrive hdry

theorem sinv_poll {s : Sys} {t : Task} {op : Op} {a : Answer} {c' : Conn} {ev : List Event}
    (hst : s.conn.step op = (a, c', ev)) (hm : s.mayPoll t op = true) (hs : SInv s)
    (closed : c'.shared.closed = false) (sane : c'.poisoned = false) (ids : c'.ids.Nodup)
    (mine : ∀ n, StreamId.receiver n ∈ c'.ids → n < c'.shared.nextStreamNum)
    (theirs : ∀ n, StreamId.initiator n ∈ c'.ids → StreamId.initiator n ∈ opened (s.taken ++ takenFrames ev))
    (hand : ∀ f, c'.shared.incoming = some f → f.op = .new →
      f.streamId ∈ opened (s.taken ++ takenFrames ev) ∧ f.streamId ∉ c'.ids)
    (live : ∀ (h : Nat) x, h ∉ s.gone → c'.handles[h]? = some x → x.id ∈ c'.shared.readers)
    (pend : ∀ id ∈ c'.connecting, id ∈ c'.shared.readers)
    (longer : s.conn.handles.length ≤ c'.handles.length) : SInv (s.poll t op) := by
  have e2 : (s.poll t op).conn = c' := by show (s.conn.step op).2.1 = c'; rw [hst]
  have e3 : (s.poll t op).taken = s.taken ++ takenFrames ev := by
    show s.taken ++ takenFrames (s.conn.step op).2.2 = _; rw [hst]
  obtain ⟨k1, k2⟩ := poll_waits hs hm
  refine ⟨k1, k2, e2 ▸ closed, e2 ▸ sane, e2 ▸ ids, e2 ▸ mine, by rw [e2, e3]; exact theirs, by rw [e2, e3]; exact hand,
    by rw [e2]; exact live, ?_, by rw [e2]; exact pend, ?_⟩
  rotate_left
  · intro p hp
    have hw : (s.poll t op).waits = if (s.conn.step op).1 = .pending then (t, (s.poll t op).conn.again op) :: s.others t else s.others t := rfl
    rw [hw] at hp
    have old : p ∈ s.others t → ∀ h, p.2 ≠ .dropReader h := fun hp => hs.sound p (others_sub hp).1
    split at hp
    · rcases List.mem_cons.mp hp with rfl | hp
      · intro h he
        have := mayPoll_sound hs hm
        cases op <;> first | exact this _ rfl | cases he
      · exact old hp
    · exact old hp
  rw [e2]
  have old : ∀ p ∈ s.others t, ∀ h r, p.2 = .read h r → h ∉ s.gone ∧ h < c'.handles.length := by
    intro p hp h r he
    have := hs.valid p (others_sub hp).1 h r he
    exact ⟨this.1, this.2.trans_le longer⟩
  intro p hp
  have hw : (s.poll t op).waits = if (s.conn.step op).1 = .pending then (t, (s.poll t op).conn.again op) :: s.others t else s.others t := rfl
  rw [hw] at hp
  split at hp
  · rcases List.mem_cons.mp hp with rfl | hp
    · intro h r he
      have : op = .read h r := by
        cases op <;> first | exact he | cases he
      subst this
      have := mayPoll_read hs hm
      exact ⟨this.1, this.2.trans_le longer⟩
    · exact old p hp
  · exact old p hp

theorem inSlot_append {c c' : Conn} {op : Op} {k : Slot} {l : List Handle} (h : c'.handles = c.handles ++ l)
    (hv : ∀ h r, op = .read h r → h < c.handles.length) (hin : InSlot c' op k) : InSlot c op k := by
  cases op <;> cases k <;> try exact hin
  rename_i j r id
  obtain ⟨x, hx, he⟩ := hin
  rw [h, List.getElem?_append_left (hv _ _ rfl)] at hx
  exact ⟨x, hx, he⟩

theorem inSlot_same {c c' : Conn} {op : Op} {k : Slot} (h : c'.handles = c.handles) (hin : InSlot c' op k) : InSlot c op k := by
  cases op <;> cases k <;> try exact hin
  obtain ⟨x, hx, he⟩ := hin
  rw [h] at hx
  exact ⟨x, hx, he⟩

/-- A failed poll with nobody else waiting for something to arrive. -/
def Harmless (s : Sys) (t : Task) (op : Op) : Prop :=
  (s.conn.step op).1 ≠ .panicked ∧
    ∀ k, (s.conn.step op).1 = .failed k → Incoming op → ∀ p ∈ s.others t, ¬ Incoming p.2

theorem accept_taken {s : Sys} {t : Task} (hs : SInv s) : (s.poll t .accept).taken = s.taken ++ s.conn.shared.pollFill.2.2 := by
  have est : s.conn.step .accept = s.conn.accept := by simp [Conn.step, hs.sane]
  show s.taken ++ takenFrames (s.conn.step .accept).2.2 = _
  rw [est]
  unfold Conn.accept Shared.pollAcceptId
  rcases s.conn.shared.pollFill with ⟨r, m1, taken⟩
  rcases r with _ | (e | u)
  · simp only [takenFrames_map]
  · simp only [takenFrames_map]
  · rcases hi : m1.incoming with _ | f
    · simp only [hi, takenFrames_map]
    · by_cases ho : f.op = .new
      · simp only [hi, ho, if_true, takenFrames_append, takenFrames_map]; simp [takenFrames]
      · simp only [hi, ho, if_false, takenFrames_map]

theorem accept_step {s : Sys} {t : Task} (hs : SInv s) (hk : KInv s) (hth : Theirs s) (hm : s.mayPoll t .accept = true)
    (hg : Harmless s t .accept) (hn : (opened (s.poll t .accept).taken).Nodup) :
    SInv (s.poll t .accept) ∧ KInv (s.poll t .accept) := by
  have est : s.conn.step .accept = s.conn.accept := by simp [Conn.step, hs.sane]
  have ewk : s.conn.wakers .accept t s.wakers = s.conn.shared.acceptWakers t s.wakers := by simp [Conn.wakers, hs.sane]
  have etk := accept_taken (t := t) hs
  rw [etk] at hn
  have hc := core hs hk hth t hn
  have hf := (pollFill_step s.conn.shared hs.closed).1
  have hw := pollFill_wake t s.conn.shared s.wakers hs.closed hk.dry
  have hoth : ∀ p ∈ s.others t, ∀ k, InSlot s.conn p.2 k → k ≠ .acceptor := by
    rintro p hp k hin rfl
    have : p.2 = .accept := by
      rcases p with ⟨u, o⟩
      cases o <;> first | rfl | exact hin.elim
    exact mayPoll_others hs hm p hp (by rw [this])
  have hset : ∀ (w : Wakers), (∀ p ∈ s.waits, ∀ k, InSlot s.conn p.2 k → p.1 ∈ s.awake ∨ p.1 ∈ w.woken ∨ Reg w k p.1) →
      ∀ p ∈ s.others t, ∀ k, InSlot s.conn p.2 k → p.1 ∈ s.awake ∨ p.1 ∈ (w.setAccept t).woken ∨ Reg (w.setAccept t) k p.1 := by
    intro w h p hp k hin
    rcases h p (others_sub hp).1 k hin with h | h | h
    · exact .inl h
    · exact .inr (.inl h)
    · refine .inr (.inr ?_)
      cases k with
      | acceptor => exact (hoth p hp _ hin rfl).elim
      | reader id => exact h
  have hany : ∀ p : Task × Op, Incoming p.2 → (∃ k, InSlot s.conn p.2 k) ∨ ∃ h r, p.2 = .read h r ∧ s.conn.handles[h]? = none := by
    rintro ⟨u, o⟩ hin
    cases o with
    | accept => exact .inl ⟨.acceptor, trivial⟩
    | read h r =>
      cases hx : s.conn.handles[h]? with
      | none => exact .inr ⟨h, r, rfl, hx⟩
      | some x => exact .inl ⟨.reader x.id, x, hx, rfl⟩
    | _ => exact hin.elim
  have hslots : ∀ p ∈ s.waits, Incoming p.2 → ∃ k, InSlot s.conn p.2 k := by
    intro p hp hin
    rcases hany p hin with h | ⟨h, r, he, hx⟩
    · exact h
    · have := (hs.valid p hp h r he).2
      rw [List.getElem?_eq_none_iff] at hx
      omega
  obtain ⟨hg1, hg2⟩ := hg
  rw [est] at hg1 hg2
  unfold Conn.accept Shared.pollAcceptId at hg1 hg2 est
  unfold Shared.acceptWakers at ewk
  rcases hP : s.conn.shared.pollFill with ⟨r, m1, taken⟩
  rw [hP] at hc hf hw hg1 hg2 est ewk
  simp only at hc hf hw
  set w1 := s.conn.shared.fillWakers t s.wakers
  have hpend : ∀ id ∈ s.conn.connecting, id ∈ m1.readers := by
    intro id h; rw [hc.readers]; exact hs.pend id h
  rcases r with _ | (e | u)
  · -- nothing there yet
    simp only at est ewk hg1 hg2
    have hin : m1.incoming = none := hf.idle nofun
    constructor
    · refine sinv_poll est hm hs hc.closed hs.sane hs.ids ?_ ?_ ?_ ?_ hpend le_rfl
      · intro n h; exact (hs.mine n h).trans_eq hc.next.symm
      · intro n h; rw [opened_append]; exact List.mem_append_left _ (hs.theirs n h)
      · intro f h; rw [show m1.incoming = some f from h] at hin; cases hin
      · intro h x hg hx; rw [hc.readers]; exact hs.live h x hg hx
    · refine kinv_poll' est ewk hm hk (fun p _ k h => h) (hset w1 hc.reg) ?_ ?_ ?_ ?_ ?_
      · intro _ k hi
        cases k with
        | acceptor => rfl
        | reader id => exact hi.elim
      · intro f h; rw [show m1.incoming = some f from h] at hin; cases hin
      · intro _ f h; rw [show m1.incoming = some f from h] at hin; cases hin
      · intro _; exact ⟨fun _ => ⟨trivial, (hw.pend rfl).1⟩, fun h => (h rfl).elim⟩
      · exact hc.dry
  · -- a failure
    simp only at est ewk hg1 hg2
    have hin : m1.incoming = none := hf.idle nofun
    have he : ∃ k, e = .io k := by
      cases e with
      | io k => exact ⟨k, rfl⟩
      | panic => exact (hg1 rfl).elim
      | fuel => exact (hg1 rfl).elim
    obtain ⟨k, rfl⟩ := he
    have hno : ∀ p ∈ s.others t, ¬ Incoming p.2 := hg2 k rfl trivial
    constructor
    · refine sinv_poll est hm hs hc.closed rfl hs.ids ?_ ?_ ?_ ?_ hpend le_rfl
      · intro n h; exact (hs.mine n h).trans_eq hc.next.symm
      · intro n h; rw [opened_append]; exact List.mem_append_left _ (hs.theirs n h)
      · intro f h; rw [show m1.incoming = some f from h] at hin; cases hin
      · intro h x hg hx; rw [hc.readers]; exact hs.live h x hg hx
    · refine kinv_poll' est ewk hm hk (fun p _ k h => h) (fun p hp k hin => (hno p hp (inSlot_incoming hin)).elim) nofun
        (fun f _ p hp hin => (hno p hp (inSlot_incoming hin)).elim) nofun ?_ hc.dry
      intro _; exact ⟨nofun, fun _ p hp hin => (hno p hp hin).elim⟩
  · rcases hi : m1.incoming with _ | f
    · -- the end
      simp only [hi] at est ewk hg1 hg2
      have hall : ∀ p ∈ s.others t, Incoming p.2 → p.1 ∈ s.awake ∨ p.1 ∈ w1.woken := by
        intro p hp hin
        obtain ⟨k, hk'⟩ := hslots p (others_sub hp).1 hin
        rcases hk.reg p (others_sub hp).1 k hk' with h | h
        · exact .inl h
        · exact .inr (hw.all rfl hi h)
      constructor
      · refine sinv_poll est hm hs hc.closed hs.sane hs.ids ?_ ?_ ?_ ?_ hpend le_rfl
        · intro n h; exact (hs.mine n h).trans_eq hc.next.symm
        · intro n h; rw [opened_append]; exact List.mem_append_left _ (hs.theirs n h)
        · intro f h; rw [show m1.incoming = some f from h] at hi; cases hi
        · intro h x hg hx; rw [hc.readers]; exact hs.live h x hg hx
      · refine kinv_poll' est ewk hm hk (fun p _ k h => h) ?_ nofun ?_ nofun ?_ hc.dry
        · intro p hp k hin; exact (hall p hp (inSlot_incoming hin)).imp_right .inl
        · intro f h; rw [show m1.incoming = some f from h] at hi; cases hi
        · intro _; exact ⟨nofun, fun _ => hall⟩
    · by_cases ho : f.op = .new
      · -- a new stream
        simp only [hi, ho, if_true] at est ewk hg1 hg2
        obtain ⟨h1, h2, n, h3⟩ := hc.hand f hi ho
        have hall : ∀ p ∈ s.others t, Incoming p.2 → p.1 ∈ s.awake ∨ p.1 ∈ ((w1.add f.streamId).wakeAll).woken := by
          intro p hp hin
          obtain ⟨k, hk'⟩ := hslots p (others_sub hp).1 hin
          rcases hc.reg p (others_sub hp).1 k hk' with h | h | h
          · exact .inl h
          · exact .inr (wakeAll_old h)
          · refine .inr (wakeAll_reg (add_reg h ?_))
            rintro id rfl rfl
            rcases p with ⟨u, o⟩
            cases o <;> try exact hk'.elim
            obtain ⟨x, hx, he⟩ := hk'
            exact h2 (List.mem_append_left _ (List.mem_map.mpr ⟨x, List.mem_of_getElem? hx, he⟩))
        have eids : ∀ id, id ∈ ((s.conn.handles ++ [(⟨f.streamId, none⟩ : Handle)]).map Handle.id ++ s.conn.connecting) ↔
            id ∈ s.conn.ids ∨ id = f.streamId := by
          intro id
          simp only [Conn.ids, List.map_append, List.mem_append, List.map_cons, List.map_nil, List.mem_singleton]
          tauto
        constructor
        · refine sinv_poll est hm hs hc.closed hs.sane ?_ ?_ ?_ ?_ ?_ ?_ (by simp)
          · show ((s.conn.handles ++ [(⟨f.streamId, none⟩ : Handle)]).map Handle.id ++ s.conn.connecting).Nodup
            have hperm : ((s.conn.handles ++ [(⟨f.streamId, none⟩ : Handle)]).map Handle.id ++ s.conn.connecting).Perm (f.streamId :: s.conn.ids) := by
              simp only [List.map_append, List.map_cons, List.map_nil, Conn.ids, List.append_assoc]
              exact List.perm_middle
            rw [hperm.nodup_iff]
            exact List.nodup_cons.mpr ⟨h2, hs.ids⟩
          · intro k h
            rcases (eids _).mp h with h | h
            · exact (hs.mine k h).trans_eq hc.next.symm
            · rw [h3] at h; cases h
          · intro k h
            rw [takenFrames_append, takenFrames_map, ← List.append_assoc, opened_append]
            apply List.mem_append_left
            rcases (eids _).mp h with h | h
            · rw [opened_append]; exact List.mem_append_left _ (hs.theirs k h)
            · rw [h]; exact h1
          · intro g h; cases h
          · intro h x hg hx
            show x.id ∈ f.streamId :: m1.readers.filter (· ≠ f.streamId)
            rw [List.getElem?_append] at hx
            split at hx
            · have := hs.live h x hg hx
              rw [← hc.readers] at this
              by_cases he : x.id = f.streamId
              · rw [he]; exact List.mem_cons_self
              · exact List.mem_cons_of_mem _ (List.mem_filter.mpr ⟨this, by simpa using he⟩)
            · have := List.mem_of_getElem? hx
              rw [List.mem_singleton] at this
              rw [this]; exact List.mem_cons_self
          · intro id hid
            show id ∈ f.streamId :: m1.readers.filter (· ≠ f.streamId)
            have := hpend id hid
            by_cases he : id = f.streamId
            · rw [he]; exact List.mem_cons_self
            · exact List.mem_cons_of_mem _ (List.mem_filter.mpr ⟨this, by simpa using he⟩)
        · refine kinv_poll' est ewk hm hk ?_ ?_ nofun nofun nofun ?_ ?_
          · intro p hp k hin
            refine inSlot_append rfl ?_ hin
            intro h r he
            exact (hs.valid p (others_sub hp).1 h r he).2
          · intro p hp k hin; exact (hall p hp (inSlot_incoming hin)).imp_right .inl
          · intro _; exact ⟨nofun, fun _ => hall⟩
          · exact hc.dry
      · -- a frame for somebody else
        simp only [hi, ho, if_false] at est ewk hg1 hg2
        constructor
        · refine sinv_poll est hm hs hc.closed hs.sane hs.ids ?_ ?_ ?_ ?_ hpend le_rfl
          · intro n h; exact (hs.mine n h).trans_eq hc.next.symm
          · intro n h; rw [opened_append]; exact List.mem_append_left _ (hs.theirs n h)
          · intro g h hgo
            rw [takenFrames_map]
            obtain ⟨h1, h2, -⟩ := hc.hand g h hgo
            exact ⟨h1, h2⟩
          · intro h x hg hx; rw [hc.readers]; exact hs.live h x hg hx
        · refine kinv_poll' est ewk hm hk (fun p _ k h => h) (hset w1 hc.reg) ?_ ?_ ?_ ?_ ?_
          · intro _ k hi
            cases k with
            | acceptor => rfl
            | reader id => exact hi.elim
          · intro g h p hp hin
            exact hc.want g h p (others_sub hp).1 hin
          · intro _ g h hin
            rw [hi] at h
            cases h
            unfold Frame.slot at hin
            rw [if_neg ho] at hin
            exact hin
          · intro hfw
            have := hc.wanted (by rw [hi]; nofun)
            rw [show m1.frameWanted = false from hfw] at this
            cases this
          · exact hc.dry

theorem slot_of {s : Sys} (hs : SInv s) : ∀ p ∈ s.waits, Incoming p.2 → ∃ k, InSlot s.conn p.2 k := by
  rintro ⟨u, o⟩ hp hin
  cases o with
  | accept => exact ⟨.acceptor, trivial⟩
  | read h r =>
    cases hx : s.conn.handles[h]? with
    | none =>
      have := (hs.valid _ hp h r rfl).2
      rw [List.getElem?_eq_none_iff] at hx
      omega
    | some x => exact ⟨.reader x.id, x, hx, rfl⟩
  | _ => exact hin.elim

theorem handle_inj {s : Sys} (hs : SInv s) {i j : Nat} {x y : Handle} (hx : s.conn.handles[i]? = some x)
    (hy : s.conn.handles[j]? = some y) (he : x.id = y.id) : i = j := by
  have hn : (s.conn.handles.map (·.id)).Nodup := (List.nodup_append.mp hs.ids).1
  have hi : (s.conn.handles.map (·.id))[i]? = some x.id := by rw [List.getElem?_map, hx]; rfl
  have hj : (s.conn.handles.map (·.id))[j]? = some x.id := by rw [List.getElem?_map, hy, he]; rfl
  obtain ⟨hli, hi⟩ := List.getElem?_eq_some_iff.mp hi
  obtain ⟨hlj, hj⟩ := List.getElem?_eq_some_iff.mp hj
  exact (List.Nodup.getElem_inj_iff hn).mp (hi.trans hj.symm)

theorem read_taken {s : Sys} {t : Task} {h room : Nat} {x : Handle} (hs : SInv s) (hx : s.conn.handles[h]? = some x) :
    (s.poll t (.read h room)).taken = s.taken ++ s.conn.shared.pollFill.2.2 := by
  have est : s.conn.step (.read h room) = s.conn.read x.id room := by simp [Conn.step, hs.sane, hx]
  show s.taken ++ takenFrames (s.conn.step (.read h room)).2.2 = _
  rw [est]
  unfold Conn.read Shared.pollRead
  rcases s.conn.shared.pollFill with ⟨r, m1, taken⟩
  rcases r with _ | (e | u)
  · simp only [takenFrames_map]
  · simp only [takenFrames_map]
  · rcases hi : m1.incoming with _ | f
    · simp only [hi, takenFrames_append, takenFrames_map]; simp [takenFrames]
    · by_cases he : f.streamId = x.id
      · by_cases ho : f.op = .close
        · simp only [hi, he, ho, if_true, takenFrames_append, takenFrames_map]; simp [takenFrames]
        · by_cases hr : (f.data.drop (min f.data.length room)).isEmpty
          · simp only [hi, he, ho, hr, if_true, if_false, takenFrames_append, takenFrames_map]; simp [takenFrames]
          · simp only [hi, he, ho, hr, if_true, if_false]; simp [takenFrames_append, takenFrames_map, takenFrames_got]
      · simp only [hi, he, if_false, takenFrames_map]

theorem read_step {s : Sys} {t : Task} {h room : Nat} (hs : SInv s) (hk : KInv s) (hth : Theirs s)
    (hm : s.mayPoll t (.read h room) = true)
    (hg : Harmless s t (.read h room)) (hn : (opened (s.poll t (.read h room)).taken).Nodup) :
    SInv (s.poll t (.read h room)) ∧ KInv (s.poll t (.read h room)) := by
  obtain ⟨hgone, hlt⟩ := mayPoll_read hs hm
  obtain ⟨x, hx⟩ : ∃ x, s.conn.handles[h]? = some x := ⟨_, List.getElem?_eq_getElem hlt⟩
  have est : s.conn.step (.read h room) = s.conn.read x.id room := by simp [Conn.step, hs.sane, hx]
  have ewk : s.conn.wakers (.read h room) t s.wakers = s.conn.shared.readWakers x.id room t s.wakers := by
    simp [Conn.wakers, hs.sane, hx]
  have etk := read_taken (t := t) (room := room) hs hx
  rw [etk] at hn
  have hc := core hs hk hth t hn
  have hf := (pollFill_step s.conn.shared hs.closed).1
  have hw := pollFill_wake t s.conn.shared s.wakers hs.closed hk.dry
  have hoth : ∀ p ∈ s.others t, ∀ k, InSlot s.conn p.2 k → k ≠ .reader x.id := by
    rintro p hp k hin rfl
    rcases p with ⟨u, o⟩
    cases o <;> try exact hin.elim
    obtain ⟨y, hy, he⟩ := hin
    have := handle_inj hs hy hx he
    subst this
    exact mayPoll_others hs hm _ hp rfl
  have hrd : ∀ m : Shared, m.readers = s.conn.shared.readers → m.haveReader x.id = true := by
    intro m h'
    unfold Shared.haveReader
    rw [h']
    simpa using hs.live h x hgone hx
  have hset : ∀ (w : Wakers) (m : Shared), (∀ p ∈ s.waits, ∀ k, InSlot s.conn p.2 k → p.1 ∈ s.awake ∨ p.1 ∈ w.woken ∨ Reg w k p.1) →
      ∀ p ∈ s.others t, ∀ k, InSlot s.conn p.2 k →
        p.1 ∈ s.awake ∨ p.1 ∈ (w.setRead m x.id t).woken ∨ Reg (w.setRead m x.id t) k p.1 := by
    intro w m h p hp k hin
    unfold Wakers.setRead
    split
    · rcases h p (others_sub hp).1 k hin with h | h | h
      · exact .inl h
      · exact .inr (.inl h)
      · refine .inr (.inr ?_)
        cases k with
        | acceptor => exact h
        | reader id =>
          refine List.mem_cons_of_mem _ (List.mem_filter.mpr ⟨h, ?_⟩)
          have := hoth p hp _ hin
          simp only [ne_eq, Slot.reader.injEq] at this
          simpa using this
    · exact h p (others_sub hp).1 k hin
  have hsetT : ∀ (w : Wakers) (m : Shared), (w.setRead m x.id t).transport = w.transport := by
    intro w m; unfold Wakers.setRead; split <;> rfl
  have hsetW : ∀ (w : Wakers) (m : Shared), (w.setRead m x.id t).woken = w.woken := by
    intro w m; unfold Wakers.setRead; split <;> rfl
  have hselfreg : ∀ (w : Wakers) (m : Shared) (c : Conn), m.readers = s.conn.shared.readers → c.handles = s.conn.handles →
      ∀ k, InSlot c (.read h room) k → Reg (w.setRead m x.id t) k t := by
    intro w m c hr hh k hin
    cases k with
    | acceptor => exact hin.elim
    | reader id =>
      obtain ⟨y, hy, rfl⟩ := hin
      rw [hh, hx] at hy
      cases hy
      unfold Wakers.setRead
      rw [if_pos (hrd m hr)]
      exact List.mem_cons_self
  have hslots := slot_of hs
  obtain ⟨hg1, hg2⟩ := hg
  rw [est] at hg1 hg2
  unfold Conn.read Shared.pollRead at hg1 hg2 est
  unfold Shared.readWakers at ewk
  rcases hP : s.conn.shared.pollFill with ⟨r, m1, taken⟩
  rw [hP] at hc hf hw hg1 hg2 est ewk
  simp only at hc hf hw
  set w1 := s.conn.shared.fillWakers t s.wakers
  have hlive : ∀ (j : Nat) y, j ∉ s.gone → s.conn.handles[j]? = some y → y.id ∈ m1.readers := by
    intro j y hg hy; rw [hc.readers]; exact hs.live j y hg hy
  have hpend : ∀ id ∈ s.conn.connecting, id ∈ m1.readers := by
    intro id h; rw [hc.readers]; exact hs.pend id h
  have hmine : ∀ n, StreamId.receiver n ∈ s.conn.ids → n < m1.nextStreamNum :=
    fun n h => (hs.mine n h).trans_eq hc.next.symm
  have htheirs : ∀ fs n, StreamId.initiator n ∈ s.conn.ids → StreamId.initiator n ∈ opened (s.taken ++ fs) := by
    intro fs n h; rw [opened_append]; exact List.mem_append_left _ (hs.theirs n h)
  rcases r with _ | (e | u)
  · -- nothing there yet
    simp only at est ewk hg1 hg2
    have hin : m1.incoming = none := hf.idle nofun
    constructor
    · refine sinv_poll est hm hs hc.closed hs.sane hs.ids hmine (htheirs _) ?_ hlive hpend le_rfl
      intro f h; rw [show m1.incoming = some f from h] at hin; cases hin
    · refine kinv_poll' est ewk hm hk (fun p _ k h => h) (hset w1 m1 hc.reg) ?_ ?_ ?_ ?_ ?_
      · intro _ k hi
        exact hselfreg w1 m1 _ hc.readers rfl k hi
      · intro f h; rw [show m1.incoming = some f from h] at hin; cases hin
      · intro _ f h; rw [show m1.incoming = some f from h] at hin; cases hin
      · intro _; rw [hsetT]; exact ⟨fun _ => ⟨trivial, (hw.pend rfl).1⟩, fun h => (h rfl).elim⟩
      · rw [hsetT]; exact hc.dry
  · -- a failure
    simp only at est ewk hg1 hg2
    have hin : m1.incoming = none := hf.idle nofun
    have he : ∃ k, e = .io k := by
      cases e with
      | io k => exact ⟨k, rfl⟩
      | panic => exact (hg1 rfl).elim
      | fuel => exact (hg1 rfl).elim
    obtain ⟨k, rfl⟩ := he
    have hno : ∀ p ∈ s.others t, ¬ Incoming p.2 := hg2 k rfl trivial
    constructor
    · refine sinv_poll est hm hs hc.closed rfl hs.ids hmine (htheirs _) ?_ hlive hpend le_rfl
      intro f h; rw [show m1.incoming = some f from h] at hin; cases hin
    · refine kinv_poll' est ewk hm hk (fun p _ k h => h) (fun p hp k hin => (hno p hp (inSlot_incoming hin)).elim) nofun
        (fun f _ p hp hin => (hno p hp (inSlot_incoming hin)).elim) nofun ?_ hc.dry
      intro _; exact ⟨nofun, fun _ p hp hin => (hno p hp hin).elim⟩
  · rcases hi : m1.incoming with _ | f
    · -- the end
      simp only [hi] at est ewk hg1 hg2
      have hall : ∀ p ∈ s.others t, Incoming p.2 → p.1 ∈ s.awake ∨ p.1 ∈ w1.woken := by
        intro p hp hin
        obtain ⟨k, hk'⟩ := hslots p (others_sub hp).1 hin
        rcases hk.reg p (others_sub hp).1 k hk' with h | h
        · exact .inl h
        · exact .inr (hw.all rfl hi h)
      constructor
      · refine sinv_poll est hm hs hc.closed hs.sane hs.ids hmine (htheirs _) ?_ hlive hpend le_rfl
        intro f h; rw [show m1.incoming = some f from h] at hi; cases hi
      · refine kinv_poll' est ewk hm hk (fun p _ k h => h) ?_ nofun ?_ nofun ?_ hc.dry
        · intro p hp k hin; exact (hall p hp (inSlot_incoming hin)).imp_right .inl
        · intro f h; rw [show m1.incoming = some f from h] at hi; cases hi
        · intro _; exact ⟨nofun, fun _ => hall⟩
    · have hallw : ∀ p ∈ s.others t, Incoming p.2 → p.1 ∈ s.awake ∨ p.1 ∈ w1.wakeAll.woken := by
        intro p hp hin
        obtain ⟨k, hk'⟩ := hslots p (others_sub hp).1 hin
        rcases hc.reg p (others_sub hp).1 k hk' with h | h | h
        · exact .inl h
        · exact .inr (wakeAll_old h)
        · exact .inr (wakeAll_reg h)
      by_cases he : f.streamId = x.id
      · have hxid : x.id ∈ s.conn.ids := List.mem_append_left _ (List.mem_map.mpr ⟨x, List.mem_of_getElem? hx, rfl⟩)
        have hnew : f.op ≠ .new := by
          intro ho
          exact (hc.hand f hi ho).2.1 (he ▸ hxid)
        by_cases ho : f.op = .close
        · -- its end
          simp only [hi, he, ho, if_true] at est ewk hg1 hg2
          constructor
          · exact sinv_poll est hm hs hc.closed hs.sane hs.ids hmine (htheirs _) nofun hlive hpend le_rfl
          · refine kinv_poll' est ewk hm hk (fun p _ k h => h) ?_ nofun nofun nofun ?_ hc.dry
            · intro p hp k hin; exact (hallw p hp (inSlot_incoming hin)).imp_right .inl
            · intro _; exact ⟨nofun, fun _ => hallw⟩
        · by_cases hr : (f.data.drop (min f.data.length room)).isEmpty
          · -- all of it
            simp only [hi, he, ho, hr, if_true, if_false] at est ewk hg1 hg2
            constructor
            · exact sinv_poll est hm hs hc.closed hs.sane hs.ids hmine (htheirs _) nofun hlive hpend le_rfl
            · refine kinv_poll' est ewk hm hk (fun p _ k h => h) ?_ nofun nofun nofun ?_ hc.dry
              · intro p hp k hin; exact (hallw p hp (inSlot_incoming hin)).imp_right .inl
              · intro _; exact ⟨nofun, fun _ => hallw⟩
          · -- part of it
            simp only [hi, he, ho, hr, if_true, if_false] at est ewk hg1 hg2
            have hfw : ∀ m : Shared, m.readers = m1.readers → ∀ g, m.incoming = some g → g.op = f.op → g.streamId = f.streamId →
                m.frameWanted = true := by
              intro m hmr g hmi hgo hgs
              unfold Shared.frameWanted
              rw [hmi]
              simp only [hgo, hgs, hnew, if_false, he]
              exact hrd m (hmr.trans hc.readers)
            constructor
            · refine sinv_poll est hm hs hc.closed hs.sane hs.ids hmine (htheirs _) ?_ hlive hpend le_rfl
              intro g hg hgo
              cases hg
              exact (hnew hgo).elim
            · refine kinv_poll' est ewk hm hk (fun p _ k h => h) ?_ nofun ?_ nofun ?_ hc.dry
              · intro p hp k hin; exact hc.reg p (others_sub hp).1 k hin
              · intro g hg p hp hin
                cases hg
                refine (hoth p hp _ hin ?_).elim
                unfold Frame.slot
                rw [if_neg hnew]
              · intro hno
                refine absurd (hno.symm.trans (hfw _ rfl _ rfl rfl he.symm)) (by decide)
      · -- a frame for somebody else
        simp only [hi, he, if_false] at est ewk hg1 hg2
        constructor
        · refine sinv_poll est hm hs hc.closed hs.sane hs.ids hmine (htheirs _) ?_ hlive hpend le_rfl
          intro g h hgo
          rw [takenFrames_map]
          obtain ⟨h1, h2, -⟩ := hc.hand g h hgo
          exact ⟨h1, h2⟩
        · refine kinv_poll' est ewk hm hk (fun p _ k h => h) (hset w1 m1 hc.reg) ?_ ?_ ?_ ?_ ?_
          · intro _ k hi
            exact hselfreg w1 m1 _ hc.readers rfl k hi
          · intro g h p hp hin
            rw [hsetW]
            exact hc.want g h p (others_sub hp).1 hin
          · intro _ g h hin
            rw [hi] at h
            cases h
            unfold Frame.slot at hin
            split at hin
            · exact hin
            · obtain ⟨y, hy, hye⟩ := hin
              rw [hx] at hy
              cases hy
              exact he hye.symm
          · intro hfw
            have := hc.wanted (by rw [hi]; nofun)
            rw [show m1.frameWanted = false from hfw] at this
            cases this
          · rw [hsetT]; exact hc.dry

/-! ### Operations that send -/

theorem mayPoll_self {s : Sys} {t : Task} {op : Op} (hs : SInv s) (hm : s.mayPoll t op = true) :
    ∀ p ∈ s.waits, p.1 = t → p.2 = op := by
  intro p hp he
  unfold Sys.mayPoll at hm
  split at hm
  · rename_i u op' hf
    have hmem := List.mem_of_find?_eq_some hf
    have hu : u = t := by simpa using List.find?_some hf
    have : op = op' := by simpa using hm
    subst this hu
    have := nodup_map_inj hs.key hp hmem he
    rw [this]
  · rename_i hf
    have := List.find?_eq_none.mp hf p hp
    simp [he] at this

theorem again_incoming (c : Conn) (op : Op) : Incoming (c.again op) ↔ Incoming op := by
  cases op <;> exact Iff.rfl

/-- The invariant about wakers after a poll that does not wait for something to arrive. -/
theorem kinv_out {s : Sys} {t : Task} {op : Op} {a : Answer} {c' : Conn} {ev : List Event} {w : Wakers}
    (hst : s.conn.step op = (a, c', ev)) (hwk : s.conn.wakers op t s.wakers = w)
    (hm : s.mayPoll t op = true) (hs : SInv s) (hk : KInv s) (hop : ¬ Incoming op)
    (hslot : ∀ p ∈ s.others t, ∀ k, InSlot c' p.2 k → InSlot s.conn p.2 k)
    (hreg : ∀ p ∈ s.others t, ∀ k, InSlot s.conn p.2 k → Reg s.wakers k p.1 → Reg w k p.1)
    (hwoken : w.woken = []) (htr : w.transport = s.wakers.transport)
    (hi : c'.shared.incoming = s.conn.shared.incoming)
    (hfw : c'.shared.frameWanted = false → s.conn.shared.frameWanted = false)
    (hfr : c'.shared.frames.incoming = s.conn.shared.frames.incoming ∧ c'.shared.frames.readEof = s.conn.shared.frames.readEof) :
    KInv (s.poll t op) := by
  have e2 : (s.poll t op).conn = c' := by show (s.conn.step op).2.1 = c'; rw [hst]
  have ew : (s.poll t op).wakers = { w with woken := [] } := by rw [← hwk]; rfl
  have ea : (s.poll t op).awake = s.awake.filter (· ≠ t) := by
    show s.awake.filter (· ≠ t) ++ (s.conn.wakers op t s.wakers).woken = _
    rw [hwk, hwoken, List.append_nil]
  have hregEq : ∀ k b, Reg (s.poll t op).wakers k b ↔ Reg w k b := by
    intro k b; rw [ew]; cases k <;> exact Iff.rfl
  have hmem : ∀ p ∈ (s.poll t op).waits, Incoming p.2 → p ∈ s.others t := by
    intro p hp hin
    have hw : (s.poll t op).waits = if (s.conn.step op).1 = .pending then (t, (s.poll t op).conn.again op) :: s.others t else s.others t := rfl
    rw [hw] at hp
    split at hp
    · rcases List.mem_cons.mp hp with rfl | hp
      · exact (hop ((again_incoming _ _).mp hin)).elim
      · exact hp
    · exact hp
  have hmem' : ∀ p ∈ s.others t, p ∈ (s.poll t op).waits := by
    intro p hp
    show p ∈ if _ then _ else _
    split
    · exact List.mem_cons_of_mem _ hp
    · exact hp
  have haw : ∀ p ∈ s.others t, p.1 ∈ s.awake → p.1 ∈ (s.poll t op).awake := by
    intro p hp h
    rw [ea, List.mem_filter]
    exact ⟨h, by simpa using (others_sub hp).2⟩
  refine ⟨rfl, ?_, ?_, ?_, ?_⟩
  · intro p hp k hin
    have hp' := hmem p hp (inSlot_incoming hin)
    rw [e2] at hin
    have hin' := hslot p hp' k hin
    rw [hregEq]
    rcases hk.reg p (others_sub hp').1 k hin' with h | h
    · exact .inl (haw p hp' h)
    · exact .inr (hreg p hp' k hin' h)
  · intro f hf p hp hin
    have hp' := hmem p hp (inSlot_incoming hin)
    rw [e2] at hin hf
    rw [hi] at hf
    exact haw p hp' (hk.want f hf p (others_sub hp').1 (hslot p hp' _ hin))
  · intro hno p hp hin
    rw [e2] at hno
    obtain ⟨q, hq, hqi, hqa⟩ := hk.drive (hfw hno) p (others_sub (hmem p hp hin)).1 hin
    have hq' : q ∈ s.others t := by
      refine List.mem_filter.mpr ⟨hq, ?_⟩
      have : q.1 ≠ t := by
        intro he
        rw [mayPoll_self hs hm q hq he] at hqi
        exact hop hqi
      simpa using this
    refine ⟨q, hmem' q hq', hqi, ?_⟩
    rcases hqa with h | h
    · exact .inl (haw q hq' h)
    · right; rw [ew]; exact htr.trans h
  · intro h
    rw [ew] at h
    have := hk.dry (htr ▸ h)
    unfold FrameStream.Dry at this ⊢
    rw [e2, hfr.1, hfr.2]
    exact this

/-- A change of the connection that does not touch what arrives. -/
structure Aside (c c' : Conn) : Prop where
  inc : c'.shared.incoming = c.shared.incoming
  fin : c'.shared.frames.incoming = c.shared.frames.incoming
  eof : c'.shared.frames.readEof = c.shared.frames.readEof
  readers : c'.shared.readers = c.shared.readers
  closed : c'.shared.closed = c.shared.closed
  sane : c'.poisoned = c.poisoned
  next : c'.shared.nextStreamNum = c.shared.nextStreamNum
  ids : ∃ l, c.ids.Perm (c'.ids ++ l)
  handles : ∃ l, c'.handles.map (·.id) = c.handles.map (·.id) ++ l
  connecting : ∀ id ∈ c'.connecting, id ∈ c.connecting

theorem Aside.refl (c : Conn) : Aside c c :=
  ⟨rfl, rfl, rfl, rfl, rfl, rfl, rfl, ⟨[], by simp⟩, ⟨[], by simp⟩, fun _ h => h⟩

theorem drain_frames (s : FrameStream) : s.pollDrain.2.incoming = s.incoming ∧ s.pollDrain.2.readEof = s.readEof := by
  obtain ⟨ws, fl, sent, out, he, -, -⟩ := pollDrain_step s
  rw [he]; exact ⟨rfl, rfl⟩

theorem append_frames (s : FrameStream) (id : StreamId) (d : Bytes) :
    ((s.appendMessage id d).incoming = s.incoming ∧ (s.appendMessage id d).readEof = s.readEof) ∧
    ((s.appendClose id).incoming = s.incoming ∧ (s.appendClose id).readEof = s.readEof) := by
  cases id <;> exact ⟨⟨rfl, rfl⟩, ⟨rfl, rfl⟩⟩

theorem appendNew_frames (s : FrameStream) (n : Nat) (name : Option Bytes) :
    (s.appendNew n name).incoming = s.incoming ∧ (s.appendNew n name).readEof = s.readEof := by
  cases name <;> exact ⟨rfl, rfl⟩

theorem set_ids {l : List Handle} {h : Nat} {x y : Handle} (hx : l[h]? = some x) (hy : y.id = x.id) :
    (l.set h y).map (·.id) = l.map (·.id) := by
  induction l generalizing h with
  | nil => rfl
  | cons a l ih =>
    cases h with
    | zero => cases hx; simp [hy]
    | succ h => simp only [List.set_cons_succ, List.map_cons]; rw [ih hx]

theorem Aside.of_same {c c' : Conn} (inc : c'.shared.incoming = c.shared.incoming)
    (fin : c'.shared.frames.incoming = c.shared.frames.incoming) (eof : c'.shared.frames.readEof = c.shared.frames.readEof)
    (readers : c'.shared.readers = c.shared.readers) (closed : c'.shared.closed = c.shared.closed)
    (sane : c'.poisoned = c.poisoned) (next : c'.shared.nextStreamNum = c.shared.nextStreamNum)
    (handles : c'.handles.map (·.id) = c.handles.map (·.id)) (connecting : c'.connecting = c.connecting) : Aside c c' :=
  ⟨inc, fin, eof, readers, closed, sane, next, ⟨[], by unfold Conn.ids; rw [handles, connecting]; simp⟩,
    ⟨[], by rw [handles]; simp⟩, by rw [connecting]; exact fun _ h => h⟩

theorem drain_aside {c : Conn} {h : Nat} {x : Handle} (hx : c.handles[h]? = some x) : Aside c (c.drain h x).2 := by
  unfold Conn.drain
  cases x.writeError with
  | some k => exact Aside.refl c
  | none =>
    have hd := drain_frames c.shared.frames
    generalize c.shared.frames.pollDrain = P at hd
    obtain ⟨r, fs⟩ := P
    rcases r with _ | (k | u)
    · exact .of_same rfl hd.1 hd.2 rfl rfl rfl rfl rfl rfl
    · exact .of_same rfl hd.1 hd.2 rfl rfl rfl rfl (set_ids hx rfl) rfl
    · exact .of_same rfl hd.1 hd.2 rfl rfl rfl rfl rfl rfl

theorem Aside.send {c c' : Conn} (ha : Aside c c') (fs : FrameStream)
    (hf : fs.incoming = c'.shared.frames.incoming ∧ fs.readEof = c'.shared.frames.readEof) :
    Aside c { c' with shared := { c'.shared with frames := fs } } :=
  ⟨ha.inc, hf.1.trans ha.fin, hf.2.trans ha.eof, ha.readers, ha.closed, ha.sane, ha.next, ha.ids, ha.handles, ha.connecting⟩

theorem drain_handle {c : Conn} {h : Nat} {x : Handle} (hx : c.handles[h]? = some x) :
    ∃ y, (c.drain h x).2.handles[h]? = some y ∧ y.id = x.id := by
  unfold Conn.drain
  cases x.writeError with
  | some k => exact ⟨x, hx, rfl⟩
  | none =>
    generalize c.shared.frames.pollDrain = P
    obtain ⟨r, fs⟩ := P
    rcases r with _ | (k | u)
    · exact ⟨x, hx, rfl⟩
    · refine ⟨{ x with writeError := some k }, ?_, rfl⟩
      have := (List.getElem?_eq_some_iff.mp hx).1
      simp [this]
    · exact ⟨x, hx, rfl⟩

theorem finish_aside {c : Conn} {id : StreamId} {k : Nat} (hid : c.connecting[k]? = some id) :
    Aside c { (c.finishConnect id).2.1 with connecting := if (c.finishConnect id).2.2 then (c.finishConnect id).2.1.connecting.eraseIdx k else (c.finishConnect id).2.1.connecting } := by
  have hd := drain_frames c.shared.frames
  unfold Conn.finishConnect
  generalize c.shared.frames.pollDrain = P at hd
  obtain ⟨r, fs⟩ := P
  obtain ⟨hk, hid'⟩ := List.getElem?_eq_some_iff.mp hid
  have hperm : c.connecting.Perm (id :: c.connecting.eraseIdx k) := by
    have := (List.getElem_cons_eraseIdx_perm hk).symm
    rwa [hid'] at this
  rcases r with _ | (e | u)
  · exact .of_same rfl hd.1 hd.2 rfl rfl rfl rfl rfl rfl
  · refine ⟨rfl, hd.1, hd.2, rfl, rfl, rfl, rfl, ⟨[id], ?_⟩, ⟨[], by simp⟩, fun j hj => List.mem_of_mem_eraseIdx hj⟩
    show (c.handles.map (·.id) ++ c.connecting).Perm ((c.handles.map (·.id) ++ c.connecting.eraseIdx k) ++ [id])
    rw [List.append_assoc]
    exact (hperm.trans (List.perm_append_singleton _ _).symm).append_left _
  · refine ⟨rfl, hd.1, hd.2, rfl, rfl, rfl, rfl, ⟨[], ?_⟩, ⟨[id], by simp⟩, fun j hj => List.mem_of_mem_eraseIdx hj⟩
    show (c.handles.map (·.id) ++ c.connecting).Perm (((c.handles ++ [(⟨id, none⟩ : Handle)]).map (·.id) ++ c.connecting.eraseIdx k) ++ [])
    simp only [List.map_append, List.map_cons, List.map_nil, List.append_nil, List.append_assoc]
    exact hperm.append_left _

theorem Aside.slot {c c' : Conn} (ha : Aside c c') {op : Op} {k : Slot} (hv : ∀ h r, op = .read h r → h < c.handles.length)
    (hin : InSlot c' op k) : InSlot c op k := by
  cases op <;> cases k <;> try exact hin
  rename_i j r id
  obtain ⟨x, hx, rfl⟩ := hin
  obtain ⟨l, hl⟩ := ha.handles
  have h1 : (c'.handles.map (·.id))[j]? = some x.id := by rw [List.getElem?_map, hx]; rfl
  rw [hl, List.getElem?_append_left (by simpa using hv _ _ rfl), List.getElem?_map] at h1
  cases hc : c.handles[j]? with
  | none => rw [hc] at h1; cases h1
  | some y => rw [hc] at h1; exact ⟨y, hc, Option.some.inj h1⟩

theorem Aside.sinv {s : Sys} {t : Task} {op : Op} {a : Answer} {c' : Conn} {ev : List Event} (hs : SInv s)
    {c1 : Conn} (hs1 : SInv { s with conn := c1 }) (hlen : s.conn.handles.length = c1.handles.length)
    (ha : Aside c1 c') (hst : s.conn.step op = (a, c', ev)) (hev : takenFrames ev = []) (hm : s.mayPoll t op = true) :
    SInv (s.poll t op) := by
  obtain ⟨l, hl⟩ := ha.ids
  obtain ⟨l2, hl2⟩ := ha.handles
  have hsub : ∀ id ∈ c'.ids, id ∈ c1.ids := fun id h => hl.mem_iff.mpr (List.mem_append_left _ h)
  refine sinv_poll hst hm hs (ha.closed.trans hs1.closed) (ha.sane.trans hs1.sane) ?_ ?_ ?_ ?_ ?_ ?_ ?_
  · exact (List.nodup_append.mp (hl.nodup_iff.mp hs1.ids)).1
  · intro n h; exact (hs1.mine n (hsub _ h)).trans_eq ha.next.symm
  · intro n h; rw [hev, List.append_nil]; exact hs1.theirs n (hsub _ h)
  · intro f hf ho
    rw [hev, List.append_nil]
    obtain ⟨h1, h2⟩ := hs1.hand f (ha.inc ▸ hf) ho
    exact ⟨h1, fun h => h2 (hsub _ h)⟩
  · intro h x hg hx
    rw [ha.readers]
    have h1 : (c'.handles.map (·.id))[h]? = some x.id := by rw [List.getElem?_map, hx]; rfl
    by_cases hlt : h < c1.handles.length
    · rw [hl2, List.getElem?_append_left (by simpa using hlt), List.getElem?_map] at h1
      cases hc : c1.handles[h]? with
      | none => rw [hc] at h1; cases h1
      | some y =>
        rw [hc] at h1
        rw [← Option.some.inj h1]
        exact hs1.live h y hg hc
    · -- a new stream was being opened before
      have hid : x.id ∈ c1.ids := hsub _ (List.mem_append_left _ (List.mem_map.mpr ⟨x, List.mem_of_getElem? hx, rfl⟩))
      rcases List.mem_append.mp hid with hid | hid
      · exfalso
        have hnd : (c'.handles.map (·.id)).Nodup := (List.nodup_append.mp (List.nodup_append.mp (hl.nodup_iff.mp hs1.ids)).1).1
        rw [hl2] at hnd h1
        rw [List.getElem?_append_right (by simpa using hlt)] at h1
        exact (List.nodup_append.mp hnd).2.2 _ hid _ (List.mem_of_getElem? h1) rfl
      · exact hs1.pend _ hid
  · intro id h; rw [ha.readers]; exact hs1.pend id (ha.connecting id h)
  · have := congrArg List.length hl2
    simp only [List.length_map, List.length_append] at this
    omega

/-- An operation that sends, except the first poll of `connect`. -/
def Sends : Op → Prop
  | .reconnect _ => True
  | .write _ _ => True
  | .flush _ => True
  | .shutdown _ => True
  | _ => False

theorem sends_aside {c : Conn} (hp : c.poisoned = false) {op : Op} (ho : Sends op) :
    ∃ a c' ev, c.step op = (a, c', ev) ∧ Aside c c' ∧ takenFrames ev = [] := by
  cases op with
  | reconnect k =>
    have e : c.step (.reconnect k) = c.reconnect k := by simp [Conn.step, hp]
    rw [e]
    unfold Conn.reconnect
    cases hk : c.connecting[k]? with
    | none => exact ⟨_, _, _, rfl, Aside.refl c, rfl⟩
    | some id => exact ⟨_, _, _, rfl, finish_aside hk, rfl⟩
  | write h data =>
    cases hx : c.handles[h]? with
    | none => exact ⟨.pending, c, [], by simp [Conn.step, hp, hx], Aside.refl c, rfl⟩
    | some x =>
      have e : c.step (.write h data) = c.write h x data := by simp [Conn.step, hp, hx]
      have hd := drain_aside hx
      rw [e]
      unfold Conn.write
      generalize c.drain h x = D at hd
      obtain ⟨r, c'⟩ := D
      rcases r with _ | (k | u)
      · exact ⟨_, _, _, rfl, hd, rfl⟩
      · exact ⟨_, _, _, rfl, hd, rfl⟩
      · exact ⟨_, _, _, rfl, hd.send _ (append_frames _ _ _).1, rfl⟩
  | flush h =>
    cases hx : c.handles[h]? with
    | none => exact ⟨.pending, c, [], by simp [Conn.step, hp, hx], Aside.refl c, rfl⟩
    | some x =>
      have e : c.step (.flush h) = c.flush h x := by simp [Conn.step, hp, hx]
      have hd := drain_aside hx
      rw [e]
      unfold Conn.flush
      generalize c.drain h x = D at hd
      obtain ⟨r, c'⟩ := D
      rcases r with _ | (k | u) <;> exact ⟨_, _, _, rfl, hd, rfl⟩
  | shutdown h =>
    cases hx : c.handles[h]? with
    | none => exact ⟨.pending, c, [], by simp [Conn.step, hp, hx], Aside.refl c, rfl⟩
    | some x =>
      have e : c.step (.shutdown h) = c.shutdown h x := by simp [Conn.step, hp, hx]
      have hd := drain_aside hx
      have hy := drain_handle hx
      rw [e]
      unfold Conn.shutdown
      generalize c.drain h x = D at hd hy
      obtain ⟨r, c'⟩ := D
      obtain ⟨y, hy, hye⟩ := hy
      rcases r with _ | (k | u)
      · exact ⟨_, _, _, rfl, hd, rfl⟩
      · exact ⟨_, _, _, rfl, hd, rfl⟩
      · refine ⟨_, _, _, rfl, ?_, rfl⟩
        have h1 := hd.send (c'.shared.frames.appendClose x.id.inverse) (append_frames c'.shared.frames x.id.inverse []).2
        have hset : (c'.handles.set h { x with writeError := some .brokenPipe }).map (·.id) = c'.handles.map (·.id) :=
          set_ids hy hye.symm
        refine ⟨h1.inc, h1.fin, h1.eof, h1.readers, h1.closed, h1.sane, h1.next, ?_, ?_, h1.connecting⟩
        · show ∃ l, c.ids.Perm (((c'.handles.set h { x with writeError := some .brokenPipe }).map (·.id) ++ c'.connecting) ++ l)
          rw [hset]; exact hd.ids
        · show ∃ l, (c'.handles.set h { x with writeError := some .brokenPipe }).map (·.id) = _
          rw [hset]; exact hd.handles
  | _ => exact ho.elim

theorem sends_step {s : Sys} {t : Task} {op : Op} (hs : SInv s) (hk : KInv s) (ho : Sends op) (hm : s.mayPoll t op = true) :
    SInv (s.poll t op) ∧ KInv (s.poll t op) ∧ (s.poll t op).taken = s.taken := by
  obtain ⟨a, c', ev, hst, ha, hev⟩ := sends_aside hs.sane ho
  have hwk : s.conn.wakers op t s.wakers = s.wakers := by
    cases op <;> first | exact ho.elim | simp [Conn.wakers]
  refine ⟨ha.sinv hs hs rfl hst hev hm, ?_, ?_⟩
  · refine kinv_out hst hwk hm hs hk ?_ ?_ (fun _ _ _ _ h => h) hk.woken rfl ha.inc ?_ ⟨ha.fin, ha.eof⟩
    · cases op <;> first | exact ho.elim | exact id
    · intro p hp k hin
      exact ha.slot (fun h r he => (hs.valid p (others_sub hp).1 h r he).2) hin
    · intro h
      unfold Shared.frameWanted Shared.haveReader at h ⊢
      rw [ha.inc, ha.readers] at h
      exact h
  · show s.taken ++ takenFrames (s.conn.step op).2.2 = _
    rw [hst, hev, List.append_nil]

/-- A connection that has just announced a stream. -/
def Conn.announce (c : Conn) (name : Option Bytes) : Conn :=
  { c with shared := (c.shared.appendNew name).2, connecting := c.connecting ++ [(c.shared.appendNew name).1] }

theorem announce_sinv {s : Sys} (hs : SInv s) (hth : Theirs s) (hn : s.conn.shared.nextStreamNum + 1 < 2 ^ 64) (name : Option Bytes) :
    SInv { s with conn := s.conn.announce name } := by
  have hid : (s.conn.announce name).ids = s.conn.ids ++ [.receiver s.conn.shared.nextStreamNum] := by
    show s.conn.handles.map (·.id) ++ (s.conn.connecting ++ [_]) = _
    rw [← List.append_assoc]; rfl
  have hfresh : StreamId.receiver s.conn.shared.nextStreamNum ∉ s.conn.ids := fun h => (hs.mine _ h).false
  have hr : ∀ id, id ∈ s.conn.shared.readers → id ∈ (s.conn.announce name).shared.readers := by
    intro id h
    show id ∈ StreamId.receiver s.conn.shared.nextStreamNum :: s.conn.shared.readers.filter (· ≠ .receiver s.conn.shared.nextStreamNum)
    by_cases he : id = .receiver s.conn.shared.nextStreamNum
    · rw [he]; exact List.mem_cons_self
    · exact List.mem_cons_of_mem _ (List.mem_filter.mpr ⟨h, by simpa using he⟩)
  refine ⟨hs.key, hs.res, hs.closed, hs.sane, ?_, ?_, ?_, ?_, ?_, hs.valid, ?_, hs.sound⟩
  · show (s.conn.announce name).ids.Nodup
    rw [hid, List.nodup_append]
    refine ⟨hs.ids, List.nodup_singleton _, ?_⟩
    intro a ha b hb
    rw [List.mem_singleton] at hb
    rintro rfl
    exact hfresh (hb ▸ ha)
  · intro n h
    show n < (s.conn.shared.nextStreamNum + 1) % 2 ^ 64
    rw [Nat.mod_eq_of_lt hn]
    have h : StreamId.receiver n ∈ (s.conn.announce name).ids := h
    rw [hid, List.mem_append, List.mem_singleton] at h
    rcases h with h | h
    · have := hs.mine n h; omega
    · cases h; omega
  · intro n h
    have h : StreamId.initiator n ∈ (s.conn.announce name).ids := h
    rw [hid, List.mem_append, List.mem_singleton] at h
    rcases h with h | h
    · exact hs.theirs n h
    · cases h
  · intro f hf ho
    obtain ⟨h1, h2⟩ := hs.hand f hf ho
    refine ⟨h1, fun h => ?_⟩
    have h : f.streamId ∈ (s.conn.announce name).ids := h
    rw [hid, List.mem_append, List.mem_singleton] at h
    rcases h with h | h
    · exact h2 h
    · obtain ⟨n, hn⟩ := hth _ h1
      rw [hn] at h; cases h
  · intro h x hg hx; exact hr _ (hs.live h x hg hx)
  · intro id h
    rcases List.mem_append.mp h with h | h
    · exact hr _ (hs.pend id h)
    · rw [List.mem_singleton] at h
      subst h
      exact List.mem_cons_self

theorem connect_aside {c : Conn} (hp : c.poisoned = false) (name : Option Bytes) :
    ∃ a c' ev, c.step (.connect name) = (a, c', ev) ∧ Aside (c.announce name) c' ∧ takenFrames ev = [] := by
  have e : c.step (.connect name) = c.connect name := by simp [Conn.step, hp]
  rw [e]
  have hk : (c.announce name).connecting[c.connecting.length]? = some (c.shared.appendNew name).1 := by
    show (c.connecting ++ [_])[c.connecting.length]? = _
    rw [List.getElem?_append_right (Nat.le_refl _), Nat.sub_self]; rfl
  have ha := finish_aside hk
  have herase : (c.connecting ++ [(c.shared.appendNew name).1]).eraseIdx c.connecting.length = c.connecting := by
    rw [List.eraseIdx_append_of_length_le (Nat.le_refl _), Nat.sub_self]; simp
  unfold Conn.connect
  unfold Conn.announce at ha ⊢
  generalize c.shared.appendNew name = N at ha herase
  obtain ⟨id', m⟩ := N
  unfold Conn.finishConnect at ha ⊢
  simp only at ha herase ⊢
  generalize m.frames.pollDrain = P at ha
  obtain ⟨r, fs⟩ := P
  rcases r with _ | (k | u)
  · exact ⟨_, _, _, rfl, ha, rfl⟩
  · simp only [if_true, herase] at ha ⊢; exact ⟨_, _, _, rfl, ha, rfl⟩
  · simp only [if_true, herase] at ha ⊢; exact ⟨_, _, _, rfl, ha, rfl⟩

theorem connect_step {s : Sys} {t : Task} {name : Option Bytes} (hs : SInv s) (hk : KInv s) (hth : Theirs s)
    (hn : s.conn.shared.nextStreamNum + 1 < 2 ^ 64) (hm : s.mayPoll t (.connect name) = true) :
    SInv (s.poll t (.connect name)) ∧ KInv (s.poll t (.connect name)) ∧ (s.poll t (.connect name)).taken = s.taken ∧
      (s.poll t (.connect name)).conn.shared.nextStreamNum = s.conn.shared.nextStreamNum + 1 := by
  obtain ⟨a, c', ev, hst, ha, hev⟩ := connect_aside hs.sane name
  have hs1 := announce_sinv hs hth hn name
  have hwk : s.conn.wakers (.connect name) t s.wakers = s.wakers.add (.receiver s.conn.shared.nextStreamNum) := by
    simp [Conn.wakers, hs.sane, Shared.appendNew]
  refine ⟨ha.sinv hs hs1 rfl hst hev hm, ?_, ?_, ?_⟩
  · refine kinv_out hst hwk hm hs hk id ?_ ?_ hk.woken rfl ha.inc ?_ ⟨?_, ?_⟩
    · intro p hp k hin
      have hin := ha.slot (fun h r he => (hs.valid p (others_sub hp).1 h r he).2) hin
      exact inSlot_same (c' := s.conn.announce name) rfl hin
    · intro p hp k hin hr
      refine add_reg hr ?_
      rintro id rfl rfl
      rcases p with ⟨u, o⟩
      cases o <;> try exact hin.elim
      obtain ⟨x, hx, he⟩ := hin
      have : x.id ∈ s.conn.ids := List.mem_append_left _ (List.mem_map.mpr ⟨x, List.mem_of_getElem? hx, rfl⟩)
      rw [he] at this
      exact (hs.mine _ this).false
    · intro h
      cases hw : s.conn.shared.frameWanted with
      | false => rfl
      | true =>
        exfalso
        unfold Shared.frameWanted at h hw
        rw [ha.inc] at h
        change (match s.conn.shared.incoming with
          | some f => if f.op = .new then true else c'.shared.haveReader f.streamId
          | none => false) = false at h
        cases hi : s.conn.shared.incoming with
        | none => rw [hi] at hw; cases hw
        | some f =>
          simp only [hi] at h hw
          split at h
          · cases h
          · rename_i ho
            rw [if_neg ho] at hw
            unfold Shared.haveReader at h hw
            rw [ha.readers] at h
            have h1 : f.streamId ∈ s.conn.shared.readers := by simpa using hw
            have h2 : f.streamId ∉ (s.conn.announce name).shared.readers := by simpa using h
            apply h2
            show f.streamId ∈ StreamId.receiver s.conn.shared.nextStreamNum :: s.conn.shared.readers.filter (· ≠ .receiver s.conn.shared.nextStreamNum)
            by_cases he : f.streamId = .receiver s.conn.shared.nextStreamNum
            · rw [he]; exact List.mem_cons_self
            · exact List.mem_cons_of_mem _ (List.mem_filter.mpr ⟨h1, by simpa using he⟩)
    · exact ha.fin.trans (appendNew_frames _ _ _).1
    · exact ha.eof.trans (appendNew_frames _ _ _).2
  · show s.taken ++ takenFrames (s.conn.step (.connect name)).2.2 = _
    rw [hst, hev, List.append_nil]
  · show (s.conn.step (.connect name)).2.1.shared.nextStreamNum = _
    rw [hst]
    refine ha.next.trans ?_
    show (s.conn.shared.nextStreamNum + 1) % 2 ^ 64 = _
    exact Nat.mod_eq_of_lt hn

end Ngfs.Mplex
