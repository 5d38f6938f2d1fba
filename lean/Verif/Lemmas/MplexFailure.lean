import Verif.Spec.MplexFailure
import Verif.Lemmas.Failure
import Verif.Lemmas.MplexConn

/-! Facts for C204: where the failures that a multiplexer reports come from, and that none is lost. -/
namespace Ngfs.Mplex
open Ngfs.Spec Ngfs.Spec.Mplex

theorem frames_cancel {fs : List Frame} : ∀ {a x : Bytes} {gs : List Frame}, Frames a fs → Frames (a ++ x) gs →
    ∃ hs, Frames x hs := by
  induction fs with
  | nil =>
    intro a x gs ha hg
    rw [frames_nil_inv ha] at hg
    exact ⟨gs, hg⟩
  | cons f fs ih =>
    intro a x gs ha hg
    obtain ⟨b, r, rfl, hb, hr⟩ := frames_cons_inv ha
    cases gs with
    | nil =>
      have := frames_nil_inv hg
      have hl := isFrame_length hb
      simp only [List.append_eq_nil_iff] at this
      rw [this.1.1] at hl
      simp at hl
    | cons g gs =>
      obtain ⟨b', r', he, hb', hr'⟩ := frames_cons_inv hg
      rw [List.append_assoc] at he
      obtain ⟨_, h2⟩ := isFrame_unique hb hb' he
      rw [← h2] at hr'
      exact ih hr hr'

theorem nextFrame_error_kind {bs : Bytes} {k : IoKind} (h : nextFrame bs = .error (.io k)) : k = .invalidData := by
  unfold nextFrame at h
  split at h
  · rename_i e he
    have := (extract_error he).1
    cases h; cases this; rfl
  · cases h
  · split at h
    · rename_i e he
      have := (fromRaw_error he).1
      cases h; cases this; rfl
    · split at h
      · rename_i e he
        have := (extract_error he).1
        cases h; cases this; rfl
      · cases h
      · repeat' split at h
        all_goals cases h

/-- The causes of a failing read. -/
def ReadCause (t : Transport) (k : IoKind) : Prop :=
  ReadEvent.error k ∈ t.reads ∨ (k = .unexpectedEof ∧ CutOff t) ∨ (k = .invalidData ∧ Garbled t)

/-- What has been read so far: frames, and the part of a frame that is in the buffer. -/
def HasRead (t : Transport) (reads : List ReadEvent) (inc : Bytes) (eof : Bool) : Prop :=
  ∃ used bs fs, t.reads = used ++ reads ∧ readBytes used = bs ++ inc ∧ Frames bs fs ∧
    (eof = true → ReadEvent.ready [] ∈ used)

theorem readyFrame_cause {t : Transport} {reads : List ReadEvent} {inc inc' : Bytes} {eof : Bool}
    {r : Except Fault (Option Frame)} (hr : HasRead t reads inc eof) (h : readyFrame inc eof = some (r, inc')) :
    (∀ k, r = .error (.io k) → ReadCause t k) ∧ HasRead t reads inc' eof := by
  have hr0 := hr
  obtain ⟨used, bs, fs, h1, h2, h3, h4⟩ := hr
  have hpre : used <+: t.reads := ⟨_, h1.symm⟩
  unfold readyFrame at h
  cases hn : nextFrame inc with
  | error e =>
    simp only [hn, Option.some.injEq, Prod.mk.injEq] at h
    obtain ⟨rfl, rfl⟩ := h
    refine ⟨fun k hk => .inr (.inr ⟨?_, used, hpre, fun more gs hg => ?_⟩), hr0⟩
    · cases hk; exact nextFrame_error_kind hn
    · rw [h2, List.append_assoc] at hg
      obtain ⟨hs, hh⟩ := frames_cancel h3 hg
      rcases nextFrame_good hh with ⟨hx, _⟩ | ⟨_, _, _, hx, _⟩ <;> (rw [hn] at hx; cases hx)
  | ok o =>
    cases o with
    | some fr =>
      obtain ⟨f, rest⟩ := fr
      simp only [hn, Option.some.injEq, Prod.mk.injEq] at h
      obtain ⟨rfl, rfl⟩ := h
      obtain ⟨b, hb, hf⟩ := (nextFrame_some_iff _ _ _).mp hn
      exact ⟨nofun, used, bs ++ b, fs ++ [f], h1, by rw [h2, hb, List.append_assoc], h3.snoc hf, h4⟩
    | none =>
      simp only [hn] at h
      cases eof with
      | false => simp at h
      | true =>
        by_cases hi : inc.isEmpty
        · simp only [hi, if_true, Option.some.injEq, Prod.mk.injEq] at h
          obtain ⟨rfl, rfl⟩ := h
          exact ⟨nofun, hr0⟩
        · simp only [hi, if_true, Bool.false_eq_true, if_false, Option.some.injEq, Prod.mk.injEq] at h
          obtain ⟨rfl, rfl⟩ := h
          refine ⟨fun k hk => .inr (.inl ⟨by cases hk; rfl, used, hpre, h4 rfl, fun gs hg => ?_⟩), hr0⟩
          rw [h2] at hg
          obtain ⟨hs, hh⟩ := frames_cancel h3 hg
          rw [← List.append_nil inc] at hh
          rcases nextFrame_good hh with ⟨_, hx⟩ | ⟨_, _, _, hx, _⟩
          · rw [(hx rfl).1] at hi; simp at hi
          · rw [hn] at hx; cases hx

theorem readFrameLoop_cause {t : Transport} (reads : List ReadEvent) : ∀ (inc : Bytes) (eof : Bool),
    HasRead t reads inc eof →
    (∀ k, (readFrameLoop reads inc eof).1 = .ready (.error (.io k)) → ReadCause t k) ∧
    HasRead t (readFrameLoop reads inc eof).2.1 (readFrameLoop reads inc eof).2.2.1 (readFrameLoop reads inc eof).2.2.2 ∧
    ((∀ k, (readFrameLoop reads inc eof).1 ≠ .ready (.error (.io k))) →
      UsedWell ReadEvent.error reads (readFrameLoop reads inc eof).2.1) := by
  induction reads with
  | nil =>
    intro inc eof h
    rw [readFrameLoop]
    cases hr : readyFrame inc eof with
    | some r =>
      obtain ⟨r, inc'⟩ := r
      obtain ⟨h1, h2⟩ := readyFrame_cause h hr
      exact ⟨fun k hk => by cases hk; exact h1 k rfl, h2, fun _ => usedWell_refl _ _⟩
    | none => exact ⟨nofun, h, fun _ => usedWell_refl _ _⟩
  | cons e es ih =>
    intro inc eof h
    rw [readFrameLoop_cons]
    cases hr : readyFrame inc eof with
    | some r =>
      obtain ⟨r, inc'⟩ := r
      obtain ⟨h1, h2⟩ := readyFrame_cause h hr
      exact ⟨fun k hk => by cases hk; exact h1 k rfl, h2, fun _ => usedWell_refl _ _⟩
    | none =>
      obtain ⟨used, bs, fs, h1, h2, h3, h4⟩ := h
      have h1' : t.reads = (used ++ [e]) ++ es := by rw [h1, List.append_assoc]; rfl
      cases e with
      | pending =>
        exact ⟨nofun, ⟨used ++ [.pending], bs, fs, h1', by rw [readBytes_append, h2]; simp [readBytes], h3,
          fun he => List.mem_append_left _ (h4 he)⟩, fun _ => ⟨[.pending], rfl, by simp⟩⟩
      | error k =>
        refine ⟨fun k' hk => ?_, ⟨used ++ [.error k], bs, fs, h1', by rw [readBytes_append, h2]; simp [readBytes], h3,
          fun he => List.mem_append_left _ (h4 he)⟩, fun hh => absurd rfl (hh k)⟩
        cases hk
        exact .inl (by rw [h1]; simp)
      | ready d =>
        simp only
        by_cases hd : d.isEmpty
        · simp only [hd, if_true]
          rw [List.isEmpty_iff] at hd
          subst hd
          obtain ⟨i1, i2, i3⟩ := ih inc true ⟨used ++ [.ready []], bs, fs, h1', by rw [readBytes_append, h2]; simp [readBytes],
            h3, fun _ => by simp⟩
          exact ⟨i1, i2, fun hh => usedWell_trans ⟨[.ready []], rfl, by simp⟩ (i3 hh)⟩
        · simp only [hd, Bool.false_eq_true, if_false]
          obtain ⟨i1, i2, i3⟩ := ih (inc ++ d) eof ⟨used ++ [.ready d], bs, fs, h1', by
            rw [readBytes_append, h2]; simp [readBytes], h3, fun he => List.mem_append_left _ (h4 he)⟩
          exact ⟨i1, i2, fun hh => usedWell_trans ⟨[.ready d], rfl, by simp⟩ (i3 hh)⟩

/-- What is left of the transport is part of the original, and what was read is accounted for. -/
structure FrameStream.Caused (t : Transport) (s : FrameStream) : Prop where
  reads : HasRead t s.transport.reads s.incoming s.readEof
  writes : s.transport.writes ⊆ t.writes
  flushes : s.transport.flushes ⊆ t.flushes

theorem pollReadFrame_cause {t : Transport} {s : FrameStream} (h : s.Caused t) :
    (∀ k, s.pollReadFrame.1 = .ready (.error (.io k)) → ReadCause t k) ∧ s.pollReadFrame.2.Caused t ∧
    ((∀ k, s.pollReadFrame.1 ≠ .ready (.error (.io k))) → NoFailure s.transport s.pollReadFrame.2.transport) := by
  obtain ⟨h1, h2, h3⟩ := readFrameLoop_cause s.transport.reads s.incoming s.readEof h.reads
  exact ⟨h1, ⟨h2, h.writes, h.flushes⟩, fun hh => ⟨h3 hh, usedWell_refl _ _, usedWell_refl _ _, usedWell_refl _ _⟩⟩

/-- The causes of a failing write. -/
def WriteCause (t : Transport) (k : IoKind) : Prop := WriteEvent.error k ∈ t.writes ∨ DoneEvent.error k ∈ t.flushes

theorem pollDrain_cause {t : Transport} {s : FrameStream} (h : s.Caused t) :
    (∀ k, s.pollDrain.1 = .ready (.error k) → WriteCause t k) ∧ s.pollDrain.2.Caused t ∧
    ((∀ k, s.pollDrain.1 ≠ .ready (.error k)) → NoFailure s.transport s.pollDrain.2.transport) := by
  unfold FrameStream.pollDrain
  obtain ⟨used, h1, h2, h3⟩ := writeLoop_used s.transport.writes s.outgoing s.transport.sent
  rcases hwl : writeLoop s.transport.writes s.outgoing s.transport.sent with ⟨res, ws, o, sent⟩
  rw [hwl] at h1 h2 h3
  simp only at h1 h2 h3
  have hsub : used ⊆ t.writes ∧ ws ⊆ t.writes := by
    have hw := h.writes
    rw [h1] at hw
    exact ⟨fun x hx => hw (List.mem_append_left _ hx), fun x hx => hw (List.mem_append_right _ hx)⟩
  rcases res with _ | (k | u)
  · exact ⟨nofun, ⟨h.reads, hsub.2, h.flushes⟩, fun _ => ⟨usedWell_refl _ _, ⟨used, h1, h3 (fun _ hh => by cases hh)⟩, usedWell_refl _ _,
      usedWell_refl _ _⟩⟩
  · exact ⟨fun k' hk => by cases hk; exact .inl (hsub.1 (h2 k rfl)), ⟨h.reads, hsub.2, h.flushes⟩, fun hh => absurd rfl (hh k)⟩
  · have h3 := h3 (fun _ hh => by cases hh)
    simp only
    unfold Transport.pollFlush
    simp only
    have hf := h.flushes
    rcases hfl : s.transport.flushes with _ | ⟨e, es⟩
    · exact ⟨nofun, ⟨h.reads, hsub.2, by simp [hfl]⟩, fun _ => ⟨usedWell_refl _ _, ⟨used, h1, h3⟩, ⟨[], hfl, by simp⟩,
        usedWell_refl _ _⟩⟩
    · rw [hfl] at hf
      have he : e ∈ t.flushes := hf (List.mem_cons_self ..)
      have hes : es ⊆ t.flushes := fun x hx => hf (List.mem_cons_of_mem _ hx)
      rcases e with _ | _ | k
      · exact ⟨nofun, ⟨h.reads, hsub.2, hes⟩, fun _ => ⟨usedWell_refl _ _, ⟨used, h1, h3⟩, ⟨[.pending], hfl, by simp⟩,
          usedWell_refl _ _⟩⟩
      · exact ⟨nofun, ⟨h.reads, hsub.2, hes⟩, fun _ => ⟨usedWell_refl _ _, ⟨used, h1, h3⟩, ⟨[.ok], hfl, by simp⟩,
          usedWell_refl _ _⟩⟩
      · exact ⟨fun k' hk => by cases hk; exact .inr he, ⟨h.reads, hsub.2, hes⟩, fun hh => absurd rfl (hh k)⟩

theorem fillLoop_cause {t : Transport} (fuel : Nat) : ∀ {m : Shared}, m.frames.Caused t → m.closed = false →
    (∀ k, (fillLoop fuel m).1 = .ready (.error (.io k)) → ReadCause t k) ∧ (fillLoop fuel m).2.1.frames.Caused t ∧
    (fillLoop fuel m).2.1.closed = false ∧
    ((∀ k, (fillLoop fuel m).1 ≠ .ready (.error (.io k))) →
      NoFailure m.frames.transport (fillLoop fuel m).2.1.frames.transport) := by
  induction fuel with
  | zero => intro m h hc; exact ⟨nofun, h, hc, fun _ => noFailure_refl _⟩
  | succ fuel ih =>
    intro m h hc
    rw [fillLoop, if_neg (by rw [hc]; nofun)]
    split
    · exact ⟨nofun, h, hc, fun _ => noFailure_refl _⟩
    · obtain ⟨h1, h2, h3⟩ := pollReadFrame_cause h
      rcases hp : m.frames.pollReadFrame with ⟨res, fs⟩
      rw [hp] at h1 h2 h3
      simp only at h2 h3
      rcases res with _ | (e | (_ | f))
      · exact ⟨nofun, h2, hc, fun _ => h3 nofun⟩
      · refine ⟨fun k hk => ?_, h2, hc, fun hh => h3 fun k hk => ?_⟩
        · cases hk; exact h1 k rfl
        · cases hk; exact absurd rfl (hh k)
      · exact ⟨nofun, h2, hc, fun _ => h3 nofun⟩
      · obtain ⟨i1, i2, i3, i4⟩ := ih (m := { m with incoming := some f, frames := fs }) h2 hc
        exact ⟨i1, i2, i3, fun hh => noFailure_trans (h3 nofun) (i4 hh)⟩

/-- The state and every failure that is remembered have their cause. -/
structure Conn.Caused (t : Transport) (before : List Op) (c : Conn) : Prop where
  frames : c.shared.frames.Caused t
  isOpen : c.shared.closed = false
  handles : ∀ i w k, c.handles[i]? = some w → w.writeError = some k →
    WriteEvent.error k ∈ t.writes ∨ DoneEvent.error k ∈ t.flushes ∨ (k = .brokenPipe ∧ Op.shutdown i ∈ before)

theorem Conn.Caused.mono {t : Transport} {a b : List Op} (hab : a ⊆ b) {c : Conn} (h : c.Caused t a) : c.Caused t b :=
  ⟨h.frames, h.isOpen, fun i w k hw hk => (h.handles i w k hw hk).imp id (Or.imp id fun ⟨x, y⟩ => ⟨x, hab y⟩)⟩

theorem handles_append {t : Transport} {before : List Op} {c : Conn} (h : c.Caused t before) (id : StreamId) :
    ∀ i w k, (c.handles ++ [⟨id, none⟩])[i]? = some w → w.writeError = some k →
    WriteEvent.error k ∈ t.writes ∨ DoneEvent.error k ∈ t.flushes ∨ (k = .brokenPipe ∧ Op.shutdown i ∈ before) := by
  intro i w k hw hk
  rw [List.getElem?_append] at hw
  split at hw
  · exact h.handles i w k hw hk
  · have := List.mem_of_getElem? hw
    rw [List.mem_singleton.mp this] at hk
    cases hk

theorem caused_append {t : Transport} {s : FrameStream} (h : s.Caused t) (hd : Nat) (data : Bytes) :
    (s.appendFrame hd data).Caused t := ⟨h.reads, h.writes, h.flushes⟩

theorem accept_cause {t : Transport} {before : List Op} {c : Conn} (h : c.Caused t before) :
    (∀ k, c.accept.1 = .failed k → ReadCause t k) ∧ c.accept.2.1.Caused t before ∧
    ((∀ k, c.accept.1 ≠ .failed k) → NoFailure c.shared.frames.transport c.accept.2.1.shared.frames.transport) := by
  unfold Conn.accept Shared.pollAcceptId Shared.pollFill
  obtain ⟨h1, h2, h3, h4⟩ := fillLoop_cause
    (c.shared.frames.incoming.length + (readBytes c.shared.frames.transport.reads).length + 1) h.frames h.isOpen
  rcases hf : fillLoop (c.shared.frames.incoming.length + (readBytes c.shared.frames.transport.reads).length + 1) c.shared
    with ⟨res, m, taken⟩
  rw [hf] at h1 h2 h3 h4
  simp only at h2 h3 h4
  rcases res with _ | (e | u)
  · exact ⟨nofun, ⟨h2, h3, h.handles⟩, fun _ => h4 nofun⟩
  · refine ⟨fun k hk => ?_, ⟨h2, h3, h.handles⟩, fun hh => h4 fun k hk => ?_⟩
    · cases e <;> first | (cases hk; exact h1 _ rfl) | cases hk
    · cases hk; exact absurd rfl (hh k)
  · simp only
    rcases m.incoming with _ | f
    · exact ⟨nofun, ⟨h2, h3, h.handles⟩, fun _ => h4 nofun⟩
    · simp only
      by_cases hop : f.op = .new
      · simp only [hop, if_true]
        exact ⟨nofun, ⟨h2, h3, handles_append h _⟩, fun _ => h4 nofun⟩
      · simp only [hop, if_false]
        exact ⟨nofun, ⟨h2, h3, h.handles⟩, fun _ => h4 nofun⟩

theorem read_cause {t : Transport} {before : List Op} {c : Conn} (h : c.Caused t before) (id : StreamId) (room : Nat) :
    (∀ k, (c.read id room).1 = .failed k → ReadCause t k) ∧ (c.read id room).2.1.Caused t before ∧
    ((∀ k, (c.read id room).1 ≠ .failed k) →
      NoFailure c.shared.frames.transport (c.read id room).2.1.shared.frames.transport) := by
  unfold Conn.read Shared.pollRead Shared.pollFill
  obtain ⟨h1, h2, h3, h4⟩ := fillLoop_cause
    (c.shared.frames.incoming.length + (readBytes c.shared.frames.transport.reads).length + 1) h.frames h.isOpen
  rcases hf : fillLoop (c.shared.frames.incoming.length + (readBytes c.shared.frames.transport.reads).length + 1) c.shared
    with ⟨res, m, taken⟩
  rw [hf] at h1 h2 h3 h4
  simp only at h2 h3 h4
  rcases res with _ | (e | u)
  · exact ⟨nofun, ⟨h2, h3, h.handles⟩, fun _ => h4 nofun⟩
  · refine ⟨fun k hk => ?_, ⟨h2, h3, h.handles⟩, fun hh => h4 fun k hk => ?_⟩
    · cases e <;> first | (cases hk; exact h1 _ rfl) | cases hk
    · cases hk; exact absurd rfl (hh k)
  · simp only
    rcases m.incoming with _ | f
    · exact ⟨nofun, ⟨h2, h3, h.handles⟩, fun _ => h4 nofun⟩
    · simp only
      by_cases hid : f.streamId = id
      · simp only [hid, if_true]
        by_cases hop : f.op = .close
        · simp only [hop, if_true]
          exact ⟨nofun, ⟨h2, h3, h.handles⟩, fun _ => h4 nofun⟩
        · simp only [hop, if_false]
          cases (f.data.drop (min f.data.length room)).isEmpty
          · simp only [Bool.false_eq_true, if_false]
            exact ⟨nofun, ⟨h2, h3, h.handles⟩, fun _ => h4 nofun⟩
          · simp only [if_true]
            exact ⟨nofun, ⟨h2, h3, h.handles⟩, fun _ => h4 nofun⟩
      · simp only [hid, if_false]
        exact ⟨nofun, ⟨h2, h3, h.handles⟩, fun _ => h4 nofun⟩

theorem finishConnect_cause {t : Transport} {before : List Op} {c : Conn} (h : c.Caused t before) (id : StreamId) :
    (∀ k, (c.finishConnect id).1 = .failed k → WriteCause t k) ∧ (c.finishConnect id).2.1.Caused t before ∧
    ((∀ k, (c.finishConnect id).1 ≠ .failed k) →
      NoFailure c.shared.frames.transport (c.finishConnect id).2.1.shared.frames.transport) := by
  unfold Conn.finishConnect
  obtain ⟨h1, h2, h3⟩ := pollDrain_cause h.frames
  rcases hd : c.shared.frames.pollDrain with ⟨res, fs⟩
  rw [hd] at h1 h2 h3
  simp only at h2 h3
  rcases res with _ | (k | u)
  · exact ⟨nofun, ⟨h2, h.isOpen, h.handles⟩, fun _ => h3 (fun _ hh => by cases hh)⟩
  · exact ⟨fun k' hk => by cases hk; exact h1 k rfl, ⟨h2, h.isOpen, h.handles⟩, fun hh => absurd rfl (hh k)⟩
  · exact ⟨nofun, ⟨h2, h.isOpen, handles_append h _⟩, fun _ => h3 (fun _ hh => by cases hh)⟩

theorem connect_cause {t : Transport} {before : List Op} {c : Conn} (h : c.Caused t before) (name : Option Bytes) :
    (∀ k, (c.connect name).1 = .failed k → WriteCause t k) ∧ (c.connect name).2.1.Caused t before ∧
    ((∀ k, (c.connect name).1 ≠ .failed k) →
      NoFailure c.shared.frames.transport (c.connect name).2.1.shared.frames.transport) := by
  unfold Conn.connect
  have ha : ({ c with shared := (c.shared.appendNew name).2 } : Conn).Caused t before ∧
      (c.shared.appendNew name).2.frames.transport = c.shared.frames.transport := by
    unfold Shared.appendNew FrameStream.appendNew
    cases name <;> exact ⟨⟨caused_append h.frames _ _, h.isOpen, h.handles⟩, rfl⟩
  rcases hn : c.shared.appendNew name with ⟨id, m⟩
  rw [hn] at ha
  simp only at ha ⊢
  obtain ⟨h1, h2, h3⟩ := finishConnect_cause ha.1 id
  rcases hf : ({ c with shared := m } : Conn).finishConnect id with ⟨a, c', fin⟩
  rw [hf] at h1 h2 h3
  simp only at h1 h2 h3 ⊢
  rw [ha.2] at h3
  exact ⟨h1, ⟨h2.frames, h2.isOpen, h2.handles⟩, h3⟩

theorem reconnect_cause {t : Transport} {before : List Op} {c : Conn} (h : c.Caused t before) (i : Nat) :
    (∀ k, (c.reconnect i).1 = .failed k → WriteCause t k) ∧ (c.reconnect i).2.1.Caused t before ∧
    ((∀ k, (c.reconnect i).1 ≠ .failed k) →
      NoFailure c.shared.frames.transport (c.reconnect i).2.1.shared.frames.transport) := by
  unfold Conn.reconnect
  rcases c.connecting[i]? with _ | id
  · exact ⟨nofun, h, fun _ => noFailure_refl _⟩
  · obtain ⟨h1, h2, h3⟩ := finishConnect_cause h id
    simp only
    rcases hf : c.finishConnect id with ⟨a, c', fin⟩
    rw [hf] at h1 h2 h3
    simp only at h1 h2 h3 ⊢
    exact ⟨h1, ⟨h2.frames, h2.isOpen, h2.handles⟩, h3⟩

/-- The causes of a failing call on the writing half of a stream. -/
def HandleCause (t : Transport) (before : List Op) (i : Nat) (k : IoKind) : Prop :=
  WriteEvent.error k ∈ t.writes ∨ DoneEvent.error k ∈ t.flushes ∨ (k = .brokenPipe ∧ Op.shutdown i ∈ before)

theorem handles_set {t : Transport} {before : List Op} {c : Conn} (h : c.Caused t before) (i : Nat) (w : Handle) (k : IoKind)
    (hk : HandleCause t before i k) :
    ∀ j w' k', (c.handles.set i { w with writeError := some k })[j]? = some w' → w'.writeError = some k' →
    HandleCause t before j k' := by
  intro j w' k' hw hk'
  rw [List.getElem?_set] at hw
  split at hw
  · rename_i hij
    subst hij
    split at hw
    · cases hw; cases hk'; exact hk
    · cases hw
  · exact h.handles j w' k' hw hk'

theorem drain_cause {t : Transport} {before : List Op} {c : Conn} (h : c.Caused t before) (i : Nat) (w : Handle)
    (hw : c.handles[i]? = some w) :
    (∀ k, (c.drain i w).1 = .ready (.error k) → HandleCause t before i k) ∧ (c.drain i w).2.Caused t before ∧
    ((∀ k, (c.drain i w).1 ≠ .ready (.error k)) →
      NoFailure c.shared.frames.transport (c.drain i w).2.shared.frames.transport) := by
  unfold Conn.drain
  rcases hwe : w.writeError with _ | k
  · simp only
    obtain ⟨h1, h2, h3⟩ := pollDrain_cause h.frames
    rcases hd : c.shared.frames.pollDrain with ⟨res, fs⟩
    rw [hd] at h1 h2 h3
    simp only at h2 h3
    rcases res with _ | (k | u)
    · exact ⟨nofun, ⟨h2, h.isOpen, h.handles⟩, fun _ => h3 (fun _ hh => by cases hh)⟩
    · have hk : HandleCause t before i k := (h1 k rfl).imp id .inl
      exact ⟨fun k' hk' => by cases hk'; exact hk, ⟨h2, h.isOpen, handles_set h i w k hk⟩, fun hh => absurd rfl (hh k)⟩
    · exact ⟨nofun, ⟨h2, h.isOpen, h.handles⟩, fun _ => h3 (fun _ hh => by cases hh)⟩
  · exact ⟨fun k' hk => by cases hk; exact h.handles i w k hw hwe, h, fun hh => absurd rfl (hh k)⟩

theorem write_cause {t : Transport} {before : List Op} {c : Conn} (h : c.Caused t before) (i : Nat) (w : Handle)
    (hw : c.handles[i]? = some w) (data : Bytes) :
    (∀ k, (c.write i w data).1 = .failed k → HandleCause t before i k) ∧ (c.write i w data).2.1.Caused t before ∧
    ((∀ k, (c.write i w data).1 ≠ .failed k) →
      NoFailure c.shared.frames.transport (c.write i w data).2.1.shared.frames.transport) := by
  unfold Conn.write
  obtain ⟨h1, h2, h3⟩ := drain_cause h i w hw
  rcases hd : c.drain i w with ⟨res, c'⟩
  rw [hd] at h1 h2 h3
  simp only at h2 h3
  rcases res with _ | (k | u)
  · exact ⟨nofun, h2, fun _ => h3 (fun _ hh => by cases hh)⟩
  · exact ⟨fun k' hk => by cases hk; exact h1 k rfl, h2, fun hh => absurd rfl (hh k)⟩
  · simp only
    unfold FrameStream.appendMessage
    cases w.id.inverse <;>
      exact ⟨nofun, ⟨caused_append h2.frames _ _, h2.isOpen, h2.handles⟩, fun _ => h3 (fun _ hh => by cases hh)⟩

theorem flush_cause {t : Transport} {before : List Op} {c : Conn} (h : c.Caused t before) (i : Nat) (w : Handle)
    (hw : c.handles[i]? = some w) :
    (∀ k, (c.flush i w).1 = .failed k → HandleCause t before i k) ∧ (c.flush i w).2.1.Caused t before ∧
    ((∀ k, (c.flush i w).1 ≠ .failed k) →
      NoFailure c.shared.frames.transport (c.flush i w).2.1.shared.frames.transport) := by
  unfold Conn.flush
  obtain ⟨h1, h2, h3⟩ := drain_cause h i w hw
  rcases hd : c.drain i w with ⟨res, c'⟩
  rw [hd] at h1 h2 h3
  simp only at h2 h3
  rcases res with _ | (k | u)
  · exact ⟨nofun, h2, fun _ => h3 (fun _ hh => by cases hh)⟩
  · exact ⟨fun k' hk => by cases hk; exact h1 k rfl, h2, fun hh => absurd rfl (hh k)⟩
  · exact ⟨nofun, h2, fun _ => h3 (fun _ hh => by cases hh)⟩

theorem shutdown_cause {t : Transport} {before : List Op} {c : Conn} (h : c.Caused t before) (i : Nat) (w : Handle)
    (hw : c.handles[i]? = some w) :
    (∀ k, (c.shutdown i w).1 = .failed k → HandleCause t before i k) ∧
    (c.shutdown i w).2.1.Caused t (before ++ [.shutdown i]) ∧
    ((∀ k, (c.shutdown i w).1 ≠ .failed k) →
      NoFailure c.shared.frames.transport (c.shutdown i w).2.1.shared.frames.transport) := by
  unfold Conn.shutdown
  obtain ⟨h1, h2, h3⟩ := drain_cause h i w hw
  rcases hd : c.drain i w with ⟨res, c'⟩
  rw [hd] at h1 h2 h3
  simp only at h2 h3
  have h2' := h2.mono (List.subset_append_left before [.shutdown i])
  rcases res with _ | (k | u)
  · exact ⟨nofun, h2', fun _ => h3 (fun _ hh => by cases hh)⟩
  · exact ⟨fun k' hk => by cases hk; exact h1 k rfl, h2', fun hh => absurd rfl (hh k)⟩
  · simp only
    unfold FrameStream.appendClose
    cases w.id.inverse <;>
      exact ⟨nofun, ⟨caused_append h2'.frames _ _, h2'.isOpen, handles_set h2' i w _ (.inr (.inr ⟨rfl, by simp⟩))⟩,
        fun _ => h3 (fun _ hh => by cases hh)⟩

theorem step_cause {t : Transport} {before : List Op} {c : Conn} (h : c.Caused t before) (op : Op) :
    (∀ k, (c.step op).1 = .failed k → Explained t before op k) ∧ (c.step op).2.1.Caused t (before ++ [op]) ∧
    ((∀ k, (c.step op).1 ≠ .failed k) →
      NoFailure c.shared.frames.transport (c.step op).2.1.shared.frames.transport) := by
  have hm : ∀ {c : Conn}, c.Caused t before → c.Caused t (before ++ [op]) := fun h => h.mono (List.subset_append_left _ _)
  have hnone : ∀ a : Answer, (∀ k, a ≠ .failed k) → (∀ k, a = .failed k → Explained t before op k) ∧ c.Caused t (before ++ [op]) ∧
      ((∀ k, a ≠ .failed k) → NoFailure c.shared.frames.transport c.shared.frames.transport) :=
    fun a ha => ⟨fun k hk => absurd hk (ha k), hm h, fun _ => noFailure_refl _⟩
  unfold Conn.step
  by_cases hpo : c.poisoned = true
  · rw [if_pos hpo]
    exact hnone _ nofun
  rw [if_neg hpo]
  cases op with
  | accept =>
    obtain ⟨h1, h2, h3⟩ := accept_cause h
    exact ⟨h1, hm h2, h3⟩
  | connect name =>
    obtain ⟨h1, h2, h3⟩ := connect_cause h name
    exact ⟨h1, hm h2, h3⟩
  | reconnect i =>
    obtain ⟨h1, h2, h3⟩ := reconnect_cause h i
    exact ⟨h1, hm h2, h3⟩
  | read i room =>
    simp only
    rcases hw : c.handles[i]? with _ | w
    · exact hnone _ nofun
    · obtain ⟨h1, h2, h3⟩ := read_cause h w.id room
      exact ⟨h1, hm h2, h3⟩
  | write i data =>
    simp only
    rcases hw : c.handles[i]? with _ | w
    · exact hnone _ nofun
    · obtain ⟨h1, h2, h3⟩ := write_cause h i w hw data
      exact ⟨h1, hm h2, h3⟩
  | flush i =>
    simp only
    rcases hw : c.handles[i]? with _ | w
    · exact hnone _ nofun
    · obtain ⟨h1, h2, h3⟩ := flush_cause h i w hw
      exact ⟨h1, hm h2, h3⟩
  | shutdown i =>
    simp only
    rcases hw : c.handles[i]? with _ | w
    · exact hnone _ nofun
    · exact shutdown_cause h i w hw
  | dropReader i =>
    simp only
    rcases hw : c.handles[i]? with _ | w
    · exact hnone _ nofun
    · exact ⟨nofun, ⟨h.frames, h.isOpen, (hm h).handles⟩, fun _ => noFailure_refl _⟩

theorem run_cause {t : Transport} (ops : List Op) : ∀ {before : List Op} {c : Conn}, c.Caused t before →
    (c.run ops).2.1.Caused t (before ++ ops) ∧
    ((∀ k, Answer.failed k ∉ (c.run ops).1) →
      NoFailure c.shared.frames.transport (c.run ops).2.1.shared.frames.transport) := by
  induction ops with
  | nil => intro before c h; rw [List.append_nil]; exact ⟨h, fun _ => noFailure_refl _⟩
  | cons op ops ih =>
    intro before c h
    obtain ⟨_, h2, h3⟩ := step_cause h op
    rw [Conn.run]
    rcases hs : c.step op with ⟨a, c', ev⟩
    rw [hs] at h2 h3
    simp only at h2 h3 ⊢
    obtain ⟨i1, i2⟩ := ih h2
    rcases hr : c'.run ops with ⟨as, c'', evs⟩
    rw [hr] at i1 i2
    simp only at i1 i2 ⊢
    rw [List.append_assoc] at i1
    refine ⟨i1, fun hn => noFailure_trans (h3 fun k hk => hn k ?_) (i2 fun k hk => hn k (List.mem_cons_of_mem _ hk))⟩
    rw [hk]
    exact List.mem_cons_self ..

theorem new_caused (t : Transport) : (Conn.new t).Caused t [] :=
  ⟨⟨⟨[], [], [], rfl, rfl, .nil, nofun⟩, fun _ h => h, fun _ h => h⟩, rfl, fun i w k hw => by simp [Conn.new] at hw⟩

end Ngfs.Mplex
