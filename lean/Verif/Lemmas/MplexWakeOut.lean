import Verif.Lemmas.MplexWakeRun

/-!
Helper lemmas about the task that waits to send, and about tasks that are alone. Nothing here is a claim.
-/
namespace Ngfs.Mplex
open Ngfs.Spec.MplexWake

/-- What a waiting poll waits for is there. -/
def Ready (c : Conn) : Op → Prop
  | .connect _ => False
  | .reconnect k => k < c.connecting.length
  | .write h _ => ∃ x, c.handles[h]? = some x ∧ x.writeError = none
  | .flush h => ∃ x, c.handles[h]? = some x ∧ x.writeError = none
  | .shutdown h => ∃ x, c.handles[h]? = some x ∧ x.writeError = none
  | _ => True

/-- The invariant about the only task that sends. -/
structure OutInv (t0 : Task) (s : Sys) : Prop where
  sane : s.conn.poisoned = false
  key : (s.waits.map (·.1)).Nodup
  sound : ∀ p ∈ s.waits, ∀ h, p.2 ≠ .dropReader h
  out : ∀ p ∈ s.waits, Outgoing p.2 → p.1 = t0 ∧ Ready s.conn p.2 ∧ (t0 ∈ s.awake ∨ s.writeWaker = some t0)

theorem outgoing_again (c : Conn) (op : Op) : Outgoing (c.again op) ↔ Outgoing op := by
  cases op <;> exact Iff.rfl

theorem Ready.mono {c c' : Conn} {op : Op} (h : Ready c op) (hl : c.connecting.length ≤ c'.connecting.length)
    (hh : ∃ l, c'.handles = c.handles ++ l) : Ready c' op := by
  obtain ⟨l, hh⟩ := hh
  have hx : ∀ (j : Nat) x, c.handles[j]? = some x → c'.handles[j]? = some x := by
    intro j x hj
    rw [hh, List.getElem?_append_left (List.getElem?_eq_some_iff.mp hj).1]; exact hj
  cases op with
  | connect _ => exact h
  | reconnect k => exact Nat.lt_of_lt_of_le h hl
  | write j d => obtain ⟨x, h1, h2⟩ := h; exact ⟨x, hx j x h1, h2⟩
  | flush j => obtain ⟨x, h1, h2⟩ := h; exact ⟨x, hx j x h1, h2⟩
  | shutdown j => obtain ⟨x, h1, h2⟩ := h; exact ⟨x, hx j x h1, h2⟩
  | _ => trivial

/-- Polls that receive: what they leave alone. -/
theorem incoming_leaves {c : Conn} (hp : c.poisoned = false) {op : Op} (ho : Incoming op) (h : (c.step op).1 ≠ .panicked) :
    (c.step op).2.1.poisoned = false ∧ (c.step op).2.1.connecting = c.connecting ∧
      (∃ l, (c.step op).2.1.handles = c.handles ++ l) ∧ ∀ t w, c.writeWaker op t w = w := by
  have hfa : ∀ e, faultAnswer e ≠ .panicked → e.poisons = false := by
    intro e he; cases e <;> first | rfl | exact (he rfl).elim
  cases op with
  | accept =>
    refine ⟨?_, ?_, ?_, by simp [Conn.writeWaker]⟩
    all_goals
      simp only [Conn.step, hp, Bool.false_eq_true, if_false] at h ⊢
      unfold Conn.accept at h ⊢
      generalize c.shared.pollAcceptId = P at h
      obtain ⟨r, m, taken⟩ := P
    · rcases r with _ | (e | (_ | id)) <;> first | exact hp | exact hfa e h
    · rcases r with _ | (e | (_ | id)) <;> rfl
    · rcases r with _ | (e | (_ | id)) <;> first | exact ⟨[], (List.append_nil _).symm⟩ | exact ⟨_, rfl⟩
  | read j room =>
    refine ⟨?_, ?_, ?_, by simp [Conn.writeWaker]⟩
    all_goals
      simp only [Conn.step, hp, Bool.false_eq_true, if_false] at h ⊢
      cases hx : c.handles[j]? with
      | none => first | exact hp | rfl | exact ⟨[], by simp⟩
      | some x =>
        simp only [hx] at h
        simp only [Conn.read] at h ⊢
        generalize c.shared.pollRead x.id room = P at h
        obtain ⟨r, m, taken⟩ := P
        rcases r with _ | (e | d) <;> first | exact hp | exact hfa e h | rfl | exact ⟨[], by simp⟩
  | _ => exact ho.elim

theorem drainWaker_pending {s : FrameStream} (h : s.pollDrain.1 = .pending) (t : Task) : s.drainWaker t = some t := by
  unfold FrameStream.drainWaker
  generalize s.pollDrain = P at h
  obtain ⟨r, fs⟩ := P
  simp only at h
  subst h
  rfl

theorem drain_pending {c : Conn} {h : Nat} {x : Handle} (hx : c.handles[h]? = some x) (hd : (c.drain h x).1 = .pending) :
    x.writeError = none ∧ c.shared.frames.pollDrain.1 = .pending ∧ (c.drain h x).2.handles = c.handles ∧
      (c.drain h x).2.connecting = c.connecting ∧ (c.drain h x).2.poisoned = c.poisoned := by
  unfold Conn.drain at hd ⊢
  cases hw : x.writeError with
  | some k => rw [hw] at hd; cases hd
  | none =>
    rw [hw] at hd
    simp only at hd ⊢
    generalize c.shared.frames.pollDrain = P at hd
    obtain ⟨r, fs⟩ := P
    rcases r with _ | (k | u)
    · exact ⟨trivial, rfl, rfl, rfl, rfl⟩
    · cases hd
    · cases hd

theorem write_pending {c : Conn} (hp : c.poisoned = false) {h : Nat} {x : Handle} (hx : c.handles[h]? = some x) {op : Op}
    (hop : op = .flush h ∨ op = .shutdown h ∨ ∃ d, op = .write h d) (ha : (c.step op).1 = .pending) (t : Task) (w : Option Task) :
    Ready (c.step op).2.1 op ∧ c.writeWaker op t w = some t := by
  have hd : (c.drain h x).1 = .pending ∧ (c.step op).2.1.handles = (c.drain h x).2.handles := by
    rcases hop with rfl | rfl | ⟨d, rfl⟩
    · simp only [Conn.step, hp, Bool.false_eq_true, if_false, hx, Conn.flush] at ha ⊢
      generalize c.drain h x = D at ha
      obtain ⟨r, c'⟩ := D
      rcases r with _ | (k | u)
      · exact ⟨rfl, rfl⟩
      · cases ha
      · cases ha
    · simp only [Conn.step, hp, Bool.false_eq_true, if_false, hx, Conn.shutdown] at ha ⊢
      generalize c.drain h x = D at ha
      obtain ⟨r, c'⟩ := D
      rcases r with _ | (k | u)
      · exact ⟨rfl, rfl⟩
      · cases ha
      · cases ha
    · simp only [Conn.step, hp, Bool.false_eq_true, if_false, hx, Conn.write] at ha ⊢
      generalize c.drain h x = D at ha
      obtain ⟨r, c'⟩ := D
      rcases r with _ | (k | u)
      · exact ⟨rfl, rfl⟩
      · cases ha
      · cases ha
  obtain ⟨h1, h2, h3, -, -⟩ := drain_pending hx hd.1
  have hr : ∃ y, (c.step op).2.1.handles[h]? = some y ∧ y.writeError = none := ⟨x, by rw [hd.2, h3]; exact hx, h1⟩
  have hww : c.writerWaker h t w = some t := by
    unfold Conn.writerWaker
    rw [hx]
    simp only [h1, Option.isSome_none, Bool.false_eq_true, if_false]
    exact drainWaker_pending h2 t
  rcases hop with rfl | rfl | ⟨d, rfl⟩
  · exact ⟨hr, by simp only [Conn.writeWaker, hp, Bool.false_eq_true, if_false]; exact hww⟩
  · exact ⟨hr, by simp only [Conn.writeWaker, hp, Bool.false_eq_true, if_false]; exact hww⟩
  · exact ⟨hr, by simp only [Conn.writeWaker, hp, Bool.false_eq_true, if_false]; exact hww⟩

theorem finish_pending {c : Conn} {id : StreamId} (h : (c.finishConnect id).1 = .pending) :
    c.shared.frames.pollDrain.1 = .pending ∧ (c.finishConnect id).2.2 = false ∧ (c.finishConnect id).2.1.connecting = c.connecting := by
  unfold Conn.finishConnect at h ⊢
  generalize c.shared.frames.pollDrain = P at h
  obtain ⟨r, fs⟩ := P
  rcases r with _ | (k | u)
  · exact ⟨rfl, rfl, rfl⟩
  · cases h
  · cases h

theorem outgoing_poll {c : Conn} (hp : c.poisoned = false) {op : Op} (ho : Outgoing op)
    (hv : (∃ n, op = .connect n) ∨ Ready c op ∨ ∃ h, h < c.handles.length ∧ (op = .flush h ∨ op = .shutdown h ∨ ∃ d, op = .write h d))
    (ha : (c.step op).1 = .pending) (t : Task) (w : Option Task) :
    Ready (c.step op).2.1 ((c.step op).2.1.again op) ∧ c.writeWaker op t w = some t := by
  have hwr : ∀ h, (op = .flush h ∨ op = .shutdown h ∨ ∃ d, op = .write h d) → (∃ x, c.handles[h]? = some x) →
      Ready (c.step op).2.1 ((c.step op).2.1.again op) ∧ c.writeWaker op t w = some t := by
    rintro h hop ⟨x, hx⟩
    have := write_pending hp hx hop ha t w
    rcases hop with rfl | rfl | ⟨d, rfl⟩ <;> exact this
  rcases hv with ⟨n, rfl⟩ | hr | ⟨h, hlt, hop⟩
  · have e : c.step (.connect n) = c.connect n := by simp [Conn.step, hp]
    rw [e] at ha ⊢
    have ha' : (({ c with shared := (c.shared.appendNew n).2 } : Conn).finishConnect (c.shared.appendNew n).1).1 = .pending := ha
    obtain ⟨h1, h2, h3⟩ := finish_pending ha'
    constructor
    · have hcon : (c.connect n).2.1.connecting = c.connecting ++ [(c.shared.appendNew n).1] := by
        unfold Conn.connect
        generalize c.shared.appendNew n = N at h2 h3
        obtain ⟨id, m⟩ := N
        simp only at h2 h3 ⊢
        rw [h2, h3]; rfl
      show (c.connect n).2.1.connecting.length - 1 < (c.connect n).2.1.connecting.length
      rw [hcon]; simp
    · simp only [Conn.writeWaker, hp, Bool.false_eq_true, if_false]
      exact drainWaker_pending h1 t
  · cases op with
    | connect n => exact hr.elim
    | reconnect k =>
      have e : c.step (.reconnect k) = c.reconnect k := by simp [Conn.step, hp]
      rw [e] at ha ⊢
      have hk : k < c.connecting.length := hr
      unfold Conn.reconnect at ha ⊢
      rw [List.getElem?_eq_getElem hk] at ha ⊢
      have ha' : (c.finishConnect c.connecting[k]).1 = .pending := ha
      obtain ⟨h1, h2, h3⟩ := finish_pending ha'
      constructor
      · show k < (if (c.finishConnect c.connecting[k]).2.2 then _ else (c.finishConnect c.connecting[k]).2.1.connecting : List StreamId).length
        rw [h2, h3]; exact hk
      · simp only [Conn.writeWaker, hp, Bool.false_eq_true, if_false, List.getElem?_eq_getElem hk, Option.isSome_some, if_true]
        exact drainWaker_pending h1 t
    | write h d => obtain ⟨x, hx, -⟩ := hr; exact hwr h (.inr (.inr ⟨d, rfl⟩)) ⟨x, hx⟩
    | flush h => obtain ⟨x, hx, -⟩ := hr; exact hwr h (.inl rfl) ⟨x, hx⟩
    | shutdown h => obtain ⟨x, hx, -⟩ := hr; exact hwr h (.inr (.inl rfl)) ⟨x, hx⟩
    | _ => exact ho.elim
  · exact hwr h hop ⟨_, List.getElem?_eq_getElem hlt⟩

theorem outgoing_sends {op : Op} (ho : Outgoing op) : (∃ n, op = .connect n) ∨ Sends op := by
  cases op with
  | connect n => exact .inl ⟨n, rfl⟩
  | accept => exact ho.elim
  | read _ _ => exact ho.elim
  | dropReader _ => exact ho.elim
  | _ => exact .inr trivial

theorem outgoing_sane {c : Conn} (hp : c.poisoned = false) {op : Op} (ho : Outgoing op) : (c.step op).2.1.poisoned = false := by
  rcases outgoing_sends ho with ⟨n, rfl⟩ | hs
  · obtain ⟨a, c', ev, hst, ha, -⟩ := connect_aside hp n
    rw [hst]; exact ha.sane.trans hp
  · obtain ⟨a, c', ev, hst, ha, -⟩ := sends_aside hp hs
    rw [hst]; exact ha.sane.trans hp

/-- What a poll needs to be started. -/
def Start (s : Sys) : Op → Prop
  | .reconnect _ => False
  | .dropReader _ => False
  | .read h _ => h ∉ s.gone ∧ h < s.conn.handles.length
  | .write h _ => h ∉ s.gone ∧ h < s.conn.handles.length
  | .flush h => h ∉ s.gone ∧ h < s.conn.handles.length
  | .shutdown h => h ∉ s.gone ∧ h < s.conn.handles.length
  | _ => True

theorem find_wait {s : Sys} {t : Task} {op : Op} (hm : s.mayPoll t op = true) :
    ((t, op) ∈ s.waits) ∨ ((∀ p ∈ s.waits, p.1 ≠ t) ∧ Start s op) := by
  unfold Sys.mayPoll at hm
  split at hm
  · rename_i u op' hf
    have hmem := List.mem_of_find?_eq_some hf
    have hu : u = t := by simpa using List.find?_some hf
    have : op = op' := by simpa using hm
    subst this hu
    exact .inl hmem
  · rename_i hf
    refine .inr ⟨fun p hp => by simpa using List.find?_eq_none.mp hf p hp, ?_⟩
    rw [Bool.and_eq_true] at hm
    have := hm.1
    cases op <;> first | trivial | cases this | (simpa [Start] using this)

theorem poll_out {t0 : Task} {s : Sys} {t : Task} {op : Op} (hi : OutInv t0 s) (hm : s.mayPoll t op = true)
    (hl : Outgoing op → t = t0) (hp : (s.conn.step op).1 ≠ .panicked) : OutInv t0 (s.poll t op) := by
  have hdrop : ∀ h, op ≠ .dropReader h := by
    rintro h rfl
    rcases find_wait hm with h' | ⟨-, h'⟩
    · exact hi.sound _ h' h rfl
    · exact h'
  have hw : (s.poll t op).waits = if (s.conn.step op).1 = .pending then (t, (s.poll t op).conn.again op) :: s.others t else s.others t := rfl
  have hkey : ((s.poll t op).waits.map (·.1)).Nodup := by
    have h2 : ((s.others t).map (·.1)).Nodup := hi.key.sublist (List.Sublist.map _ List.filter_sublist)
    rw [hw]
    split
    · rw [List.map_cons, List.nodup_cons]
      refine ⟨?_, h2⟩
      intro h
      obtain ⟨p, hp, he⟩ := List.mem_map.mp h
      exact (others_sub hp).2 he
    · exact h2
  have hsound : ∀ p ∈ (s.poll t op).waits, ∀ h, p.2 ≠ .dropReader h := by
    intro p hp
    rw [hw] at hp
    have old : p ∈ s.others t → ∀ h, p.2 ≠ .dropReader h := fun hp => hi.sound p (others_sub hp).1
    split at hp
    · rcases List.mem_cons.mp hp with rfl | hp
      · intro h he
        cases op <;> first | exact hdrop _ rfl | cases he
      · exact old hp
    · exact old hp
  by_cases ho : Outgoing op
  · have ht := hl ho
    subst ht
    refine ⟨outgoing_sane hi.sane ho, hkey, hsound, ?_⟩
    intro p hp' hout
    have hno : p ∉ s.others t := by
      intro h
      exact (others_sub h).2 (hi.out p (others_sub h).1 hout).1
    rw [hw] at hp'
    split at hp'
    · rename_i hpend
      rcases List.mem_cons.mp hp' with rfl | h
      · have hv : (∃ n, op = .connect n) ∨ Ready s.conn op ∨
            ∃ h, h < s.conn.handles.length ∧ (op = .flush h ∨ op = .shutdown h ∨ ∃ d, op = .write h d) := by
          rcases find_wait hm with h | ⟨-, h⟩
          · exact .inr (.inl (hi.out _ h ho).2.1)
          · cases op with
            | connect n => exact .inl ⟨n, rfl⟩
            | reconnect k => exact h.elim
            | write j d => exact .inr (.inr ⟨j, h.2, .inr (.inr ⟨d, rfl⟩)⟩)
            | flush j => exact .inr (.inr ⟨j, h.2, .inl rfl⟩)
            | shutdown j => exact .inr (.inr ⟨j, h.2, .inr (.inl rfl)⟩)
            | _ => exact ho.elim
        obtain ⟨h1, h2⟩ := outgoing_poll hi.sane ho hv hpend t s.writeWaker
        exact ⟨rfl, h1, .inr h2⟩
      · exact (hno h).elim
    · exact (hno hp').elim
  · have hin : Incoming op := by
      cases op <;> first | trivial | exact (ho trivial).elim | exact (hdrop _ rfl).elim
    obtain ⟨h1, h2, h3, h4⟩ := incoming_leaves hi.sane hin hp
    refine ⟨h1, hkey, hsound, ?_⟩
    intro p hp' hout
    have hmem : p ∈ s.others t := by
      rw [hw] at hp'
      split at hp'
      · rcases List.mem_cons.mp hp' with rfl | h
        · exact (ho ((outgoing_again _ _).mp hout)).elim
        · exact h
      · exact hp'
    obtain ⟨k1, k2, k3⟩ := hi.out p (others_sub hmem).1 hout
    refine ⟨k1, k2.mono (le_of_eq (congrArg List.length h2.symm)) h3, ?_⟩
    rcases k3 with h | h
    · left
      show t0 ∈ s.awake.filter (· ≠ t) ++ _
      refine List.mem_append_left _ (List.mem_filter.mpr ⟨h, ?_⟩)
      have := (others_sub hmem).2
      rw [k1] at this
      simpa using this
    · right
      show s.conn.writeWaker op t s.writeWaker = some t0
      rw [h4]; exact h

theorem step_answers (s : Sys) (a : Action) : ∃ l, (s.step a).answers = s.answers ++ l := by
  cases a with
  | poll t op =>
    rw [Sys.step]
    split
    · exact ⟨_, rfl⟩
    · exact ⟨[], by simp⟩
  | drop h =>
    rw [Sys.step]
    split <;> exact ⟨[], by simp [Sys.drop]⟩
  | readable => exact ⟨[], by simp [Sys.step]⟩
  | writable => exact ⟨[], by simp [Sys.step]⟩
  | abandon t => exact ⟨[], by simp [Sys.step]⟩

theorem run_answers (as : List Action) : ∀ s : Sys, ∃ l, (s.run as).answers = s.answers ++ l := by
  induction as with
  | nil => intro s; exact ⟨[], by simp [Sys.run]⟩
  | cons a as ih =>
    intro s
    obtain ⟨l, hl⟩ := step_answers s a
    obtain ⟨l', hl'⟩ := ih (s.step a)
    exact ⟨l ++ l', by show ((s.step a).run as).answers = _; rw [hl', hl, List.append_assoc]⟩

theorem step_out {t0 : Task} {s : Sys} {a : Action} (hi : OutInv t0 s)
    (hl : ∀ t op, a = .poll t op → Outgoing op → t = t0) (hp : .panicked ∉ (s.step a).answers) : OutInv t0 (s.step a) := by
  cases a with
  | poll t op =>
    rw [Sys.step] at hp ⊢
    split
    · rename_i hm
      rw [if_pos hm] at hp
      refine poll_out hi hm (hl t op rfl) ?_
      intro h
      apply hp
      show Answer.panicked ∈ s.answers ++ [(s.conn.step op).1]
      rw [h]; simp
    · exact hi
  | drop h =>
    rw [Sys.step]
    split
    · rename_i hcond
      obtain ⟨x, hx⟩ : ∃ x, s.conn.handles[h]? = some x := ⟨_, List.getElem?_eq_getElem hcond.2.1⟩
      have est : s.conn.step (.dropReader h) = (.done, { s.conn with shared := s.conn.shared.removeReader x.id }, [.dropped x.id]) := by
        simp [Conn.step, hi.sane, hx]
      have econn : (s.drop h).conn = { s.conn with shared := s.conn.shared.removeReader x.id } := by
        show (s.conn.step (.dropReader h)).2.1 = _
        rw [est]
      refine ⟨by rw [econn]; exact hi.sane, hi.key, hi.sound, ?_⟩
      intro p hp' ho
      obtain ⟨k1, k2, k3⟩ := hi.out p hp' ho
      refine ⟨k1, ?_, k3.imp_left (List.mem_append_left _)⟩
      rw [econn]
      exact k2.mono (le_refl _) ⟨[], by simp⟩
    · exact hi
  | readable => exact ⟨hi.sane, hi.key, hi.sound, fun p h ho =>
      ⟨(hi.out p h ho).1, (hi.out p h ho).2.1, (hi.out p h ho).2.2.imp_left (List.mem_append_left _)⟩⟩
  | writable =>
    refine ⟨hi.sane, hi.key, hi.sound, fun p h ho => ⟨(hi.out p h ho).1, (hi.out p h ho).2.1, .inl ?_⟩⟩
    rcases (hi.out p h ho).2.2 with h | h
    · exact List.mem_append_left _ h
    · refine List.mem_append_right _ ?_
      rw [h]; exact List.mem_singleton_self _
  | abandon t =>
    refine ⟨hi.sane, hi.key.sublist (List.Sublist.map _ List.filter_sublist), fun p h => hi.sound p (List.mem_filter.mp h).1,
      fun p h ho => hi.out p (List.mem_filter.mp h).1 ho⟩

theorem run_out {t0 : Task} (as : List Action) : ∀ s : Sys, OutInv t0 s →
    (∀ t op, .poll t op ∈ as → Outgoing op → t = t0) → .panicked ∉ (s.run as).answers → OutInv t0 (s.run as) := by
  induction as with
  | nil => intro s h _ _; exact h
  | cons a as ih =>
    intro s h hl hp
    have hp' : .panicked ∉ (s.step a).answers := by
      obtain ⟨l, hl⟩ := run_answers as (s.step a)
      change .panicked ∉ ((s.step a).run as).answers at hp
      rw [hl] at hp
      exact fun h => hp (List.mem_append_left _ h)
    refine ih _ (step_out h ?_ hp') (fun t op h => hl t op (List.mem_cons_of_mem _ h)) hp
    rintro t op rfl
    exact hl t op List.mem_cons_self

theorem new_out (t0 : Task) (t : Transport) : OutInv t0 (Sys.new t) :=
  ⟨rfl, List.nodup_nil, (fun p hp => by cases hp), (fun p hp => by cases hp)⟩

theorem drain_stuck {s : FrameStream} (h1 : s.transport.writes = []) (h2 : s.transport.flushes = []) : s.pollDrain.1 = .pending := by
  unfold FrameStream.pollDrain
  rw [h1]
  cases ho : s.outgoing with
  | nil => simp [writeLoop, Transport.pollFlush, h2]
  | cons o os => simp [writeLoop]

theorem quiet_out {t0 : Task} {s : Sys} (hi : OutInv t0 s) (hq : Quiet s) {t : Task} {op : Op} (hp : (t, op) ∈ s.waits)
    (ho : Outgoing op) : (s.conn.step op).1 = .pending := by
  obtain ⟨h1, h2, h3⟩ := hi.out _ hp ho
  simp only at h1
  subst h1
  have hww : s.writeWaker ≠ none := by
    rcases h3 with h | h
    · exact (hq.tasks _ hp h).elim
    · rw [h]; nofun
  have hd := drain_stuck (hq.writing hww).1 (hq.writing hww).2
  have hdr : ∀ h x, x.writeError = none → (s.conn.drain h x).1 = .pending := by
    intro h x hx
    unfold Conn.drain
    rw [hx]
    simp only
    generalize s.conn.shared.frames.pollDrain = P at hd
    obtain ⟨r, fs⟩ := P
    simp only at hd
    subst hd
    rfl
  cases op with
  | connect n => exact h2.elim
  | reconnect k =>
    have hk : k < s.conn.connecting.length := h2
    simp only [Conn.step, hi.sane, Bool.false_eq_true, if_false, Conn.reconnect, List.getElem?_eq_getElem hk]
    show (s.conn.finishConnect _).1 = .pending
    unfold Conn.finishConnect
    generalize s.conn.shared.frames.pollDrain = P at hd
    obtain ⟨r, fs⟩ := P
    simp only at hd
    subst hd
    rfl
  | write h d =>
    obtain ⟨x, hx, hx'⟩ := h2
    simp only [Conn.step, hi.sane, Bool.false_eq_true, if_false, hx, Conn.write]
    have := hdr h x hx'
    generalize s.conn.drain h x = D at this
    obtain ⟨r, c'⟩ := D
    simp only at this
    subst this
    rfl
  | flush h =>
    obtain ⟨x, hx, hx'⟩ := h2
    simp only [Conn.step, hi.sane, Bool.false_eq_true, if_false, hx, Conn.flush]
    have := hdr h x hx'
    generalize s.conn.drain h x = D at this
    obtain ⟨r, c'⟩ := D
    simp only at this
    subst this
    rfl
  | shutdown h =>
    obtain ⟨x, hx, hx'⟩ := h2
    simp only [Conn.step, hi.sane, Bool.false_eq_true, if_false, hx, Conn.shutdown]
    have := hdr h x hx'
    generalize s.conn.drain h x = D at this
    obtain ⟨r, c'⟩ := D
    simp only at this
    subst this
    rfl
  | _ => exact ho.elim

/-! ### A reading task that is alone -/

theorem step_lone {t0 : Task} {s : Sys} {a : Action} (hi : ∀ p ∈ s.waits, Incoming p.2 → p.1 = t0)
    (hl : ∀ t op, a = .poll t op → Incoming op → t = t0) :
    (∀ p ∈ (s.step a).waits, Incoming p.2 → p.1 = t0) ∧ Gentle s a := by
  constructor
  · cases a with
    | poll t op =>
      rw [Sys.step]
      split
      · intro p hp hin
        have hw : (s.poll t op).waits = if (s.conn.step op).1 = .pending then (t, (s.poll t op).conn.again op) :: s.others t else s.others t := rfl
        rw [hw] at hp
        split at hp
        · rcases List.mem_cons.mp hp with rfl | h
          · exact hl t op rfl ((again_incoming _ _).mp hin)
          · exact hi p (others_sub h).1 hin
        · exact hi p (others_sub hp).1 hin
      · exact hi
    | drop h => rw [Sys.step]; split <;> exact hi
    | readable => exact hi
    | writable => exact hi
    | abandon t => exact fun p hp => hi p (List.mem_filter.mp hp).1
  · cases a with
    | poll t op =>
      intro hin _ p hp hne hin'
      exact hne ((hi p hp hin').trans (hl t op rfl hin).symm)
    | abandon t =>
      rintro ⟨q, hq, he, hqi⟩ p hp hne hin'
      exact hne ((hi p hp hin').trans ((hi q hq hqi).symm.trans he))
    | _ => trivial

theorem lone_gentle {t0 : Task} (as : List Action) : ∀ s : Sys, (∀ p ∈ s.waits, Incoming p.2 → p.1 = t0) →
    (∀ t op, .poll t op ∈ as → Incoming op → t = t0) → GentleRun s as := by
  induction as with
  | nil => intro s _ _; trivial
  | cons a as ih =>
    intro s hi hl
    obtain ⟨h1, h2⟩ := step_lone hi (a := a) (fun t op he => hl t op (he ▸ List.mem_cons_self))
    exact ⟨h2, ih _ h1 (fun t op h => hl t op (List.mem_cons_of_mem _ h))⟩

/-- Executions in which nothing fails to be received and nothing is given up. -/
theorem works_gentle (as : List Action) : ∀ s : Sys, (∀ t, .abandon t ∉ as) →
    (∀ pre t op, pre ++ [.poll t op] <+: as → Incoming op → ¬ Failed ((s.run pre).conn.step op).1) → GentleRun s as := by
  induction as with
  | nil => intro s _ _; trivial
  | cons a as ih =>
    intro s ha hf
    refine ⟨?_, ih _ (fun t h => ha t (List.mem_cons_of_mem _ h)) ?_⟩
    · cases a with
      | poll t op => intro hin hfail; exact (hf [] t op (by simp) hin hfail).elim
      | abandon t => exact (ha t List.mem_cons_self).elim
      | _ => trivial
    · intro pre t op hpre hin
      exact hf (a :: pre) t op (by simpa using hpre) hin

theorem prefix_gentle (as : List Action) : ∀ s : Sys, (∀ pre a, pre ++ [a] <+: as → Gentle (s.run pre) a) → GentleRun s as := by
  induction as with
  | nil => intro s _; trivial
  | cons a as ih =>
    intro s h
    refine ⟨h [] a (by simp), ih _ ?_⟩
    intro pre b hpre
    exact h (a :: pre) b (by simpa using hpre)

end Ngfs.Mplex
