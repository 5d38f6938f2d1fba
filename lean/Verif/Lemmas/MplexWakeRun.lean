import Verif.Lemmas.MplexWake

/-!
Helper lemmas about wakers, for whole executions. Nothing here is a claim.
-/
namespace Ngfs.Mplex
open Ngfs.Spec.MplexWake

/-- The invariant, as long as nothing has panicked. -/
structure WInv (s : Sys) : Prop where
  struct : SInv s
  wake : KInv s
  theirs : Theirs s

theorem incoming_theirs {s s' : Sys} (hs : SInv s) (hth : Theirs s) (h : s'.taken = s.taken ++ s.conn.shared.pollFill.2.2) :
    Theirs s' := by
  intro id hid
  rw [h, opened_append] at hid
  rcases List.mem_append.mp hid with hid | hid
  · exact hth id hid
  · obtain ⟨_, bs, _, _, hfr⟩ := (pollFill_step s.conn.shared hs.closed).1.wire
    exact opened_initiator hfr hid

theorem accept_next {s : Sys} (hs : SInv s) : (s.conn.step .accept).2.1.shared.nextStreamNum = s.conn.shared.nextStreamNum := by
  have est : s.conn.step .accept = s.conn.accept := by simp [Conn.step, hs.sane]
  have h := pollAccept_next hs.closed
  rw [est]
  unfold Conn.accept
  generalize s.conn.shared.pollAcceptId = P at h
  obtain ⟨r, m, taken⟩ := P
  rcases r with _ | (e | (_ | id)) <;> exact h

theorem read_next {s : Sys} (hs : SInv s) (h room : Nat) :
    (s.conn.step (.read h room)).2.1.shared.nextStreamNum = s.conn.shared.nextStreamNum := by
  cases hx : s.conn.handles[h]? with
  | none =>
    have : s.conn.step (.read h room) = (.pending, s.conn, []) := by simp [Conn.step, hs.sane, hx]
    rw [this]
  | some x =>
    have est : s.conn.step (.read h room) = s.conn.read x.id room := by simp [Conn.step, hs.sane, hx]
    have h := pollRead_next hs.closed x.id room
    rw [est]
    unfold Conn.read
    generalize s.conn.shared.pollRead x.id room = P at h
    obtain ⟨r, m, taken⟩ := P
    rcases r with _ | (e | d) <;> exact h

theorem panicked_poisons {s : Sys} (hs : SInv s) {op : Op} (ho : Incoming op) (h : (s.conn.step op).1 = .panicked) :
    (s.conn.step op).2.1.poisoned = true := by
  have hfa : ∀ e, faultAnswer e = .panicked → e.poisons = true := by
    intro e he; cases e <;> first | rfl | cases he
  cases op with
  | accept =>
    have est : s.conn.step .accept = s.conn.accept := by simp [Conn.step, hs.sane]
    rw [est] at h ⊢
    unfold Conn.accept at h ⊢
    generalize s.conn.shared.pollAcceptId = P at h
    obtain ⟨r, m, taken⟩ := P
    rcases r with _ | (e | (_ | id))
    · cases h
    · exact hfa e h
    · cases h
    · cases h
  | read j room =>
    cases hx : s.conn.handles[j]? with
    | none =>
      have : s.conn.step (.read j room) = (.pending, s.conn, []) := by simp [Conn.step, hs.sane, hx]
      rw [this] at h; cases h
    | some x =>
      have est : s.conn.step (.read j room) = s.conn.read x.id room := by simp [Conn.step, hs.sane, hx]
      rw [est] at h ⊢
      unfold Conn.read at h ⊢
      generalize s.conn.shared.pollRead x.id room = P at h
      obtain ⟨r, m, taken⟩ := P
      rcases r with _ | (e | d)
      · cases h
      · exact hfa e h
      · cases h
  | _ => exact ho.elim

/-- A failure, or giving up, concerns nobody else who waits for something to arrive. -/
def Gentle (s : Sys) : Action → Prop
  | .poll t op => Incoming op → Failed (s.conn.step op).1 → ∀ p ∈ s.waits, p.1 ≠ t → ¬ Incoming p.2
  | .abandon t => (∃ p ∈ s.waits, p.1 = t ∧ Incoming p.2) → ∀ p ∈ s.waits, p.1 ≠ t → ¬ Incoming p.2
  | _ => True

/-- The invariant. -/
def JInv (s : Sys) : Prop := WInv s ∨ (s.conn.poisoned = true ∧ ∀ p ∈ s.waits, ¬ Incoming p.2)

/-- How much an action adds to the numbers in use. -/
def Action.connects : Action → Nat
  | .poll _ (.connect _) => 1
  | _ => 0

theorem poll_step {s : Sys} {t : Task} {op : Op} (hw : WInv s) (hm : s.mayPoll t op = true) (hg : Gentle s (.poll t op))
    (hn : (opened (s.poll t op).taken).Nodup) (hc : s.conn.shared.nextStreamNum + (Action.poll t op).connects < 2 ^ 64) :
    JInv (s.poll t op) ∧
      (s.poll t op).conn.shared.nextStreamNum = s.conn.shared.nextStreamNum + (Action.poll t op).connects := by
  obtain ⟨hs, hk, hth⟩ := hw
  have hpanic : Incoming op → (s.conn.step op).1 = .panicked → JInv (s.poll t op) := by
    intro hin h
    refine .inr ⟨panicked_poisons hs hin h, ?_⟩
    intro p hp
    have hwt : (s.poll t op).waits = s.others t := by
      show (if _ then _ else _) = _
      rw [if_neg (by rw [h]; nofun)]; rfl
    rw [hwt] at hp
    exact hg hin (.inl h) p (others_sub hp).1 (others_sub hp).2
  have hharm : Incoming op → (s.conn.step op).1 ≠ .panicked → Harmless s t op := by
    intro hin h
    exact ⟨h, fun k hk' _ p hp => hg hin (.inr ⟨k, hk'⟩) p (others_sub hp).1 (others_sub hp).2⟩
  cases op with
  | accept =>
    refine ⟨?_, accept_next hs⟩
    by_cases h : (s.conn.step .accept).1 = .panicked
    · exact hpanic trivial h
    · obtain ⟨h1, h2⟩ := accept_step hs hk hth hm (hharm trivial h) hn
      exact .inl ⟨h1, h2, incoming_theirs hs hth (accept_taken hs)⟩
  | read j room =>
    refine ⟨?_, read_next hs j room⟩
    by_cases h : (s.conn.step (.read j room)).1 = .panicked
    · exact hpanic trivial h
    · obtain ⟨h1, h2⟩ := read_step hs hk hth hm (hharm trivial h) hn
      exact .inl ⟨h1, h2, incoming_theirs hs hth (read_taken hs (List.getElem?_eq_getElem (mayPoll_read hs hm).2))⟩
  | connect name =>
    obtain ⟨h1, h2, h3, h4⟩ := connect_step hs hk hth hc hm
    exact ⟨.inl ⟨h1, h2, by unfold Theirs; rw [h3]; exact hth⟩, h4⟩
  | dropReader j => exact (mayPoll_sound hs hm j rfl).elim
  | reconnect k =>
    obtain ⟨h1, h2, h3⟩ := sends_step hs hk (show Sends (.reconnect k) from trivial) hm
    obtain ⟨a, c', ev, hst, ha, -⟩ := sends_aside hs.sane (show Sends (.reconnect k) from trivial)
    refine ⟨.inl ⟨h1, h2, by unfold Theirs; rw [h3]; exact hth⟩, ?_⟩
    show (s.conn.step _).2.1.shared.nextStreamNum = _
    rw [hst]; exact ha.next
  | write j d =>
    obtain ⟨h1, h2, h3⟩ := sends_step hs hk (show Sends (.write j d) from trivial) hm
    obtain ⟨a, c', ev, hst, ha, -⟩ := sends_aside hs.sane (show Sends (.write j d) from trivial)
    refine ⟨.inl ⟨h1, h2, by unfold Theirs; rw [h3]; exact hth⟩, ?_⟩
    show (s.conn.step _).2.1.shared.nextStreamNum = _
    rw [hst]; exact ha.next
  | flush j =>
    obtain ⟨h1, h2, h3⟩ := sends_step hs hk (show Sends (.flush j) from trivial) hm
    obtain ⟨a, c', ev, hst, ha, -⟩ := sends_aside hs.sane (show Sends (.flush j) from trivial)
    refine ⟨.inl ⟨h1, h2, by unfold Theirs; rw [h3]; exact hth⟩, ?_⟩
    show (s.conn.step _).2.1.shared.nextStreamNum = _
    rw [hst]; exact ha.next
  | shutdown j =>
    obtain ⟨h1, h2, h3⟩ := sends_step hs hk (show Sends (.shutdown j) from trivial) hm
    obtain ⟨a, c', ev, hst, ha, -⟩ := sends_aside hs.sane (show Sends (.shutdown j) from trivial)
    refine ⟨.inl ⟨h1, h2, by unfold Theirs; rw [h3]; exact hth⟩, ?_⟩
    show (s.conn.step _).2.1.shared.nextStreamNum = _
    rw [hst]; exact ha.next

theorem drop_step {s : Sys} {h : Nat} (hw : WInv s) (h1 : h ∉ s.gone) (h2 : h < s.conn.handles.length)
    (h3 : ∀ p ∈ s.waits, p.2.resource ≠ .reader h) : WInv (s.drop h) := by
  obtain ⟨hs, hk, hth⟩ := hw
  obtain ⟨x, hx⟩ : ∃ x, s.conn.handles[h]? = some x := ⟨_, List.getElem?_eq_getElem h2⟩
  have est : s.conn.step (.dropReader h) = (.done, { s.conn with shared := s.conn.shared.removeReader x.id }, [.dropped x.id]) := by
    simp [Conn.step, hs.sane, hx]
  have ewk : s.conn.wakers (.dropReader h) 0 s.wakers = s.wakers.removeReader x.id := by
    simp [Conn.wakers, hs.sane, hx]
  have econn : (s.drop h).conn = { s.conn with shared := s.conn.shared.removeReader x.id } := by
    show (s.conn.step (.dropReader h)).2.1 = _
    rw [est]
  have eaw : (s.drop h).awake = s.awake ++ (s.wakers.removeReader x.id).woken := by
    show s.awake ++ (s.conn.wakers (.dropReader h) 0 s.wakers).woken = _
    rw [ewk]
  have hne : ∀ p ∈ s.waits, ∀ j r, p.2 = .read j r → j ≠ h := by
    rintro p hp j r he rfl
    exact h3 p hp (by rw [he]; rfl)
  have hall : ∀ p ∈ s.waits, Incoming p.2 → p.1 ∈ (s.drop h).awake := by
    intro p hp hin
    rw [eaw, List.mem_append]
    obtain ⟨k, hk'⟩ := slot_of hs p hp hin
    rcases hk.reg p hp k hk' with h | hr
    · exact .inl h
    · refine .inr (wakeAll_reg (add_reg hr ?_))
      rintro id rfl rfl
      rcases p with ⟨u, o⟩
      cases o <;> try exact hk'.elim
      rename_i j r
      obtain ⟨y, hy, he⟩ := hk'
      exact hne _ hp j r rfl (handle_inj hs hy hx he)
  have hrd : ∀ id, id ≠ x.id → id ∈ s.conn.shared.readers → id ∈ (s.conn.shared.removeReader x.id).readers := by
    intro id hne hid
    exact List.mem_filter.mpr ⟨hid, by simpa using hne⟩
  refine ⟨?_, ?_, hth⟩
  · refine ⟨hs.key, hs.res, ?_, ?_, ?_, ?_, ?_, ?_, ?_, ?_, ?_, hs.sound⟩
    · rw [econn]; exact hs.closed
    · rw [econn]; exact hs.sane
    · rw [econn]; exact hs.ids
    · rw [econn]; exact hs.mine
    · rw [econn]; exact hs.theirs
    · rw [econn]; exact hs.hand
    · intro j y hj hy
      rw [econn] at hy ⊢
      have hj' : j ≠ h ∧ j ∉ s.gone := by
        have : j ∉ h :: s.gone := hj
        simpa using this
      refine hrd _ ?_ (hs.live j y hj'.2 hy)
      intro he
      exact hj'.1 (handle_inj hs hy hx he)
    · intro p hp j r he
      rw [econn]
      obtain ⟨k1, k2⟩ := hs.valid p hp j r he
      refine ⟨?_, k2⟩
      show j ∉ h :: s.gone
      simp only [List.mem_cons, not_or]
      exact ⟨hne p hp j r he, k1⟩
    · intro id hid
      rw [econn] at hid ⊢
      refine hrd _ ?_ (hs.pend id hid)
      rintro rfl
      exact (List.nodup_append.mp hs.ids).2.2 _ (List.mem_map.mpr ⟨x, List.mem_of_getElem? hx, rfl⟩) _ hid rfl
  · refine ⟨rfl, ?_, ?_, ?_, ?_⟩
    · intro p hp k hin; exact .inl (hall p hp (inSlot_incoming hin))
    · intro f _ p hp hin; exact hall p hp (inSlot_incoming hin)
    · intro _ p hp hin; exact ⟨p, hp, hin, .inl (hall p hp hin)⟩
    · intro ht
      have : (s.drop h).wakers.transport = s.wakers.transport := by
        show (s.conn.wakers (.dropReader h) 0 s.wakers).transport = _
        rw [ewk]; rfl
      rw [this] at ht
      rw [econn]
      exact hk.dry ht

theorem step_winv {s : Sys} {a : Action} (hj : JInv s) (hg : Gentle s a)
    (hn : (opened (s.step a).taken).Nodup) (hc : s.conn.shared.nextStreamNum + a.connects < 2 ^ 64) :
    JInv (s.step a) ∧ (s.step a).conn.shared.nextStreamNum ≤ s.conn.shared.nextStreamNum + a.connects := by
  rcases hj with hw | ⟨hp, hno⟩
  · cases a with
    | poll t op =>
      rw [Sys.step] at hn ⊢
      by_cases hm : s.mayPoll t op = true
      · rw [if_pos hm] at hn ⊢
        obtain ⟨h1, h2⟩ := poll_step hw hm hg hn hc
        exact ⟨h1, h2.le⟩
      · rw [if_neg hm] at hn ⊢
        exact ⟨.inl hw, Nat.le_add_right _ _⟩
    | drop h =>
      rw [Sys.step]
      split
      · rename_i hcond
        refine ⟨.inl (drop_step hw hcond.1 hcond.2.1 ?_), ?_⟩
        · intro p hp
          have := List.all_eq_true.mp hcond.2.2 p hp
          simp only [ne_eq, decide_eq_true_eq] at this
          exact this.1
        · show (s.conn.step (.dropReader h)).2.1.shared.nextStreamNum ≤ _
          obtain ⟨x, hx⟩ : ∃ x, s.conn.handles[h]? = some x := ⟨_, List.getElem?_eq_getElem hcond.2.1⟩
          have est : s.conn.step (.dropReader h) = (.done, { s.conn with shared := s.conn.shared.removeReader x.id }, [.dropped x.id]) := by
            simp [Conn.step, hw.struct.sane, hx]
          rw [est]; exact Nat.le_add_right _ _
      · exact ⟨.inl hw, Nat.le_add_right _ _⟩
    | readable =>
      obtain ⟨hs, hk, hth⟩ := hw
      refine ⟨.inl ⟨?_, ?_, hth⟩, Nat.le_add_right _ _⟩
      · exact ⟨hs.key, hs.res, hs.closed, hs.sane, hs.ids, hs.mine, hs.theirs, hs.hand, hs.live, hs.valid, hs.pend, hs.sound⟩
      · refine ⟨hk.woken, ?_, ?_, ?_, fun h => (h rfl).elim⟩
        · intro p hp k hin
          rcases hk.reg p hp k hin with h | h
          · exact .inl (List.mem_append_left _ h)
          · right; cases k <;> exact h
        · intro f hf p hp hin; exact List.mem_append_left _ (hk.want f hf p hp hin)
        · intro hfw p hp hin
          obtain ⟨q, hq, hqi, hqa⟩ := hk.drive hfw p hp hin
          refine ⟨q, hq, hqi, .inl ?_⟩
          rcases hqa with h | h
          · exact List.mem_append_left _ h
          · refine List.mem_append_right _ ?_
            rw [h]; exact List.mem_singleton_self _
    | writable =>
      obtain ⟨hs, hk, hth⟩ := hw
      refine ⟨.inl ⟨?_, ?_, hth⟩, Nat.le_add_right _ _⟩
      · exact ⟨hs.key, hs.res, hs.closed, hs.sane, hs.ids, hs.mine, hs.theirs, hs.hand, hs.live, hs.valid, hs.pend, hs.sound⟩
      · refine ⟨hk.woken, ?_, ?_, ?_, hk.dry⟩
        · intro p hp k hin
          exact (hk.reg p hp k hin).imp_left (List.mem_append_left _)
        · intro f hf p hp hin; exact List.mem_append_left _ (hk.want f hf p hp hin)
        · intro hfw p hp hin
          obtain ⟨q, hq, hqi, hqa⟩ := hk.drive hfw p hp hin
          exact ⟨q, hq, hqi, hqa.imp_left (List.mem_append_left _)⟩
    | abandon t =>
      obtain ⟨hs, hk, hth⟩ := hw
      have hsub : ∀ p ∈ s.waits.filter (·.1 ≠ t), p ∈ s.waits ∧ p.1 ≠ t := by
        intro p hp; simpa using hp
      refine ⟨.inl ⟨?_, ?_, hth⟩, Nat.le_add_right _ _⟩
      · exact ⟨hs.key.sublist (List.Sublist.map _ List.filter_sublist), hs.res.sublist (List.Sublist.map _ List.filter_sublist),
          hs.closed, hs.sane, hs.ids, hs.mine, hs.theirs, hs.hand, hs.live, fun p hp => hs.valid p (hsub p hp).1, hs.pend,
          fun p hp => hs.sound p (hsub p hp).1⟩
      · refine ⟨hk.woken, fun p hp => hk.reg p (hsub p hp).1, fun f hf p hp => hk.want f hf p (hsub p hp).1, ?_, hk.dry⟩
        intro hfw p hp hin
        obtain ⟨q, hq, hqi, hqa⟩ := hk.drive hfw p (hsub p hp).1 hin
        refine ⟨q, List.mem_filter.mpr ⟨hq, ?_⟩, hqi, hqa⟩
        have : q.1 ≠ t := by
          intro he
          exact hg ⟨q, hq, he, hqi⟩ p (hsub p hp).1 (hsub p hp).2 hin
        simpa using this
  · cases a with
    | poll t op =>
      rw [Sys.step]
      split
      · have est := step_poisoned hp op
        refine ⟨.inr ⟨?_, ?_⟩, ?_⟩
        · show (s.conn.step op).2.1.poisoned = true
          rw [est]; exact hp
        · intro p hp'
          have hwt : (s.poll t op).waits = s.others t := by
            show (if _ then _ else _) = _
            rw [if_neg (by rw [est]; nofun)]; rfl
          rw [hwt] at hp'
          exact hno p (others_sub hp').1
        · show (s.conn.step op).2.1.shared.nextStreamNum ≤ _
          rw [est]; exact Nat.le_add_right _ _
      · exact ⟨.inr ⟨hp, hno⟩, Nat.le_add_right _ _⟩
    | drop h =>
      rw [Sys.step]
      split
      · have est := step_poisoned hp (.dropReader h)
        refine ⟨.inr ⟨?_, hno⟩, ?_⟩
        · show (s.conn.step _).2.1.poisoned = true
          rw [est]; exact hp
        · show (s.conn.step _).2.1.shared.nextStreamNum ≤ _
          rw [est]; exact Nat.le_add_right _ _
      · exact ⟨.inr ⟨hp, hno⟩, Nat.le_add_right _ _⟩
    | readable => exact ⟨.inr ⟨hp, hno⟩, Nat.le_add_right _ _⟩
    | writable => exact ⟨.inr ⟨hp, hno⟩, Nat.le_add_right _ _⟩
    | abandon t =>
      refine ⟨.inr ⟨hp, fun p hp' => hno p ?_⟩, Nat.le_add_right _ _⟩
      exact (List.mem_filter.mp hp').1

/-- Every action of an execution is gentle. -/
def GentleRun : Sys → List Action → Prop
  | _, [] => True
  | s, a :: as => Gentle s a ∧ GentleRun (s.step a) as

theorem step_taken (s : Sys) (a : Action) : ∃ l, (s.step a).taken = s.taken ++ l := by
  cases a with
  | poll t op =>
    rw [Sys.step]
    split
    · exact ⟨_, rfl⟩
    · exact ⟨[], by simp⟩
  | drop h =>
    rw [Sys.step]
    split <;> exact ⟨[], by simp [Sys.drop]⟩
  | readable => exact ⟨[], by simp [Sys.step]⟩
  | writable => exact ⟨[], by simp [Sys.step]⟩
  | abandon t => exact ⟨[], by simp [Sys.step]⟩

theorem run_taken (as : List Action) : ∀ s : Sys, ∃ l, (s.run as).taken = s.taken ++ l := by
  induction as with
  | nil => intro s; exact ⟨[], by simp [Sys.run]⟩
  | cons a as ih =>
    intro s
    obtain ⟨l, hl⟩ := step_taken s a
    obtain ⟨l', hl'⟩ := ih (s.step a)
    exact ⟨l ++ l', by show ((s.step a).run as).taken = _; rw [hl', hl, List.append_assoc]⟩

theorem opens_cons (a : Action) (as : List Action) : openings (a :: as) = a.connects + openings as := by
  unfold openings
  rw [List.countP_cons]
  rcases a with ⟨t, op⟩ | _ | _ | _ | _
  · cases op <;> simp [Action.connects]; omega
  all_goals simp [Action.connects]

theorem run_winv (as : List Action) : ∀ s : Sys, JInv s → GentleRun s as → (opened (s.run as).taken).Nodup →
    s.conn.shared.nextStreamNum + openings as < 2 ^ 64 → JInv (s.run as) := by
  induction as with
  | nil => intro s h _ _ _; exact h
  | cons a as ih =>
    intro s h hg hn hc
    rw [opens_cons] at hc
    have hn' : (opened (s.step a).taken).Nodup := by
      obtain ⟨l, hl⟩ := run_taken as (s.step a)
      change (opened ((s.step a).run as).taken).Nodup at hn
      rw [hl, opened_append] at hn
      exact (List.nodup_append.mp hn).1
    obtain ⟨h1, h2⟩ := step_winv h hg.1 hn' (by omega)
    exact ih _ h1 hg.2 hn (by omega)

theorem new_winv (t : Transport) : JInv (Sys.new t) := by
  refine .inl ⟨?_, ?_, fun id h => by cases h⟩
  · refine ⟨List.nodup_nil, List.nodup_nil, rfl, rfl, List.nodup_nil, ?_, ?_, nofun, ?_, ?_, ?_, ?_⟩
    · intro n h; cases h
    · intro n h; cases h
    · intro h x _ hx; simp [Sys.new, Conn.new] at hx
    · intro p hp; cases hp
    · intro id h; cases h
    · intro p hp; cases hp
  · refine ⟨rfl, ?_, nofun, ?_, fun h => (h rfl).elim⟩
    · intro p hp; cases hp
    · intro _ p hp; cases hp

theorem pollFill_wanted {m : Shared} (hc : m.closed = false) (hw : m.frameWanted = true) : m.pollFill = (.ready (.ok ()), m, []) := by
  unfold Shared.pollFill
  rw [fillLoop, if_neg (by simp [hc]), if_pos hw]

theorem pollFill_stuck {m : Shared} (hc : m.closed = false) (hw : m.frameWanted = false) (hd : m.frames.Dry)
    (hr : m.frames.transport.reads = []) : m.pollFill.1 = .pending := by
  unfold Shared.pollFill
  have h1 : m.frames.pollReadFrame.1 = .pending := by
    unfold FrameStream.pollReadFrame
    rw [hr, readFrameLoop]
    unfold FrameStream.Dry at hd
    simp [hd]
  rw [fillLoop, if_neg (by simp [hc]), if_neg (by simp [hw])]
  generalize m.frames.pollReadFrame = P at h1
  obtain ⟨r, fs⟩ := P
  simp only at h1
  subst h1
  rfl

theorem quiet_pending {s : Sys} (hj : JInv s) (hq : Quiet s) {t : Task} {op : Op} (hp : (t, op) ∈ s.waits) (hin : Incoming op) :
    (s.conn.step op).1 = .pending := by
  rcases hj with ⟨hs, hk, hth⟩ | ⟨-, hno⟩
  swap
  · exact (hno _ hp hin).elim
  have hna := hq.tasks _ hp
  cases hfw : s.conn.shared.frameWanted with
  | false =>
    obtain ⟨q, hq', -, hqa⟩ := hk.drive hfw _ hp hin
    have ht : s.wakers.transport ≠ none := by
      rcases hqa with h | h
      · exact (hq.tasks q hq' h).elim
      · rw [h]; nofun
    have hpend := pollFill_stuck hs.closed hfw (hk.dry ht) (hq.reading ht)
    cases op with
    | accept =>
      simp only [Conn.step, hs.sane, Bool.false_eq_true, if_false, Conn.accept, Shared.pollAcceptId]
      generalize s.conn.shared.pollFill = P at hpend
      obtain ⟨r, m, taken⟩ := P
      simp only at hpend
      subst hpend
      rfl
    | read h room =>
      simp only [Conn.step, hs.sane, Bool.false_eq_true, if_false]
      cases hx : s.conn.handles[h]? with
      | none => rfl
      | some x =>
        simp only [Conn.read, Shared.pollRead]
        generalize s.conn.shared.pollFill = P at hpend
        obtain ⟨r, m, taken⟩ := P
        simp only at hpend
        subst hpend
        rfl
    | _ => exact hin.elim
  | true =>
    have hfill := pollFill_wanted hs.closed hfw
    cases hi : s.conn.shared.incoming with
    | none => simp [Shared.frameWanted, hi] at hfw
    | some f =>
      have hnot : ¬ InSlot s.conn op f.slot := fun h => hna (hk.want f hi _ hp h)
      cases op with
      | accept =>
        have ho : f.op ≠ .new := by
          intro ho
          apply hnot
          unfold Frame.slot
          rw [if_pos ho]; trivial
        simp [Conn.step, hs.sane, Conn.accept, Shared.pollAcceptId, hfill, hi, ho]
      | read h room =>
        simp only [Conn.step, hs.sane, Bool.false_eq_true, if_false]
        cases hx : s.conn.handles[h]? with
        | none => rfl
        | some x =>
          have he : f.streamId ≠ x.id := by
            intro he
            by_cases ho : f.op = .new
            · refine (hs.hand f hi ho).2 ?_
              rw [he]
              exact List.mem_append_left _ (List.mem_map.mpr ⟨x, List.mem_of_getElem? hx, rfl⟩)
            · apply hnot
              unfold Frame.slot
              rw [if_neg ho]
              exact ⟨x, hx, he.symm⟩
          simp [Conn.read, Shared.pollRead, hfill, hi, he]
      | _ => exact hin.elim

end Ngfs.Mplex
