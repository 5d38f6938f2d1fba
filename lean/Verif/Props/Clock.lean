import Verif.Model.Clock
import Mathlib.Tactic.ByContra

/-! Property of the simulated clock: C110. -/
namespace Ngfs.Clock

/-- Nobody is in the middle of anything, and no poll is due. -/
structure State.quiet (s : State) : Prop where
  setters : ∀ k, s.notifying k = false
  polls : ∀ w t, s.waiter w ≠ .checked t
  due : ∀ w t, s.waiter w = .idle t → s.scheduled w = false

/-- When nothing is left to do, everybody whose time has come has been told. -/
def C110_statement : Prop :=
  ∀ (as : List Action) (w target : Nat), let s := State.init.run as
    s.quiet → s.poisoned = false → s.waiter w = .idle target → s.time < target

/-- **C110** does not hold: the time is compared and the waker stored under two separate locks; a clock that is set and notifies in
between wakes nobody, and the waiter then waits for a time that has come. -/
theorem C110_false : ¬ C110_statement := by
  intro h
  have := h [.wait 0 5, .poll 0, .set 0 5, .notify 0, .register 0] 0 5
    ⟨by
      intro k
      by_cases hk : k = 0 <;> simp [State.run, State.step, State.init, hk],
    by
      intro w t
      by_cases hw : w = 0 <;> simp [State.run, State.step, State.init, hw],
    by
      intro w t
      by_cases hw : w = 0 <;> simp [State.run, State.step, State.init, hw]⟩
    (by simp [State.run, State.step, State.init]) (by simp [State.run, State.step, State.init])
  simp [State.run, State.step, State.init] at this

/-- No notification comes between the two halves of a poll; for instance because everything runs on one thread. -/
def PollsUndisturbed : State → List Action → Prop
  | _, [] => True
  | s, a :: as => ((∃ k, a = .notify k) → ∀ w t, s.waiter w ≠ .checked t) ∧ PollsUndisturbed (s.step a) as

structure Inv (s : State) : Prop where
  stored : ∀ w t, s.waiter w = .idle t → s.scheduled w = false → w ∈ s.wakers
  late : ∀ w t, s.waiter w = .idle t → s.scheduled w = false → t ≤ s.time → ∃ k, s.notifying k = true
  lateChecked : ∀ w t, s.waiter w = .checked t → t ≤ s.time → ∃ k, s.notifying k = true

theorem Inv.step {s : State} (h : Inv s) (a : Action) (ha : ∀ k, a = .notify k → ∀ w t, s.waiter w ≠ .checked t) : Inv (s.step a) := by
  unfold State.step
  split
  · exact h
  · cases a with
    | wait w target =>
      simp only
      split
      · refine ⟨?_, ?_, ?_⟩
        · intro x t h1 h2
          by_cases hx : x = w
          · simp [hx] at h2
          · simp only [hx, if_false] at h1 h2; exact h.stored x t h1 h2
        · intro x t h1 h2 h3
          by_cases hx : x = w
          · simp [hx] at h2
          · simp only [hx, if_false] at h1 h2; exact h.late x t h1 h2 h3
        · intro x t h1 h3
          by_cases hx : x = w
          · simp [hx] at h1
          · simp only [hx, if_false] at h1; exact h.lateChecked x t h1 h3
      · exact h
    | poll w =>
      simp only
      split
      · rename_i target hw
        split
        · refine ⟨?_, ?_, ?_⟩
          · intro x t h1 h2
            by_cases hx : x = w
            · simp [hx] at h1
            · simp only [hx, if_false] at h1; exact h.stored x t h1 h2
          · intro x t h1 h2 h3
            by_cases hx : x = w
            · simp [hx] at h1
            · simp only [hx, if_false] at h1; exact h.late x t h1 h2 h3
          · intro x t h1 h3
            by_cases hx : x = w
            · simp [hx] at h1
            · simp only [hx, if_false] at h1; exact h.lateChecked x t h1 h3
        · rename_i hlt
          refine ⟨?_, ?_, ?_⟩
          · intro x t h1 h2
            by_cases hx : x = w
            · simp [hx] at h1
            · simp only [hx, if_false] at h1 h2; exact h.stored x t h1 h2
          · intro x t h1 h2 h3
            by_cases hx : x = w
            · simp [hx] at h1
            · simp only [hx, if_false] at h1 h2; exact h.late x t h1 h2 h3
          · intro x t h1 h3
            by_cases hx : x = w
            · simp only [hx, if_true, Waiter.checked.injEq] at h1
              simp only at h3; omega
            · simp only [hx, if_false] at h1; exact h.lateChecked x t h1 h3
      · exact h
    | register w =>
      simp only
      split
      · rename_i target hw
        refine ⟨?_, ?_, ?_⟩
        · intro x t h1 h2
          by_cases hx : x = w
          · simp [hx]
          · simp only [hx, if_false] at h1; exact List.mem_append_left _ (h.stored x t h1 h2)
        · intro x t h1 h2 h3
          by_cases hx : x = w
          · simp only [hx, if_true, Waiter.idle.injEq] at h1
            exact h.lateChecked w t (by rw [hw, h1]) h3
          · simp only [hx, if_false] at h1; exact h.late x t h1 h2 h3
        · intro x t h1 h3
          by_cases hx : x = w
          · simp [hx] at h1
          · simp only [hx, if_false] at h1; exact h.lateChecked x t h1 h3
      · exact h
    | set k time =>
      simp only
      split
      · exact h
      · exact ⟨h.stored, fun _ _ _ _ _ => ⟨k, by simp⟩, fun _ _ _ _ => ⟨k, by simp⟩⟩
    | advance k delta =>
      simp only
      split
      · exact h
      · split
        · exact ⟨h.stored, fun _ _ _ _ _ => ⟨k, by simp⟩, fun _ _ _ _ => ⟨k, by simp⟩⟩
        · exact ⟨h.stored, h.late, h.lateChecked⟩
    | notify k =>
      simp only
      split
      · have key : ∀ x t, s.waiter x = .idle t → (if x ∈ s.wakers then true else s.scheduled x) = true := by
          intro x t h1
          split
          · rfl
          · rename_i hn
            by_contra hc
            exact hn (h.stored x t h1 (by simpa using hc))
        refine ⟨?_, ?_, ?_⟩
        · intro x t h1 h2
          simp only at h1 h2
          rw [key x t h1] at h2; simp at h2
        · intro x t h1 h2
          simp only at h1 h2
          rw [key x t h1] at h2; simp at h2
        · intro x t h1
          exact absurd h1 (ha k rfl x t)
      · exact h

theorem Inv.run (as : List Action) : ∀ {s : State}, Inv s → PollsUndisturbed s as → Inv (s.run as) := by
  induction as with
  | nil => exact fun h _ => h
  | cons a as ih =>
    intro s h hp
    exact ih (h.step a (fun k hk => hp.1 ⟨k, hk⟩)) hp.2

/-- **C110**, as far as it holds: if notifications do not come in the middle of a poll, then when nothing is left to do everybody who
is still waiting waits for a later time. (Missing: notifications in the middle of a poll; see `C110_false`.) -/
theorem C110_woken_partial (as : List Action) (h : PollsUndisturbed .init as) (w target : Nat)
    (hq : (State.init.run as).quiet) (hw : (State.init.run as).waiter w = .idle target) : (State.init.run as).time < target := by
  have hI : Inv (State.init.run as) := Inv.run as ⟨by simp [State.init], by simp [State.init], by simp [State.init]⟩ h
  by_contra hc
  obtain ⟨k, hk⟩ := hI.late w target hw (hq.due w target hw) (by omega)
  rw [hq.setters k] at hk
  simp at hk

/-- **C110**, never early: a future that becomes ready does so at a moment when the clock shows its target or later, whatever else is going on. -/
theorem C110_not_early (as : List Action) (a : Action) (w target : Nat)
    (h1 : (State.init.run as).waiter w ≠ .done target) (h2 : (State.init.run (as ++ [a])).waiter w = .done target) :
    target ≤ (State.init.run as).time := by
  have e : State.init.run (as ++ [a]) = (State.init.run as).step a := by
    generalize State.init = s at *
    induction as generalizing s with
    | nil => rfl
    | cons b as ih => exact ih _ h1 h2
  rw [e] at h2
  generalize State.init.run as = s at *
  unfold State.step at h2
  split at h2
  · exact absurd h2 h1
  · cases a with
    | wait x t =>
      simp only at h2
      split at h2
      · by_cases hx : w = x
        · simp [hx] at h2
        · simp only [hx, if_false] at h2; exact absurd h2 h1
      · exact absurd h2 h1
    | poll x =>
      simp only at h2
      split at h2
      · split at h2
        · by_cases hx : w = x
          · simp only [hx, if_true, Waiter.done.injEq] at h2; omega
          · simp only [hx, if_false] at h2; exact absurd h2 h1
        · by_cases hx : w = x
          · simp [hx] at h2
          · simp only [hx, if_false] at h2; exact absurd h2 h1
      · exact absurd h2 h1
    | register x =>
      simp only at h2
      split at h2
      · by_cases hx : w = x
        · simp [hx] at h2
        · simp only [hx, if_false] at h2; exact absurd h2 h1
      · exact absurd h2 h1
    | set k t =>
      simp only at h2
      split at h2 <;> exact absurd h2 h1
    | advance k t =>
      simp only at h2
      split at h2
      · exact absurd h2 h1
      · split at h2 <;> exact absurd h2 h1
    | notify k =>
      simp only at h2
      split at h2 <;> exact absurd h2 h1

/-- One waiter is early, the clock moves in two steps, and the waiter is woken at the second; another keeps waiting. -/
example :
    let as : List Action := [.wait 0 5, .wait 1 9, .poll 0, .register 0, .poll 1, .register 1, .advance 0 3, .notify 0, .poll 0, .register 0, .poll 1,
      .register 1, .set 0 5, .notify 0, .poll 0, .poll 1, .register 1]
    PollsUndisturbed .init as ∧ (State.init.run as).quiet ∧ (State.init.run as).waiter 0 = .done 5 ∧ (State.init.run as).waiter 1 = .idle 9 := by
  refine ⟨?_, ⟨?_, ?_, ?_⟩, ?_, ?_⟩
  · simp only [PollsUndisturbed, reduceCtorEq, exists_const, false_implies, true_and, and_true]
    refine ⟨?_, ?_⟩ <;> intro _ w t <;> by_cases hw : w = 0 <;> by_cases hw1 : w = 1 <;> simp [State.step, State.init, hw, hw1]
  · intro k
    by_cases hk : k = 0 <;> simp [State.run, State.step, State.init, hk]
  · intro w t
    by_cases hw : w = 0 <;> by_cases hw1 : w = 1 <;> simp [State.run, State.step, State.init, hw, hw1]
  · intro w t
    by_cases hw : w = 0 <;> by_cases hw1 : w = 1 <;> simp [State.run, State.step, State.init, hw, hw1]
  · simp [State.run, State.step, State.init]
  · simp [State.run, State.step, State.init]

end Ngfs.Clock
