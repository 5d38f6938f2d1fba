import Verif.Model.Producer
import Mathlib.Data.List.Induction
import Mathlib.Algebra.BigOperators.Group.List.Basic

/-! Property C164: the joined producer and consumer. -/
namespace Ngfs.Producer

/-- The numbers the producer has announced. -/
def counts (log : List Line) : List Nat := log.filterMap fun | .counted n => some n | _ => none

/-- The results the consumer has announced. -/
def results (log : List Line) : List Nat := log.filterMap fun | .result n => some n | _ => none

@[simp] theorem counts_append (a b : List Line) : counts (a ++ b) = counts a ++ counts b := List.filterMap_append
@[simp] theorem results_append (a b : List Line) : results (a ++ b) = results a ++ results b := List.filterMap_append

theorem produce_spec (goal k : Nat) : ∀ s : State, s.count < goal → s.producerDone = false →
    (s.produce goal k).count = min goal (s.count + k) ∧
    ((s.produce goal k).producerDone = true ↔ goal ≤ s.count + k) ∧
    (s.produce goal k).consumerDone = s.consumerDone ∧
    results (s.produce goal k).log = results s.log ∧
    counts (s.produce goal k).log = counts s.log ++ List.range' (s.count + 1) (min goal (s.count + k) - s.count) := by
  induction k with
  | zero =>
    intro s h hd
    refine ⟨by simp [State.produce]; omega, by simp [State.produce, hd]; omega, rfl, rfl, ?_⟩
    have : min goal (s.count + 0) - s.count = 0 := by omega
    rw [this]; simp [State.produce]
  | succ k ih =>
    intro s h hd
    unfold State.produce
    by_cases hg : s.count + 1 ≥ goal
    · rw [if_pos hg]
      have h1 : min goal (s.count + (k + 1)) = s.count + 1 := by omega
      refine ⟨h1.symm, by simp; omega, rfl, by simp [results], ?_⟩
      rw [h1]; simp [counts]
    · rw [if_neg hg]
      obtain ⟨a, b, c, d, e⟩ := ih { s with count := s.count + 1, log := s.log ++ [.counted (s.count + 1)] } (by simp only; omega) hd
      have h1 : s.count + 1 + k = s.count + (k + 1) := by omega
      rw [h1] at a b e
      refine ⟨a, b, c, by rw [d]; simp [results], ?_⟩
      rw [e, counts_append]
      have h2 : min goal (s.count + (k + 1)) - s.count = (min goal (s.count + (k + 1)) - (s.count + 1)) + 1 := by omega
      rw [h2, List.range'_succ]
      simp [counts]

/-- The one result is the count at the end of the first poll in which the count reaches what the consumer waits for. -/
def Announced (goal wanted : Nat) (polls : List Nat) (log : List Line) : Prop :=
  ∃ before k after, polls = before ++ k :: after ∧ before.sum < wanted ∧ wanted ≤ before.sum + k ∧
    results log = [min goal (before.sum + k)]

theorem run_spec (goal wanted : Nat) (hw : 0 < wanted) (hg : wanted ≤ goal) (polls : List Nat) :
    (run goal wanted polls).count = min goal polls.sum ∧
    ((run goal wanted polls).producerDone = true ↔ goal ≤ polls.sum) ∧
    counts (run goal wanted polls).log = List.range' 1 (min goal polls.sum) ∧
    ((run goal wanted polls).consumerDone = true ↔ wanted ≤ polls.sum) ∧
    (polls.sum < wanted → results (run goal wanted polls).log = []) ∧
    (wanted ≤ polls.sum → Announced goal wanted polls (run goal wanted polls).log) := by
  induction polls using List.reverseRecOn with
  | nil =>
    refine ⟨by simp [run, State.init], by simp [run, State.init]; omega, by simp [run, State.init, counts], by simp [run, State.init]; omega,
      fun _ => by simp [run, State.init, results], fun h => by simp at h; omega⟩
  | append_singleton ps k ih =>
    obtain ⟨hc, hp, hl, hd, hr0, hr1⟩ := ih
    have hrun : run goal wanted (ps ++ [k]) = (run goal wanted ps).poll goal wanted k := by simp [run]
    have hsum : (ps ++ [k]).sum = ps.sum + k := by simp
    rw [hrun, hsum]
    generalize run goal wanted ps = s at *
    -- the producer's part
    have hprod : ∃ s1, (if s.producerDone then s else s.produce goal k) = s1 ∧ s1.count = min goal (ps.sum + k) ∧
        (s1.producerDone = true ↔ goal ≤ ps.sum + k) ∧ counts s1.log = List.range' 1 (min goal (ps.sum + k)) ∧
        s1.consumerDone = s.consumerDone ∧ results s1.log = results s.log := by
      by_cases hdone : s.producerDone = true
      · rw [if_pos hdone]
        have := hp.mp hdone
        refine ⟨s, rfl, by omega, by simp [hdone]; omega, ?_, rfl, rfl⟩
        rw [hl]; congr 1; omega
      · rw [if_neg hdone]
        have hlt : ps.sum < goal := by
          by_contra hh
          exact hdone (hp.mpr (by omega))
        obtain ⟨a, b, c, d, e⟩ := produce_spec goal k s (by omega) (by simpa using hdone)
        have hsc : s.count = ps.sum := by omega
        rw [hsc] at a b e
        refine ⟨_, rfl, a, b, ?_, c, d⟩
        rw [e, hl]
        have h1 : min goal ps.sum = ps.sum := by omega
        have h2 : min goal (ps.sum + k) = ps.sum + (min goal (ps.sum + k) - ps.sum) := by omega
        rw [h1]
        conv => rhs; rw [h2]
        rw [← List.range'_append_1, Nat.add_comm 1]
    obtain ⟨s1, e1, c1, p1, l1, d1, r1⟩ := hprod
    unfold State.poll
    rw [e1]
    dsimp only
    by_cases hdone : s.consumerDone = true
    · have hge := hd.mp hdone
      rw [if_pos (by rw [d1]; exact hdone)]
      refine ⟨c1, p1, l1, by rw [d1, hdone]; simp; omega, fun h => absurd h (by omega), fun _ => ?_⟩
      obtain ⟨bef, j, aft, ha, hb, hc', hr⟩ := hr1 hge
      exact ⟨bef, j, aft ++ [k], by simp [ha], hb, hc', by rw [r1, hr]⟩
    · have hlt : ps.sum < wanted := by
        by_contra hh
        exact hdone (hd.mpr (by omega))
      rw [if_neg (by rw [d1]; exact hdone)]
      unfold State.consume
      dsimp only
      by_cases hw2 : s1.count ≥ wanted
      · rw [if_pos hw2]
        refine ⟨c1, p1, by simp only [counts_append, l1]; simp [counts], by simp; omega, fun h => by omega, fun _ => ?_⟩
        refine ⟨ps, k, [], rfl, hlt, by omega, ?_⟩
        simp only [results_append, r1, hr0 hlt, c1]
        simp [results]
      · rw [if_neg hw2]
        refine ⟨c1, p1, by simp only [counts_append, l1]; simp [counts], ⟨fun h => absurd (d1 ▸ h) hdone, fun h => by omega⟩, fun _ => ?_, fun h => by omega⟩
        simp only [results_append, r1, hr0 hlt]
        simp [results]

/-- **C164**: however the polls of the task and the timer go, the producer counts 1, 2, 3, … up to its goal without leaving out a
number, the consumer announces one result, in the first poll in which the count has reached what it waits for, and the result is the
count of that moment; the program has ended exactly when the timer has been over as many times as the goal says. -/
theorem C164_join (goal wanted : Nat) (hw : 0 < wanted) (hg : wanted ≤ goal) (polls : List Nat) :
    counts (run goal wanted polls).log = List.range' 1 (min goal polls.sum) ∧
    (polls.sum < wanted → results (run goal wanted polls).log = []) ∧
    (wanted ≤ polls.sum → Announced goal wanted polls (run goal wanted polls).log) ∧
    ((run goal wanted polls).ended = true ↔ goal ≤ polls.sum) := by
  obtain ⟨-, hp, hl, hd, hr0, hr1⟩ := run_spec goal wanted hw hg polls
  refine ⟨hl, hr0, hr1, ?_⟩
  unfold State.ended
  rw [Bool.and_eq_true, hp, hd]
  constructor
  · exact fun h => h.1
  · exact fun h => ⟨h, by omega⟩

/-- **C164**, when no poll finds the timer over more than once: the result is exactly the count the consumer waits for. -/
theorem C164_exact (goal wanted : Nat) (hw : 0 < wanted) (hg : wanted ≤ goal) (polls : List Nat) (h1 : ∀ k ∈ polls, k ≤ 1) :
    results (run goal wanted polls).log = if wanted ≤ polls.sum then [wanted] else [] := by
  obtain ⟨-, -, -, -, hr0, hr1⟩ := run_spec goal wanted hw hg polls
  by_cases h : wanted ≤ polls.sum
  · rw [if_pos h]
    obtain ⟨bef, k, aft, ha, hb, hc, hr⟩ := hr1 h
    have : k ≤ 1 := h1 k (by simp [ha])
    rw [hr]; congr 1; omega
  · rw [if_neg h]; exact hr0 (by omega)

/-- The program as it is: ten and five, one poll without and then one for each time the timer is over. -/
example : (run 10 5 [0, 1, 1, 1, 1, 1, 1, 1, 1, 1, 1]).ended = true ∧ results (run 10 5 [0, 1, 1, 1, 1, 1, 1, 1, 1, 1, 1]).log = [5] := by decide
/-- A thread that was held up: the result is the count found. -/
example : results (run 10 5 [0, 3, 4]).log = [7] ∧ (run 10 5 [0, 3, 4]).ended = false := by decide

end Ngfs.Producer
