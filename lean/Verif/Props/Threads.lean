import Verif.Model.Threads
import Mathlib.Data.List.Induction

/-! Property C170: the two sending threads and the printing thread. -/
namespace Ngfs.Threads

/-- `c` is made of `a` and `b`, each in its order. -/
inductive Interleaved : List String → List String → List String → Prop where
  | nil : Interleaved [] [] []
  | left {a b c : List String} (v : String) : Interleaved a b c → Interleaved (a ++ [v]) b (c ++ [v])
  | right {a b c : List String} (v : String) : Interleaved a b c → Interleaved a (b ++ [v]) (c ++ [v])

def Thread.left : Thread → List String
  | .running left => left
  | _ => []

/-- What every reachable state satisfies. -/
structure Inv (vals1 vals2 : List String) (s : State) : Prop where
  sent : ∃ a b, a ++ s.one.left = vals1 ∧ b ++ s.two.left = vals2 ∧ Interleaved a b (s.got ++ s.queue)
  ended : s.ended = true → s.one = .finished ∧ s.two = .finished ∧ s.queue = []
  calm : s.one ≠ .panicked ∧ s.two ≠ .panicked

theorem inv_step {vals1 vals2 : List String} {s : State} (h : Inv vals1 vals2 s) (a : Action) : Inv vals1 vals2 (s.step a) := by
  obtain ⟨one, two, queue, got, ended⟩ := s
  obtain ⟨⟨x, y, hx, hy, hi⟩, he, hc⟩ := h
  simp only at hx hy hi he hc
  rcases a with (_ | _) | _
  · rcases one with (_ | ⟨v, left⟩) | _ | _
    · exact ⟨⟨x, y, hx, hy, hi⟩, fun h => absurd (he h).1 (by simp), by simp [State.step, State.advance, State.thread, State.set, hc]⟩
    · have hne : ended = false := by
        cases ended with
        | false => rfl
        | true => exact absurd (he rfl).1 (by simp)
      subst hne
      refine ⟨⟨x ++ [v], y, by simpa [State.step, State.advance, State.thread, State.set, Thread.left] using hx, hy, ?_⟩, ?_, ?_⟩
      · have := hi.left v
        simpa [State.step, State.advance, State.thread, State.set] using this
      · intro h; cases h
      · exact ⟨(fun h => by cases h), hc.2⟩
    · exact ⟨⟨x, y, hx, hy, hi⟩, he, hc⟩
    · exact absurd rfl hc.1
  · rcases two with (_ | ⟨v, left⟩) | _ | _
    · exact ⟨⟨x, y, hx, hy, hi⟩, fun h => absurd (he h).2.1 (by simp), by simp [State.step, State.advance, State.thread, State.set, hc]⟩
    · have hne : ended = false := by
        cases ended with
        | false => rfl
        | true => exact absurd (he rfl).2.1 (by simp)
      subst hne
      refine ⟨⟨x, y ++ [v], hx, by simpa [State.step, State.advance, State.thread, State.set, Thread.left] using hy, ?_⟩, ?_, ?_⟩
      · have := hi.right v
        simpa [State.step, State.advance, State.thread, State.set] using this
      · intro h; cases h
      · exact ⟨hc.1, fun h => by cases h⟩
    · exact ⟨⟨x, y, hx, hy, hi⟩, he, hc⟩
    · exact absurd rfl hc.2
  · cases ended with
    | true => exact ⟨⟨x, y, hx, hy, hi⟩, he, hc⟩
    | false =>
      cases queue with
      | cons v queue =>
        refine ⟨⟨x, y, hx, hy, ?_⟩, (fun h => by cases h), hc⟩
        simpa [State.step, State.receive] using hi
      | nil =>
        by_cases ha : (one.alive || two.alive) = true
        · have : State.step ⟨one, two, [], got, false⟩ .main = ⟨one, two, [], got, false⟩ := by
            simp only [State.step, State.receive]; rw [if_pos ha]; simp
          rw [this]
          exact ⟨⟨x, y, hx, hy, hi⟩, he, hc⟩
        · have : State.step ⟨one, two, [], got, false⟩ .main = ⟨one, two, [], got, true⟩ := by
            simp only [State.step, State.receive]; rw [if_neg ha]; simp
          rw [this]
          refine ⟨⟨x, y, hx, hy, hi⟩, fun _ => ?_, hc⟩
          rcases one with _ | _ | _
          · simp [Thread.alive] at ha
          · rcases two with _ | _ | _
            · simp [Thread.alive] at ha
            · exact ⟨rfl, rfl, rfl⟩
            · exact absurd rfl hc.2
          · exact absurd rfl hc.1

theorem inv_run (vals1 vals2 : List String) (as : List Action) : Inv vals1 vals2 (run vals1 vals2 as) := by
  induction as using List.reverseRecOn with
  | nil => exact ⟨⟨[], [], rfl, rfl, .nil⟩, (fun h => by cases h), by simp [run, State.init]⟩
  | append_singleton as a ih =>
    have : run vals1 vals2 (as ++ [a]) = (run vals1 vals2 as).step a := by simp [run]
    rw [this]; exact inv_step ih a

/-- **C170**: whatever the order in which the three threads go on, what was printed and what is under way is made of what each thread has
sent, in its order; no thread panics; and once the loop that prints is over, everything of both threads was printed. -/
theorem C170_printed (vals1 vals2 : List String) (as : List Action) :
    (∃ a b, a <+: vals1 ∧ b <+: vals2 ∧ Interleaved a b ((run vals1 vals2 as).got ++ (run vals1 vals2 as).queue)) ∧
    ((run vals1 vals2 as).ended = true → Interleaved vals1 vals2 (run vals1 vals2 as).got) ∧
    (∀ w, (run vals1 vals2 as).thread w ≠ .panicked) := by
  obtain ⟨⟨x, y, hx, hy, hi⟩, he, hc⟩ := inv_run vals1 vals2 as
  refine ⟨⟨x, y, ⟨_, hx⟩, ⟨_, hy⟩, hi⟩, fun h => ?_, fun w => ?_⟩
  · obtain ⟨h1, h2, h3⟩ := he h
    rw [h1] at hx
    rw [h2] at hy
    rw [h3] at hi
    simp only [Thread.left, List.append_nil] at hx hy hi
    rw [hx, hy] at hi
    exact hi
  · cases w
    · exact hc.1
    · exact hc.2

/-- What is still to be done. -/
def Thread.work : Thread → Nat
  | .running left => 2 * left.length + 1
  | _ => 0

def State.work (s : State) : Nat := s.one.work + s.two.work + s.queue.length + if s.ended then 0 else 1

theorem step_work (s : State) (a : Action) (hc : s.ended = true → s.one = .finished ∧ s.two = .finished ∧ s.queue = []) :
    s.step a = s ∨ (s.step a).work < s.work := by
  obtain ⟨one, two, queue, got, ended⟩ := s
  simp only at hc
  rcases a with (_ | _) | _
  · rcases one with (_ | ⟨v, left⟩) | _ | _
    · right
      simp only [State.step, State.advance, State.thread, State.set, State.work, Thread.work, List.length_nil]
      cases ended <;> simp only [Bool.false_eq_true, if_false, if_true] <;> omega
    · have hne : ended = false := by
        cases ended with
        | false => rfl
        | true => exact absurd (hc rfl).1 (by simp)
      subst hne
      right; simp [State.step, State.advance, State.thread, State.set, State.work, Thread.work]; omega
    · left; rfl
    · left; rfl
  · rcases two with (_ | ⟨v, left⟩) | _ | _
    · right
      simp only [State.step, State.advance, State.thread, State.set, State.work, Thread.work, List.length_nil]
      cases ended <;> simp only [Bool.false_eq_true, if_false, if_true] <;> omega
    · have hne : ended = false := by
        cases ended with
        | false => rfl
        | true => exact absurd (hc rfl).2.1 (by simp)
      subst hne
      right; simp [State.step, State.advance, State.thread, State.set, State.work, Thread.work]; omega
    · left; rfl
    · left; rfl
  · cases ended with
    | true => left; rfl
    | false =>
      cases queue with
      | cons v queue => right; simp [State.step, State.receive, State.work]
      | nil =>
        by_cases ha : (one.alive || two.alive) = true
        · left; simp only [State.step, State.receive]; rw [if_pos ha]; simp
        · right; simp only [State.step, State.receive]; rw [if_neg ha]; simp [State.work]

/-- A thread that can go on. -/
theorem not_stuck (s : State) (h : s.ended = false) (hp : s.one ≠ .panicked ∧ s.two ≠ .panicked) : ∃ a, s.step a ≠ s := by
  obtain ⟨one, two, queue, got, ended⟩ := s
  simp only at h hp
  subst h
  rcases one with (_ | ⟨v, left⟩) | _ | _
  · exact ⟨.thread .one, by simp [State.step, State.advance, State.thread, State.set]⟩
  · exact ⟨.thread .one, by simp [State.step, State.advance, State.thread, State.set]⟩
  · rcases two with (_ | ⟨v, left⟩) | _ | _
    · exact ⟨.thread .two, by simp [State.step, State.advance, State.thread, State.set]⟩
    · exact ⟨.thread .two, by simp [State.step, State.advance, State.thread, State.set]⟩
    · cases queue with
      | nil => exact ⟨.main, by simp [State.step, State.receive, Thread.alive]⟩
      | cons v q =>
        refine ⟨.main, fun h => ?_⟩
        have := congrArg (fun s => s.queue.length) h
        simp [State.step, State.receive] at this
    · exact absurd rfl hp.2
  · exact absurd rfl hp.1

/-- **C170**, it ends: as long as printing is not over some thread can go on, and each thing a thread does leaves less to do; so that every
run in which threads that can go on do go on comes to the end, after at most `2 * (texts of both) + 3` operations. -/
theorem C170_ends (vals1 vals2 : List String) (as : List Action) :
    ((run vals1 vals2 as).ended = false → ∃ a, (run vals1 vals2 as).step a ≠ run vals1 vals2 as) ∧
    (∀ a, (run vals1 vals2 as).step a = run vals1 vals2 as ∨ ((run vals1 vals2 as).step a).work < (run vals1 vals2 as).work) ∧
    (run vals1 vals2 as).work ≤ 2 * (vals1.length + vals2.length) + 3 := by
  have hi := inv_run vals1 vals2 as
  refine ⟨fun h => not_stuck _ h hi.calm, fun a => step_work _ a hi.ended, ?_⟩
  induction as using List.reverseRecOn with
  | nil => simp [run, State.init, State.work, Thread.work]; omega
  | append_singleton as a ih =>
    have : run vals1 vals2 (as ++ [a]) = (run vals1 vals2 as).step a := by simp [run]
    rw [this]
    rcases step_work _ a (inv_run vals1 vals2 as).ended with h | h
    · rw [h]; exact ih (inv_run vals1 vals2 as)
    · have := ih (inv_run vals1 vals2 as); omega

/-- The texts of the program, in one order of the threads. -/
example : (run ["hi", "from"] ["more"] [.thread .one, .main, .thread .two, .thread .one, .main, .main, .thread .one, .thread .two, .main]).got =
    ["hi", "more", "from"] ∧
  (run ["hi", "from"] ["more"] [.thread .one, .main, .thread .two, .thread .one, .main, .main, .thread .one, .thread .two, .main]).ended = true := by
  decide

end Ngfs.Threads
