import Verif.Spec.Echo
import Mathlib.Algebra.BigOperators.Group.List.Basic

/-! C142: the echo server. -/
namespace Ngfs.Echo
open Ngfs.Spec.Echo

/-- The bytes the task has read and not yet written. -/
def TaskState.pending : TaskState → Bytes
  | .countReceived buf => buf
  | .writing left _ => left
  | _ => []

/-- Read but not yet counted as received. -/
def TaskState.uncounted : TaskState → Nat
  | .countReceived buf => buf.length
  | _ => 0

/-- Counted as received but not yet as sent. -/
def TaskState.debt : TaskState → Nat
  | .writing _ n | .countSent n => n
  | _ => 0

/-- Written but not yet counted as sent. -/
def TaskState.written : TaskState → Nat
  | .writing left n => n - left.length
  | .countSent n => n
  | _ => 0

/-- What holds of connection `i` after some actions. -/
structure ConnOk (acts : List Action) (i : Nat) (c : Conn) : Prop where
  pre : c.out <+: input i acts
  all : c.task ≠ .panicked → c.out ++ c.task.pending = input i acts
  writing : ∀ left n, c.task = .writing left n → left ≠ [] ∧ left.length ≤ n

/-- A number summed over the connections. -/
def total (f : Conn → Nat) (cs : List Conn) : Nat := (cs.map f).sum

theorem total_set {f : Conn → Nat} : ∀ {cs : List Conn} {i : Nat} {c c' : Conn}, cs[i]? = some c →
    total f (cs.set i c') + f c = total f cs + f c'
  | [], _, _, _, h => by simp at h
  | x :: xs, 0, c, c', h => by
    simp only [List.getElem?_cons_zero, Option.some.injEq] at h
    subst h
    simp [total]
    omega
  | x :: xs, i + 1, c, c', h => by
    have ih := total_set (f := f) (c' := c') (show xs[i]? = some c by simpa using h)
    simp [total] at *
    omega

/-- What holds after some actions. -/
structure Inv (acts : List Action) (s : State) : Prop where
  conns : ∀ i c, s.conns[i]? = some c → ConnOk acts i c
  rest : ∀ i, s.conns.length ≤ i → input i acts = []
  count : totalInput acts = s.received + total (·.task.uncounted) s.conns
  paid : s.sent + total (·.task.debt) s.conns ≤ s.received
  paidAll : (∀ c ∈ s.conns, c.task ≠ .panicked) → s.sent + total (·.task.debt) s.conns = s.received
  wrote : s.sent + total (·.task.written) s.conns ≤ total (·.out.length) s.conns
  printed : ∀ x ∈ s.printed, x.2 ≤ x.1 ∧ x.1 ≤ totalInput acts

theorem input_append (i : Nat) : ∀ a b, input i (a ++ b) = input i a ++ input i b
  | [], b => rfl
  | x :: a, b => by
    cases x <;> simp [input, input_append i a b]

theorem totalInput_append : ∀ a b, totalInput (a ++ b) = totalInput a + totalInput b
  | [], b => by simp [totalInput]
  | x :: a, b => by
    cases x <;> simp [totalInput, totalInput_append a b] <;> omega

theorem Inv.put {acts acts' : List Action} {s : State} (h : Inv acts s) {i : Nat} {c c' : Conn} (hc : s.conns[i]? = some c)
    {r t : Nat} {pr : List (Nat × Nat)} (hin : ∀ j, j ≠ i → input j acts' = input j acts) (hok : ConnOk acts' i c')
    (hcount : totalInput acts' + s.received + c.task.uncounted = totalInput acts + r + c'.task.uncounted)
    (hpaid : t + c'.task.debt + s.received ≤ s.sent + c.task.debt + r)
    (halive : c.task ≠ .panicked)
    (hpaidAll : c'.task ≠ .panicked → t + c'.task.debt + s.received = s.sent + c.task.debt + r)
    (hwrote : t + c'.task.written + c.out.length ≤ s.sent + c.task.written + c'.out.length)
    (hpr : ∀ x ∈ pr, x.2 ≤ x.1 ∧ x.1 ≤ totalInput acts') :
    Inv acts' ⟨s.conns.set i c', r, t, pr⟩ := by
  have hi := (List.getElem?_eq_some_iff.1 hc).1
  refine ⟨?_, ?_, ?_, ?_, ?_, ?_, hpr⟩
  · intro j d hd
    by_cases hj : j = i
    · subst hj
      simp [hi] at hd
      exact hd ▸ hok
    · rw [List.getElem?_set_ne (fun e => hj e.symm)] at hd
      have := h.conns j d hd
      exact ⟨by rw [hin j hj]; exact this.pre, by rw [hin j hj]; exact this.all, this.writing⟩
  · intro j hj
    simp only [List.length_set] at hj
    rw [hin j (by omega)]
    exact h.rest j hj
  · have := total_set (f := (·.task.uncounted)) (c' := c') hc
    have := h.count
    simp only at *
    omega
  · have := total_set (f := (·.task.debt)) (c' := c') hc
    have := h.paid
    simp only at *
    omega
  · intro ha
    have h1 : c'.task ≠ .panicked := ha c' (by rw [List.mem_iff_getElem?]; exact ⟨i, by simp [hi]⟩)
    have h2 := h.paidAll (by
      intro d hd
      obtain ⟨j, hj⟩ := List.mem_iff_getElem?.1 hd
      by_cases hji : j = i
      · subst hji
        rw [hc] at hj
        cases hj
        exact halive
      · exact ha d (by rw [List.mem_iff_getElem?]; exact ⟨j, by rw [List.getElem?_set_ne (fun e => hji e.symm)]; exact hj⟩))
    have := total_set (f := (·.task.debt)) (c' := c') hc
    have := hpaidAll h1
    simp only at *
    omega
  · have := total_set (f := (·.task.written)) (c' := c') hc
    have := total_set (f := (·.out.length)) (c' := c') hc
    have := h.wrote
    simp only at *
    omega

theorem Inv.step {acts : List Action} {s s' : State} (h : Inv acts s) {a : Action} (hs : step s a = some s') :
    Inv (acts ++ [a]) s' := by
  have quiet : ∀ j, (∀ k d, a ≠ .read k d) → input j (acts ++ [a]) = input j acts := by
    intro j ha
    rw [input_append]
    cases a <;> simp [input]
    exact absurd rfl (ha _ _)
  have quietTotal : (∀ k d, a ≠ .read k d) → totalInput (acts ++ [a]) = totalInput acts := by
    intro ha
    rw [totalInput_append]
    cases a <;> simp [totalInput]
    exact absurd rfl (ha _ _)
  cases a with
  | accept =>
    simp only [Echo.step, Option.some.injEq] at hs
    subst hs
    have q := fun j => quiet j (by simp)
    have qt := quietTotal (by simp)
    refine ⟨?_, ?_, ?_, ?_, ?_, ?_, ?_⟩
    · intro i c hc
      simp only at hc
      by_cases hi : i < s.conns.length
      · rw [List.getElem?_append_left hi] at hc
        have := h.conns i c hc
        exact ⟨by rw [q]; exact this.pre, by rw [q]; exact this.all, this.writing⟩
      · rw [List.getElem?_append_right (by omega), List.getElem?_singleton] at hc
        split at hc
        · cases hc
          have := h.rest i (by omega)
          exact ⟨by simp, by rw [q, this]; simp [TaskState.pending], by simp⟩
        · cases hc
    · intro i hi
      simp only [List.length_append, List.length_cons, List.length_nil] at hi
      rw [q]
      exact h.rest i (by omega)
    · have := h.count
      simp [total, TaskState.uncounted, qt] at *
      exact this
    · have := h.paid
      simp [total, TaskState.debt] at *
      exact this
    · intro ha
      have := h.paidAll (fun c hc => ha c (by simp [hc]))
      simp [total, TaskState.debt] at *
      exact this
    · have := h.wrote
      simp [total, TaskState.written] at *
      exact this
    · rw [qt]; exact h.printed
  | read i data =>
    simp only [Echo.step] at hs
    split at hs
    · rename_i out hc
      split at hs
      · cases hs
        have ok := h.conns i _ hc
        have hin : ∀ j, input j (acts ++ [.read i data]) = input j acts ++ (if i = j then data else []) := by
          intro j; rw [input_append]; simp [input]
        have ht : totalInput (acts ++ [.read i data]) = totalInput acts + data.length := by
          rw [totalInput_append]; simp [totalInput]
        have all := ok.all (by simp)
        refine h.put hc (fun j hj => by rw [hin, if_neg (fun e => hj e.symm)]; simp) ⟨?_, ?_, ?_⟩ ?_ ?_ (by simp) ?_ ?_ ?_
        · rw [hin]; exact ok.pre.trans (List.prefix_append _ _)
        · intro _
          rw [hin, if_pos rfl, ← all]
          simp [TaskState.pending]
        · intro l n e; cases e
        · simp [ht, TaskState.uncounted]; omega
        · simp [TaskState.debt]
        · simp [TaskState.debt]
        · simp [TaskState.written]
        · intro x hx
          have := h.printed x hx
          rw [ht]; omega
      · cases hs
    · cases hs
  | readFails i =>
    simp only [Echo.step] at hs
    split at hs
    · rename_i out hc
      cases hs
      have ok := h.conns i _ hc
      have q := fun j => quiet j (by simp)
      have qt := quietTotal (by simp)
      refine h.put hc (fun j _ => q j) ⟨by rw [q]; exact ok.pre, by simp, by simp⟩ ?_ ?_ (by simp) ?_ ?_ ?_
      · simp [qt, TaskState.uncounted]
      · simp [TaskState.debt]
      · simp
      · simp [TaskState.written]
      · rw [qt]; exact h.printed
    · cases hs
  | count i =>
    have q := fun j => quiet j (by simp)
    have qt := quietTotal (by simp)
    simp only [Echo.step] at hs
    split at hs
    · rename_i buf out hc
      cases hs
      have ok := h.conns i _ hc
      have all := ok.all (by simp)
      have hlen : s.received + buf.length ≤ totalInput acts := by
        have h1 := h.count
        have h2 := total_set (f := (·.task.uncounted)) (c' := ⟨.reading, []⟩) hc
        have e1 : (TaskState.countReceived buf).uncounted = buf.length := rfl
        simp only [e1] at h2
        have e2 : TaskState.reading.uncounted = 0 := rfl
        simp only [e2] at h2
        omega
      have hprint : ∀ x ∈ (s.received + buf.length, s.sent) :: s.printed, x.2 ≤ x.1 ∧ x.1 ≤ totalInput (acts ++ [.count i]) := by
        intro x hx
        rw [qt]
        rcases List.mem_cons.1 hx with rfl | hx
        · have := h.paid
          exact ⟨by simp only; omega, hlen⟩
        · exact h.printed x hx
      refine h.put hc (fun j _ => q j) ⟨by rw [q]; exact ok.pre, ?_, ?_⟩ ?_ ?_ (by simp) ?_ ?_ hprint
      · intro _
        rw [q, ← all]
        simp only [List.length_eq_zero_iff]
        split
        · rename_i e; simp [e, TaskState.pending]
        · simp [TaskState.pending]
      · intro l n e
        simp only at e
        split at e
        · cases e
        · cases e
          refine ⟨?_, Nat.le_refl _⟩
          rintro rfl
          simp at *
      · simp only [qt]
        split
        · simp [TaskState.uncounted]; omega
        · simp [TaskState.uncounted]; omega
      · simp only
        split
        · simp [TaskState.debt]
        · simp [TaskState.debt]; omega
      · intro _
        simp only
        split
        · rename_i e; simp [TaskState.debt, e]
        · simp [TaskState.debt]; omega
      · simp only
        split <;> simp [TaskState.written]
    · rename_i n out hc
      cases hs
      have ok := h.conns i _ hc
      have all := ok.all (by simp)
      have hp : s.sent + n ≤ s.received := by
        have h1 := h.paid
        have h2 := total_set (f := (·.task.debt)) (c' := ⟨.reading, []⟩) hc
        have e1 : (TaskState.countSent n).debt = n := rfl
        have e2 : TaskState.reading.debt = 0 := rfl
        simp only [e1, e2] at h2
        omega
      have hprint : ∀ x ∈ (s.received, s.sent + n) :: s.printed, x.2 ≤ x.1 ∧ x.1 ≤ totalInput (acts ++ [.count i]) := by
        intro x hx
        rw [qt]
        rcases List.mem_cons.1 hx with rfl | hx
        · have := h.count
          exact ⟨hp, by simp only; omega⟩
        · exact h.printed x hx
      refine h.put hc (fun j _ => q j) ⟨by rw [q]; exact ok.pre, ?_, by simp⟩ ?_ ?_ (by simp) ?_ ?_ hprint
      · intro _
        rw [q, ← all]
        simp [TaskState.pending]
      · simp [qt, TaskState.uncounted]
      · simp [TaskState.debt]
      · simp [TaskState.debt]
      · simp [TaskState.written]
    · cases hs
  | write i k =>
    have q := fun j => quiet j (by simp)
    have qt := quietTotal (by simp)
    simp only [Echo.step] at hs
    split at hs
    · rename_i left n out hc
      split at hs
      · rename_i hk
        cases hs
        have ok := h.conns i _ hc
        have all := ok.all (by simp)
        obtain ⟨_, hw⟩ := ok.writing left n rfl
        simp only [TaskState.pending] at all
        have hlen : (left.take k).length = k := by simp; omega
        refine h.put hc (fun j _ => q j) ⟨?_, ?_, ?_⟩ ?_ ?_ (by simp) ?_ ?_ (by rw [qt]; exact h.printed)
        · rw [q, ← all]
          exact (List.prefix_append_right_inj out).2 (List.take_prefix k left)
        · intro _
          rw [q, ← all]
          simp only
          split
          · rename_i e
            have e2 : left.take k = left := by simpa [e] using List.take_append_drop k left
            simp [TaskState.pending, e2]
          · simp [TaskState.pending]
        · intro l m e
          simp only at e
          split at e
          · cases e
          · cases e
            rename_i hne
            refine ⟨hne, ?_⟩
            rw [List.length_drop]
            omega
        · simp only [qt]
          split <;> simp [TaskState.uncounted]
        · simp only
          split <;> simp [TaskState.debt]
        · intro _
          simp only
          split <;> simp [TaskState.debt]
        · simp only [List.length_append, hlen]
          split
          · rename_i e
            have := List.length_eq_zero_iff.2 e
            rw [List.length_drop] at this
            simp [TaskState.written]
            omega
          · simp [TaskState.written]
            omega
      · cases hs
    · cases hs
  | writeFails i =>
    simp only [Echo.step] at hs
    split at hs
    · rename_i left n out hc
      cases hs
      have ok := h.conns i _ hc
      have q := fun j => quiet j (by simp)
      have qt := quietTotal (by simp)
      refine h.put hc (fun j _ => q j) ⟨by rw [q]; exact ok.pre, by simp, by simp⟩ ?_ ?_ (by simp) ?_ ?_ ?_
      · simp [qt, TaskState.uncounted]
      · simp [TaskState.debt]
      · simp
      · simp [TaskState.written]
      · rw [qt]; exact h.printed
    · cases hs

theorem Inv.run : ∀ {as acts : List Action} {s s' : State}, Inv acts s → run s as = some s' → Inv (acts ++ as) s'
  | [], acts, s, s', h, hr => by cases hr; simpa using h
  | a :: as, acts, s, s', h, hr => by
    rw [Echo.run] at hr
    obtain ⟨t, h1, h2⟩ := Option.bind_eq_some_iff.1 hr
    have := (h.step h1).run h2
    simpa using this

theorem Inv.init : Inv [] State.init := by
  refine ⟨?_, ?_, rfl, ?_, ?_, ?_, ?_⟩ <;> simp [State.init, total, input]

/-! ### C142 -/

/-- **C142**: however the tasks are interleaved, and however the sockets split what they are given: what was written back
to a client is the beginning of what was read from it; it is all of it when the task waits for more or has seen the end. -/
theorem C142_echo (acts : List Action) (s : State) (h : run State.init acts = some s) (i : Nat) (c : Conn) (hc : s.conns[i]? = some c) :
    c.out <+: input i acts ∧ ((c.task = .reading ∨ c.task = .finished) → c.out = input i acts) := by
  have ok := (Inv.init.run h).conns i c hc
  refine ⟨ok.pre, fun ht => ?_⟩
  rcases ht with ht | ht <;> have := ok.all (by simp [ht]) <;> simpa [ht, TaskState.pending] using this

/-- **C142**: the two numbers printed never show more sent than received, nor more received than was read from all
sockets; never more is counted as sent than was written to all sockets. When no task has failed and all of them wait or
have seen the end, both counters are the number of bytes read. -/
theorem C142_counters (acts : List Action) (s : State) (h : run State.init acts = some s) :
    (∀ x ∈ s.printed, x.2 ≤ x.1 ∧ x.1 ≤ totalInput acts) ∧ s.sent ≤ ((s.conns.map (·.out.length)).sum) ∧
    ((∀ c ∈ s.conns, c.task = .reading ∨ c.task = .finished) → s.received = totalInput acts ∧ s.sent = totalInput acts) := by
  have inv := Inv.init.run h
  refine ⟨inv.printed, ?_, fun hq => ?_⟩
  · have := inv.wrote
    simp only [total] at this
    omega
  · have zero : ∀ (f : TaskState → Nat), f .reading = 0 → f .finished = 0 → total (fun c => f c.task) s.conns = 0 := by
      intro f h1 h2
      unfold total
      rw [List.sum_eq_zero]
      intro x hx
      obtain ⟨c, hc, rfl⟩ := List.mem_map.1 hx
      rcases hq c hc with e | e <;> simp [e, h1, h2]
    have h1 := inv.count
    have h2 := inv.paidAll (fun c hc => by rcases hq c hc with e | e <;> simp [e])
    rw [zero TaskState.uncounted rfl rfl] at h1
    rw [zero TaskState.debt rfl rfl] at h2
    simp only [List.nil_append] at h1
    omega

theorem run_append (s : State) : ∀ as bs, run s (as ++ bs) = (run s as).bind (run · bs) := by
  intro as
  induction as generalizing s with
  | nil => intro bs; rfl
  | cons a as ih =>
    intro bs
    simp only [List.cons_append, run]
    cases step s a with
    | none => rfl
    | some t => exact ih t bs

/-- **C142**: nobody waits for anybody else. Whatever the other connections do or fail to do, a connection with
something to write back can do so by steps of its own task alone, after which it waits for more, or has ended, with
everything written back. -/
theorem C142_progress (acts : List Action) (s : State) (h : run State.init acts = some s) (i : Nat) (c : Conn)
    (hc : s.conns[i]? = some c) (ha : c.task ≠ .panicked) :
    ∃ more s' c', (∀ a ∈ more, Serves i a) ∧ run s more = some s' ∧ s'.conns[i]? = some c' ∧
      (c'.task = .reading ∨ c'.task = .finished) ∧ c'.out = input i acts := by
  have inv := Inv.init.run h
  have hi := (List.getElem?_eq_some_iff.1 hc).1
  have ok := inv.conns i c hc
  have all := ok.all ha
  obtain ⟨task, out⟩ := c
  have fromSent : ∀ (s : State) n (out : Bytes), i < s.conns.length → s.conns[i]? = some ⟨.countSent n, out⟩ →
      ∃ s', run s [.count i] = some s' ∧ s'.conns[i]? = some ⟨.reading, out⟩ := by
    intro s n out hi hc
    refine ⟨_, by simp only [run, step, hc]; rfl, by simp [State.put, hi]⟩
  have fromWriting : ∀ (s : State) left n (out : Bytes), i < s.conns.length → left ≠ [] → s.conns[i]? = some ⟨.writing left n, out⟩ →
      ∃ s', run s [.write i left.length, .count i] = some s' ∧ s'.conns[i]? = some ⟨.reading, out ++ left⟩ := by
    intro s left n out hi hne hc
    have hpos := List.length_pos_iff.2 hne
    obtain ⟨s', h1, h2⟩ := fromSent (s.put i ⟨.countSent n, out ++ left⟩) n (out ++ left) (by simp [State.put, hi])
      (by simp [State.put, hi])
    refine ⟨s', ?_, h2⟩
    rw [run]
    simp only [step, hc, hpos, Nat.le_refl, and_self, if_true, List.drop_length, List.take_length, Option.bind_some]
    exact h1
  cases task with
  | reading => exact ⟨[], s, _, by simp, rfl, hc, .inl rfl, by simpa [TaskState.pending] using all⟩
  | finished => exact ⟨[], s, _, by simp, rfl, hc, .inr rfl, by simpa [TaskState.pending] using all⟩
  | panicked => exact absurd rfl ha
  | countSent n =>
    obtain ⟨s', h1, h2⟩ := fromSent s n out hi hc
    exact ⟨_, s', _, by simp [Serves], h1, h2, .inl rfl, by simpa [TaskState.pending] using all⟩
  | writing left n =>
    obtain ⟨s', h1, h2⟩ := fromWriting s left n out hi (ok.writing left n rfl).1 hc
    exact ⟨_, s', _, by simp [Serves], h1, h2, .inl rfl, by simpa [TaskState.pending] using all⟩
  | countReceived buf =>
    by_cases hb : buf = []
    · subst hb
      refine ⟨[.count i], _, ⟨.finished, out⟩, by simp [Serves], by simp only [run, step, hc]; rfl, by simp [State.put, hi], .inr rfl, ?_⟩
      simpa [TaskState.pending] using all
    · have hl : buf.length ≠ 0 := fun e => hb (List.length_eq_zero_iff.1 e)
      obtain ⟨s', h1, h2⟩ := fromWriting (({ s with received := s.received + buf.length, printed := (s.received + buf.length, s.sent) :: s.printed } : State).put i ⟨.writing buf buf.length, out⟩)
        buf buf.length out (by simp [State.put, hi]) hb (by simp [State.put, hi])
      refine ⟨[.count i, .write i buf.length, .count i], s', _, by simp [Serves], ?_, h2, .inl rfl, by simpa [TaskState.pending] using all⟩
      rw [run]
      simp only [step, hc, hl, if_false, Option.bind_some]
      exact h1

/-- Two clients, interleaved, the second with a short write. -/
example : (run State.init [.accept, .accept, .read 0 [1, 2], .read 1 [7, 8, 9], .count 1, .write 1 2, .count 0, .write 0 2, .write 1 1,
    .count 0, .count 1, .read 0 [], .count 0]).map (fun s => (s.conns.map (fun c => (c.task, c.out)), s.printed.head?)) =
    some ([(.finished, [1, 2]), (.reading, [7, 8, 9])], some (5, 5)) := by decide

end Ngfs.Echo
