import Verif.Model.Listen
import Mathlib.Data.List.Nodup
import Mathlib.Data.List.Induction

/-!
C194: a client that was accepted is served until its own connection ends.

What clients there are is told from the history alone: connections are numbered in the order in which they come.
-/
namespace Ngfs.Listen

/-- The directions in which a connection of a program is served. -/
def Serves (p : Program) (side : Side) : Prop := p = .proxy ∨ side = .up

/-- The connection with this number has come, and, for the proxy, the server was reached for it. -/
def Taken (p : Program) (es : List Event) (id : Nat) : Prop :=
  id < es.count (if p = .proxy then Event.connected else Event.accepted)

/-- The full property. -/
def C194_statement : Prop :=
  ∀ (p : Program) (es : List Event) (s : State), run p State.init es = some s →
    ∀ id side, Serves p side → Taken p es id → Event.ends id side ∉ es → (id, side) ∈ s.tasks

theorem run_append (p : Program) (s : State) (es : List Event) (e : Event) :
    run p s (es ++ [e]) = (run p s es).bind (fun s' => step p s' e) := by
  induction es generalizing s with
  | nil => simp only [List.nil_append, run, Option.bind_some]; cases step p s e <;> rfl
  | cons x es ih =>
    simp only [List.cons_append, run]
    cases h : step p s x with
    | none => rfl
    | some s' => simp only [ih]

/-- What is true of every state in which the program can be. -/
structure Inv (p : Program) (es : List Event) (s : State) : Prop where
  next : s.next = es.count .accepted
  settled : p = .proxy → s.place = .accepting → es.count .connected = s.next
  waiting : ∀ id, s.place = .connecting id → p = .proxy ∧ id + 1 = s.next ∧ es.count .connected = id
  stopped : s.place = .stopped → p = .ipfs
  exited : s.place = .exited ↔ (.acceptFails ∈ es ∧ p ≠ .ipfs ∨ .connectFails ∈ es)
  gone : s.place = .exited → s.tasks = []
  distinct : s.tasks.Nodup
  early : ∀ id side, Event.ends id side ∈ es → Taken p es id
  tasks : s.place ≠ .exited →
    ∀ id side, (id, side) ∈ s.tasks ↔ Serves p side ∧ Taken p es id ∧ Event.ends id side ∉ es

theorem inv_init (p : Program) : Inv p [] State.init := by
  refine ⟨rfl, fun _ _ => rfl, fun id h => (nomatch h), fun h => (nomatch h), ?_, fun h => (nomatch h), ?_, ?_, ?_⟩
  · simp [State.init]
  · simp [State.init]
  · simp
  · intro _ id side
    simp [State.init, Taken]

theorem count_snoc (es : List Event) (e x : Event) :
    (es ++ [e]).count x = es.count x + if e = x then 1 else 0 := by
  rw [List.count_append, List.count_singleton]
  by_cases h : e = x <;> simp [h]

theorem inv_step {p : Program} {es : List Event} {s s' : State} {e : Event} (h : Inv p es s)
    (hs : step p s e = some s') : Inv p (es ++ [e]) s' := by
  obtain ⟨place, next, tasks⟩ := s
  have h1 := h.next
  have h2 := h.settled
  have h3 := h.waiting
  have h4 := h.stopped
  have h5 := h.exited
  have h6 := h.gone
  have h7 := h.distinct
  have h8 := h.early
  have h9 := h.tasks
  simp only at h1 h2 h3 h4 h5 h6 h7 h8 h9
  clear h
  cases e with
  | accepted =>
    simp only [step] at hs
    split at hs
    case isFalse => exact nomatch hs
    case isTrue hp =>
      subst hp
      have h9' := h9 (by simp)
      have h5' : ¬ (.acceptFails ∈ es ∧ p ≠ .ipfs ∨ .connectFails ∈ es) := fun hh => nomatch h5.mpr hh
      by_cases hproxy : p = .proxy
      · subst hproxy
        simp only [Option.some.injEq] at hs
        subst hs
        have h2' := h2 rfl rfl
        refine ⟨?_, fun _ hh => (nomatch hh), ?_, fun hh => (nomatch hh), ?_, fun hh => (nomatch hh), h7, ?_, ?_⟩
        · simp [h1]
        · intro id hid
          simp only [Place.connecting.injEq] at hid
          subst hid
          refine ⟨rfl, rfl, ?_⟩
          rw [count_snoc]; simpa using h2'
        · simp only [List.mem_append, List.mem_singleton]
          constructor
          · intro hh; exact nomatch hh
          · intro hh; exact absurd (by simpa using hh) h5'
        · intro id side hm
          have hm' : Event.ends id side ∈ es := by simpa using hm
          have := h8 id side hm'
          simp only [Taken, if_true, count_snoc] at this ⊢
          simpa using this
        · intro _ id side
          rw [h9']
          simp [Taken]
      · have hs' : s' = ⟨.accepting, next + 1, tasks ++ [(next, .up)]⟩ := by
          cases p <;> first | exact absurd rfl hproxy | (simp only [Option.some.injEq] at hs; exact hs.symm)
        subst hs'
        have hmono : ∀ id, Taken p es id → Taken p (es ++ [Event.accepted]) id := by
          intro id hh
          simp only [Taken, if_neg hproxy, count_snoc] at hh ⊢
          omega
        have hfresh : ∀ side, Event.ends next side ∉ es := by
          intro side hh
          have := h8 _ _ hh
          simp only [Taken, if_neg hproxy] at this
          omega
        refine ⟨?_, fun hh => absurd hh hproxy, fun id hh => (nomatch hh), fun hh => (nomatch hh), ?_, fun hh => (nomatch hh), ?_, ?_, ?_⟩
        · simp [h1]
        · simp only [List.mem_append, List.mem_singleton]
          constructor
          · intro hh; exact nomatch hh
          · intro hh; exact absurd (by simpa using hh) h5'
        · rw [List.nodup_append]
          refine ⟨h7, by simp, ?_⟩
          intro a ha b hb hab
          simp only [List.mem_singleton] at hb
          subst hb; subst hab
          have := ((h9' _ _).mp ha).2.1
          simp only [Taken, if_neg hproxy] at this
          omega
        · intro id side hm
          exact hmono id (h8 id side (by simpa using hm))
        · intro _ id side
          simp only [List.mem_append, List.mem_singleton, Prod.mk.injEq, h9', Serves, hproxy, false_or]
          constructor
          · rintro (⟨ha, hb, hc⟩ | ⟨ha, hb⟩)
            · exact ⟨ha, hmono id hb, by simp [hc]⟩
            · subst ha; subst hb
              refine ⟨rfl, ?_, by simp [hfresh]⟩
              simp only [Taken, if_neg hproxy, count_snoc, if_true]
              omega
          · rintro ⟨ha, hb, hc⟩
            by_cases hid : id = next
            · exact .inr ⟨hid, ha⟩
            · refine .inl ⟨ha, ?_, fun hh => hc (.inl hh)⟩
              simp only [Taken, if_neg hproxy, count_snoc, if_true] at hb ⊢
              omega
  | acceptFails =>
    simp only [step] at hs
    split at hs
    case isFalse => exact nomatch hs
    case isTrue hp =>
      subst hp
      have h9' := h9 (by simp)
      have h5' : ¬ (.acceptFails ∈ es ∧ p ≠ .ipfs ∨ .connectFails ∈ es) := fun hh => nomatch h5.mpr hh
      have htaken : ∀ id, Taken p (es ++ [Event.acceptFails]) id ↔ Taken p es id := by
        intro id
        simp only [Taken, count_snoc]
        by_cases hproxy : p = .proxy <;> simp [hproxy]
      by_cases hipfs : p = .ipfs
      · subst hipfs
        simp only [Option.some.injEq] at hs
        subst hs
        refine ⟨?_, fun hh => (nomatch hh), fun id hh => (nomatch hh), fun _ => rfl, ?_, fun hh => (nomatch hh), h7, ?_, ?_⟩
        · simp [h1]
        · constructor
          · intro hh; exact nomatch hh
          · intro hh; exact absurd (by simpa using hh) h5'
        · intro id side hm
          exact (htaken id).mpr (h8 id side (by simpa using hm))
        · intro _ id side
          rw [h9', htaken]; simp
      · have hs' : s' = ⟨.exited, next, []⟩ := by
          cases p <;> first | exact absurd rfl hipfs | (simp only [Option.some.injEq] at hs; exact hs.symm)
        subst hs'
        refine ⟨?_, fun _ hh => (nomatch hh), fun id hh => (nomatch hh), fun hh => (nomatch hh), ?_, fun _ => rfl, by simp, ?_, fun hh => absurd rfl hh⟩
        · simp [h1]
        · simp [hipfs]
        · intro id side hm
          exact (htaken id).mpr (h8 id side (by simpa using hm))
  | closed =>
    simp only [step] at hs
    split at hs
    case isFalse => exact nomatch hs
    case isTrue hp =>
      obtain ⟨hp, hipfs⟩ := hp
      subst hp; subst hipfs
      simp only [Option.some.injEq] at hs
      subst hs
      have h9' := h9 (by simp)
      have h5' : ¬ (.acceptFails ∈ es ∧ Program.ipfs ≠ .ipfs ∨ .connectFails ∈ es) := fun hh => nomatch h5.mpr hh
      have htaken : ∀ id, Taken .ipfs (es ++ [Event.closed]) id ↔ Taken .ipfs es id := by
        intro id
        simp [Taken, count_snoc]
      refine ⟨?_, fun hh => (nomatch hh), fun id hh => (nomatch hh), fun _ => rfl, ?_, fun hh => (nomatch hh), h7, ?_, ?_⟩
      · simp [h1]
      · constructor
        · intro hh; exact nomatch hh
        · intro hh; exact absurd (by simpa using hh) h5'
      · intro id side hm
        exact (htaken id).mpr (h8 id side (by simpa using hm))
      · intro _ id side
        rw [h9', htaken]; simp
  | connected =>
    cases place with
    | accepting => exact nomatch hs
    | stopped => exact nomatch hs
    | exited => exact nomatch hs
    | connecting id =>
      obtain ⟨hp, hn, hc⟩ := h3 id rfl
      subst hp
      simp only [step, Option.some.injEq] at hs
      subst hs
      have h9' := h9 (by simp)
      have h5' : ¬ (.acceptFails ∈ es ∧ Program.proxy ≠ .ipfs ∨ .connectFails ∈ es) := fun hh => nomatch h5.mpr hh
      have hmono : ∀ id, Taken .proxy es id → Taken .proxy (es ++ [Event.connected]) id := by
        intro id hh
        simp only [Taken, if_true, count_snoc] at hh ⊢
        omega
      have hnot : ¬ Taken .proxy es id := by
        simp only [Taken, if_true]; omega
      refine ⟨?_, ?_, fun id hh => (nomatch hh), fun hh => (nomatch hh), ?_, fun hh => (nomatch hh), ?_, ?_, ?_⟩
      · simp [h1]
      · intro _ _
        rw [count_snoc]; simp only [if_true]; omega
      · constructor
        · intro hh; exact nomatch hh
        · intro hh; exact absurd (by simpa using hh) h5'
      · rw [List.nodup_append]
        refine ⟨h7, by simp, ?_⟩
        intro a ha b hb hab
        subst hab
        have hfst : a.1 = id := by
          simp only [List.mem_cons, List.not_mem_nil, or_false] at hb
          rcases hb with hb | hb <;> rw [hb]
        obtain ⟨i, sd⟩ := a
        simp only at hfst
        subst hfst
        exact hnot ((h9' _ _).mp ha).2.1
      · intro id side hm
        exact hmono id (h8 id side (by simpa using hm))
      · intro _ i side
        simp only [List.mem_append, List.mem_cons, List.not_mem_nil, or_false, Prod.mk.injEq, h9', Serves, true_or, true_and]
        constructor
        · rintro (⟨hb, hc'⟩ | hh)
          · exact ⟨hmono i hb, by simp [hc']⟩
          · have hi : i = id := by rcases hh with hh | hh <;> exact hh.1
            subst hi
            refine ⟨?_, ?_⟩
            · simp only [Taken, if_true, count_snoc]; omega
            · rintro (hx | hx)
              · exact hnot (h8 _ _ hx)
              · exact nomatch hx
        · rintro ⟨hb, hc'⟩
          by_cases hi : i = id
          · right; subst hi; cases side <;> simp
          · refine .inl ⟨?_, fun hh => hc' (.inl hh)⟩
            simp only [Taken, if_true, count_snoc] at hb ⊢
            omega
  | connectFails =>
    cases place with
    | accepting => exact nomatch hs
    | stopped => exact nomatch hs
    | exited => exact nomatch hs
    | connecting id =>
      obtain ⟨hp, hn, hc⟩ := h3 id rfl
      subst hp
      simp only [step, Option.some.injEq] at hs
      subst hs
      refine ⟨?_, fun _ hh => (nomatch hh), fun id hh => (nomatch hh), fun hh => (nomatch hh), ?_, fun _ => rfl, by simp, ?_, fun hh => absurd rfl hh⟩
      · simp [h1]
      · simp
      · intro id side hm
        have := h8 id side (by simpa using hm)
        simpa [Taken, count_snoc] using this
  | ends id side =>
    simp only [step] at hs
    split at hs
    case isFalse => exact nomatch hs
    case isTrue hmem =>
      simp only [Option.some.injEq] at hs
      subst hs
      have hne : place ≠ .exited := by
        intro hh
        rw [h6 hh] at hmem
        exact nomatch hmem
      have h9' := h9 hne
      have htaken : ∀ i, Taken p (es ++ [Event.ends id side]) i ↔ Taken p es i := by
        intro i
        simp only [Taken, count_snoc]
        by_cases hproxy : p = .proxy <;> simp [hproxy]
      refine ⟨?_, ?_, ?_, h4, ?_, fun hh => absurd hh hne, h7.erase _, ?_, ?_⟩
      · simp [h1]
      · intro a b
        rw [count_snoc]; simpa using h2 a b
      · intro i hi
        rw [count_snoc]; simpa using h3 i hi
      · simp only [h5]; simp
      · intro i sd hm
        rw [htaken]
        simp only [List.mem_append, List.mem_singleton, Event.ends.injEq] at hm
        rcases hm with hm | ⟨rfl, rfl⟩
        · exact h8 i sd hm
        · exact ((h9' _ _).mp hmem).2.1
      · intro _ i sd
        simp only [h7.mem_erase_iff, h9', htaken, List.mem_append, List.mem_singleton, Event.ends.injEq, ne_eq, Prod.mk.injEq, not_or]
        constructor
        · rintro ⟨a, b, c, d⟩; exact ⟨b, c, d, a⟩
        · rintro ⟨b, c, d, a⟩; exact ⟨a, b, c, d⟩

theorem inv_run {p : Program} {es : List Event} {s : State} (h : run p State.init es = some s) : Inv p es s := by
  induction es using List.reverseRecOn generalizing s with
  | nil =>
    simp only [run, Option.some.injEq] at h
    subst h; exact inv_init p
  | append_singleton es e ih =>
    rw [run_append, Option.bind_eq_some_iff] at h
    obtain ⟨s', h', hs⟩ := h
    exact inv_step (ih h') hs

/-- C194, as far as it is true: as long as accepting and connecting have not failed, the tasks that run are those of exactly the connections
that have come and not ended. -/
theorem C194_served_partial {p : Program} {es : List Event} {s : State} (h : run p State.init es = some s)
    (ha : Event.acceptFails ∉ es) (hc : Event.connectFails ∉ es) (id : Nat) (side : Side) :
    (id, side) ∈ s.tasks ↔ Serves p side ∧ Taken p es id ∧ Event.ends id side ∉ es := by
  have hi := inv_run h
  refine hi.tasks (fun hh => ?_) id side
  rcases hi.exited.mp hh with hh | hh
  · exact ha hh.1
  · exact hc hh

/-- C194 for the streams of a connection to another node: they are served whatever happens to the connection. -/
theorem C194_streams_partial {es : List Event} {s : State} (h : run .ipfs State.init es = some s) (id : Nat) (side : Side) :
    (id, side) ∈ s.tasks ↔ side = .up ∧ id < es.count .accepted ∧ Event.ends id side ∉ es := by
  have hi := inv_run h
  have := hi.tasks (fun hh => ?_) id side
  · simpa [Serves, Taken] using this
  · rcases hi.exited.mp hh with hh | hh
    · exact hh.2 rfl
    · -- nothing connects in this program
      have hno : ∀ (es : List Event) (s : State), run .ipfs State.init es = some s → Event.connectFails ∉ es := by
        intro es
        induction es using List.reverseRecOn with
        | nil => intro _ _ hm; exact nomatch hm
        | append_singleton es e ih =>
          intro s h hm
          rw [run_append, Option.bind_eq_some_iff] at h
          obtain ⟨s', h', hs⟩ := h
          simp only [List.mem_append, List.mem_singleton] at hm
          rcases hm with hm | hm
          · exact ih s' h' hm
          · subst hm
            simp only [step] at hs
            split at hs
            · rename_i i hp
              exact nomatch ((inv_run h').waiting i hp).1
            · exact nomatch hs
      exact hno es s h hh

/-- A program that listens for clients serves nobody any more once accepting or connecting has failed, and nothing more happens. -/
theorem C194_lost {p : Program} {es : List Event} {s : State} (h : run p State.init es = some s) (hp : p ≠ .ipfs)
    (hf : Event.acceptFails ∈ es ∨ Event.connectFails ∈ es) : s.tasks = [] ∧ ∀ e, step p s e = none := by
  have hi := inv_run h
  have hx : s.place = .exited := hi.exited.mpr (hf.imp (fun a => ⟨a, hp⟩) id)
  refine ⟨hi.gone hx, fun e => ?_⟩
  cases e <;> simp [step, hx, hi.gone hx]

/-- No two tasks have the same connection and direction, and a connection that comes gets a number no other had. -/
theorem C194_own_number {p : Program} {es : List Event} {s : State} (h : run p State.init es = some s) :
    s.tasks.Nodup ∧ (∀ t ∈ s.tasks, t.1 < es.count .accepted) ∧ s.next = es.count .accepted := by
  have hi := inv_run h
  refine ⟨hi.distinct, fun t ht => ?_, hi.next⟩
  obtain ⟨id, side⟩ := t
  have hne : s.place ≠ .exited := fun hh => by rw [hi.gone hh] at ht; exact nomatch ht
  have htk := ((hi.tasks hne id side).mp ht).2.1
  by_cases hproxy : p = .proxy
  · simp only [Taken, hproxy, if_true] at htk
    have hle : es.count .connected ≤ s.next := by
      cases hpl : s.place with
      | accepting => exact Nat.le_of_eq (hi.settled hproxy hpl)
      | connecting i => have := hi.waiting i hpl; omega
      | stopped => exact nomatch hproxy.symm.trans (hi.stopped hpl)
      | exited => exact absurd hpl hne
    have := hi.next
    simp only
    omega
  · simpa [Taken, if_neg hproxy] using htk

/-- The client 0 is being proxied; then the server cannot be reached for client 1. -/
def unreachable : List Event := [.accepted, .connected, .accepted, .connectFails]

/-- C194 is false: that the server cannot be reached for one client, or that one `accept` fails, cuts off all of them. -/
theorem C194_false : ¬ C194_statement := by
  intro h
  have := h .proxy unreachable ⟨.exited, 2, []⟩ (by decide) 0 .up (.inl rfl) (by simp [Taken, unreachable]) (by simp [unreachable])
  exact nomatch this

/-- The same for the other programs that listen for clients. -/
theorem C194_accept_failure (p : Program) (h1 : p ≠ .proxy) (h2 : p ≠ .ipfs) :
    run p State.init [.accepted, .acceptFails] = some ⟨.exited, 1, []⟩ := by
  cases p <;> first | rfl | exact absurd rfl h1 | exact absurd rfl h2

example : run .proxy State.init [.accepted, .connected, .accepted, .connected, .ends 0 .up] =
    some ⟨.accepting, 2, [(0, .down), (1, .up), (1, .down)]⟩ := by decide

example : run .ipfs State.init [.accepted, .accepted, .ends 0 .up, .closed] = some ⟨.stopped, 2, [(1, .up)]⟩ := by decide

end Ngfs.Listen
