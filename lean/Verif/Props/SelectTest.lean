import Verif.Model.SelectTest
import Mathlib.Data.List.Induction

/-! Properties of the program that waits on two sockets: C165 (nothing is lost) and C166 (nothing waits for ever). -/
namespace Ngfs.SelectTest

/-- What has arrived at a socket. -/
def arrived (w : Which) (as : List Action) : List Item :=
  as.filterMap fun | .arrive v i => if v = w then some i else none | _ => none

/-- What was shown for a socket. -/
def shownFor (w : Which) (shown : List (Which × Item)) : List Item :=
  shown.filterMap fun p => if p.1 = w then some p.2 else none

def State.waiting (s : State) : Which → List Item
  | .first => s.queue1
  | .second => s.queue2

@[simp] theorem shownFor_append (w : Which) (a b : List (Which × Item)) : shownFor w (a ++ b) = shownFor w a ++ shownFor w b :=
  List.filterMap_append

theorem run_snoc (as : List Action) (a : Action) : run (as ++ [a]) = (run as).step a := by simp [run]

theorem step_spec (s : State) (a : Action) (w : Which) :
    ∃ n, shownFor w (s.step a).shown = shownFor w s.shown ++ ((s.waiting w).take n).map Item.received ∧
      (s.step a).waiting w = (s.waiting w).drop n ++ arrived w [a] := by
  rcases a with ⟨v, i⟩ | mode
  · refine ⟨0, ?_, ?_⟩ <;> cases v <;> cases w <;> simp [State.step, State.waiting, arrived]
  · have hr : arrived w [.round mode] = [] := rfl
    simp only [hr, List.append_nil]
    show ∃ n, shownFor w (s.round mode).shown = _ ∧ (s.round mode).waiting w = _
    obtain ⟨q1, q2, sh⟩ := s
    have first : ∀ i rest, q1 = i :: rest →
        ∃ n, shownFor w (State.showFirst ⟨q1, q2, sh⟩ i rest).shown = shownFor w sh ++ ((State.waiting ⟨q1, q2, sh⟩ w).take n).map Item.received ∧
          (State.showFirst ⟨q1, q2, sh⟩ i rest).waiting w = (State.waiting ⟨q1, q2, sh⟩ w).drop n := by
      intro i rest h
      cases w
      · exact ⟨1, by simp [State.showFirst, State.waiting, h, shownFor], by simp [State.showFirst, State.waiting, h]⟩
      · exact ⟨0, by simp [State.showFirst, shownFor], by simp [State.showFirst, State.waiting]⟩
    have second : ∀ i rest, q2 = i :: rest →
        ∃ n, shownFor w (State.showSecond ⟨q1, q2, sh⟩ i rest).shown = shownFor w sh ++ ((State.waiting ⟨q1, q2, sh⟩ w).take n).map Item.received ∧
          (State.showSecond ⟨q1, q2, sh⟩ i rest).waiting w = (State.waiting ⟨q1, q2, sh⟩ w).drop n := by
      intro i rest h
      cases w
      · exact ⟨0, by simp [State.showSecond, shownFor], by simp [State.showSecond, State.waiting]⟩
      · exact ⟨1, by simp [State.showSecond, State.waiting, h, shownFor], by simp [State.showSecond, State.waiting, h]⟩
    cases q1 with
    | nil =>
      cases q2 with
      | nil => exact ⟨0, by simp [State.round], by simp [State.round]⟩
      | cons j rest => exact second j rest rfl
    | cons i rest =>
      cases q2 with
      | nil => exact first i rest rfl
      | cons j rest' =>
        rcases mode with _ | (_ | _)
        · exact first i rest rfl
        · exact first i rest rfl
        · exact second j rest' rfl

theorem run_spec (as : List Action) (w : Which) :
    shownFor w (run as).shown ++ ((run as).waiting w).map Item.received = (arrived w as).map Item.received := by
  induction as using List.reverseRecOn with
  | nil => cases w <;> rfl
  | append_singleton as a ih =>
    rw [run_snoc]
    obtain ⟨n, h1, h2⟩ := step_spec (run as) a w
    have h3 : arrived w (as ++ [a]) = arrived w as ++ arrived w [a] := List.filterMap_append
    rw [h1, h2, h3, List.map_append, List.map_append, ← ih]
    rw [List.append_assoc, List.append_assoc, ← List.append_assoc (List.map _ (List.take _ _)), ← List.map_append, List.take_append_drop]

/-! ### C165: what arrives is shown, whole and in order -/

/-- Whatever arrives when: for each socket, what was shown and what still waits make up what has arrived, in order. -/
def C165_statement : Prop :=
  ∀ (as : List Action) (w : Which), shownFor w (run as).shown ++ (run as).waiting w = arrived w as

theorem shown_long (d : Bytes) : shownFor .first (run [.arrive .first (.data d), .round .heap]).shown = [.data (d.take 1024)] := rfl

theorem long_lost (d : Bytes) (h : 1024 < d.length) : [Item.data (d.take 1024)] ++ [] ≠ [Item.data d] := by
  intro h2
  rw [List.append_nil] at h2
  injection h2 with h3
  injection h3 with h4
  have := congrArg List.length h4
  rw [List.length_take] at this
  omega

/-- **C165** does not hold: of a datagram of more than 1024 bytes the rest is dropped. -/
theorem C165_false : ¬ C165_statement := by
  intro h
  have := h [.arrive .first (.data (List.replicate 1025 0)), .round .heap] .first
  rw [shown_long] at this
  exact long_lost _ (by rw [List.length_replicate]; omega) this

/-- What holds: of each datagram the first 1024 bytes are shown, in order and once, for the socket it came to; errors too. -/
theorem C165_partial (as : List Action) (w : Which) :
    shownFor w (run as).shown ++ ((run as).waiting w).map Item.received = (arrived w as).map Item.received := run_spec as w

/-- Hence the statement holds when no datagram is longer than the buffer. -/
theorem C165_short_partial (as : List Action) (w : Which) (h : ∀ d, Item.data d ∈ arrived w as → d.length ≤ 1024) :
    shownFor w (run as).shown ++ ((run as).waiting w).map Item.received = arrived w as := by
  rw [run_spec]
  have : ∀ l : List Item, (∀ d, Item.data d ∈ l → d.length ≤ 1024) → l.map Item.received = l := by
    intro l hl
    conv => rhs; rw [← List.map_id l]
    apply List.map_congr_left
    intro i hi
    cases i with
    | data d => simp [Item.received, List.take_of_length_le (hl d hi)]
    | error => rfl
  exact this _ h

/-- The program waits only if neither socket has anything. -/
theorem C165_no_wait_partial (s : State) (mode : Mode) (h : (s.round mode) = s) : s.queue1 = [] ∧ s.queue2 = [] := by
  obtain ⟨q1, q2, sh⟩ := s
  have hl := congrArg (fun s => s.shown.length) h
  cases q1 with
  | nil =>
    cases q2 with
    | nil => exact ⟨rfl, rfl⟩
    | cons j r => simp [State.round, State.showSecond] at hl
  | cons i r =>
    cases q2 with
    | nil => simp [State.round, State.showFirst] at hl
    | cons j r' => rcases mode with _ | (_ | _) <;> simp [State.round, State.showFirst, State.showSecond] at hl

example : (run [.arrive .second (.data [1]), .arrive .first (.data [2]), .round .heap, .arrive .second .error, .round .heap, .round .heap]).shown =
    [(.first, .data [2]), (.second, .data [1]), (.second, .error)] := by decide

/-! ### C166: nothing waits for ever -/

/-- The first `n` actions of an endless run. -/
def upTo (f : Nat → Action) (n : Nat) : List Action := (List.range n).map f

theorem upTo_succ (f : Nat → Action) (n : Nat) : upTo f (n + 1) = upTo f n ++ [f n] := by
  simp [upTo, List.range_succ]

/-- In an endless run of the program with `Receiver` in which its loop goes round again and again, all that has arrived at either socket is
shown some time. -/
def C166_statement : Prop :=
  ∀ (f : Nat → Action), (∀ n mode, f n = .round mode → mode = .heap) → (∀ n, ∃ m ≥ n, f m = .round .heap) →
    ∀ (n : Nat) (w : Which), ∃ m, (arrived w (upTo f n)).length ≤ (shownFor w (run (upTo f m)).shown).length

/-- One datagram at the second socket, then datagrams at the first as fast as they are received. -/
def flood (n : Nat) : Action :=
  if n = 0 then .arrive .second (.data [1]) else if n % 2 = 1 then .arrive .first (.data []) else .round .heap

theorem flood_run (k : Nat) :
    (run (upTo flood (2 * k + 1))).queue1 = [] ∧ (run (upTo flood (2 * k + 1))).queue2 = [.data [1]] ∧
      shownFor .second (run (upTo flood (2 * k + 1))).shown = [] := by
  induction k with
  | zero => decide
  | succ k ih =>
    obtain ⟨h1, h2, h3⟩ := ih
    have e1 : flood (2 * k + 1) = .arrive .first (.data []) := by
      unfold flood; rw [if_neg (by omega), if_pos (by omega)]
    have e2 : flood (2 * k + 1 + 1) = .round .heap := by
      unfold flood; rw [if_neg (by omega), if_neg (by omega)]
    have : 2 * (k + 1) + 1 = 2 * k + 1 + 1 + 1 := by omega
    rw [this, upTo_succ, run_snoc, upTo_succ, run_snoc, e1, e2]
    generalize run (upTo flood (2 * k + 1)) = s at *
    obtain ⟨q1, q2, sh⟩ := s
    subst h1 h2
    exact ⟨rfl, rfl, by simpa [State.step, State.round, State.showFirst, shownFor] using h3⟩

theorem flood_shown (m : Nat) : shownFor .second (run (upTo flood m)).shown = [] := by
  obtain ⟨k, h | h⟩ : ∃ k, m = 2 * k ∨ m = 2 * k + 1 := ⟨m / 2, by omega⟩
  · cases k with
    | zero => subst h; rfl
    | succ k =>
      have e1 : flood (2 * k + 1) = .arrive .first (.data []) := by
        unfold flood; rw [if_neg (by omega), if_pos (by omega)]
      have : m = 2 * k + 1 + 1 := by omega
      rw [this, upTo_succ, run_snoc, e1]
      exact (flood_run k).2.2
  · rw [h]; exact (flood_run k).2.2

/-- **C166** does not hold: as long as the first socket has a datagram at each round, the second is not looked at. -/
theorem C166_false : ¬ C166_statement := by
  intro h
  obtain ⟨m, hm⟩ := h flood
    (by
      intro n mode hn
      unfold flood at hn
      split at hn
      · cases hn
      · split at hn
        · cases hn
        · cases hn; rfl)
    (by
      intro n
      refine ⟨2 * n + 2, by omega, ?_⟩
      unfold flood
      rw [if_neg (by omega), if_neg (by omega)])
    1 .second
  rw [flood_shown] at hm
  simp [upTo, flood, arrived] at hm

/-- How many rounds there are. -/
def rounds (as : List Action) : Nat := as.countP fun | .round _ => true | _ => false

theorem rounds_snoc (as : List Action) (a : Action) : rounds (as ++ [a]) = rounds as + rounds [a] := by simp [rounds]

theorem arrived_snoc (w : Which) (as : List Action) (a : Action) : arrived w (as ++ [a]) = arrived w as ++ arrived w [a] :=
  List.filterMap_append

/-- What holds for the first socket: what waits there after some actions is shown after as many rounds as there are items before and
including it, whatever else happens. -/
theorem C166_first_partial (s : State) (as : List Action) (hm : ∀ mode, Action.round mode ∈ as → mode = .heap) :
    (shownFor .first s.shown).length + min s.queue1.length (rounds as) ≤ (shownFor .first (as.foldl State.step s).shown).length := by
  induction as generalizing s with
  | nil => simp [rounds]
  | cons a as ih =>
    have ih' := ih (s.step a) fun mode h => hm mode (List.mem_cons_of_mem _ h)
    rw [List.foldl_cons]
    refine Nat.le_trans ?_ ih'
    have hr : rounds (a :: as) = rounds [a] + rounds as := by
      simp only [rounds, List.countP_cons, List.countP_nil]; omega
    rw [hr]
    rcases a with ⟨v, i⟩ | mode
    · have : rounds [Action.arrive v i] = 0 := rfl
      rw [this]
      cases v <;> simp [State.step] <;> omega
    · have := hm mode (List.mem_cons_self ..)
      subst this
      have : rounds [Action.round .heap] = 1 := rfl
      rw [this]
      obtain ⟨q1, q2, sh⟩ := s
      cases q1 with
      | nil => cases q2 <;> simp [State.step, State.round, State.showSecond, shownFor]
      | cons i r =>
        cases q2 <;> simp [State.step, State.round, State.showFirst, shownFor] <;> omega

/-- What holds for the second socket: if at most `m` items wait at or come to the first, what waits at the second is shown after `m` more
rounds than there are items before and including it. -/
theorem C166_second_partial (s : State) (as : List Action) (hm : ∀ mode, Action.round mode ∈ as → mode = .heap) :
    (shownFor .second s.shown).length + min s.queue2.length (rounds as - (s.queue1.length + (arrived .first as).length)) ≤
      (shownFor .second (as.foldl State.step s).shown).length := by
  induction as generalizing s with
  | nil => simp [rounds]
  | cons a as ih =>
    have ih' := ih (s.step a) fun mode h => hm mode (List.mem_cons_of_mem _ h)
    rw [List.foldl_cons]
    refine Nat.le_trans ?_ ih'
    have hr : rounds (a :: as) = rounds [a] + rounds as := by
      simp only [rounds, List.countP_cons, List.countP_nil]; omega
    have ha : (arrived .first (a :: as)).length = (arrived .first [a]).length + (arrived .first as).length := by
      have : arrived .first ([a] ++ as) = arrived .first [a] ++ arrived .first as := List.filterMap_append
      rw [List.singleton_append] at this
      rw [this, List.length_append]
    rw [hr, ha]
    rcases a with ⟨v, i⟩ | mode
    · have : rounds [Action.arrive v i] = 0 := rfl
      rw [this]
      cases v
      · have : (arrived .first [Action.arrive .first i]).length = 1 := rfl
        rw [this]; simp [State.step]; omega
      · have : (arrived .first [Action.arrive .second i]).length = 0 := rfl
        rw [this]; simp [State.step]; omega
    · have := hm mode (List.mem_cons_self ..)
      subst this
      have : rounds [Action.round .heap] = 1 := rfl
      rw [this]
      have : (arrived .first [Action.round .heap]).length = 0 := rfl
      rw [this]
      obtain ⟨q1, q2, sh⟩ := s
      cases q1 with
      | nil => cases q2 <;> simp [State.step, State.round, State.showSecond, shownFor] <;> omega
      | cons i r =>
        cases q2 <;> simp [State.step, State.round, State.showFirst, shownFor] <;> omega

example : (shownFor .second ([Action.arrive .first .error, .round .heap, .round .heap, .round .heap].foldl State.step ⟨[.error], [.data [7]], []⟩).shown) =
    [.data [7]] := by decide

end Ngfs.SelectTest
