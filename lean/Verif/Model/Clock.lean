import Verif.Model.Basic

/-!
Model of `/repo/src/sim/clock.rs`.

Clones of a `Clock` share its state, and tasks and threads may use them at the same time, so the model is a transition system: one action is one
period in which the lock is held. `set` and `advance_by` take the lock twice (lines 39-40, 44-45), and so does a poll that has to wait (57, 61).
A task polls its future at least whenever its waker was called; `scheduled` says that a poll is due.
-/
namespace Ngfs.Clock

/-- Where a `WaitUntil` (73-83) is. -/
inductive Waiter where
  /-- no such future -/
  | none
  /-- between polls -/
  | idle (target : Nat)
  /-- in `poll_wait_until`, after `current_time` answered less than the target (57) and before the waker is stored (61) -/
  | checked (target : Nat)
  /-- it answered `Ready` -/
  | done (target : Nat)
deriving DecidableEq

/-- The clock (6-9, 21-23), its waiters, whether a poll is due for them, and for every caller of `set` or `advance_by` whether it is between
its two locks. A panic while the lock is held poisons it: nothing happens after that but panics. -/
structure State where
  time : Nat
  wakers : List Nat
  waiter : Nat → Waiter
  scheduled : Nat → Bool
  notifying : Nat → Bool
  poisoned : Bool

/-- `Clock::new`, 26-33. -/
def State.init : State := ⟨0, [], fun _ => .none, fun _ => false, fun _ => false, false⟩

/-- What can happen next. -/
inductive Action where
  /-- `wait_until`, 48-53; the task that owns the future polls it for the first time soon -/
  | wait (w target : Nat)
  /-- `poll`, up to the answer of `current_time`, 57-58 -/
  | poll (w : Nat)
  /-- the rest of `poll`, 61-62 -/
  | register (w : Nat)
  /-- `set`, first lock, 39 -/
  | set (k time : Nat)
  /-- `advance_by`, first lock, 44 -/
  | advance (k delta : Nat)
  /-- `notify_waiters`, 12-16, at 40 or 45 -/
  | notify (k : Nat)

/-- One action. An action that is not possible changes nothing. -/
def State.step (s : State) (a : Action) : State :=
  if s.poisoned then s
  else
    match a with
    | .wait w target =>
      if s.waiter w = .none then
        { s with waiter := fun x => if x = w then .idle target else s.waiter x, scheduled := fun x => if x = w then true else s.scheduled x }
      else s
    | .poll w =>
      match s.waiter w with
      | .idle target =>
        if s.time ≥ target then { s with waiter := fun x => if x = w then .done target else s.waiter x }
        else
          { s with waiter := fun x => if x = w then .checked target else s.waiter x, scheduled := fun x => if x = w then false else s.scheduled x }
      | _ => s
    | .register w =>
      match s.waiter w with
      | .checked target => { s with waiter := fun x => if x = w then .idle target else s.waiter x, wakers := s.wakers ++ [w] }
      | _ => s
    | .set k time => if s.notifying k then s else { s with time := time, notifying := fun x => if x = k then true else s.notifying x }
    | .advance k delta =>
      if s.notifying k then s
      else if s.time + delta < 2 ^ 64 then { s with time := s.time + delta, notifying := fun x => if x = k then true else s.notifying x }
      else { s with poisoned := true }
    | .notify k =>
      if s.notifying k then
        { s with wakers := [], scheduled := fun x => if x ∈ s.wakers then true else s.scheduled x, notifying := fun x => if x = k then false else s.notifying x }
      else s

/-- Any actions, one after the other. -/
def State.run : State → List Action → State
  | s, [] => s
  | s, a :: as => (s.step a).run as

end Ngfs.Clock
