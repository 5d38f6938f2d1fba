import Verif.Model.Util

/-!
Model of the identifiers of `util/id.rs`: an `Id` is a counted reference to an empty allocation, and is compared,
ordered and shown by the address of it.

Simplifications: an address is a number other than zero; the counts are unbounded (`Arc` aborts the program when one
passes `isize::MAX`); a moved `Id` is the same handle.
-/
namespace Ngfs.Id

/-- What a program holds: the handles it has made so far (`none` for one that is dropped, the address of its allocation
otherwise), and the number of references to each address (zero: not allocated). -/
structure State where
  strong : Nat → Nat
  handles : List (Option Nat)

/-- A program without identifiers. -/
def State.empty : State := ⟨fun _ => 0, []⟩

/-- What can be done: make an identifier (the allocator picks the address), copy one, drop one. -/
inductive Op where
  | new (addr : Nat)
  | clone (i : Nat)
  | drop (i : Nat)
  deriving DecidableEq, Repr

/-- The count of one address changed. -/
def State.setStrong (s : State) (a n : Nat) : State := { s with strong := fun b => if b = a then n else s.strong b }

/-- `Id::default` (`util/id.rs` 8-12), `clone` (derived, 5) and dropping an `Id`. `none` for what cannot happen: an allocator
that picks an address in use, or a handle used after it was dropped. -/
def State.step (s : State) : Op → Option State
  | .new a =>
    if a ≠ 0 ∧ s.strong a = 0 then some { s.setStrong a 1 with handles := s.handles ++ [some a] } else none
  | .clone i =>
    match s.handles[i]? with
    | some (some a) => some { s.setStrong a (s.strong a + 1) with handles := s.handles ++ [some a] }
    | _ => none
  | .drop i =>
    match s.handles[i]? with
    | some (some a) => some { s.setStrong a (s.strong a - 1) with handles := s.handles.set i none }
    | _ => none

/-- A program's whole run. -/
def State.run (s : State) : List Op → Option State
  | [] => some s
  | op :: rest => (s.step op).bind fun t => t.run rest

/-- The address of a live handle (`Arc::as_ptr`). -/
def State.addr (s : State) (i : Nat) : Option Nat := (s.handles[i]?).join

/-- `PartialEq::eq` (`util/id.rs` 15-17), `none` if one of the handles is dropped. -/
def State.eq (s : State) (i j : Nat) : Option Bool := do
  let a ← s.addr i
  let b ← s.addr j
  pure (decide (a = b))

/-- `Ord::cmp`, and `partial_cmp` (`util/id.rs` 24-32). -/
def State.cmp (s : State) (i j : Nat) : Option Ordering := do
  let a ← s.addr i
  let b ← s.addr j
  pure (compare a b)

/-- A number in hexadecimal. -/
def hex (n : Nat) : List Char :=
  if n < 16 then [Util.lowerHex n] else hex (n / 16) ++ [Util.lowerHex (n % 16)]

/-- `Display` and `Debug` (`util/id.rs` 35-45): the pointer, `{:p}`. -/
def State.text (s : State) (i : Nat) : Option (List Char) := do
  let a ← s.addr i
  pure ('0' :: 'x' :: hex a)

end Ngfs.Id
