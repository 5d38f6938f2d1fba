import Verif.Model.Id

/-! What identifiers are for, told without addresses: which handles stand for the same thing. -/
namespace Ngfs.Spec.Id

open Ngfs.Id (Op)

/-- The handles made so far: `none` for a dropped one, and the number of the handle that it goes back to otherwise. -/
def after (os : List (Option Nat)) : Op → List (Option Nat)
  | .new _ => os ++ [some os.length]
  | .clone i => os ++ [(os[i]?).join]
  | .drop i => os.set i none

/-- The handles of a whole run. -/
def origins (ops : List Op) : List (Option Nat) := ops.foldl after []

/-- Handle `i` is alive after `ops`, and goes back to handle `o`. -/
def From (ops : List Op) (i o : Nat) : Prop := (origins ops)[i]? = some (some o)

end Ngfs.Spec.Id
