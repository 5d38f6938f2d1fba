import Verif.Model.Echo

/-! What an echo server owes its clients. -/
namespace Ngfs.Spec.Echo
open Ngfs.Echo

/-- The bytes client `i` sent that were read from its socket in the course of the actions. -/
def input (i : Nat) : List Action → Bytes
  | [] => []
  | .read j data :: as => (if j = i then data else []) ++ input i as
  | _ :: as => input i as

/-- All bytes read from all sockets: their number. -/
def totalInput : List Action → Nat
  | [] => 0
  | .read _ data :: as => data.length + totalInput as
  | _ :: as => totalInput as

/-- The action is one of connection `i`, and no failure of its socket. -/
def Serves (i : Nat) : Action → Prop
  | .count j | .write j _ => j = i
  | _ => False

end Ngfs.Spec.Echo
