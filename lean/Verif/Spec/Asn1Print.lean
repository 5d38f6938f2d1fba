import Verif.Spec.Asn1
import Verif.Model.Asn1Print

/-! What a printout of an ASN.1 item can show. -/
namespace Ngfs.Spec
open Ngfs.Asn1

/-- The text in a value. -/
def textOf : Value → Option String
  | .printableString s | .utf8String s | .utcTime s | .generalizedTime s => some s
  | _ => none

/-- The byte string in a value. -/
def bytesOf : Value → Option Bytes
  | .integer d | .bitString _ d | .octetString d => some d
  | _ => none

/-- No name in the registry spans two lines. -/
def OneLineNames (registry : Option (List Nat → Option String)) : Prop :=
  ∀ r, registry = some r → ∀ oid name, r oid = some name → '\n' ∉ name.toList

mutual
/-- The number of items: the item itself and all those nested in it. -/
def itemCount : Item → Nat
  | .mk _ _ v => 1 + nestedCount v
/-- The number of items nested in a value. -/
def nestedCount : Value → Nat
  | .sequence items | .set items => listCount items
  | .application _ i | .contextSpecific _ i | .priv _ i => itemCount i
  | _ => 0
/-- The number of items in a list and nested in them. -/
def listCount : List Item → Nat
  | [] => 0
  | i :: is => itemCount i + listCount is
end

end Ngfs.Spec
