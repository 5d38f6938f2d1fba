import Verif.Spec.Varint
import Verif.Model.Protobuf

/-!
The protobuf wire format, independently of the reader and writer. Only the plain record types `FieldRef` and
`FieldData` are shared with the model.
-/
namespace Ngfs.Spec
open Protobuf (FieldRef FieldData)

/-- `bs` is a varint of at most ten bytes denoting the 64-bit number `n`. -/
def Denotes (bs : Bytes) (n : Nat) : Prop :=
  IsVarint bs ∧ bs.length ≤ 10 ∧ base128 bs = n ∧ n < 2 ^ 64

/-- The payload a field of a given wire type has: a varint (0), eight bytes (1), a length and that many bytes (2),
four bytes (5). Nothing else is a payload. -/
def IsPayload (wireType : Nat) (payload : Bytes) : FieldData → Prop
  | .varInt v => wireType = 0 ∧ payload = v ∧ IsVarint v
  | .bits64 v => wireType = 1 ∧ payload = v ∧ v.length = 8
  | .bytes v => wireType = 2 ∧ ∃ len, payload = len ++ v ∧ Denotes len v.length
  | .bits32 v => wireType = 5 ∧ payload = v ∧ v.length = 4

/-- `bs` is one protobuf field: a tag varint `8 * number + type`, then the payload that the type calls for. -/
def IsField (bs : Bytes) (f : FieldRef) : Prop :=
  ∃ tag payload, bs = tag ++ payload ∧ Denotes tag f.tag ∧
    f.tag = 8 * f.fieldNumber + f.wireType ∧ f.wireType < 8 ∧ IsPayload f.wireType payload f.data

/-- `bs`, starting at offset `o` of a message, is the concatenation of the fields `fs`, each recorded with the
offset at which it starts. -/
inductive IsMessage : Nat → Bytes → List FieldRef → Prop
  | nil (o : Nat) : IsMessage o [] []
  | cons {o : Nat} {bs rest : Bytes} {f : FieldRef} {fs : List FieldRef}
      (field : IsField bs f) (at_ : f.offset = o) (more : IsMessage (o + bs.length) rest fs) :
      IsMessage o (bs ++ rest) (f :: fs)

/-- The zigzag code of a signed number: 0, -1, 1, -2, 2, … are coded 0, 1, 2, 3, 4, … -/
def zigzagCode (x : Int) : Nat := if 0 ≤ x then 2 * x.toNat else 2 * (-x).toNat - 1

end Ngfs.Spec
