import Verif.Model.Asn1
import Verif.Spec.Binary

/-!
The distinguished encoding rules (X.690) for the types in use, as a relation between values and bytes. Of the model
only the data types `Item` and `Value` are used.
-/
namespace Ngfs.Spec
open Ngfs.Asn1

/-- X.690 8.1.3, 10.1: the length in the fewest octets. -/
def DerLength (n : Nat) (bs : Bytes) : Prop :=
  (n < 128 ∧ bs = [UInt8.ofNat n]) ∨
  (128 ≤ n ∧ ∃ d ds, bs = UInt8.ofNat (128 + (d :: ds).length) :: d :: ds ∧ d ≠ 0 ∧ (d :: ds).length < 127 ∧
    bigEndian (d :: ds) = n)

/-- Identifier octet (X.690 8.1.2.2), length and contents. -/
def Tlv (cls : Nat) (constructed : Bool) (tag : Nat) (content bs : Bytes) : Prop :=
  tag ≤ 30 ∧ ∃ len, DerLength content.length len ∧
    bs = UInt8.ofNat (64 * cls + (if constructed then 32 else 0) + tag) :: (len ++ content)

/-- X.690 8.19.2: a subidentifier is a base-128 number, most significant digit first, in the fewest octets; the top
bit is set on all octets but the last. -/
def Subidentifier (n : Nat) (bs : Bytes) : Prop :=
  Nat.ofDigits 128 (bs.reverse.map fun b => b.toNat % 128) = n ∧ bs.head? ≠ some 0x80 ∧
  ∃ init last, bs = init ++ [last] ∧ (∀ b ∈ init, 128 ≤ b.toNat) ∧ last.toNat < 128

/-- X.690 8.19.4: the first two components `x`, `y` share the subidentifier `40 x + y`; `x` is 0, 1 or 2, and `y` is
below 40 when `x` is 0 or 1. -/
def OidContent (components : List Nat) (bs : Bytes) : Prop :=
  ∃ x y rest parts, components = x :: y :: rest ∧ x ≤ 2 ∧ (x < 2 → y < 40) ∧
    List.Forall₂ Subidentifier ((40 * x + y) :: rest) parts ∧ bs = parts.flatten

mutual
/-- `DerItem o item bs`: `bs`, lying at position `o`, is the encoding of `item`, and the ranges recorded in `item` are
the positions of the encodings. -/
inductive DerItem : Nat → Item → Bytes → Prop
  | mk {o v bs} : DerValue o v bs → DerItem o (.mk o (o + bs.length) v) bs
/-- The encoding of a value at a position. -/
inductive DerValue : Nat → Value → Bytes → Prop
  | false {o bs} : Tlv 0 false 1 [0x00] bs → DerValue o (.boolean false) bs
  | true {o bs} : Tlv 0 false 1 [0xff] bs → DerValue o (.boolean true) bs
  | integer {o d bs} : Tlv 0 false 2 d bs → DerValue o (.integer d) bs
  | bitString {o u d bs} : Tlv 0 false 3 (u :: d) bs → DerValue o (.bitString u d) bs
  | octetString {o d bs} : Tlv 0 false 4 d bs → DerValue o (.octetString d) bs
  | null {o bs} : Tlv 0 false 5 [] bs → DerValue o .null bs
  | objectIdentifier {o parts d bs} : OidContent parts d → Tlv 0 false 6 d bs → DerValue o (.objectIdentifier parts) bs
  | utf8String {o s bs} : Tlv 0 false 12 (utf8Encode s) bs → DerValue o (.utf8String s) bs
  | printableString {o s bs} : Tlv 0 false 19 (utf8Encode s) bs → DerValue o (.printableString s) bs
  | utcTime {o s bs} : Tlv 0 false 23 (utf8Encode s) bs → DerValue o (.utcTime s) bs
  | generalizedTime {o s bs} : Tlv 0 false 24 (utf8Encode s) bs → DerValue o (.generalizedTime s) bs
  | sequence {o items d bs} : DerItems (o + bs.length - d.length) items d → Tlv 0 true 16 d bs →
      DerValue o (.sequence items) bs
  | set {o items d bs} : DerItems (o + bs.length - d.length) items d → Tlv 0 true 17 d bs → DerValue o (.set items) bs
  | application {o tag child d bs} : DerItem (o + bs.length - d.length) child d → Tlv 1 true tag d bs →
      DerValue o (.application tag child) bs
  | contextSpecific {o tag child d bs} : DerItem (o + bs.length - d.length) child d → Tlv 2 true tag d bs →
      DerValue o (.contextSpecific tag child) bs
  | priv {o tag child d bs} : DerItem (o + bs.length - d.length) child d → Tlv 3 true tag d bs →
      DerValue o (.priv tag child) bs
/-- Encodings one after the other. -/
inductive DerItems : Nat → List Item → Bytes → Prop
  | nil {o} : DerItems o [] []
  | cons {o i is b bs} : DerItem o i b → DerItems (o + b.length) is bs → DerItems o (i :: is) (b ++ bs)
end

/-- `v` is the value of `item` or of an item nested in it. -/
inductive Occurs (v : Value) : Item → Prop
  | here {a b} : Occurs v (.mk a b v)
  | sequence {a b items i} : i ∈ items → Occurs v i → Occurs v (.mk a b (.sequence items))
  | set {a b items i} : i ∈ items → Occurs v i → Occurs v (.mk a b (.set items))
  | application {a b tag i} : Occurs v i → Occurs v (.mk a b (.application tag i))
  | contextSpecific {a b tag i} : Occurs v i → Occurs v (.mk a b (.contextSpecific tag i))
  | priv {a b tag i} : Occurs v i → Occurs v (.mk a b (.priv tag i))

mutual
/-- Equal but for the recorded ranges. -/
inductive SameItem : Item → Item → Prop
  | mk {a b c d v w} : SameValue v w → SameItem (.mk a b v) (.mk c d w)
/-- Equal but for the recorded ranges. -/
inductive SameValue : Value → Value → Prop
  | refl {v} : SameValue v v
  | sequence {is js} : SameItems is js → SameValue (.sequence is) (.sequence js)
  | set {is js} : SameItems is js → SameValue (.set is) (.set js)
  | application {t i j} : SameItem i j → SameValue (.application t i) (.application t j)
  | contextSpecific {t i j} : SameItem i j → SameValue (.contextSpecific t i) (.contextSpecific t j)
  | priv {t i j} : SameItem i j → SameValue (.priv t i) (.priv t j)
/-- Equal but for the recorded ranges. -/
inductive SameItems : List Item → List Item → Prop
  | nil : SameItems [] []
  | cons {i j is js} : SameItem i j → SameItems is js → SameItems (i :: is) (j :: js)
end

/-- `c` is `item` or an item nested in it. -/
inductive Part (c : Item) : Item → Prop
  | here : Part c c
  | sequence {a b items i} : i ∈ items → Part c i → Part c (.mk a b (.sequence items))
  | set {a b items i} : i ∈ items → Part c i → Part c (.mk a b (.set items))
  | application {a b tag i} : Part c i → Part c (.mk a b (.application tag i))
  | contextSpecific {a b tag i} : Part c i → Part c (.mk a b (.contextSpecific tag i))
  | priv {a b tag i} : Part c i → Part c (.mk a b (.priv tag i))

/-- The ranges of the items follow each other without gaps from `a` to `b`. -/
def Tiles (a b : Nat) : List Item → Prop
  | [] => a = b
  | i :: is => i.start = a ∧ i.start < i.stop ∧ Tiles i.stop b is

/-- The children lie behind the identifier and length octets: those of a sequence or set side by side up to its end. -/
def WellPlaced : Item → Prop
  | .mk a b (.sequence items) | .mk a b (.set items) => ∃ k, a + 2 ≤ k ∧ Tiles k b items
  | .mk a b (.application _ i) | .mk a b (.contextSpecific _ i) | .mk a b (.priv _ i) =>
    a + 2 ≤ i.start ∧ i.start < i.stop ∧ i.stop ≤ b
  | .mk a b _ => a + 2 ≤ b

/-- What the reader needs beyond DER: the second component of an object identifier below 40 and every number in it
within 64 bits. -/
def Readable : Value → Prop
  | .objectIdentifier (x :: y :: rest) => y < 40 ∧ x * 40 + y < 2 ^ 64 ∧ ∀ n ∈ rest, n < 2 ^ 64
  | _ => True

/-- The components of an object identifier as they come out of the reader: every subidentifier modulo `2 ^ 64`, and the first one taken
apart with remainder 40 even if the first component is 2. -/
def seenOid : List Nat → List Nat
  | x :: y :: rest => (40 * x + y) % 2 ^ 64 / 40 :: (40 * x + y) % 2 ^ 64 % 40 :: rest.map (· % 2 ^ 64)
  | ns => ns

mutual
/-- An item with all its object identifiers as they come out of the reader. -/
def seenItem : Item → Item
  | .mk a b v => .mk a b (seenValue v)
/-- A value with all its object identifiers as they come out of the reader. -/
def seenValue : Value → Value
  | .objectIdentifier ns => .objectIdentifier (seenOid ns)
  | .sequence items => .sequence (seenItems items)
  | .set items => .set (seenItems items)
  | .application t i => .application t (seenItem i)
  | .contextSpecific t i => .contextSpecific t (seenItem i)
  | .priv t i => .priv t (seenItem i)
  | v => v
/-- Items with all their object identifiers as they come out of the reader. -/
def seenItems : List Item → List Item
  | [] => []
  | i :: is => seenItem i :: seenItems is
end

/-- Values that come out of reading and writing as they went in: no `true`, and object identifiers with numbers within 64 bits. -/
def Kept : Value → Prop
  | .boolean b => b = false
  | .objectIdentifier (x :: y :: rest) => 40 * x + y < 2 ^ 64 ∧ ∀ n ∈ rest, n < 2 ^ 64
  | _ => True

/-- What the writer encodes as DER: no `true`, object identifiers of X.690 form, tags up to 30, nothing unknown. -/
def Writable : Value → Prop
  | .boolean b => b = false
  | .objectIdentifier (x :: y :: _) => x ≤ 2 ∧ (x < 2 → y < 40) ∧ x * 40 + y < 2 ^ 64
  | .objectIdentifier _ => False
  | .application tag _ | .contextSpecific tag _ | .priv tag _ => tag ≤ 30
  | .unknown _ _ => False
  | _ => True

end Ngfs.Spec
