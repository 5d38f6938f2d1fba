import Verif.Model.Basic
import Mathlib.Data.List.Basic

/-! What hex text and the bit fields of the BitTorrent protocol mean. -/
namespace Ngfs.Spec

/-- `c` is a hex digit, of either case, of value `n`. -/
def HexDigit (c : Char) (n : Nat) : Prop :=
  n < 16 ∧ ("0123456789abcdef".toList[n]? = some c ∨ "0123456789ABCDEF".toList[n]? = some c)

/-- Two digits per byte, the high one first. -/
inductive HexText : List Char → Bytes → Prop
  | nil : HexText [] []
  | cons {c d : Char} {h l : Nat} {cs : List Char} {bs : Bytes} : HexDigit c h → HexDigit d l → HexText cs bs →
      HexText (c :: d :: cs) (UInt8.ofNat (16 * h + l) :: bs)

/-- Bit `i` of a bit field message (BEP 3): the high bit of the first byte is bit 0. `none`: beyond the message. -/
def messageBit (bytes : Bytes) (i : Nat) : Option Bool :=
  (bytes[i / 8]?).map fun b => b.toNat.testBit (7 - i % 8)

/-- Whether piece `i` is there after the messages: the last one that covers it decides; at first it is not. -/
def pieceAfter (messages : List Bytes) (i : Nat) : Bool :=
  ((messages.reverse.findSome? fun m => messageBit m i)).getD false

end Ngfs.Spec
