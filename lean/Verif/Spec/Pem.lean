import Verif.Model.Multibase
import Verif.Model.Utf8

/-! PEM text. Of the model only the base64 decoder of `multibase` is used. -/
namespace Ngfs.Spec
open Ngfs.Multibase

/-- One or more dashes. -/
def Dashes (bs : Bytes) : Prop := ∃ n, bs = List.replicate (n + 1) 0x2d

/-- Upper-case letters and spaces. -/
def LabelText (bs : Bytes) : Prop := ∀ b ∈ bs, (65 ≤ b.toNat ∧ b.toNat ≤ 90) ∨ b.toNat = 32

/-- A line end, with or without a carriage return. -/
def LineEnd (bs : Bytes) : Prop := bs = utf8Encode "\n" ∨ bs = utf8Encode "\r\n"

/-- The digits of base64 and the padding. -/
def Base64Text (bs : Bytes) : Prop :=
  ∀ b ∈ bs, b ∈ utf8Encode "ABCDEFGHIJKLMNOPQRSTUVWXYZabcdefghijklmnopqrstuvwxyz0123456789+/="

/-- Base64 text broken into lines anywhere, with or without carriage returns. -/
def BodyText (bs : Bytes) : Prop := Base64Text (bs.filter fun b => b ≠ 10 ∧ b ≠ 13)

/-- The base64 decoder applied to the text without line ends. -/
def bodyData (bs : Bytes) : Option Bytes :=
  match decodeNoprefix ((bs.filter fun b => b ≠ 10 ∧ b ≠ 13).map fun b => Char.ofNat b.toNat) .base64Pad with
  | .ok d => some d
  | .error _ => none

/-- The line before the data. -/
def Header (label bs : Bytes) : Prop := ∃ d1 d2 nl, Dashes d1 ∧ Dashes d2 ∧ LineEnd nl ∧ LabelText label ∧
  bs = d1 ++ utf8Encode "BEGIN " ++ label ++ d2 ++ nl

/-- The line after the data. -/
def Footer (label bs : Bytes) : Prop := ∃ d1 d2 nl, Dashes d1 ∧ Dashes d2 ∧ LineEnd nl ∧ LabelText label ∧
  bs = d1 ++ utf8Encode "END " ++ label ++ d2 ++ nl

/-- The text ends before the word BEGIN or the word END is complete. -/
def CutInKeyword (input : Bytes) : Prop :=
  (∃ d p, Dashes d ∧ p <+: utf8Encode "BEGIN" ∧ p ≠ utf8Encode "BEGIN" ∧ input = d ++ p) ∨
  (∃ label h body d p, Header label h ∧ BodyText body ∧ Dashes d ∧ p <+: utf8Encode "END" ∧ p ≠ utf8Encode "END" ∧
    input = h ++ body ++ d ++ p)

end Ngfs.Spec
