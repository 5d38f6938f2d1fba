import Verif.Spec.CertTime
import Verif.Spec.Util

/-! The table that `test_detrand` prints: numbers in base 16 and 2, and how often each binary digit is 1. -/
namespace Ngfs.Spec

/-- A number in base 16. -/
def HexNumber (text : List Char) (n : Nat) : Prop :=
  ∃ ds, List.Forall₂ HexDigit text ds ∧ n = ds.foldl (fun a d => 16 * a + d) 0

/-- A number in base 2. -/
def BinaryNumber (text : List Char) (n : Nat) : Prop :=
  (∀ c ∈ text, c = '0' ∨ c = '1') ∧ n = text.foldl (fun a c => 2 * a + if c = '1' then 1 else 0) 0

/-- The numbers that follow the number `s` in the sequence of the generator. -/
def Follow : Nat → List Nat → Prop
  | _, [] => True
  | s, v :: vs => v = (214013 * s + 2531011) % 2 ^ 32 ∧ Follow v vs

/-- A line of the table. -/
structure TableLine where
  hex : List Char
  bits : List Char

/-- Its text. -/
def TableLine.text (l : TableLine) : List Char := l.hex ++ ' ' :: (l.bits ++ ['\n'])

/-- It shows this number. -/
def TableLine.Shows (l : TableLine) (v : Nat) : Prop :=
  l.hex.length = 8 ∧ HexNumber l.hex v ∧ l.bits.length = 32 ∧ BinaryNumber l.bits v

/-- A line below the table, which shows that the digit at position `i` is 1 in `k` lines. -/
def CountLine (text : List Char) (i k : Nat) : Prop :=
  ∃ is ks, text = "frequency[".toList ++ (is ++ ("] = ".toList ++ (ks ++ ['\n']))) ∧
    is.length = 2 ∧ decimalNumber is = some i ∧ decimalNumber ks = some k

end Ngfs.Spec
