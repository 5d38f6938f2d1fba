import Verif.Spec.Util
import Verif.Spec.Multibase

/-! The file that `test_multibase` reads and the table that it prints (C186). -/
namespace Ngfs.Spec.Multibase

/-- A text of lines, each with a newline behind it. -/
def textOf (lines : List (List Char)) : List Char := lines.flatMap (· ++ ['\n'])

/-- A line: no newline in it and no carriage return at its end. -/
def IsLine (line : List Char) : Prop := '\n' ∉ line ∧ line.getLast? ≠ some '\r'

/-- A row of the table: the number as it stands in the file, in a column of at least forty characters, and an encoding. -/
def Row (line encoded out : List Char) : Prop :=
  ∃ n, out = line ++ List.replicate n ' ' ++ ' ' :: encoded ∧ 40 ≤ line.length + n ∧ (n = 0 ∨ line.length + n = 40)

end Ngfs.Spec.Multibase
