import Verif.Model.View
import Verif.Spec.Metainfo

/-! What the program that shows torrent files should do. Of the model only data types are used. -/
namespace Ngfs.Spec.View
open Ngfs.Bencode Ngfs.Torrent Ngfs.Spec Ngfs.Spec.Torrent

/-- A text that takes one line and begins where it should. -/
def OneLine (s : String) : Prop := '\n' ∉ s.toList ∧ s.toList.head? ≠ some ' '

/-- A text that does not look like a number or like the beginning of a list or a dictionary. -/
def Unlike (s : String) : Prop := s ≠ "list" ∧ s ≠ "dict" ∧ (s = "" ∨ ∃ c ∈ s.toList, c.isDigit = false)

mutual
/-- All strings are texts that take one line and do not look like anything else. -/
def Readable : Plain → Prop
  | .bytes data => ∃ s, data = utf8Encode s ∧ OneLine s ∧ Unlike s
  | .integer _ => True
  | .list items => readableItems items
  | .dict entries => readableEntries entries
def readableItems : List Plain → Prop
  | [] => True
  | v :: vs => Readable v ∧ readableItems vs
def readableEntries : List (String × Plain) → Prop
  | [] => True
  | (k, v) :: es => (k ≠ "" ∧ OneLine k) ∧ Readable v ∧ readableEntries es
end

/-- The bytes begin with a bencoded value. -/
def Holds (data : Bytes) (v : Value) : Prop := ∃ bs rest, data = bs ++ rest ∧ Enc false 0 "" v bs

/-- The bytes are a torrent file. -/
def IsTorrent (data : Bytes) (t : Torrent) : Prop :=
  ∃ v info, Holds data v ∧ Describes (plain v) info t ∧
    t.totalLength ≤ t.pieceLength * t.pieces.length ∧ t.pieceLength * t.pieces.length < 2 ^ 64

/-- The lines, each with a newline behind it. -/
def lines (ls : List String) : List Char := (ls.map fun l => l.toList ++ ['\n']).flatten

end Ngfs.Spec.View
