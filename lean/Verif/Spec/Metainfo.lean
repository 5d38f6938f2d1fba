import Verif.Model.Torrent
import Verif.Spec.Bencode

/-! Torrent files (BEP 3, BEP 12) in terms of bencode values without positions. Of the model only the result type is used. -/
namespace Ngfs.Spec.Torrent
open Ngfs.Torrent Ngfs.Spec

/-- A text. -/
def IsText (p : Plain) (s : String) : Prop := p = .bytes (utf8Encode s)

/-- A list of texts. -/
def IsTexts (p : Plain) (ss : List String) : Prop := ∃ items, p = .list items ∧ List.Forall₂ IsText items ss

/-- Components with `/` between them. -/
def joined : List String → String
  | [] => ""
  | [c] => c
  | c :: d :: cs => c ++ "/" ++ joined (d :: cs)

/-- An entry of the list of files. Empty components at the front of a path do not count. -/
def IsFile (p : Plain) (f : File) : Prop :=
  ∃ entries path components, p = .dict entries ∧ entries.lookup "length" = some (.integer f.length) ∧ entries.lookup "path" = some path ∧
    IsTexts path components ∧ f.path = joined (components.dropWhile (· = ""))

/-- The value describes a torrent of several files with a list of trackers: these are its parts. Other keys may be present.
`info` are the entries of the dictionary that is hashed. -/
def Describes (p : Plain) (info : List (String × Plain)) (t : Torrent) : Prop :=
  ∃ root name groups items files entries hashes, p = .dict root ∧ root.lookup "info" = some (.dict info) ∧
    info.lookup "name" = some name ∧ IsText name t.name ∧
    root.lookup "announce-list" = some groups ∧ groups = .list items ∧ List.Forall₂ IsTexts items t.trackerGroups ∧
    info.lookup "files" = some files ∧ files = .list entries ∧ List.Forall₂ IsFile entries t.files ∧
    info.lookup "piece length" = some (.integer t.pieceLength) ∧ info.lookup "pieces" = some (.bytes hashes) ∧
    hashes = t.pieces.flatten ∧ (∀ h ∈ t.pieces, h.length = 20) ∧ t.totalLength = (t.files.map File.length).sum

end Ngfs.Spec.Torrent
