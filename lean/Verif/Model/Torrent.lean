import Verif.Model.Bencode
import Verif.Model.Util

/-! `src/bittorrent/torrent.rs`: torrent files. SHA-1 is a parameter. Arithmetic that overflows is a panic (as in a build with overflow
checks). -/
namespace Ngfs.Torrent
open Bencode

/-- `TorrentError`, torrent.rs 8-12, without its texts; `panic` stands for a Rust panic. -/
inductive Err where
  | string
  | value
  | parse (e : PErr)
  | panic
deriving DecidableEq, Repr

/-- `usize` addition. -/
def addU (a b : Nat) : Except Err Nat := if a + b < 2 ^ 64 then .ok (a + b) else .error .panic

/-- `usize` multiplication. -/
def mulU (a b : Nat) : Except Err Nat := if a * b < 2 ^ 64 then .ok (a * b) else .error .panic

/-- `usize` subtraction. -/
def subU (a b : Nat) : Except Err Nat := if b ≤ a then .ok (a - b) else .error .panic

/-- `Value::as_byte_string` (`formats/bencoding/mod.rs` 122-130). -/
def asByteString : Value → Except Err Bytes
  | .bytes _ data => .ok data
  | _ => .error .value

/-- `Value::as_string` (`formats/bencoding/mod.rs` 118-120, 57-67). -/
def asString (v : Value) : Except Err String :=
  match asByteString v with
  | .error e => .error e
  | .ok data =>
    match utf8Decode data with
    | some s => .ok s
    | none => .error .value

/-- `Value::as_integer` (`formats/bencoding/mod.rs` 132-140). -/
def asInteger : Value → Except Err Nat
  | .integer _ n => .ok n
  | _ => .error .value

/-- `Value::as_list` (`formats/bencoding/mod.rs` 142-150). -/
def asList : Value → Except Err (List Value)
  | .list _ items => .ok items
  | _ => .error .value

/-- `Value::as_dictionary` (`formats/bencoding/mod.rs` 152-160): location and entries. -/
def asDictionary : Value → Except Err (Loc × List (String × Value))
  | .dict loc entries => .ok (loc, entries)
  | _ => .error .value

/-- `Dictionary::get_required` (`formats/bencoding/mod.rs` 88-96). -/
def getRequired (entries : List (String × Value)) (key : String) : Except Err Value :=
  match entries.lookup key with
  | some v => .ok v
  | none => .error .value

/-- `TorrentFile`, torrent.rs 73-76. -/
structure File where
  length : Nat
  path : String
deriving DecidableEq, Repr

/-- `Torrent`, torrent.rs 78-88, without the copies of the input (`data`, `root`). A tracker is its URL. -/
structure Torrent where
  infoHash : Bytes
  name : String
  trackerGroups : List (List String)
  files : List File
  pieceLength : Nat
  pieces : List Bytes
  totalLength : Nat
deriving DecidableEq, Repr

/-- `last_piece_length`, torrent.rs 91-100. -/
def Torrent.lastPieceLength (t : Torrent) : Except Err Nat :=
  if t.pieces.length = 0 then .ok t.totalLength
  else do
    let allButLast ← mulU t.pieceLength (t.pieces.length - 1)
    subU t.totalLength allButLast

/-- `parse_announce_list`, torrent.rs 102-115. -/
def parseAnnounceList (v : Value) : Except Err (List (List String)) := do
  let groups ← asList v
  groups.mapM fun g => do
    let members ← asList g
    members.mapM asString

/-- The path of a file, torrent.rs 125-131: components joined by `/`; no `/` is put behind an empty text. -/
def joinPath (components : List String) : String :=
  components.foldl (fun path c => (if path.isEmpty then path else path ++ "/") ++ c) ""

/-- One file, torrent.rs 119-133. -/
def parseFile (v : Value) : Except Err File := do
  let (_, dict) ← asDictionary v
  let lengthValue ← getRequired dict "length"
  let pathValue ← getRequired dict "path"
  let length ← asInteger lengthValue
  let components ← asList pathValue
  let path ← components.mapM asString
  pure ⟨length, joinPath path⟩

/-- `parse_files`, torrent.rs 117-137. -/
def parseFiles (v : Value) : Except Err (List File) := do
  let files ← asList v
  files.mapM parseFile

/-- The piece hashes, torrent.rs 158-165: as long as twenty bytes are left. -/
def splitPieces (data : Bytes) : List Bytes :=
  if 20 ≤ data.length then data.take 20 :: splitPieces (data.drop 20) else []
termination_by data.length
decreasing_by rw [List.length_drop]; omega

/-- The sum of the lengths, torrent.rs 172-175. -/
def sumLengths : Nat → List File → Except Err Nat
  | total, [] => .ok total
  | total, f :: fs => do
    let total ← addU total f.length
    sumLengths total fs

/-- `bencoding::parse(data)?`, torrent.rs 139, with the conversion of the error (32-36). -/
def parseData (data : Bytes) : Except Err Value :=
  match Bencode.parse data with
  | .ok v => .ok v
  | .error e => .error (.parse e)

/-- `Torrent::from_bytes`, torrent.rs 139-193. -/
def fromBytes (sha1 : Bytes → Bytes) (data : Bytes) : Except Err Torrent := do
  let value ← parseData data
  let (_, root) ← asDictionary value
  let infoValue ← getRequired root "info"
  let (loc, info) ← asDictionary infoValue
  let nameValue ← getRequired info "name"
  let name ← asString nameValue
  let announceList ← getRequired root "announce-list"
  let trackerGroups ← parseAnnounceList announceList
  let filesNode ← getRequired info "files"
  let files ← parseFiles filesNode
  let pieceLengthValue ← getRequired info "piece length"
  let pieceLength ← asInteger pieceLengthValue
  let piecesValue ← getRequired info "pieces"
  let piecesData ← asByteString piecesValue
  if piecesData.length % 20 ≠ 0 then .error .string
  else
    let pieces := splitPieces piecesData
    let infoHash := sha1 (slice data loc.start loc.stop)
    let totalLength ← sumLengths 0 files
    let capacity ← mulU pieceLength pieces.length
    if totalLength > capacity then .error .string
    else pure ⟨infoHash, name, trackerGroups, files, pieceLength, pieces, totalLength⟩

end Ngfs.Torrent
