import Verif.Model.Torrent
import Verif.Model.Asn1Print

/-!
Model of `/repo/src/bin/view.rs` (a program that shows torrent files) and of `Value::dump` in
`/repo/src/formats/bencoding/mod.rs`. What goes to standard output is a list of characters; the texts that go to standard
error are left out.
-/
namespace Ngfs.View
open Ngfs.Bencode Ngfs.Torrent
open Ngfs.Util (toHex)
open Ngfs.Asn1 (txt decimal)

/-- The loops that print four spaces `indent` times, mod.rs 163-165 and 199-201. -/
def pad : Nat → List Char
  | 0 => []
  | n + 1 => [' ', ' ', ' ', ' '] ++ pad n

/-- What is shown of a byte string, mod.rs 168-181. -/
def bytesText (data : Bytes) : List Char :=
  match utf8Decode data with
  | some s => s.toList
  | none => if data.length ≤ 20 then toHex data else ['<'] ++ decimal data.length ++ txt " bytes of binary data>"

mutual
/-- `Value::dump`, mod.rs 162-205. -/
def dump (indent : Nat) : Value → List Char
  | .bytes _ data => pad indent ++ (bytesText data ++ ['\n'])
  | .integer _ n => pad indent ++ (decimal n ++ ['\n'])
  | .list _ items => pad indent ++ (txt "list" ++ ['\n']) ++ dumpItems indent items
  | .dict _ entries => pad indent ++ (txt "dict" ++ ['\n']) ++ dumpEntries indent entries
/-- The loop over the elements, mod.rs 190-192. -/
def dumpItems (indent : Nat) : List Value → List Char
  | [] => []
  | v :: vs => dump (indent + 1) v ++ dumpItems indent vs
/-- The loop over the entries, mod.rs 198-204. -/
def dumpEntries (indent : Nat) : List (String × Value) → List Char
  | [] => []
  | (k, v) :: es => pad (indent + 1) ++ (k.toList ++ txt " =" ++ ['\n']) ++ dump (indent + 2) v ++ dumpEntries indent es
end

/-- How the program ends: `main` returns, `exit(1)` after a message, or a panic. -/
inductive Exit where
  | success
  | failure
  | panic
deriving DecidableEq, Repr

/-- Standard output and how the program ends. -/
structure Result where
  out : List Char
  exit : Exit
deriving DecidableEq, Repr

/-- `println!`. -/
def println (l : List Char) : List Char := l ++ ['\n']

/-- `?` on the result of reading or of `from_bytes`: an error is printed by `main` (view.rs 187-190). -/
def Result.ofErr (out : List Char) : Err → Result
  | .panic => ⟨out, .panic⟩
  | _ => ⟨out, .failure⟩

/-- The members of one group, view.rs 84-86. -/
def groupText (members : List String) : List Char := members.flatMap fun url => println url.toList

/-- The loop of `trackers`, view.rs 83-90: an empty line after every group that is not the last. -/
def trackersText : List (List String) → List Char
  | [] => []
  | g :: gs => groupText g ++ (if gs = [] then [] else println []) ++ trackersText gs

/-- The loop of `files`, view.rs 97-99. -/
def filesText (files : List File) : List Char := files.flatMap fun f => println f.path.toList

/-- What `info` prints, view.rs 106-122. -/
def infoText (t : Torrent) : List Char :=
  println (txt "Info hash: " ++ toHex t.infoHash) ++
  println (txt "Name: " ++ t.name.toList) ++
  println (txt "Tracker groups: " ++ decimal t.trackerGroups.length) ++
  println (txt "Trackers: " ++ decimal (t.trackerGroups.map List.length).sum) ++
  println (txt "Piece length: " ++ decimal t.pieceLength) ++
  println (txt "Pieces: " ++ decimal t.pieces.length) ++
  println (txt "Files: " ++ decimal t.files.length) ++
  println (txt "Total length: " ++ decimal t.totalLength)

/-- `{:<12}` of a number, view.rs 38. -/
def left12 (n : Nat) : List Char := decimal n ++ List.replicate (12 - (decimal n).length) ' '

/-- The members of a group with their numbers, view.rs 32-34, from number `i` on. -/
def groupFull (i : Nat) : List String → List Char
  | [] => []
  | url :: urls => println (txt "        " ++ decimal i ++ txt ": " ++ url.toList) ++ groupFull (i + 1) urls

/-- The loop over the groups, view.rs 30-35, from number `i` on. -/
def groupsFull (i : Nat) : List (List String) → List Char
  | [] => []
  | g :: gs => println (txt "    group " ++ decimal i) ++ groupFull 0 g ++ groupsFull (i + 1) gs

/-- What `view_torrent` prints, view.rs 27-39. -/
def torrentText (t : Torrent) : List Char :=
  println (txt "Torrent loaded successfully") ++
  println (txt "    name = " ++ t.name.toList) ++
  println (txt "    info hash = " ++ toHex t.infoHash) ++
  groupsFull 0 t.trackerGroups ++
  println (txt "    files") ++
  t.files.flatMap fun f => println (txt "        " ++ left12 f.length ++ [' '] ++ f.path.toList)

/-- The commands, view.rs 147-156. -/
inductive Command where
  | trackers
  | files
  | info
  | hash
  | raw
  | full
deriving DecidableEq, Repr

/-- `build_commands`, view.rs 147-156. -/
def commands : List (String × Command) :=
  [("trackers", .trackers), ("files", .files), ("info", .info), ("hash", .hash), ("raw", .raw), ("full", .full)]

/-- `Torrent::from_bytes(&data)?`, and then printing. -/
def withTorrent (sha1 : Bytes → Bytes) (data : Bytes) (before : List Char) (text : Torrent → List Char) : Result :=
  match fromBytes sha1 data with
  | .error e => .ofErr before e
  | .ok t => ⟨before ++ text t, .success⟩

/-- A command on the contents of its file: `trackers`, `files`, `info`, `hash`, `raw`, `full` (view.rs 80-145), and `run`,
`view_bencoding` (43-55, 19-23). -/
def Command.run (sha1 : Bytes → Bytes) (c : Command) (filename : String) (data : Bytes) : Result :=
  match c with
  | .trackers => withTorrent sha1 data [] fun t => trackersText t.trackerGroups
  | .files => withTorrent sha1 data [] fun t => filesText t.files
  | .info => withTorrent sha1 data [] infoText
  | .hash => withTorrent sha1 data [] fun t => println (filename.toList ++ [' '] ++ toHex t.infoHash)
  | .raw =>
    match Bencode.parse data with
    | .error _ => ⟨[], .failure⟩
    | .ok v => ⟨dump 0 v, .success⟩
  | .full =>
    match Bencode.parse data with
    | .error _ => ⟨[], .failure⟩
    | .ok v => withTorrent sha1 data (dump 0 v ++ println (txt "-----------")) torrentText

/-- `print_usage`, view.rs 158-168. -/
def usage : List Char := println (txt "Commands:") ++ commands.flatMap fun c => println (txt "  " ++ c.1.toList)

/-- `main`, view.rs 170-199, with `filename_arg` and `read_file_from_arg` (70-78). `args` are the arguments after the name
of the program; `files` is the file system, `none` if a file cannot be read. -/
def main (sha1 : Bytes → Bytes) (files : String → Option Bytes) (args : List String) : Result :=
  match args with
  | [] => ⟨usage, .failure⟩
  | name :: rest =>
    match commands.lookup name with
    | none => ⟨usage, .failure⟩
    | some c =>
      match rest with
      | [] => ⟨[], .failure⟩
      | filename :: _ =>
        match files filename with
        | none => ⟨[], .failure⟩
        | some data => c.run sha1 filename data

end Ngfs.View
