import Verif.Model.Cid
import Verif.Model.Identify

/-!
Model of the command-line tool `/repo/src/bin/cli.rs`. `BinaryData` and the `{:?}` forms that are printed are left out.
-/
namespace Ngfs.Cli
open Varint Protobuf

/-- Why a command fails, or that it panics. -/
inductive Err where
  | missing (name : String)
  | unknownCommand (name : String)
  | cid (e : Cid.ParseError)
  | varint
  | mismatch (value decoded : Nat)
  | invalid (value : Nat)
  | noFile
  | key
  | field
  | panic

/-- What is printed. -/
inductive Line where
  /-- `Plain: …`, 31 -/
  | plain (text : List Char)
  /-- `… OK`, 53 -/
  | ok (i value : Nat)
  /-- `data.len = …`, 70; `Got private key …`, 72 -/
  | size (n : Nat)
  | key (keyType : Identify.KeyType) (n : Nat)
  /-- `offset …, field_number …`, 92-93, and `value = …`, 94 -/
  | field (offset number : Nat) (value : Int)
deriving DecidableEq

/-- `get_argument`, 16-25. -/
def getArgument (args : List String) (index : Nat) (name : String) : Except Err String :=
  match args[index]? with
  | some a => .ok a
  | none => .error (.missing name)

/-- `cid_command`, 28-35. -/
def cidCommand (args : List String) : Except Err (List Line) := do
  let s ← getArgument args 0 "cid"
  match Cid.fromText s.toList with
  | .ok c => .ok [.plain c.toText]
  | .error e => .error (.cid e)

/-- One round of `varint_command`, 42-63; `value` is `raw >> bits`. -/
def varintRound (i value : Nat) : Except Err Line :=
  match Cid.readFrom (encodeU64 value) 0 with
  | some (v, _) =>
    match VarInt.toU64 v with
    | .error _ => .error .varint
    | .ok decoded => if value = decoded then .ok (.ok i value) else .error (.mismatch value decoded)
  | none => .error (.invalid value)

/-- The loop of `varint_command`, 41-64, with what the generator gives in each round: `raw` and the number reduced to `bits`. -/
def varintLoop : Nat → List (Nat × Nat) → Except Err (List Line)
  | _, [] => .ok []
  | i, (raw, b) :: draws => do
    let line ← varintRound i (raw >>> (b % 64))
    let lines ← varintLoop (i + 1) draws
    .ok (line :: lines)

/-- `getkey_command`, 67-79. `file` is what the named file contains, if it can be read; `rsaDer` is
`openssl::rsa::Rsa::private_key_from_der`. -/
def getkeyCommand (file : String → Option Bytes) (rsaDer : Bytes → Bool) (args : List String) : Except Err (List Line) := do
  let name ← getArgument args 0 "filename"
  match file name with
  | none => .error .noFile
  | some data =>
    match Identify.PublicKey.fromPb data with
    | .error _ => .error .key
    | .ok k => if rsaDer k.data then .ok [.size data.length, .key k.keyType k.data.length] else .error .key

/-- The loop of `write_pbuf_command`, 91-98, over the fields read. -/
def showFields : List FieldRef → Except Err (List Line)
  | [] => .ok []
  | f :: fs =>
    match f.data.toInt64 with
    | .error _ => .error .field
    | .ok v => do
      let lines ← showFields fs
      .ok (.field f.offset f.fieldNumber v :: lines)

/-- `write_pbuf_command`, 81-101, with the value written as a parameter. -/
def writePbuf (value : Int) : Except Err (List Line) :=
  match writeInt64 [] 3 value with
  | .error _ => .error .panic
  | .ok data =>
    match readFields data with
    | .error _ => .error .field
    | .ok fs => showFields fs

/-- `&args[2..]`, 111-123, which panics if there are fewer than two. -/
def rest (args : List String) : Except Err (List String) := if args.length < 2 then .error .panic else .ok (args.drop 2)

/-- What the tool finds: the draws of the generator, the files, and openssl. -/
structure World where
  draws : List (Nat × Nat)
  file : String → Option Bytes
  rsaDer : Bytes → Bool

/-- `main`, 103-130. -/
def main (w : World) (args : List String) : Except Err (List Line) := do
  let command ← getArgument args 1 "command"
  if command = "cid" then cidCommand (← rest args)
  else if command = "varint" then let _ ← rest args; varintLoop 0 w.draws
  else if command = "getkey" then getkeyCommand w.file w.rsaDer (← rest args)
  else if command = "write-pbuf" then let _ ← rest args; writePbuf (-1234567890123456789)
  else .error (.unknownCommand command)

end Ngfs.Cli
