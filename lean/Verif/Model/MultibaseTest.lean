import Verif.Model.MultibaseTool
import Verif.Model.HexDump

/-! Model of `/repo/src/bin/test_multibase.rs`, a program that encodes the numbers in a file and checks that they decode. The arguments are
given (lines 15-29 leave the program when one is missing), and so is the text of the file (line 39). -/
namespace Ngfs.Multibase

/-- How the program ends. All but `done` are exit code 1. -/
inductive TestEnd where
  | done
  /-- test_multibase.rs 31-37 -/
  | unknownBase
  /-- 50-55 -/
  | notEqual (expected actual : Bytes)
  /-- 57-60 -/
  | decode (e : DecodeError)
  /-- 64 -/
  | invalidHex (lineno : Nat) (line : List Char)
  deriving DecidableEq

/-- `{:<40}`: filled up with spaces to forty characters. -/
def fill40 (line : List Char) : List Char := line ++ List.replicate (40 - line.length) ' '

/-- The loop, test_multibase.rs 40-66: what is printed, line by line, and how it ends. -/
def testLoop (base : Base) : Nat → List (List Char) → List (List Char) × TestEnd
  | _, [] => ([], .done)
  | lineno, line :: lines =>
    match Util.fromHex line with
    | none => ([], .invalidHex lineno line)
    | some bytes =>
      let encoded := encode bytes base
      let out := fill40 line ++ ' ' :: encoded
      match decode encoded with
      | .error e => ([out], .decode e)
      | .ok decoded =>
        if decoded = bytes then
          match testLoop base (lineno + 1) lines with
          | (outs, r) => (out :: outs, r)
        else ([out], .notEqual bytes decoded)

/-- `main_result`, test_multibase.rs 12-69. -/
def testCmd (content : List Char) (baseName : String) : List (List Char) × TestEnd :=
  match Base.forName baseName with
  | none => ([], .unknownBase)
  | some base => testLoop base 0 (Util.linesLoop [] content)

end Ngfs.Multibase
