import Verif.Model.CertText
import Verif.Model.Pem

/-!
Model of the program `/repo/src/bin/asn1.rs`, which shows an ASN.1 file and writes it again. The parsing of the arguments by `clap` and
the texts of the errors are left out.
-/
namespace Ngfs.Asn1
open Ngfs.Binary

/-- `Opt`, asn1.rs 17-30. -/
structure ToolOpt where
  ranges : Bool
  input : String
  output : Option String

/-- How the program ends. -/
inductive ToolEnd where
  | success
  /-- the input cannot be read, 34 -/
  | noInput
  | pem (e : Pem.Err)
  | read (e : BinErr)
  | write (e : WErr)
  /-- the output cannot be written, 54 -/
  | noOutput

/-- What is printed, the file that is written, and how the program ends. -/
structure ToolResult where
  out : List Char
  written : Option (String × Bytes)
  stop : ToolEnd

/-- The printer, asn1.rs 41-48: long byte strings are cut off, and the names of x509.rs are known. -/
def toolPrinter (ranges : Bool) : Printer := ⟨true, some X509.lookupLongName, ranges⟩

/-- The input as it is, or taken out of PEM if its first byte is a dash, asn1.rs 35-37. `n` bounds the loops of the PEM decoder (see
`Verif/Model/Pem.lean`). -/
def toolData (n : Nat) (data : Bytes) : Except Pem.Err Bytes :=
  if data.head? = some 0x2d then
    match Pem.decodePem n data with
    | .error e => .error e
    | .ok (_, d) => .ok d
  else .ok data

/-- The second half of `main`, asn1.rs 51-58. `canWrite` tells whether a file can be written. -/
def toolOutput (canWrite : String → Bool) (output : Option String) (item : Item) (out : List Char) : ToolResult :=
  match output with
  | none => ⟨out, none, .success⟩
  | some name =>
    match encodeItem item with
    | .error e => ⟨out, none, .write e⟩
    | .ok data =>
      if canWrite name then ⟨out ++ (txt "Wrote " ++ name.toList ++ ['\n']), some (name, data), .success⟩
      else ⟨out, none, .noOutput⟩

/-- `main`, asn1.rs 32-59. `files` is the file system. -/
def toolMain (n : Nat) (files : String → Option Bytes) (canWrite : String → Bool) (opt : ToolOpt) : ToolResult :=
  match files opt.input with
  | none => ⟨[], none, .noInput⟩
  | some raw =>
    match toolData n raw with
    | .error e => ⟨[], none, .pem e⟩
    | .ok data =>
      match (readItem ⟨data, 0⟩).1 with
      | .error e => ⟨[], none, .read e⟩
      | .ok item => toolOutput canWrite opt.output item ((toolPrinter opt.ranges).print item)

end Ngfs.Asn1
