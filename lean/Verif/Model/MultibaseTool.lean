import Verif.Model.Multibase

/-! Model of the command line tool `/repo/src/bin/multibase.rs`, and of the names of the bases in
`/repo/src/ipfs/types/multibase.rs`. A command gives what is printed to standard output, without the newline of each
line. The parsing of the arguments by `clap` is left out. -/
namespace Ngfs.Multibase

/-- `AVAILABLE_BASES`, multibase.rs 115-128, and `Base::available`, 131-133. -/
def Base.available : List Base :=
  [.base16, .base16Upper, .base32, .base32Upper, .base32Pad, .base32PadUpper, .base58Flickr, .base58BTC, .base64,
   .base64Pad, .base64URL, .base64URLPad]

/-- The arms of `for_name`, multibase.rs 155-166. -/
def nameTable : List (String × Base) :=
  [("base16", .base16), ("base16upper", .base16Upper), ("base32", .base32), ("base32upper", .base32Upper),
   ("base32pad", .base32Pad), ("base32padupper", .base32PadUpper), ("base58flickr", .base58Flickr),
   ("base58btc", .base58BTC), ("base64", .base64), ("base64pad", .base64Pad), ("base64url", .base64URL),
   ("base64urlpad", .base64URLPad)]

/-- `Base::for_name`, multibase.rs 153-169. -/
def Base.forName (name : String) : Option Base := (nameTable.find? fun arm => arm.1 == name).map (·.2)

/-- `Base::name`, multibase.rs 188-203. -/
def Base.name : Base → String
  | .base16 => "base16"
  | .base16Upper => "base16upper"
  | .base32 => "base32"
  | .base32Upper => "base32upper"
  | .base32Pad => "base32pad"
  | .base32PadUpper => "base32padupper"
  | .base58Flickr => "base58flickr"
  | .base58BTC => "base58btc"
  | .base64 => "base64"
  | .base64Pad => "base64pad"
  | .base64URL => "base64url"
  | .base64URLPad => "base64urlpad"

/-- The errors of the tool: those of `decode` and "Unknown base", bin/multibase.rs 75. -/
inductive ToolError where
  | decode (e : DecodeError)
  | unknownBase (name : String)

/-- `list`, bin/multibase.rs 53-58: the lines. -/
def listCmd : List (List Char) := Base.available.map fun base => [base.code, ' '] ++ base.name.toList

/-- `detect`, bin/multibase.rs 60-65. -/
def detectCmd (value : List Char) : Except ToolError (List Char) :=
  match value with
  | [] => .error (.decode .emptyString)
  | code :: _ =>
    match Base.forCode code with
    | none => .error (.decode (.unsupportedEncoding code))
    | some base => .ok base.name.toList

/-- `decode_cmd`, bin/multibase.rs 67-72. -/
def decodeCmd (value : List Char) : Except ToolError (List Char) :=
  match decode value with
  | .error e => .error (.decode e)
  | .ok binary => .ok (encodeNoprefix binary .base16)

/-- `convert`, bin/multibase.rs 74-79. -/
def convertCmd (to_ : String) (value : List Char) : Except ToolError (List Char) :=
  match Base.forName to_ with
  | none => .error (.unknownBase to_)
  | some toBase =>
    match decode value with
    | .error e => .error (.decode e)
    | .ok binary => .ok (encode binary toBase)

end Ngfs.Multibase
