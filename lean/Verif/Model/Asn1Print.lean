import Verif.Model.Asn1
import Verif.Model.Util
import Verif.Model.Chat

/-!
Model of `/repo/src/formats/asn1/printer.rs` 76-205. What is written to standard output is a list of characters;
`println!` adds the newline.
-/
namespace Ngfs.Asn1
open Ngfs.Util (toHex)

/-- The characters of a literal text. -/
@[irreducible] def txt (s : String) : List Char := s.toList

/-- `Printer`, printer.rs 76-81. `registry` is `lookup_long_name` (36-41) of the registry, if there is one. The field
`lines` is not read by the code and left out. -/
structure Printer where
  truncate : Bool
  registry : Option (List Nat → Option String)
  ranges : Bool

/-- A number in decimal, `{}`. -/
def decimal (n : Nat) : List Char := Nat.toDigits 10 n

/-- A number in hexadecimal, `{:x}`. -/
def hexadecimal (n : Nat) : List Char := Nat.toDigits 16 n

/-- The loop of `bytes_to_string`, printer.rs 95-101, from index `i` on. -/
def bytesToStringLoop (truncate : Bool) (i : Nat) : Bytes → List Char
  | [] => []
  | b :: bs => if truncate ∧ i ≥ 16 then txt "..." else toHex [b] ++ bytesToStringLoop truncate (i + 1) bs

/-- `bytes_to_string`, printer.rs 93-103. -/
def Printer.bytesToString (p : Printer) (bytes : Bytes) : List Char := bytesToStringLoop p.truncate 0 bytes

/-- The `Display` of `ObjectIdentifier`, value.rs 33-43, from index `i` on. -/
def oidText (i : Nat) : List Nat → List Char
  | [] => []
  | n :: ns => (if i > 0 then ['.'] else []) ++ decimal n ++ oidText (i + 1) ns

/-- The derived `Debug` of `Class`, value.rs 9-15. -/
def Class.debug : Class → List Char
  | .universal => txt "Universal"
  | .application => txt "Application"
  | .contextSpecific => txt "ContextSpecific"
  | .priv => txt "Private"

/-- The derived `Debug` of `Form`, value.rs 17-21. -/
def Form.debug : Form → List Char
  | .primitive => txt "Primitive"
  | .constructed => txt "Constructed"

/-- The derived `Debug` of `Identifier`, value.rs 23-28. -/
def Identifier.debug (id : Identifier) : List Char :=
  txt "Identifier { class: " ++ id.cls.debug ++ txt ", form: " ++ id.form.debug ++ txt ", tag: " ++
    decimal id.tag ++ txt " }"

/-- The line of an object identifier, printer.rs 162-172, without the newline. -/
def Printer.oidLine (p : Printer) (parts : List Nat) : List Char :=
  match p.registry.bind fun r => r parts with
  | some name => txt "OBJECT " ++ name.toList ++ txt " (" ++ oidText 0 parts ++ txt ")"
  | none => txt "OBJECT " ++ oidText 0 parts

/-- `print_item` up to the `match`, printer.rs 132-135. -/
def Printer.rangeText (p : Printer) (start stop : Nat) : List Char :=
  if p.ranges then txt "[" ++ hexadecimal start ++ txt ".." ++ hexadecimal stop ++ txt "] " else []

mutual
/-- `print_item`, printer.rs 128-200. -/
def Printer.printItem (p : Printer) : Item → (pre indent : List Char) → List Char
  | .mk start stop value, pre, indent => pre ++ p.rangeText start stop ++ p.printValue value indent
/-- The `match` of `print_item`, printer.rs 137-200. -/
def Printer.printValue (p : Printer) : Value → (indent : List Char) → List Char
  | .boolean b, _ => txt "BOOLEAN " ++ (if b then txt "true" else txt "false") ++ ['\n']
  | .integer bytes, _ => txt "INTEGER " ++ p.bytesToString bytes ++ ['\n']
  | .bitString unused bytes, _ => txt "BIT STRING " ++ p.bytesToString bytes ++ txt " (" ++ decimal bytes.length ++
      txt " bytes, " ++ decimal unused.toNat ++ txt " unused bits)" ++ ['\n']
  | .octetString bytes, _ => txt "OCTET STRING " ++ p.bytesToString bytes ++ txt " (" ++ decimal bytes.length ++
      txt " bytes)" ++ ['\n']
  | .null, _ => txt "NULL" ++ ['\n']
  | .objectIdentifier parts, _ => p.oidLine parts ++ ['\n']
  | .printableString s, _ => txt "PrintableString " ++ (Chat.escapeString s).toList ++ ['\n']
  | .utf8String s, _ => txt "UTF8String " ++ (Chat.escapeString s).toList ++ ['\n']
  | .utcTime s, _ => txt "UTCTime " ++ (Chat.escapeString s).toList ++ ['\n']
  | .generalizedTime s, _ => txt "GeneralizedTime " ++ (Chat.escapeString s).toList ++ ['\n']
  | .sequence items, indent => txt "Sequence" ++ ['\n'] ++ p.printList items indent
  | .set items, indent => txt "Set" ++ ['\n'] ++ p.printList items indent
  | .application tag child, indent => txt "Application (" ++ decimal tag ++ txt ")" ++ ['\n'] ++
      p.printItem child (indent ++ txt "└── ") (indent ++ txt "    ")
  | .contextSpecific tag child, indent => txt "ContextSpecific (" ++ decimal tag ++ txt ")" ++ ['\n'] ++
      p.printItem child (indent ++ txt "└── ") (indent ++ txt "    ")
  | .priv tag child, indent => txt "Private (" ++ decimal tag ++ txt ")" ++ ['\n'] ++
      p.printItem child (indent ++ txt "└── ") (indent ++ txt "    ")
  | .unknown id length, _ => txt "Unknown " ++ id.debug ++ txt ", len = " ++ decimal length ++ ['\n']
/-- The loop of `print_list`, printer.rs 108-119, on the items not yet printed. `print_single_child` (122-127) is
written out in `printValue`. -/
def Printer.printList (p : Printer) : List Item → (indent : List Char) → List Char
  | [], _ => []
  | item :: items, indent =>
    if 1 < (item :: items).length then
      p.printItem item (indent ++ txt "├── ") (indent ++ txt "│   ") ++ p.printList items indent
    else p.printItem item (indent ++ txt "└── ") (indent ++ txt "    ") ++ p.printList items indent
end

/-- `print`, printer.rs 202-204. -/
def Printer.print (p : Printer) (item : Item) : List Char := p.printItem item [] []

end Ngfs.Asn1
