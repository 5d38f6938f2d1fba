import Verif.Model.X509
import Verif.Model.Asn1Print

/-!
Model of what `/repo/src/bin/x509.rs` prints of a certificate: the printing functions of `/repo/src/crypto/x509.rs` with
the object registry of `/repo/src/formats/asn1/printer.rs`. What goes to standard output is a list of characters;
`println!` adds the newline.
-/
namespace Ngfs.X509
open Ngfs.Asn1
open Ngfs.Util (toHex)

/-- The constants of x509.rs 10-45 with the names that `populate_registry` (x509.rs 559-591) gives them: `add2`
(printer.rs 31-34) for those with a short name, `add` (27-29) for the others. No constant is added twice. -/
def registry : List (List Nat × String × Option String) := [
  ([2, 5, 4, 3], "commonName", some "cn"),
  ([2, 5, 4, 4], "surname", some "sn"),
  ([2, 5, 4, 5], "serialNumber", none),
  ([2, 5, 4, 6], "countryName", some "c"),
  ([2, 5, 4, 7], "localityName", some "l"),
  ([2, 5, 4, 8], "stateOrProvinceName", some "st"),
  ([2, 5, 4, 9], "streetAddress", some "street"),
  ([2, 5, 4, 10], "organizationName", some "o"),
  ([2, 5, 4, 11], "organizationalUnitName", some "ou"),
  ([2, 5, 29, 35], "authorityKeyIdentifier", none),
  ([2, 5, 29, 14], "subjectKeyIdentifier", none),
  ([2, 5, 29, 17], "subjectAltName", none),
  ([2, 5, 29, 15], "keyUsage", none),
  ([2, 5, 29, 37], "extKeyUsage", none),
  ([2, 5, 29, 31], "cRLDistributionPoints", none),
  ([2, 5, 29, 32], "certificatePolicies", none),
  ([2, 5, 29, 19], "basicConstraints", none),
  ([1, 3, 6, 1, 5, 5, 7, 1, 1], "authorityInfoAccess", none),
  ([1, 2, 840, 113549, 1, 1, 11], "sha256WithRSAEncryption", none),
  ([1, 2, 840, 113549, 1, 1, 12], "sha384WithRSAEncryption", none),
  ([1, 2, 840, 113549, 1, 1, 13], "sha512WithRSAEncryption", none),
  ([1, 2, 840, 113549, 1, 1, 14], "sha224WithRSAEncryption", none),
  ([1, 2, 840, 113549, 1, 1, 1], "rsaEncryption", none),
  ([1, 2, 840, 10045, 2, 1], "ecPublicKey", none),
  ([1, 2, 840, 10045, 4, 3, 1], "ecdsa-with-SHA224", none),
  ([1, 2, 840, 10045, 4, 3, 2], "ecdsa-with-SHA256", none),
  ([1, 2, 840, 10045, 4, 3, 3], "ecdsa-with-SHA384", none),
  ([1, 2, 840, 10045, 4, 3, 4], "ecdsa-with-SHA512", none),
  ([1, 2, 840, 10045, 3, 1, 7], "prime256v1", none),
  ([1, 3, 101, 112], "ED25519", none)]

/-- `lookup_long_name`, printer.rs 36-41. -/
def lookupLongName (oid : List Nat) : Option String := (registry.lookup oid).map Prod.fst

/-- `lookup_short_name`, printer.rs 43-48. -/
def lookupShortName (oid : List Nat) : Option String := (registry.lookup oid).bind Prod.snd

/-- `get_long_name`, printer.rs 50-55. -/
def getLongName (oid : List Nat) : List Char :=
  match lookupLongName oid with
  | some s => s.toList
  | none => oidText 0 oid

/-- `Item::type_str`, value.rs 101-120. -/
def typeStr : Item → List Char
  | .mk _ _ (.boolean _) => txt "Boolean"
  | .mk _ _ (.integer _) => txt "Integer"
  | .mk _ _ (.bitString _ _) => txt "BitString"
  | .mk _ _ (.octetString _) => txt "OctetString"
  | .mk _ _ .null => txt "Null"
  | .mk _ _ (.objectIdentifier _) => txt "ObjectIdentifier"
  | .mk _ _ (.printableString _) => txt "PrintableString"
  | .mk _ _ (.utf8String _) => txt "UTF8String"
  | .mk _ _ (.utcTime _) => txt "UTCTime"
  | .mk _ _ (.generalizedTime _) => txt "GeneralizedTime"
  | .mk _ _ (.sequence _) => txt "Sequence"
  | .mk _ _ (.set _) => txt "Set"
  | .mk _ _ (.application _ _) => txt "Application"
  | .mk _ _ (.contextSpecific _ _) => txt "ContextSpecific"
  | .mk _ _ (.priv _ _) => txt "Private"
  | .mk _ _ (.unknown _ _) => txt "Unknown"

/-- `AlgorithmIdentifier::to_string`, x509.rs 121-130. -/
def AlgorithmIdentifier.text (a : AlgorithmIdentifier) : List Char :=
  match a.parameters with
  | some parameters => getLongName a.algorithm ++ txt " " ++ typeStr parameters
  | none => getLongName a.algorithm ++ txt " None"

/-- `as_string`, value.rs 191-197. -/
def asString : Item → Except PErr String
  | .mk _ _ (.printableString s) => .ok s
  | .mk _ _ (.utf8String s) => .ok s
  | _ => .error (.type "string")

/-- The name of an attribute in `name_to_simple_string`, x509.rs 498 and 506-511. The short names are ASCII, where
`to_uppercase` is letter by letter. -/
def attributeLabel (id : List Nat) : List Char :=
  match lookupShortName id with
  | some s => s.toList.map Char.toUpper
  | none =>
    match lookupLongName id with
    | some s => s.toList
    | none => txt "?"

/-- The value of an attribute in `name_to_simple_string`, x509.rs 499-504. -/
def attributeValue (item : Item) : List Char :=
  match asString item with
  | .ok s => s.toList
  | .error _ => txt "?"

/-- `name_to_simple_string`, x509.rs 495-519, from index `i` on. -/
def nameText (i : Nat) : List RelativeDistinguishedName → List Char
  | [] => []
  | part :: parts => (if i > 0 then txt ", " else []) ++ attributeLabel part.id ++ txt "=" ++ attributeValue part.value ++
      nameText (i + 1) parts

/-- `time_to_str`, x509.rs 521-526. -/
def Time.text : Time → List Char
  | .utcTime s => s.toList
  | .generalizedTime s => s.toList

/-- The derived `Debug` of `Version`, x509.rs 176-181. -/
def Version.debug : Version → List Char
  | .v1 => txt "V1"
  | .v2 => txt "V2"
  | .v3 => txt "V3"

/-- `println!`. -/
def println (l : List Char) : List Char := l ++ ['\n']

/-- `SubjectPublicKeyInfo::print`, x509.rs 340-343. -/
def SubjectPublicKeyInfo.text (s : SubjectPublicKeyInfo) (indent : List Char) : List Char :=
  println (indent ++ txt "algorithm = " ++ s.algorithm.text) ++
  println (indent ++ txt "subject_public_key = <" ++ decimal s.subjectPublicKey.bytes.length ++ txt " bytes>")

/-- `Extension::print`, x509.rs 383-387. -/
def Extension.text (e : Extension) (indent : List Char) : List Char :=
  println (indent ++ txt "id = " ++ getLongName e.id) ++
  println (indent ++ txt "critical = " ++ (if e.critical then txt "true" else txt "false")) ++
  println (indent ++ txt "value = <" ++ decimal e.data.length ++ txt " bytes>")

/-- The loop over the extensions in `print_tbs_certificate`, x509.rs 543-546, from index `i` on. -/
def extensionsText (i : Nat) (indent childIndent : List Char) : List Extension → List Char
  | [] => []
  | e :: es => println (indent ++ txt "extensions[" ++ decimal i ++ txt "] =") ++ e.text childIndent ++
      extensionsText (i + 1) indent childIndent es

/-- `print_tbs_certificate`, x509.rs 528-547. -/
def TbsCertificate.text (t : TbsCertificate) (indent : List Char) : List Char :=
  let childIndent := indent ++ txt "    "
  println (indent ++ txt "version = " ++ t.version.debug) ++
  println (indent ++ txt "serial_number = " ++ toHex t.serialNumber) ++
  println (indent ++ txt "signature = " ++ t.signature.text) ++
  println (indent ++ txt "issuer = " ++ nameText 0 t.issuer) ++
  println (indent ++ txt "validity =") ++
  println (indent ++ txt "    not before = " ++ t.validity.notBefore.text) ++
  println (indent ++ txt "    not after = " ++ t.validity.notAfter.text) ++
  println (indent ++ txt "subject = " ++ nameText 0 t.subject) ++
  println (indent ++ txt "subject_public_key_info =") ++
  t.subjectPublicKeyInfo.text childIndent ++
  extensionsText 0 indent childIndent t.extensions

/-- `print_certificate`, x509.rs 549-557. -/
def Certificate.text (c : Certificate) : List Char :=
  println (txt "Certificate") ++
  println (txt "    tbs_certificate") ++
  c.tbsCertificate.text (txt "        ") ++
  println (txt "    signature_algorithm = " ++ c.signatureAlgorithm.text) ++
  println (txt "    signature_value = <" ++ decimal c.signatureValue.bytes.length ++ txt " bytes>")

end Ngfs.X509
