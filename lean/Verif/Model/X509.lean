import Verif.Model.Asn1

/-!
Model of `/repo/src/crypto/x509.rs` (certificates as ASN.1 structures), of the accessors in
`/repo/src/formats/asn1/value.rs`, and of `verify_certificate` in `/repo/src/tls/protocol/client.rs`.

Simplifications: `TypeError` does not carry the range and the counts; printing (x509.rs 495-557) and the object
registry (559-591) are in `Model/CertText.lean`.
-/
namespace Ngfs.X509
open Ngfs.Binary Ngfs.Asn1

/-- `ParseError`, x509.rs 50-84: a `TypeError` (value.rs 207-218), a message, or an error of the ASN.1 reader. The last
constructor stands for a panic. -/
inductive PErr where
  | type (expected : String)
  | plain (msg : String)
  | reader (e : BinErr)
  | panic
deriving DecidableEq, Repr

/-! ### Accessors of value.rs -/

/-- `as_sequence`, value.rs 129-134, and `as_sequence_iter`, 122-127. -/
def asSequence : Item → Except PErr (List Item)
  | .mk _ _ (.sequence items) => .ok items
  | _ => .error (.type "sequence")

/-- `as_exact_sequence`, value.rs 136-144. -/
def asExactSequence (count : Nat) (item : Item) : Except PErr (List Item) := do
  let items ← asSequence item
  if items.length ≠ count then .error (.type "exact sequence") else .ok items

/-- `as_set`, value.rs 146-151. -/
def asSet : Item → Except PErr (List Item)
  | .mk _ _ (.set items) => .ok items
  | _ => .error (.type "set")

/-- `as_exact_set`, value.rs 153-161. -/
def asExactSet (count : Nat) (item : Item) : Except PErr (List Item) := do
  let items ← asSet item
  if items.length ≠ count then .error (.type "exact set") else .ok items

/-- `as_object_identifier`, value.rs 163-168. -/
def asObjectIdentifier : Item → Except PErr (List Nat)
  | .mk _ _ (.objectIdentifier parts) => .ok parts
  | _ => .error (.type "object identifier")

/-- `as_octet_string`, value.rs 177-182. -/
def asOctetString : Item → Except PErr Bytes
  | .mk _ _ (.octetString bytes) => .ok bytes
  | _ => .error (.type "octet string")

/-- `as_integer`, value.rs 184-189. -/
def asInteger : Item → Except PErr Bytes
  | .mk _ _ (.integer bytes) => .ok bytes
  | _ => .error (.type "integer")

/-- `BitString`, value.rs 46-49. -/
structure BitString where
  unusedBits : UInt8
  bytes : Bytes
deriving DecidableEq, Repr

/-- `as_bit_string`, value.rs 170-175. -/
def asBitString : Item → Except PErr BitString
  | .mk _ _ (.bitString u b) => .ok ⟨u, b⟩
  | _ => .error (.type "bit string")

/-- `elements[i]`: a panic if there is no such element. -/
def index (items : List Item) (i : Nat) : Except PErr Item :=
  match items[i]? with
  | some item => .ok item
  | none => .error .panic

/-- `it.next().ok_or(msg)?`: the next element and what is left of the iterator. -/
def next (msg : String) : List Item → Except PErr (Item × List Item)
  | item :: it => .ok (item, it)
  | [] => .error (.plain msg)

/-! ### The structures -/

/-- `AlgorithmIdentifier`, x509.rs 86-89. -/
structure AlgorithmIdentifier where
  algorithm : List Nat
  parameters : Option Item

/-- `AlgorithmIdentifier::from_asn1`, x509.rs 92-108. -/
def AlgorithmIdentifier.fromAsn1 (item : Item) : Except PErr AlgorithmIdentifier := do
  let it ← asSequence item
  let (elem, it) ← next "Missing algorithm" it
  let algorithm ← asObjectIdentifier elem
  match it with
  | [] => .ok ⟨algorithm, none⟩
  | [parameters] => .ok ⟨algorithm, some parameters⟩
  | _ :: _ :: _ => .error (.plain "Unexpected value")

/-- `AlgorithmIdentifier::to_asn1`, x509.rs 110-117. -/
def AlgorithmIdentifier.toAsn1 (a : AlgorithmIdentifier) : Item :=
  .ofValue (.sequence (.ofValue (.objectIdentifier a.algorithm) :: a.parameters.toList))

/-- `Version`, x509.rs 177-181. -/
inductive Version where
  | v1 | v2 | v3
deriving DecidableEq, Repr

/-- `Version::from_asn1`, x509.rs 184-195. -/
def Version.fromAsn1 (item : Item) : Except PErr Version := do
  let bytes ← asInteger item
  if bytes.length ≠ 1 then .error (.plain "Invalid version")
  else if bytes = [0] then .ok .v1
  else if bytes = [1] then .ok .v2
  else if bytes = [2] then .ok .v3
  else .error (.plain "Invalid version")

/-- `Version::to_asn1`, x509.rs 197-203. -/
def Version.toAsn1 : Version → Item
  | .v1 => .ofValue (.integer [0])
  | .v2 => .ofValue (.integer [1])
  | .v3 => .ofValue (.integer [2])

/-- `RelativeDistinguishedName`, x509.rs 207-210. -/
structure RelativeDistinguishedName where
  id : List Nat
  value : Item

/-- `RelativeDistinguishedName::from_asn1`, x509.rs 213-220. -/
def RelativeDistinguishedName.fromAsn1 (item : Item) : Except PErr RelativeDistinguishedName := do
  let setElements ← asExactSet 1 item
  let inner ← index setElements 0
  let elements ← asExactSequence 2 inner
  let e0 ← index elements 0
  let id ← asObjectIdentifier e0
  let value ← index elements 1
  .ok ⟨id, value⟩

/-- `RelativeDistinguishedName::to_asn1`, x509.rs 222-229. -/
def RelativeDistinguishedName.toAsn1 (r : RelativeDistinguishedName) : Item :=
  .ofValue (.set [.ofValue (.sequence [.ofValue (.objectIdentifier r.id), r.value])])

/-- `Name::from_asn1`, x509.rs 238-245; `Name` (233-235) is its parts. -/
def Name.fromAsn1 (item : Item) : Except PErr (List RelativeDistinguishedName) := do
  let elements ← asSequence item
  elements.mapM RelativeDistinguishedName.fromAsn1

/-- `Name::to_asn1`, x509.rs 247-253. -/
def Name.toAsn1 (parts : List RelativeDistinguishedName) : Item :=
  .ofValue (.sequence (parts.map RelativeDistinguishedName.toAsn1))

/-- `Time`, x509.rs 276-279, with `UTCTime` (256-258) and `GeneralizedTime` (266-268) as their text. -/
inductive Time where
  | utcTime (data : String)
  | generalizedTime (data : String)
deriving DecidableEq, Repr

/-- `Time::from_asn1`, x509.rs 282-288. -/
def Time.fromAsn1 : Item → Except PErr Time
  | .mk _ _ (.utcTime s) => .ok (.utcTime s)
  | .mk _ _ (.generalizedTime s) => .ok (.generalizedTime s)
  | _ => .error (.plain "Expected a UTCTime or GeneralizedTime")

/-- `Time::to_asn1`, x509.rs 290-295, with 261-263 and 271-273. -/
def Time.toAsn1 : Time → Item
  | .utcTime s => .ofValue (.utcTime s)
  | .generalizedTime s => .ofValue (.generalizedTime s)

/-- `Validity`, x509.rs 298-301. -/
structure Validity where
  notBefore : Time
  notAfter : Time
deriving DecidableEq, Repr

/-- `Validity::from_asn1`, x509.rs 304-309. -/
def Validity.fromAsn1 (item : Item) : Except PErr Validity := do
  let elements ← asExactSequence 2 item
  let e0 ← index elements 0
  let notBefore ← Time.fromAsn1 e0
  let e1 ← index elements 1
  let notAfter ← Time.fromAsn1 e1
  .ok ⟨notBefore, notAfter⟩

/-- `Validity::to_asn1`, x509.rs 311-315. -/
def Validity.toAsn1 (v : Validity) : Item := .ofValue (.sequence [v.notBefore.toAsn1, v.notAfter.toAsn1])

/-- `SubjectPublicKeyInfo`, x509.rs 318-321. -/
structure SubjectPublicKeyInfo where
  algorithm : AlgorithmIdentifier
  subjectPublicKey : BitString

/-- `SubjectPublicKeyInfo::from_asn1`, x509.rs 324-332. -/
def SubjectPublicKeyInfo.fromAsn1 (item : Item) : Except PErr SubjectPublicKeyInfo := do
  let elements ← asExactSequence 2 item
  let e0 ← index elements 0
  let algorithm ← AlgorithmIdentifier.fromAsn1 e0
  let e1 ← index elements 1
  let key ← asBitString e1
  .ok ⟨algorithm, key⟩

/-- `Item::from(Value::BitString(b))`. -/
def BitString.toAsn1 (b : BitString) : Item := .ofValue (.bitString b.unusedBits b.bytes)

/-- `SubjectPublicKeyInfo::to_asn1`, x509.rs 334-338. -/
def SubjectPublicKeyInfo.toAsn1 (s : SubjectPublicKeyInfo) : Item :=
  .ofValue (.sequence [s.algorithm.toAsn1, s.subjectPublicKey.toAsn1])

/-- `Extension`, x509.rs 350-354. -/
structure Extension where
  id : List Nat
  critical : Bool
  data : Bytes
deriving DecidableEq, Repr

/-- The optional Boolean of `Extension::from_asn1`, x509.rs 363-367: whether the extension is critical, and the
element after it. -/
def Extension.critical? : Item → List Item → Except PErr (Bool × Item)
  | .mk _ _ (.boolean b), it => do
    let (element, _) ← next "Missing element" it
    .ok (b, element)
  | element, _ => .ok (false, element)

/-- `Extension::from_asn1`, x509.rs 357-371. What follows the data is not looked at. -/
def Extension.fromAsn1 (item : Item) : Except PErr Extension := do
  let it ← asSequence item
  let (element, it) ← next "Missing element" it
  let id ← asObjectIdentifier element
  let (element, it) ← next "Missing element" it
  let (critical, element) ← Extension.critical? element it
  let data ← asOctetString element
  .ok ⟨id, critical, data⟩

/-- `Extension::to_asn1`, x509.rs 373-381. -/
def Extension.toAsn1 (e : Extension) : Item :=
  .ofValue (.sequence (.ofValue (.objectIdentifier e.id) ::
    ((if e.critical then [.ofValue (.boolean e.critical)] else []) ++ [.ofValue (.octetString e.data)])))

/-- `TBSCertificate`, x509.rs 390-401; a `UniqueIdentifier` (346-348) is its bytes. -/
structure TbsCertificate where
  version : Version
  serialNumber : Bytes
  signature : AlgorithmIdentifier
  issuer : List RelativeDistinguishedName
  validity : Validity
  subject : List RelativeDistinguishedName
  subjectPublicKeyInfo : SubjectPublicKeyInfo
  issuerUniqueId : Option Bytes
  subjectUniqueId : Option Bytes
  extensions : List Extension

/-- `TBSCertificate::to_asn1`, x509.rs 404-431. -/
def TbsCertificate.toAsn1 (t : TbsCertificate) : Item :=
  .ofValue (.sequence [
    .ofValue (.contextSpecific 0 t.version.toAsn1),
    .ofValue (.integer t.serialNumber),
    t.signature.toAsn1,
    Name.toAsn1 t.issuer,
    t.validity.toAsn1,
    Name.toAsn1 t.subject,
    t.subjectPublicKeyInfo.toAsn1,
    .ofValue (.contextSpecific 3 (.ofValue (.sequence (t.extensions.map Extension.toAsn1))))])

/-- The optional version, x509.rs 437-442: the version, the element after it, and the rest. -/
def TbsCertificate.version? : Item → List Item → Except PErr (Version × Item × List Item)
  | .mk _ _ (.contextSpecific 0 child), it => do
    let version ← Version.fromAsn1 child
    let (elem, it) ← next "Missing serial_number" it
    .ok (version, elem, it)
  | elem, it => .ok (.v1, elem, it)

/-- The optional extensions, x509.rs 461-475: the extensions and the rest. -/
def TbsCertificate.extensions? : List Item → Except PErr (List Extension × List Item)
  | [] => .ok ([], [])
  | .mk _ _ (.contextSpecific 3 child) :: it => do
    let elements ← asSequence child
    let extensions ← elements.mapM Extension.fromAsn1
    .ok (extensions, it)
  | _ :: _ => .error (.plain "Unexpected value for extension")

/-- `TBSCertificate::from_asn1`, x509.rs 433-492. -/
def TbsCertificate.fromAsn1 (item : Item) : Except PErr TbsCertificate := do
  let it ← asSequence item
  let (elem, it) ← next "Missing version" it
  let (version, elem, it) ← TbsCertificate.version? elem it
  let serialNumber ← asInteger elem
  let (elem, it) ← next "Missing signature" it
  let signature ← AlgorithmIdentifier.fromAsn1 elem
  let (elem, it) ← next "Missing issuer" it
  let issuer ← Name.fromAsn1 elem
  let (elem, it) ← next "Missing validity" it
  let validity ← Validity.fromAsn1 elem
  let (elem, it) ← next "Missing subject" it
  let subject ← Name.fromAsn1 elem
  let (elem, it) ← next "Missing subject_public_key_info" it
  let subjectPublicKeyInfo ← SubjectPublicKeyInfo.fromAsn1 elem
  let (extensions, it) ← TbsCertificate.extensions? it
  if it.isEmpty then
    .ok ⟨version, serialNumber, signature, issuer, validity, subject, subjectPublicKeyInfo, none, none, extensions⟩
  else .error (.plain "Unexpected value")

/-- `Certificate`, x509.rs 133-137. -/
structure Certificate where
  tbsCertificate : TbsCertificate
  signatureAlgorithm : AlgorithmIdentifier
  signatureValue : BitString

/-- `Certificate::from_asn1`, x509.rs 146-165. -/
def Certificate.fromAsn1 (item : Item) : Except PErr Certificate := do
  let elements ← asExactSequence 3 item
  let e0 ← index elements 0
  let tbsCertificate ← TbsCertificate.fromAsn1 e0
  let e1 ← index elements 1
  let signatureAlgorithm ← AlgorithmIdentifier.fromAsn1 e1
  let e2 ← index elements 2
  match asBitString e2 with
  | .ok signatureValue => .ok ⟨tbsCertificate, signatureAlgorithm, signatureValue⟩
  | .error _ => .error (.plain "Certificate: Expected elements[2] to be a bit string")

/-- `Certificate::to_asn1`, x509.rs 167-173. -/
def Certificate.toAsn1 (c : Certificate) : Item :=
  .ofValue (.sequence [c.tbsCertificate.toAsn1, c.signatureAlgorithm.toAsn1, c.signatureValue.toAsn1])

/-- `read_item` on a fresh reader, with the reader's error as a `ParseError`. -/
def readAll (data : Bytes) : Except PErr Item :=
  match (readItem ⟨data, 0⟩).1 with
  | .ok item => .ok item
  | .error .panic => .error .panic
  | .error e => .error (.reader e)

/-- `Certificate::from_bytes`, x509.rs 140-144. What follows the first item is not looked at. -/
def Certificate.fromBytes (data : Bytes) : Except PErr Certificate := do
  let item ← readAll data
  Certificate.fromAsn1 item

/-! ### `verify_certificate` -/

/-- The `ring` verification algorithms `verify_certificate` chooses from, client.rs 274-291. -/
inductive SigAlg where
  | rsaPkcs1Sha256 | rsaPkcs1Sha384 | rsaPkcs1Sha512 | ecdsaP256Sha256 | ed25519
deriving DecidableEq, Repr

/-- The choice of the algorithm, client.rs 275-291, with the constants of x509.rs 30-42. -/
def sigAlgOf (oid : List Nat) : Option SigAlg :=
  if oid = [1, 2, 840, 113549, 1, 1, 11] then some .rsaPkcs1Sha256
  else if oid = [1, 2, 840, 113549, 1, 1, 12] then some .rsaPkcs1Sha384
  else if oid = [1, 2, 840, 113549, 1, 1, 13] then some .rsaPkcs1Sha512
  else if oid = [1, 2, 840, 10045, 4, 3, 2] then some .ecdsaP256Sha256
  else if oid = [1, 3, 101, 112] then some .ed25519
  else none

/-- The errors of `verify_certificate`. -/
inductive VErr where
  | invalidCertificate
  | unsupportedCertificateSignatureAlgorithm
  | verifyCertificateFailed
  | panic
deriving DecidableEq, Repr

/-- `.map_err(|_| TLSError::InvalidCertificate)`; a panic stays one. -/
def orInvalid {α : Type} : Except PErr α → Except VErr α
  | .ok a => .ok a
  | .error .panic => .error .panic
  | .error _ => .error .invalidCertificate

/-- `verify_certificate`, client.rs 257-303. `verify alg key message signature` is `ring`'s
`UnparsedPublicKey::verify`. -/
def verifyCertificate (verify : SigAlg → Bytes → Bytes → Bytes → Bool) (caRaw targetRaw : Bytes) : Except VErr Unit := do
  let caCert ← orInvalid (Certificate.fromBytes caRaw)
  let targetItem ← orInvalid (readAll targetRaw)
  let elements ← orInvalid (asExactSequence 3 targetItem)
  let e0 ← orInvalid (index elements 0)
  let _ ← orInvalid (TbsCertificate.fromAsn1 e0)
  let e1 ← orInvalid (index elements 1)
  let signatureAlgorithm ← orInvalid (AlgorithmIdentifier.fromAsn1 e1)
  let e2 ← orInvalid (index elements 2)
  let signature ← orInvalid (asBitString e2)
  match sigAlgOf signatureAlgorithm.algorithm with
  | none => .error .unsupportedCertificateSignatureAlgorithm
  | some alg =>
    if e0.start ≤ e0.stop ∧ e0.stop ≤ targetRaw.length then
      if verify alg caCert.tbsCertificate.subjectPublicKeyInfo.subjectPublicKey.bytes (slice targetRaw e0.start e0.stop)
          signature.bytes then .ok ()
      else .error .verifyCertificateFailed
    else .error .panic

end Ngfs.X509
