import Verif.Model.X509
import Verif.Spec.Asn1

/-!
The certificate structure of RFC 5280 section 4.1 as predicates and relations on ASN.1 items. Of the model only the data
types are used.
-/
namespace Ngfs.Spec
open Ngfs.Asn1 Ngfs.X509

/-- A tag `n` the reader does not look into: `[n] IMPLICIT BIT STRING` is primitive. -/
def IsImplicit (n : Nat) (i : Item) : Prop := ∃ len, i.value = .unknown ⟨.contextSpecific, .primitive, n⟩ len

/-! ### Which items are certificates -/

/-- An object identifier. -/
def WfOid (i : Item) : Prop := ∃ parts, i.value = .objectIdentifier parts

/-- `AlgorithmIdentifier ::= SEQUENCE { algorithm OBJECT IDENTIFIER, parameters ANY OPTIONAL }`. -/
def WfAlgorithm (i : Item) : Prop := ∃ o params, i.value = .sequence (o :: params) ∧ WfOid o ∧ params.length ≤ 1

/-- `RelativeDistinguishedName ::= SET SIZE (1..MAX) OF SEQUENCE { type OBJECT IDENTIFIER, value ANY }`. -/
def WfRdn (i : Item) : Prop := ∃ es, i.value = .set es ∧ es ≠ [] ∧
  ∀ e ∈ es, ∃ o v, e.value = .sequence [o, v] ∧ WfOid o

/-- `Name ::= SEQUENCE OF RelativeDistinguishedName`. -/
def WfName (i : Item) : Prop := ∃ es, i.value = .sequence es ∧ ∀ e ∈ es, WfRdn e

/-- `Time ::= CHOICE { UTCTime, GeneralizedTime }`. -/
def WfTime (i : Item) : Prop := ∃ s, i.value = .utcTime s ∨ i.value = .generalizedTime s

/-- `Validity ::= SEQUENCE { notBefore Time, notAfter Time }`. -/
def WfValidity (i : Item) : Prop := ∃ a b, i.value = .sequence [a, b] ∧ WfTime a ∧ WfTime b

/-- `SubjectPublicKeyInfo ::= SEQUENCE { algorithm AlgorithmIdentifier, subjectPublicKey BIT STRING }`. -/
def WfKeyInfo (i : Item) : Prop := ∃ a k u bytes, i.value = .sequence [a, k] ∧ WfAlgorithm a ∧ k.value = .bitString u bytes

/-- `Extension ::= SEQUENCE { extnID OBJECT IDENTIFIER, critical BOOLEAN DEFAULT FALSE, extnValue OCTET STRING }`. -/
def WfExtension (i : Item) : Prop := ∃ o critical d bytes, i.value = .sequence (o :: critical ++ [d]) ∧ WfOid o ∧
  d.value = .octetString bytes ∧ (critical = [] ∨ ∃ c b, critical = [c] ∧ c.value = .boolean b)

/-- `Version ::= INTEGER { v1(0), v2(1), v3(2) }`, behind the tag 0; `DEFAULT v1`. -/
def WfVersion (l : List Item) : Prop := l = [] ∨ ∃ i c n, l = [i] ∧ i.value = .contextSpecific 0 c ∧ c.value = .integer [n] ∧
  n.toNat ≤ 2

/-- `[n] IMPLICIT UniqueIdentifier OPTIONAL`. -/
def WfUniqueId (n : Nat) (l : List Item) : Prop := l = [] ∨ ∃ i, l = [i] ∧ IsImplicit n i

/-- `[3] EXPLICIT SEQUENCE OF Extension OPTIONAL`. -/
def WfExtensions (l : List Item) : Prop := l = [] ∨ ∃ i c es, l = [i] ∧ i.value = .contextSpecific 3 c ∧
  c.value = .sequence es ∧ ∀ e ∈ es, WfExtension e

/-- `TBSCertificate`. -/
def WfTbs (i : Item) : Prop := ∃ version serial n signature issuer validity subject key id1 id2 extensions,
  i.value = .sequence (version ++ [serial, signature, issuer, validity, subject, key] ++ id1 ++ id2 ++ extensions) ∧
  WfVersion version ∧ serial.value = .integer n ∧ WfAlgorithm signature ∧ WfName issuer ∧ WfValidity validity ∧
  WfName subject ∧ WfKeyInfo key ∧ WfUniqueId 1 id1 ∧ WfUniqueId 2 id2 ∧ WfExtensions extensions

/-- `Certificate ::= SEQUENCE { tbsCertificate, signatureAlgorithm, signatureValue BIT STRING }`. -/
def WfCertificate (i : Item) : Prop := ∃ t a s u bytes, i.value = .sequence [t, a, s] ∧ WfTbs t ∧ WfAlgorithm a ∧
  s.value = .bitString u bytes

/-! ### What the items say -/

/-- The item states the algorithm. -/
def SaysAlgorithm (a : AlgorithmIdentifier) (i : Item) : Prop := ∃ o, i.value = .sequence (o :: a.parameters.toList) ∧
  o.value = .objectIdentifier a.algorithm

/-- One attribute. -/
def SaysRdn (r : RelativeDistinguishedName) (i : Item) : Prop := ∃ e o, i.value = .set [e] ∧ e.value = .sequence [o, r.value] ∧
  o.value = .objectIdentifier r.id

/-- One attribute after the other. -/
def SaysName (n : List RelativeDistinguishedName) (i : Item) : Prop := ∃ es, i.value = .sequence es ∧ List.Forall₂ SaysRdn n es

/-- The time as text. -/
def SaysTime : Time → Item → Prop
  | .utcTime s, i => i.value = .utcTime s
  | .generalizedTime s, i => i.value = .generalizedTime s

/-- From when to when. -/
def SaysValidity (v : Validity) (i : Item) : Prop := ∃ a b, i.value = .sequence [a, b] ∧ SaysTime v.notBefore a ∧
  SaysTime v.notAfter b

/-- A bit string. -/
def SaysBits (b : BitString) (i : Item) : Prop := i.value = .bitString b.unusedBits b.bytes

/-- A public key. -/
def SaysKeyInfo (k : SubjectPublicKeyInfo) (i : Item) : Prop := ∃ a b, i.value = .sequence [a, b] ∧
  SaysAlgorithm k.algorithm a ∧ SaysBits k.subjectPublicKey b

/-- An extension, with `junk` behind it. -/
def SaysExtension (e : Extension) (i : Item) : Prop := ∃ o critical d junk, i.value = .sequence (o :: critical ++ d :: junk) ∧
  o.value = .objectIdentifier e.id ∧ d.value = .octetString e.data ∧
  ((critical = [] ∧ e.critical = false) ∨ ∃ c, critical = [c] ∧ c.value = .boolean e.critical)

/-- The number for a version. -/
def versionNumber : Version → UInt8
  | .v1 => 0
  | .v2 => 1
  | .v3 => 2

/-- A version, v1 being the default. -/
def SaysVersion (v : Version) (l : List Item) : Prop := (l = [] ∧ v = .v1) ∨
  ∃ i c, l = [i] ∧ i.value = .contextSpecific 0 c ∧ c.value = .integer [versionNumber v]

/-- Extensions, none being the default. -/
def SaysExtensions (e : List Extension) (l : List Item) : Prop := (l = [] ∧ e = []) ∨
  ∃ i c es, l = [i] ∧ i.value = .contextSpecific 3 c ∧ c.value = .sequence es ∧ List.Forall₂ SaysExtension e es

/-- Everything that is signed; no unique identifiers. -/
def SaysTbs (t : TbsCertificate) (i : Item) : Prop := ∃ version serial signature issuer validity subject key extensions,
  i.value = .sequence (version ++ [serial, signature, issuer, validity, subject, key] ++ extensions) ∧
  SaysVersion t.version version ∧ serial.value = .integer t.serialNumber ∧ SaysAlgorithm t.signature signature ∧
  SaysName t.issuer issuer ∧ SaysValidity t.validity validity ∧ SaysName t.subject subject ∧
  SaysKeyInfo t.subjectPublicKeyInfo key ∧ SaysExtensions t.extensions extensions ∧
  t.issuerUniqueId = none ∧ t.subjectUniqueId = none

/-- The whole certificate. -/
def SaysCertificate (c : Certificate) (i : Item) : Prop := ∃ t a s, i.value = .sequence [t, a, s] ∧
  SaysTbs c.tbsCertificate t ∧ SaysAlgorithm c.signatureAlgorithm a ∧ SaysBits c.signatureValue s

/-! ### Equality up to the recorded positions -/

/-- The parameters may lie elsewhere. -/
def SameAlgorithm (a b : AlgorithmIdentifier) : Prop := a.algorithm = b.algorithm ∧
  List.Forall₂ SameItem a.parameters.toList b.parameters.toList

/-- The attributes may lie elsewhere. -/
def SameName : List RelativeDistinguishedName → List RelativeDistinguishedName → Prop :=
  List.Forall₂ fun a b => a.id = b.id ∧ SameItem a.value b.value

/-- Equal up to the positions of parameters and attributes. -/
structure SameTbs (a b : TbsCertificate) : Prop where
  version : a.version = b.version
  serialNumber : a.serialNumber = b.serialNumber
  signature : SameAlgorithm a.signature b.signature
  issuer : SameName a.issuer b.issuer
  validity : a.validity = b.validity
  subject : SameName a.subject b.subject
  keyAlgorithm : SameAlgorithm a.subjectPublicKeyInfo.algorithm b.subjectPublicKeyInfo.algorithm
  key : a.subjectPublicKeyInfo.subjectPublicKey = b.subjectPublicKeyInfo.subjectPublicKey
  issuerUniqueId : a.issuerUniqueId = b.issuerUniqueId
  subjectUniqueId : a.subjectUniqueId = b.subjectUniqueId
  extensions : a.extensions = b.extensions

/-- Equal up to the positions of parameters and attributes. -/
structure SameCertificate (a b : Certificate) : Prop where
  tbsCertificate : SameTbs a.tbsCertificate b.tbsCertificate
  signatureAlgorithm : SameAlgorithm a.signatureAlgorithm b.signatureAlgorithm
  signatureValue : a.signatureValue = b.signatureValue

end Ngfs.Spec

namespace Ngfs.Spec
open Ngfs.Asn1 Ngfs.X509

/-! ### What can be written and read back -/

/-- All values in the item can be written and read back. -/
def Portable (i : Item) : Prop := ∀ v, Occurs v i → Writable v ∧ Readable v

/-- An object identifier that can be written and read back: at least two components, the second below 40, all numbers
within 64 bits. -/
def PortableOid (oid : List Nat) : Prop := ∃ x y rest, oid = x :: y :: rest ∧ x ≤ 2 ∧ y < 40 ∧ ∀ n ∈ rest, n < 2 ^ 64

/-- An algorithm that can be written and read back. -/
def PortableAlgorithm (a : AlgorithmIdentifier) : Prop := PortableOid a.algorithm ∧ ∀ p ∈ a.parameters, Portable p

/-- A name that can be written and read back. -/
def PortableName (n : List RelativeDistinguishedName) : Prop := ∀ r ∈ n, PortableOid r.id ∧ Portable r.value

/-- The part to sign can be written and read back. -/
structure PortableTbs (t : TbsCertificate) : Prop where
  signature : PortableAlgorithm t.signature
  issuer : PortableName t.issuer
  subject : PortableName t.subject
  key : PortableAlgorithm t.subjectPublicKeyInfo.algorithm
  extensions : ∀ e ∈ t.extensions, PortableOid e.id
  noIssuerId : t.issuerUniqueId = none
  noSubjectId : t.subjectUniqueId = none

/-- All extensions marked as not critical. -/
def TbsCertificate.uncritical (t : TbsCertificate) : TbsCertificate :=
  { t with extensions := t.extensions.map fun e => ⟨e.id, false, e.data⟩ }

/-- All extensions marked as not critical. -/
def Certificate.uncritical (c : Certificate) : Certificate := { c with tbsCertificate := TbsCertificate.uncritical c.tbsCertificate }

end Ngfs.Spec

namespace Ngfs.Spec
open Ngfs.Asn1 Ngfs.X509

/-- The object identifiers of the signature algorithms: RFC 8017 A.2.4, RFC 5758 3.2, RFC 8410 section 3. -/
def signatureOid : SigAlg → List Nat
  | .rsaPkcs1Sha256 => [1, 2, 840, 113549, 1, 1, 11]
  | .rsaPkcs1Sha384 => [1, 2, 840, 113549, 1, 1, 12]
  | .rsaPkcs1Sha512 => [1, 2, 840, 113549, 1, 1, 13]
  | .ecdsaP256Sha256 => [1, 2, 840, 10045, 4, 3, 2]
  | .ed25519 => [1, 3, 101, 112]

/-- The key of a certificate. -/
def keyOf (c : Certificate) : Bytes := c.tbsCertificate.subjectPublicKeyInfo.subjectPublicKey.bytes

/-- The certificate authority's key made the signature, with the algorithm the certificate names, over `bytes`, and these
bytes, taken from the certificate as it came, say what the certificate `c` says. -/
structure SignedBy (verify : SigAlg → Bytes → Bytes → Bytes → Bool) (ca c : Certificate) (raw : Bytes) : Prop where
  signed : ∃ pre bytes post item t alg, raw = pre ++ bytes ++ post ∧
    readItem ⟨bytes, 0⟩ = (.ok item, ⟨bytes, bytes.length⟩) ∧ SaysTbs t item ∧ SameTbs c.tbsCertificate t ∧
    c.signatureAlgorithm.algorithm = signatureOid alg ∧ verify alg (keyOf ca) bytes c.signatureValue.bytes = true

end Ngfs.Spec
