import Verif.Model.X509
import Verif.Model.Identify
import Verif.Model.Pem
import Verif.Model.Util

/-!
Model of `/repo/src/libp2p/tls.rs` (the certificate a libp2p host shows) and of `generate` and `print` in
`/repo/src/bin/x509.rs`.

Simplifications: a key pair of `ring` is its public key and a function that signs. The texts of the times come from the
clock and are arguments. Files are their contents. Signing with RSA may fail; the signature is as long as `ring` makes it.
-/
namespace Ngfs.X509
open Ngfs.Binary Ngfs.Asn1 Ngfs.Identify

/-- `ring::signature::Ed25519KeyPair`, as far as it is used: `public_key` and `sign`. -/
structure KeyPair where
  publicKey : Bytes
  sign : Bytes → Bytes

/-- `GenerateError`, tls.rs 23-55, as far as it occurs; the last is a panic. -/
inductive GErr where
  | writer (e : WErr)
  | panic
deriving DecidableEq

/-- `encode_item(..)?`. -/
def encode (item : Item) : Except GErr Bytes :=
  match encodeItem item with
  | .ok bytes => .ok bytes
  | .error .panic => .error .panic
  | .error e => .error (.writer e)

/-- `AlgorithmIdentifier` with `CRYPTO_ED25519` (x509.rs 42), tls.rs 89-92, 130-133, 141-144, 173-176. -/
def ed25519Algorithm : AlgorithmIdentifier := ⟨[1, 3, 101, 112], none⟩

/-- The byte string `b"libp2p-tls-handshake:"`, tls.rs 104. -/
def signaturePrefix : Bytes := [108, 105, 98, 112, 50, 112, 45, 116, 108, 115, 45, 104, 97, 110, 100, 115, 104, 97, 107, 101, 58]

/-- `make_signature`, tls.rs 84-108. -/
def makeSignature (x509KeyPair hostKeyPair : KeyPair) : Except GErr Bytes := do
  let info : SubjectPublicKeyInfo := ⟨ed25519Algorithm, ⟨0, x509KeyPair.publicKey⟩⟩
  let infoBytes ← encode info.toAsn1
  .ok (hostKeyPair.sign (signaturePrefix ++ infoBytes))

/-- `generate_libp2p_ext`, tls.rs 67-82. -/
def generateLibp2pExt (publicKey signature : Bytes) : Except GErr Bytes :=
  match PublicKey.toPb ⟨.ed25519, publicKey⟩ with
  | .error _ => .error .panic
  | .ok pkey => encode (.ofValue (.sequence [.ofValue (.octetString pkey), .ofValue (.octetString signature)]))

/-- `wrap_signature`, tls.rs 185-199; `bin/x509.rs` 223-237. -/
def wrapSignature (tbsCertificate : TbsCertificate) (signatureAlgorithm : AlgorithmIdentifier) (signatureValue : BitString) :
    Except GErr Bytes :=
  encode (.ofValue (.sequence [tbsCertificate.toAsn1, signatureAlgorithm.toAsn1, signatureValue.toAsn1]))

/-- `sign_tbs_certificate`, tls.rs 165-183. -/
def signTbsCertificate (tbsCertificate : TbsCertificate) (x509KeyPair : KeyPair) : Except GErr Bytes := do
  let encoded ← encode tbsCertificate.toAsn1
  wrapSignature tbsCertificate ed25519Algorithm ⟨0, x509KeyPair.sign encoded⟩

/-- The name of tls.rs 115-121: `X509_SERIAL_NUMBER` (x509.rs 13) with the text `1`. -/
def libp2pName : List RelativeDistinguishedName := [⟨[2, 5, 4, 5], .ofValue (.printableString "1")⟩]

/-- The certificate to sign, tls.rs 127-159. -/
def libp2pTbs (notBefore notAfter : String) (publicKey libp2pExtBytes : Bytes) : TbsCertificate where
  version := .v3
  serialNumber := [1]
  signature := ed25519Algorithm
  issuer := libp2pName
  validity := ⟨.generalizedTime notBefore, .generalizedTime notAfter⟩
  subject := libp2pName
  subjectPublicKeyInfo := ⟨ed25519Algorithm, ⟨0, publicKey⟩⟩
  issuerUniqueId := none
  subjectUniqueId := none
  extensions := [⟨[1, 3, 6, 1, 4, 1, 53594, 1, 1], true, libp2pExtBytes⟩]

/-- `generate_certificate`, tls.rs 57-65, with `generate_certificate_inner`, 110-163. -/
def generateCertificate (notBefore notAfter : String) (x509KeyPair hostKeyPair : KeyPair) : Except GErr Bytes := do
  let signature ← makeSignature x509KeyPair hostKeyPair
  let extBytes ← generateLibp2pExt hostKeyPair.publicKey signature
  signTbsCertificate (libp2pTbs notBefore notAfter x509KeyPair.publicKey extBytes) x509KeyPair

/-! ### `bin/x509.rs` -/

/-- `AlgorithmIdentifier` with `CRYPTO_SHA_256_WITH_RSA_ENCRYPTION` (x509.rs 30), `bin/x509.rs` 129-132, 211-214. -/
def rsaAlgorithm : AlgorithmIdentifier := ⟨[1, 2, 840, 113549, 1, 1, 11], some (.ofValue .null)⟩

/-- The certificate to sign, `bin/x509.rs` 126-184, with the constants of x509.rs 10-34. -/
def toolTbs (serialNumber subjectPublicKey authorityKeyIdentifier basicConstraints keyUsage : Bytes) : TbsCertificate where
  version := .v3
  serialNumber := serialNumber
  signature := rsaAlgorithm
  issuer := [⟨[2, 5, 4, 6], .ofValue (.printableString "US")⟩, ⟨[2, 5, 4, 10], .ofValue (.utf8String "My Personal CA")⟩,
    ⟨[2, 5, 4, 3], .ofValue (.utf8String "my.personal.ca")⟩]
  validity := ⟨.utcTime "210515162539Z", .utcTime "220312162539Z"⟩
  subject := [⟨[2, 5, 4, 3], .ofValue (.utf8String "client")⟩]
  subjectPublicKeyInfo := ⟨⟨[1, 2, 840, 113549, 1, 1, 1], some (.ofValue .null)⟩, ⟨0, subjectPublicKey⟩⟩
  issuerUniqueId := none
  subjectUniqueId := none
  extensions := [⟨[2, 5, 29, 35], false, authorityKeyIdentifier⟩, ⟨[2, 5, 29, 19], false, basicConstraints⟩,
    ⟨[2, 5, 29, 15], false, keyUsage⟩]

/-- The errors of the tool, as far as they are told apart here. -/
inductive ToolErr where
  | hex (field : String)
  | pem (e : Pem.Err)
  | badKey
  | signing
  | writer (e : GErr)
  | parse (e : PErr)
deriving DecidableEq

/-- `from_hex(..).ok_or(..)?`. -/
def hexOr (field text : String) : Except ToolErr Bytes :=
  match Util.fromHex text.toList with
  | some bytes => .ok bytes
  | none => .error (.hex field)

/-- `decode_pem_with_label(..)?`. -/
def pemOr (n : Nat) (file : Bytes) (label : String) : Except ToolErr Bytes :=
  match Pem.decodePemWithLabel n file label with
  | .ok bytes => .ok bytes
  | .error e => .error (.pem e)

/-- `RsaKeyPair`: `public_key` and `sign` with PKCS#1 and SHA-256, which may fail. -/
structure RsaKeyPair where
  publicKey : Bytes
  sign : Bytes → Option Bytes

/-- `RsaKeyPair::from_der(..)?`. -/
def keyOr (fromDer : Bytes → Option RsaKeyPair) (der : Bytes) : Except ToolErr RsaKeyPair :=
  match fromDer der with
  | some k => .ok k
  | none => .error .badKey

/-- `..?` on a result of the writer. -/
def writeOr (x : Except GErr Bytes) : Except ToolErr Bytes :=
  match x with
  | .ok bytes => .ok bytes
  | .error e => .error (.writer e)

/-- `sign_tbs_certificate`, `bin/x509.rs` 194-221. -/
def toolSign (tbsCertificate : TbsCertificate) (signer : RsaKeyPair) : Except ToolErr Bytes := do
  let encoded ← writeOr (encode tbsCertificate.toAsn1)
  match signer.sign encoded with
  | none => .error .signing
  | some signature => writeOr (wrapSignature tbsCertificate rsaAlgorithm ⟨0, signature⟩)

/-- `generate`, `bin/x509.rs` 83-192: from the contents of the two key files to the contents of the output file. -/
def toolGenerate (n : Nat) (fromDer : Bytes → Option RsaKeyPair) (subjectFile signerFile : Bytes) : Except ToolErr Bytes := do
  let serialNumber ← hexOr "serial_number" "00fece0a9eaa3eddc3"
  let authorityKeyIdentifier ← hexOr "authority_key_identifier" ("3050a143a441303f310b300906035504061302555331173015060355040a0c0e4d7920506572736f6e" ++
    "616c2043413117301506035504030c0e6d792e706572736f6e616c2e6361820900d7c3d885fa68751d")
  let basicConstraints ← hexOr "basic_constraints" "3000"
  let keyUsage ← hexOr "key_usage" "030204f0"
  let subjectDer ← pemOr n subjectFile "RSA PRIVATE KEY"
  let subject ← keyOr fromDer subjectDer
  let signerDer ← pemOr n signerFile "RSA PRIVATE KEY"
  let signer ← keyOr fromDer signerDer
  let output ← toolSign (toolTbs serialNumber subject.publicKey authorityKeyIdentifier basicConstraints keyUsage) signer
  .ok (Pem.encodePem output "CERTIFICATE")

/-- `print`, `bin/x509.rs` 239-255: the certificate that is printed. -/
def toolPrint (n : Nat) (file : Bytes) : Except ToolErr Certificate := do
  let decoded ← pemOr n file "CERTIFICATE"
  match readAll decoded with
  | .error e => .error (.parse e)
  | .ok item =>
    match Certificate.fromAsn1 item with
    | .error e => .error (.parse e)
    | .ok c => .ok c

end Ngfs.X509
