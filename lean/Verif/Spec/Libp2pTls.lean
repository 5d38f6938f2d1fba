import Verif.Spec.X509
import Verif.Model.Libp2pTls

/-!
What a libp2p certificate is (libp2p TLS handshake specification, "Peer Authentication").
-/
namespace Ngfs.Spec
open Ngfs.Binary Ngfs.Asn1 Ngfs.X509 Ngfs.Identify

/-- The `SubjectPublicKeyInfo` of an Ed25519 key in DER (RFC 8410): 12 fixed bytes and the 32 bytes of the key. -/
def ed25519Info (key : Bytes) : Bytes := [0x30, 0x2a, 0x30, 0x05, 0x06, 0x03, 0x2b, 0x65, 0x70, 0x03, 0x21, 0x00] ++ key

/-- What the host signs: the text `libp2p-tls-handshake:` and the key of the certificate. -/
def hostSigned (key : Bytes) : Bytes := "libp2p-tls-handshake:".toList.map (fun c => UInt8.ofNat c.toNat) ++ ed25519Info key

/-- The object identifier of the libp2p public key extension. -/
def libp2pOid : List Nat := [1, 3, 6, 1, 4, 1, 53594, 1, 1]

/-- `SignedKey ::= SEQUENCE { publicKey OCTET STRING, signature OCTET STRING }`, as the whole of `bytes`: the key is a
protobuf public key. -/
def SignedKey (bytes : Bytes) (key : PublicKey) (signature : Bytes) : Prop :=
  ∃ a b c d e f pb, readItem ⟨bytes, 0⟩ =
    (.ok (.mk a b (.sequence [.mk c d (.octetString pb), .mk e f (.octetString signature)])), ⟨bytes, bytes.length⟩) ∧
    PublicKey.fromPb pb = .ok key

/-- `raw` shows that the host with the Ed25519 key `host` speaks for the owner of the Ed25519 key `key`: a certificate for
`key`, signed with `key` itself, with exactly one libp2p extension, in which `host` signs the key information that is in the
certificate. -/
structure ProvesHost (verify : SigAlg → Bytes → Bytes → Bytes → Bool) (raw key host : Bytes) (c : Certificate) : Prop where
  read : Certificate.fromBytes raw = .ok c
  keyIs : keyOf c = key
  keyType : c.tbsCertificate.subjectPublicKeyInfo.algorithm.algorithm = signatureOid .ed25519
  contains : ed25519Info key <:+: raw
  selfSigned : SignedBy verify c c raw
  extension : ∃ critical data signature, c.tbsCertificate.extensions.filter (fun e => e.id == libp2pOid) =
      [⟨libp2pOid, critical, data⟩] ∧
    SignedKey data ⟨.ed25519, host⟩ signature ∧ verify .ed25519 host (hostSigned key) signature = true

end Ngfs.Spec
