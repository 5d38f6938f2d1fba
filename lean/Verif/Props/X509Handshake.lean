import Verif.Props.X509
import Verif.Props.TlsHandshake

/-!
C100 for whole handshakes: C29 with the certificates of `Verif/Model/X509.lean`.
-/
namespace Ngfs.Tls
open Ngfs.Binary

/-- The certificates in a handshake are those of `Verif/Model/X509.lean`: the reader, the key, and the check, with `verify`
for the signatures. -/
structure Certified {K : Type} (cr : Crypto X509.Certificate K) (verify : X509.SigAlg → Bytes → Bytes → Bytes → Bool) :
    Prop where
  x509 : ∀ bs, cr.x509 bs = (X509.Certificate.fromBytes bs).toOption
  publicKey : cr.publicKey = Spec.keyOf
  check : ∀ ca raw, cr.verifyCertificate ca raw = .ok () ↔ X509.verifyCertificate verify ca raw = .ok ()

/-- **C100**, for a whole handshake with a certificate authority: the server has shown a certificate that the authority's key
has signed, and the key in that certificate has signed this handshake up to the certificate. -/
theorem C100_handshake {K : Type} (cr : Crypto X509.Certificate K) (verify : X509.SigAlg → Bytes → Bytes → Bytes → Bool)
    (hcr : Certified cr verify) (hx : cr.Expands) (hc : cr.Correct)
    (transport : Transport) (ht : transport.sent = []) (config : ClientConfig) (caRaw : Bytes)
    (hca : config.serverAuth = .certificateAuthority caRaw) (protocolNames : List String) (privateKey : K)
    (publicKey random sessionId : Bytes) (k : Nat) (conn : Conn)
    (h : (establishPoll cr (pollTimes cr k
      (initialState transport config protocolNames privateKey publicKey random sessionId))).1 = .ready (.ok conn)) :
    ∃ (ca c : X509.Certificate) (ch : Bytes) (f : Flight X509.Certificate) (entry : CertificateEntry X509.Certificate)
      (more : List (CertificateEntry X509.Certificate)),
      handshakeBytes (X := X509.Certificate)
        (.clientHello (makeClientHello random sessionId publicKey config.serverName protocolNames)) = .ok ch ∧
      f.Legal cr ∧ f.cert.certificateList = entry :: more ∧
      X509.Certificate.fromBytes caRaw = .ok ca ∧ X509.Certificate.fromBytes entry.data = .ok c ∧
      Spec.SignedBy verify ca c entry.data ∧
      cr.sigVerify f.cv.algorithm (Spec.keyOf c)
        (signedContent (cr.hash conn.seqenc.ciphers.hashAlg (f.toCertificate ch))) f.cv.signature = true := by
  obtain ⟨ch, f, hs, hk, h0, h1, -, -, h5, -⟩ := C29_server_authenticated cr hx hc transport ht config protocolNames
    privateKey publicKey random sessionId k conn h
  obtain ⟨entry, more, anchor, e1, e2, e3, e4⟩ := h5.certificate
  rw [hca] at e2
  cases e2
  obtain ⟨ca, c, a1, a2, a3⟩ := X509.C100_accepted verify caRaw entry.data ((hcr.check _ _).mp e3)
  have hm := message_certificates h1.cert entry (by rw [e1]; exact List.mem_cons_self)
  rw [hcr.x509, a2] at hm
  cases hm
  rw [hcr.publicKey] at e4
  exact ⟨ca, _, ch, f, entry, more, h0, h1, e1, a1, a2, a3, e4⟩

/-- The primitives of the example handshake, with these certificates and a check that accepts every signature. -/
def certCrypto : Crypto X509.Certificate Unit where
  aeadEncrypt := toyCrypto.aeadEncrypt
  aeadDecrypt := toyCrypto.aeadDecrypt
  hash := toyCrypto.hash
  hmac := toyCrypto.hmac
  hkdfExtract := toyCrypto.hkdfExtract
  hkdfExpand := toyCrypto.hkdfExpand
  agree := toyCrypto.agree
  sigVerify := toyCrypto.sigVerify
  sign := toyCrypto.sign
  x509 bs := (X509.Certificate.fromBytes bs).toOption
  publicKey := Spec.keyOf
  verifyCertificate ca raw := match X509.verifyCertificate (fun _ _ _ _ => true) ca raw with
    | .ok () => .ok ()
    | .error _ => .error .invalidCertificate

theorem certCrypto_certified : Certified certCrypto (fun _ _ _ _ => true) :=
  ⟨fun _ => rfl, rfl, fun ca raw => by
    simp only [certCrypto]
    split <;> simp_all⟩

/-- The Certificate message with the sample certificate. -/
def certMessage : Bytes :=
  match handshakeBytes (.certificate ⟨[], [⟨X509.sampleBytes, X509.sample true, []⟩]⟩) with
  | .ok b => b
  | .error _ => []

theorem cert_completes : completes certCrypto (initialState (toyTransport [toyEE, certMessage, toyVerify, toyFinished 32])
    ⟨.none, .certificateAuthority X509.sampleBytes, none⟩ ["h2"] () (List.replicate 32 8) (List.replicate 32 1)
    (List.replicate 32 2)) = true := by
  decide +kernel

theorem certCrypto_expands : certCrypto.Expands := toyCrypto_expands
theorem certCrypto_correct : certCrypto.Correct := toyCrypto_correct

example : Certified certCrypto (fun _ _ _ _ => true) ∧ certCrypto.Expands ∧ certCrypto.Correct ∧
    ∃ conn, (establishPoll certCrypto (pollTimes certCrypto 0 (initialState
      (toyTransport [toyEE, certMessage, toyVerify, toyFinished 32]) ⟨.none, .certificateAuthority X509.sampleBytes, none⟩ ["h2"] ()
      (List.replicate 32 8) (List.replicate 32 1) (List.replicate 32 2)))).1 = .ready (.ok conn) :=
  ⟨certCrypto_certified, certCrypto_expands, certCrypto_correct, (completes_iff _ _).mp cert_completes⟩

end Ngfs.Tls
