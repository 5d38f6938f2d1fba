import Verif.Props.X509Handshake
import Verif.Spec.Libp2pTls

/-!
C172: with whom the program `ipfs` speaks after the TLS handshake (`/repo/src/bin/ipfs.rs` 175-205: `ServerAuth::SelfSigned`).
-/
namespace Ngfs.Tls
open Ngfs.Spec

/-- With `ServerAuth::SelfSigned`, the handshake completes only if the certificate in the server's flight proves the libp2p identity of a
host (libp2p TLS specification: an endpoint must abort if the extension is missing or its signature wrong). -/
def C172_statement : Prop :=
  ∀ (K : Type) (cr : Crypto X509.Certificate K) (verify : X509.SigAlg → Bytes → Bytes → Bytes → Bool), Certified cr verify →
    cr.Expands → cr.Correct →
    ∀ (transport : Transport), transport.sent = [] → ∀ (config : ClientConfig), config.serverAuth = .selfSigned →
    ∀ (protocolNames : List String) (privateKey : K) (publicKey random sessionId : Bytes) (k : Nat) (conn : Conn),
    (establishPoll cr (pollTimes cr k
      (initialState transport config protocolNames privateKey publicKey random sessionId))).1 = .ready (.ok conn) →
    ∀ (ch : Bytes), handshakeBytes (X := X509.Certificate)
        (.clientHello (makeClientHello random sessionId publicKey config.serverName protocolNames)) = .ok ch →
    ∀ (f : Flight X509.Certificate), f.Legal cr → ∀ (ciphers : Ciphers) (hsSecret : Bytes) (hsServer : EncryptionKey),
    Agreed cr f.sh f.shRaw privateKey ch ciphers hsSecret hsServer →
    ∀ (rest : Bytes), Arrived cr f.shRaw f.encrypted hsServer (readData transport.reads) rest →
    ∃ entry more key host c, f.cert.certificateList = entry :: more ∧ ProvesHost verify entry.data key host c

/-- The flight with the sample certificate, which has no libp2p extension. -/
def plainFlight (c : X509.Certificate) : Flight X509.Certificate where
  shRaw := toyServerHello
  eeRaw := toyEE
  reqRaws := []
  certRaw := certMessage
  cvRaw := toyVerify
  finRaw := toyFinished 32
  sh := ⟨0x0303, List.replicate 32 7, [], .tlsAes128GcmSha256, 0, [.keyShareServerHello ⟨.x25519, [9, 9]⟩]⟩
  ee := []
  cert := ⟨[], [⟨X509.sampleBytes, c, []⟩]⟩
  cv := ⟨.ed25519, [6]⟩
  verifyData := List.replicate 32 2

/-- The message carries the sample certificate alone. -/
def carriesSample : Except Binary.BinErr (Message X509.Certificate) → Bool
  | .ok (.handshake (.certificate ⟨ctx, [⟨data, _, exts⟩]⟩)) => ctx == [] && data == X509.sampleBytes && exts.isEmpty
  | _ => false

theorem plain_certificate : ∃ c, Parses certCrypto certMessage (.certificate ⟨[], [⟨X509.sampleBytes, c, []⟩]⟩) := by
  have h : carriesSample (Message.fromRaw certCrypto.x509 certMessage .handshake) = true := by decide +kernel
  unfold Parses
  generalize Message.fromRaw certCrypto.x509 certMessage .handshake = m at h
  unfold carriesSample at h
  split at h
  · rename_i ctx data c exts
    simp only [Bool.and_eq_true, beq_iff_eq, List.isEmpty_iff] at h
    obtain ⟨⟨rfl, rfl⟩, rfl⟩ := h
    exact ⟨c, rfl⟩
  · cases h

theorem plain_sh : Parses certCrypto toyServerHello
    (.serverHello ⟨0x0303, List.replicate 32 7, [], .tlsAes128GcmSha256, 0, [.keyShareServerHello ⟨.x25519, [9, 9]⟩]⟩) := by
  with_unfolding_all rfl

theorem plain_ee : Parses certCrypto toyEE (.encryptedExtensions []) := by with_unfolding_all rfl

theorem plain_cv : Parses certCrypto toyVerify (.certificateVerify ⟨.ed25519, [6]⟩) := by with_unfolding_all rfl

theorem plain_fin : Parses certCrypto (toyFinished 32) (.finished (List.replicate 32 2)) := by with_unfolding_all rfl

theorem plainFlight_legal (c : X509.Certificate) (hc : Parses certCrypto certMessage (.certificate ⟨[], [⟨X509.sampleBytes, c, []⟩]⟩)) :
    (plainFlight c).Legal certCrypto := by
  constructor
  · simp only [plainFlight]; exact plain_sh
  · simp only [plainFlight]; exact plain_ee
  · exact .inl (by simp only [plainFlight])
  · simp only [plainFlight]; exact hc
  · simp only [plainFlight]; exact plain_cv
  · simp only [plainFlight]; exact plain_fin

theorem plainFlight_agreed (c : X509.Certificate) (ch : Bytes) :
    Agreed certCrypto (plainFlight c).sh (plainFlight c).shRaw () ch ⟨.sha256, .aes128Gcm⟩ (List.replicate 32 3) toyHsKey where
  shared := ⟨[9, 9], [5], by simp [plainFlight], rfl, List.replicate 32 4, rfl, rfl⟩
  suite := .inl ⟨rfl, rfl⟩
  key := ⟨rfl, rfl, rfl, rfl⟩

/-- A protected record of the example. -/
def plainRecord (n : Nat) (content : Bytes) : WireRecord :=
  ⟨23, 3, 3, match certCrypto.aeadEncrypt .aes128Gcm toyHsKey.writeKey (nonceSpec toyHsKey.writeIv n)
      [23, 3, 3, UInt8.ofNat ((content.length + 17) / 256), UInt8.ofNat ((content.length + 17) % 256)] (content ++ [22]) with
    | some c => c
    | none => []⟩

def plainRecords : List WireRecord :=
  [⟨22, 3, 3, toyServerHello⟩, ⟨20, 3, 3, [1]⟩, plainRecord 0 toyEE, plainRecord 1 certMessage, plainRecord 2 toyVerify,
    plainRecord 3 (toyFinished 32)]

def plainTransport : Transport := toyTransport [toyEE, certMessage, toyVerify, toyFinished 32]

theorem plainRecords_arrive (c : X509.Certificate) :
    Arrived certCrypto (plainFlight c).shRaw (plainFlight c).encrypted toyHsKey (readData plainTransport.reads) [] := by
  have he : (plainFlight c).encrypted = [toyEE, certMessage, toyVerify, toyFinished 32] := by
    simp only [Flight.encrypted, plainFlight, List.nil_append, List.cons_append]
  have hs : (plainFlight c).shRaw = toyServerHello := by simp only [plainFlight]
  rw [he, hs]
  refine ⟨⟨22, 3, 3, toyServerHello⟩, [plainRecord 0 toyEE, plainRecord 1 certMessage, plainRecord 2 toyVerify,
    plainRecord 3 (toyFinished 32)], plainRecords, ?_, ?_, ?_, rfl, rfl, ?_⟩
  · unfold WireRecord.Legal
    decide +kernel
  · decide +kernel
  · decide +kernel
  · refine ⟨?_, ⟨0, ?_⟩, ?_, ⟨0, ?_⟩, ?_, ⟨0, ?_⟩, ?_, ⟨0, ?_⟩, trivial⟩
    all_goals first | decide +kernel | (unfold WireRecord.Legal; decide +kernel)

theorem plain_completes : completes certCrypto (initialState plainTransport ⟨.none, .selfSigned, none⟩ ["libp2p"] () (List.replicate 32 8)
    (List.replicate 32 1) (List.replicate 32 2)) = true := by
  decide +kernel

/-- **C172** does not hold: a certificate without the extension is accepted. -/
theorem C172_false : ¬ C172_statement := by
  intro h
  obtain ⟨conn, hconn⟩ := (completes_iff _ _).mp plain_completes
  have hch : (handshakeBytes (X := X509.Certificate) (.clientHello (makeClientHello (List.replicate 32 1) (List.replicate 32 2)
        (List.replicate 32 8) none ["libp2p"]))).toOption.isSome = true := by decide +kernel
  have hspec := h Unit certCrypto (fun _ _ _ _ => true) certCrypto_certified certCrypto_expands certCrypto_correct plainTransport rfl
    ⟨.none, .selfSigned, none⟩ rfl ["libp2p"] () (List.replicate 32 8) (List.replicate 32 1) (List.replicate 32 2) 0 conn hconn
  clear h hconn
  simp only at hspec
  generalize handshakeBytes (X := X509.Certificate) (.clientHello (makeClientHello (List.replicate 32 1) (List.replicate 32 2)
        (List.replicate 32 8) none ["libp2p"])) = r at hch hspec
  rcases r with e | ch
  · cases hch
  obtain ⟨shown, hshown⟩ := plain_certificate
  obtain ⟨entry, more, key, host, c, h1, h2⟩ := hspec ch rfl (plainFlight shown) (plainFlight_legal shown hshown) _ _ _
    (plainFlight_agreed shown ch) [] (plainRecords_arrive shown)
  have he : entry.data = X509.sampleBytes := by
    have := h1.symm
    simp only [plainFlight, List.cons.injEq] at this
    rw [this.1]
  have hread : (match X509.Certificate.fromBytes X509.sampleBytes with
      | .ok c => (c.tbsCertificate.extensions.filter (fun e => e.id == libp2pOid)).isEmpty
      | .error _ => false) = true := by decide +kernel
  have hc := h2.read
  rw [he] at hc
  rw [hc] at hread
  obtain ⟨cr, d, s, h3, -⟩ := h2.extension
  simp only [h3] at hread
  cases hread

/-- What holds: the server has shown a certificate that is signed with its own key, and that key has signed this handshake, so that it is the
owner of the key in the certificate with whom the connection was made; but nothing says who that is. -/
theorem C172_key_owner_partial {K : Type} (cr : Crypto X509.Certificate K) (verify : X509.SigAlg → Bytes → Bytes → Bytes → Bool)
    (hcr : Certified cr verify) (hx : cr.Expands) (hc : cr.Correct)
    (transport : Transport) (ht : transport.sent = []) (config : ClientConfig)
    (hself : config.serverAuth = .selfSigned) (protocolNames : List String) (privateKey : K)
    (publicKey random sessionId : Bytes) (k : Nat) (conn : Conn)
    (h : (establishPoll cr (pollTimes cr k
      (initialState transport config protocolNames privateKey publicKey random sessionId))).1 = .ready (.ok conn)) :
    ∃ (c : X509.Certificate) (ch : Bytes) (f : Flight X509.Certificate) (entry : CertificateEntry X509.Certificate)
      (more : List (CertificateEntry X509.Certificate)),
      handshakeBytes (X := X509.Certificate)
        (.clientHello (makeClientHello random sessionId publicKey config.serverName protocolNames)) = .ok ch ∧
      f.Legal cr ∧ f.cert.certificateList = entry :: more ∧ X509.Certificate.fromBytes entry.data = .ok c ∧
      SignedBy verify c c entry.data ∧
      cr.sigVerify f.cv.algorithm (keyOf c)
        (signedContent (cr.hash conn.seqenc.ciphers.hashAlg (f.toCertificate ch))) f.cv.signature = true := by
  obtain ⟨ch, f, hs, hk, h0, h1, -, -, h5, -⟩ := C29_server_authenticated cr hx hc transport ht config protocolNames
    privateKey publicKey random sessionId k conn h
  obtain ⟨entry, more, anchor, e1, e2, e3, e4⟩ := h5.certificate
  rw [hself] at e2
  cases e2
  obtain ⟨ca, c, a1, a2, a3⟩ := X509.C100_accepted verify entry.data entry.data ((hcr.check _ _).mp e3)
  rw [a2] at a1
  cases a1
  have hm := message_certificates h1.cert entry (by rw [e1]; exact List.mem_cons_self)
  rw [hcr.x509, a2] at hm
  cases hm
  rw [hcr.publicKey] at e4
  exact ⟨_, ch, f, entry, more, h0, h1, e1, a2, a3, e4⟩

example : Certified certCrypto (fun _ _ _ _ => true) ∧ certCrypto.Expands ∧ certCrypto.Correct ∧
    ∃ conn, (establishPoll certCrypto (pollTimes certCrypto 0 (initialState plainTransport ⟨.none, .selfSigned, none⟩ ["libp2p"] ()
      (List.replicate 32 8) (List.replicate 32 1) (List.replicate 32 2)))).1 = .ready (.ok conn) :=
  ⟨certCrypto_certified, certCrypto_expands, certCrypto_correct, (completes_iff _ _).mp plain_completes⟩

end Ngfs.Tls
