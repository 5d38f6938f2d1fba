import Verif.Lemmas.TlsCrash

/-! Which errors of the client cannot come from its own computations (for C202 and C203). -/
namespace Ngfs.Tls

open Ngfs.Binary

/-- Errors that stand for something that came from outside: a message, an alert, a failure of the transport or its end. -/
def TlsErr.foreign : TlsErr → Bool
  | .unexpectedMessage _ => true
  | .unexpectedAlert _ => true
  | .ioError _ => true
  | .unexpectedEof => true
  | _ => false

theorem hkdf_calm {X K : Type} {e0 : TlsErr} (he0 : e0.foreign = true) (cr : Crypto X K) (alg : HashAlg) (prk label context : Bytes) (len : Nat) :
    hkdfExpandLabel cr alg prk label context len ≠ .error e0 := by
  rw [hkdfExpandLabel_eq]
  intro h
  split at h <;> first | (cases h; done) | (cases h; cases he0)

theorem derivedPrk_calm {X K : Type} {e0 : TlsErr} (he0 : e0.foreign = true) (cr : Crypto X K) (alg : HashAlg) (prk secret : Bytes) :
    derivedPrk cr alg prk secret ≠ .error e0 := by
  intro h
  unfold derivedPrk at h
  rcases except_bind_error h with h | ⟨a, _, h⟩
  · exact hkdf_calm he0 _ _ _ _ _ _ h
  · (cases h; try cases he0)

theorem encryptionKey_calm {X K : Type} {e0 : TlsErr} (he0 : e0.foreign = true) (cr : Crypto X K) (raw : Bytes) (alg : HashAlg) (aead : AeadAlg) :
    EncryptionKey.new cr raw alg aead ≠ .error e0 := by
  intro h
  unfold EncryptionKey.new at h
  rcases except_bind_error h with h | ⟨a, _, h⟩
  · exact hkdf_calm he0 _ _ _ _ _ _ h
  rcases except_bind_error h with h | ⟨a, _, h⟩
  · exact hkdf_calm he0 _ _ _ _ _ _ h
  · (cases h; try cases he0)

theorem trafficSecrets_calm {X K : Type} {e0 : TlsErr} (he0 : e0.foreign = true) (cr : Crypto X K) (ciphers : Ciphers) (transcript prk : Bytes)
    (label : String) : TrafficSecrets.deriveFrom cr ciphers transcript prk label ≠ .error e0 := by
  intro h
  unfold TrafficSecrets.deriveFrom at h
  rcases except_bind_error h with h | ⟨a, _, h⟩
  · exact hkdf_calm he0 _ _ _ _ _ _ h
  rcases except_bind_error h with h | ⟨a, _, h⟩
  · exact encryptionKey_calm he0 _ _ _ _ h
  rcases except_bind_error h with h | ⟨a, _, h⟩
  · exact hkdf_calm he0 _ _ _ _ _ _ h
  rcases except_bind_error h with h | ⟨a, _, h⟩
  · exact encryptionKey_calm he0 _ _ _ _ h
  · (cases h; try cases he0)

theorem handshakeBytes_calm {X : Type} {e0 : TlsErr} (he0 : e0.foreign = true) (h : Handshake X) : handshakeBytes h ≠ .error e0 := by
  unfold handshakeBytes
  intro h
  split at h <;> first | (cases h; done) | (cases h; cases he0)

theorem computeApplicationSecrets_calm {X K : Type} {e0 : TlsErr} (he0 : e0.foreign = true) {cr : Crypto X K}
    (hv : ∀ a b, cr.verifyCertificate a b ≠ .error e0)
    (transcript : Bytes) (config : ClientConfig) (prk : Bytes) (sm : ServerMessages X) (seqenc : SequenceEncryption) :
    computeApplicationSecrets cr transcript config prk sm seqenc ≠ .error e0 := by
  intro h
  unfold computeApplicationSecrets at h
  rcases except_bind_error h with h | ⟨master, _, h⟩
  · exact absurd h (derivedPrk_calm he0 _ _ _ _)
  rcases except_bind_error h with h | ⟨keys, _, h⟩
  · exact absurd h (trafficSecrets_calm he0 _ _ _ _ _)
  rcases except_bind_error h with h | ⟨u, _, h⟩
  · unfold verifyFinished at h
    rcases except_bind_error h with h | ⟨fk, _, h⟩
    · exact absurd h (hkdf_calm he0 _ _ _ _ _ _)
    rcases except_bind_error h with h | ⟨good, _, h⟩
    · unfold hmacVerify at h
      split at h <;> (cases h; try cases he0)
    · split at h <;> (cases h; try cases he0)
  rcases hc : sm.certificate with _ | cert
  · rw [hc] at h; (cases h; try cases he0)
  rw [hc] at h
  simp only at h
  rcases hl : cert.certificateList with _ | ⟨entry, more⟩
  · rw [hl] at h; (cases h; try cases he0)
  rw [hl] at h
  simp only at h
  rcases except_bind_error h with h | ⟨entry', h4, h⟩
  · (cases h; try cases he0)
  cases h4
  have key : ∀ ca, (do
      cr.verifyCertificate ca entry.data
      match sm.certificateVerify with
      | some (cv, thash) =>
        rsaVerify cr cv.algorithm (cr.publicKey entry.certificate) (verifyTranscriptInput true thash) cv.signature
      | none => .error .missingCertificateVerifyMessage
      pure keys : Except TlsErr TrafficSecrets) ≠ .error e0 := by
    intro ca h
    rcases except_bind_error h with h | ⟨u2, _, h⟩
    · exact hv _ _ h
    rcases hcv : sm.certificateVerify with _ | ⟨cv, thash⟩
    · rw [hcv] at h; (cases h; try cases he0)
    · rw [hcv] at h
      simp only at h
      rcases except_bind_error h with h | ⟨u3, _, h⟩
      · unfold rsaVerify at h
        split at h
        · split at h <;> (cases h; try cases he0)
        · (cases h; try cases he0)
      · (cases h; try cases he0)
  rcases hsa : config.serverAuth with _ | c | _
  · rw [hsa] at h; (cases h; try cases he0)
  all_goals
    rw [hsa] at h
    simp only at h
    rcases except_bind_error h with h | ⟨ca, h5, h⟩
    · (cases h; try cases he0)
    cases h5
    exact key _ h

theorem clientCertificateBytes_calm {X K : Type} {e0 : TlsErr} (he0 : e0.foreign = true) (cr : Crypto X K) (alg : HashAlg) (transcript : Bytes)
    (auth : ClientAuth) : clientCertificateBytes cr alg transcript auth ≠ .error e0 := by
  intro h
  cases auth with
  | none => (cases h; try cases he0)
  | certificate cert isRsa key =>
    unfold clientCertificateBytes at h
    simp only at h
    rcases hx : cr.x509 cert with _ | x
    · rw [hx] at h; (cases h; try cases he0)
    rw [hx] at h
    simp only at h
    rcases except_bind_error h with h | ⟨x', hx', h⟩
    · (cases h; try cases he0)
    cases hx'
    rcases except_bind_error h with h | ⟨c, _, h⟩
    · exact handshakeBytes_calm he0 _ h
    rcases hs : cr.sign isRsa key (verifyTranscriptInput false (cr.hash alg (transcript ++ c))) with _ | sg
    · simp only [hs] at h; (cases h; try cases he0)
    simp only [hs] at h
    rcases except_bind_error h with h | ⟨x', hx', h⟩
    · (cases h; try cases he0)
    rcases except_bind_error h with h | ⟨v, _, h⟩
    · exact handshakeBytes_calm he0 _ h
    · (cases h; try cases he0)

theorem clientFinishedBytes_calm {X K : Type} {e0 : TlsErr} (he0 : e0.foreign = true) (cr : Crypto X K) (alg : HashAlg) (key : EncryptionKey)
    (transcript : Bytes) : clientFinishedBytes cr alg key transcript ≠ .error e0 := by
  intro h
  unfold clientFinishedBytes at h
  rcases except_bind_error h with h | ⟨fk, _, h⟩
  · exact hkdf_calm he0 _ _ _ _ _ _ h
  · exact handshakeBytes_calm he0 _ h

theorem encryptRecord_calm {X K : Type} {e0 : TlsErr} (he0 : e0.foreign = true) (cr : Crypto X K) (p : PlaintextStream) (d : Bytes) (ct : ContentType)
    (key : EncryptionKey) (n : Nat) : (encryptRecord cr p d ct key n).1 ≠ .error e0 := by
  unfold encryptRecord
  split
  · intro hh; cases hh; cases he0
  · simp only
    unfold encryptTraffic
    simp only
    split
    · rename_i e he
      intro hh
      cases hh
      split at he <;> first | (cases he; done) | (cases he; cases he0)
    · exact nofun

theorem decryptMessage_own {X K : Type} {e0 : TlsErr} (he0 : e0.foreign = true) (cr : Crypto X K) (n : Nat)
    (key : EncryptionKey) (raw : Bytes) : decryptMessage cr n key raw ≠ .error e0 := by
  have h1 : decryptTraffic cr key n raw ≠ .error e0 := by
    unfold decryptTraffic
    intro h
    repeat' split at h
    all_goals first | (cases h; done) | (cases h; cases he0)
  unfold decryptMessage
  split
  · rename_i e he
    intro hh
    cases hh
    exact h1 he
  · simp only
    intro h
    repeat' split at h
    all_goals first | (cases h; done) | (cases h; cases he0)

end Ngfs.Tls
