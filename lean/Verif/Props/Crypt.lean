import Verif.Lemmas.Crypt
import Verif.Props.TlsHonest

/-! Property C180: the crypto module is never asked for something of the wrong length. -/
namespace Ngfs.Crypt

open Ngfs.Spec Ngfs.Tls

/-! ### The module itself -/

/-- C180: built on hash functions whose results have their lengths and on ciphers that work, the module gives results of the right lengths
and works whenever it gets what RFC 5869 and the ciphers demand. -/
theorem C180_module {X K : Type} (p : Prims) (hp : PrimsWork p) (rest : Tls.Crypto X K) :
    RightSizes (tls p rest) ∧ (tls p rest).Works := by
  have hx : (tls p rest).Expands := by
    intro alg prk info n okm h
    simp only [tls] at h
    cases hk : hkdfExpand p alg prk info n with
    | error e => rw [hk] at h; cases h
    | ok o => rw [hk] at h; cases h; exact hkdfExpand_len hp hk
  refine ⟨⟨fun alg salt ikm => hmac_len hp alg salt ikm, hx⟩, fun alg salt ikm => hmac_len hp alg salt ikm, ?_, ?_, ?_⟩
  · intro alg prk info n h1 h2
    obtain ⟨okm, h⟩ := hkdfExpand_ok p info h1 (small_le alg h2)
    exact ⟨okm, by simp only [tls, h]; rfl⟩
  · intro alg key nonce ad text h1 h2 h3 h4
    obtain ⟨c, h⟩ := hp.enc alg key nonce ad text h1 h2 h3 h4
    refine ⟨c, ?_⟩
    simp only [tls, encryptInPlace]
    rw [if_neg (by rw [aeadKeyLen_eq]; omega), if_neg (by simp only [nonceLen]; omega), h]
    rfl
  · intro alg key data
    exact hmac_len hp alg key data

/-- C180: if the ciphers decrypt what they encrypt and add a tag of 16 bytes, for keys and nonces of their own lengths, then so does the
module for everything it encrypts. -/
theorem C180_inverse {X K : Type} (p : Prims) (rest : Tls.Crypto X K)
    (h : ∀ alg key nonce ad text c, key.length = aeadKeyLen alg → nonce.length = 12 → p.enc alg key nonce ad text = some c →
      p.dec alg key nonce ad c = some text ∧ c.length = text.length + 16) : (tls p rest).Correct := by
  intro alg key nonce ad text c hc
  simp only [tls, encryptInPlace, decryptInPlace] at hc ⊢
  by_cases h1 : key.length = alg.keyLen
  · by_cases h2 : nonce.length = nonceLen alg
    · rw [if_neg (by simpa using h1), if_neg (by simpa using h2)] at hc ⊢
      cases he : p.enc alg key nonce ad text with
      | none => rw [he] at hc; cases hc
      | some c' =>
        rw [he] at hc
        cases hc
        obtain ⟨e1, e2⟩ := h alg key nonce ad text c (by rw [h1, aeadKeyLen_eq]) h2 he
        rw [e1]
        exact ⟨rfl, e2⟩
    · rw [if_neg (by simpa using h1), if_pos h2] at hc
      cases hc
  · rw [if_pos h1] at hc
    cases hc

/-- C180: a cipher never sees a key or a nonce that is not of its own length: two ciphers that agree on those give the same module. -/
theorem C180_ciphers_guarded (p q : Prims) (alg : AeadAlg) (key nonce ad text : Bytes)
    (h : key.length = aeadKeyLen alg → nonce.length = 12 →
      p.enc alg key nonce ad text = q.enc alg key nonce ad text ∧ p.dec alg key nonce ad text = q.dec alg key nonce ad text) :
    encryptInPlace p alg key nonce ad text = encryptInPlace q alg key nonce ad text ∧
      decryptInPlace p alg key nonce ad text = decryptInPlace q alg key nonce ad text := by
  unfold encryptInPlace decryptInPlace
  by_cases h1 : key.length = alg.keyLen
  · by_cases h2 : nonce.length = nonceLen alg
    · obtain ⟨e1, e2⟩ := h (by rw [h1, aeadKeyLen_eq]) h2
      simp only [e1, e2, and_self]
    · simp only [ne_eq, h2, not_false_eq_true, if_true, and_self]
  · simp only [ne_eq, h1, not_false_eq_true, if_true, and_self]

/-! ### The TLS client -/

/-- C180: whatever the server and the network do, and whatever the user of the connection does with it, the TLS client gives HKDF and the
ciphers only what has the right length: with a library that does anything else for other lengths, it does the same. -/
theorem C180_tls {X K : Type} (cr cr' : Tls.Crypto X K) (hs : SameWithin cr cr') (hr : RightSizes cr) (transport : Transport)
    (config : ClientConfig) (names : List String) (privateKey : K) (publicKey random sessionId : Bytes) (k : Nat) (ops : List ConnOp) :
    life cr' (initialState transport config names privateKey publicKey random sessionId) k ops =
      life cr (initialState transport config names privateKey publicKey random sessionId) k ops :=
  life_same hs hr _ (initialState_sized ..) k ops

theorem sameWithin_refusing {X K : Type} (p : Prims) (rest : Tls.Crypto X K) (f : CryptErr → Option Bytes) :
    SameWithin (tls p rest) (refusing p rest f) where
  hash := rfl
  hmac := rfl
  extract := rfl
  agree := rfl
  sigVerify := rfl
  sign := rfl
  x509 := rfl
  publicKey := rfl
  verifyCertificate := rfl
  expand := by
    intro alg prk info n h1 h2
    obtain ⟨okm, h⟩ := hkdfExpand_ok p info h1 h2
    simp only [tls, refusing, h]
    rfl
  encrypt := by
    intro alg key nonce ad text h1 h2 _
    simp only [tls, refusing, encryptInPlace]
    rw [if_neg (by rw [aeadKeyLen_eq]; omega), if_neg (by simp only [nonceLen]; omega)]
    cases p.enc alg key nonce ad text <;> rfl
  decrypt := by
    intro alg key nonce ad text h1 h2 _
    simp only [tls, refusing, decryptInPlace]
    rw [if_neg (by rw [aeadKeyLen_eq]; omega), if_neg (by simp only [nonceLen]; omega)]
    cases p.dec alg key nonce ad text <;> rfl

/-- C180: so the crypto module never refuses the client anything because of a length: how such a refusal would be answered makes no
difference to the life of any connection. -/
theorem C180_tls_never_refused {X K : Type} (p : Prims) (hp : PrimsWork p) (rest : Tls.Crypto X K) (f : CryptErr → Option Bytes)
    (transport : Transport) (config : ClientConfig) (names : List String) (privateKey : K) (publicKey random sessionId : Bytes) (k : Nat)
    (ops : List ConnOp) :
    life (refusing p rest f) (initialState transport config names privateKey publicKey random sessionId) k ops =
      life (tls p rest) (initialState transport config names privateKey publicKey random sessionId) k ops :=
  C180_tls _ _ (sameWithin_refusing p rest f) (C180_module p hp rest).1 _ _ _ _ _ _ _ _ _

/-! ### The QUIC endpoint -/

/-- C180: the same for the QUIC endpoint, for whatever datagrams it receives, and for the first packet it sends itself. -/
theorem C180_quic {X K : Type} (cr cr' : Tls.Crypto X K) (hs : SameWithin cr cr') (hr : RightSizes cr) (c c' : Quic.Crypto)
    (hc : SameWithinQuic c c') (packets : List Bytes) (dcid scid publicKey random : Bytes) :
    Quic.Endpoint.new.recvAll c' cr' packets = Quic.Endpoint.new.recvAll c cr packets ∧
      Quic.Endpoint.new.connect c' cr' dcid scid publicKey random = Quic.Endpoint.new.connect c cr dcid scid publicKey random ∧
      ∀ packet e, Quic.Endpoint.new.connect c cr dcid scid publicKey random = .ok (packet, e) →
        e.recvAll c' cr' packets = e.recvAll c cr packets := by
  have h0 : Quic.EndpointOk Quic.Endpoint.new := nofun
  obtain ⟨q1, q2⟩ := Quic.connect_same hs hr hc Quic.Endpoint.new h0 dcid scid publicKey random
  exact ⟨Quic.recvAll_same hs hr hc packets _ h0, q1, fun packet e h => Quic.recvAll_same hs hr hc packets e (q2 packet e h)⟩

/-- C180: the crypto module never refuses the endpoint anything because of a length. -/
theorem C180_quic_never_refused {X K : Type} (p : Prims) (hp : PrimsWork p) (rest : Tls.Crypto X K) (aes : Bytes → Bytes → Bytes)
    (f : CryptErr → Option Bytes) (packets : List Bytes) (dcid scid publicKey random : Bytes) :
    Quic.Endpoint.new.recvAll (refusingQuic p aes f) (refusing p rest f) packets =
        Quic.Endpoint.new.recvAll (quic p aes) (tls p rest) packets ∧
      Quic.Endpoint.new.connect (refusingQuic p aes f) (refusing p rest f) dcid scid publicKey random =
        Quic.Endpoint.new.connect (quic p aes) (tls p rest) dcid scid publicKey random := by
  have hc : SameWithinQuic (quic p aes) (refusingQuic p aes f) := by
    refine ⟨fun _ _ _ _ => rfl, ?_, ?_⟩
    · intro key nonce ad text h1 h2
      have hk : key.length = aeadKeyLen .aes128Gcm := h1
      simp only [quic, refusingQuic, encryptInPlace]
      rw [if_neg (by rw [aeadKeyLen_eq]; omega), if_neg (by simp only [nonceLen]; omega)]
      cases p.enc .aes128Gcm key nonce ad text <;> rfl
    · intro key nonce ad text h1 h2
      have hk : key.length = aeadKeyLen .aes128Gcm := h1
      simp only [quic, refusingQuic, decryptInPlace]
      rw [if_neg (by rw [aeadKeyLen_eq]; omega), if_neg (by simp only [nonceLen]; omega)]
      cases p.dec .aes128Gcm key nonce ad text <;> rfl
  obtain ⟨h1, h2, -⟩ := C180_quic _ _ (sameWithin_refusing p rest f) (C180_module p hp rest).1 _ _ hc packets dcid scid publicKey random
  exact ⟨h1, h2⟩

/-- C180: the keys of a QUIC connection can always be derived, whatever the connection identifier is, and have the right lengths. -/
theorem C180_quic_keys {X K : Type} (p : Prims) (hp : PrimsWork p) (rest : Tls.Crypto X K) (dcid : Bytes) :
    ∃ s, Quic.ConnectionSecrets.fromConnectionId (tls p rest) .sha256 dcid = .ok s ∧
      ∀ d ∈ [s.client, s.server], d.key.length = 16 ∧ d.iv.length = 12 ∧ d.hp.length = 16 := by
  obtain ⟨hr, hw⟩ := C180_module p hp rest
  have hlab : ∀ prk label n, hashLen .sha256 ≤ prk.length → n ≤ 48 → ∃ okm, hkdfExpandLabel (tls p rest) .sha256 prk label [] n = .ok okm := by
    intro prk label n h1 h2
    obtain ⟨okm, h⟩ := expandLabel_some hw .sha256 prk label [] h1 h2
    exact ⟨okm, hkdfExpandLabel_some h⟩
  have hsec : ∀ initial, hashLen .sha256 ≤ initial.length → ∃ s, Quic.Secrets.fromInitial (tls p rest) .sha256 initial = .ok s := by
    intro initial hl
    obtain ⟨a, h1⟩ := hlab initial (ascii "quic key") 16 hl (by decide)
    obtain ⟨b, h2⟩ := hlab initial (ascii "quic iv") 12 hl (by decide)
    obtain ⟨c, h3⟩ := hlab initial (ascii "quic hp") 16 hl (by decide)
    exact ⟨⟨a, b, c⟩, by unfold Quic.Secrets.fromInitial; rw [h1, h2, h3]; rfl⟩
  have hall : ∃ s, Quic.ConnectionSecrets.fromConnectionId (tls p rest) .sha256 dcid = .ok s := by
    unfold Quic.ConnectionSecrets.fromConnectionId
    have hl := (hr.extract .sha256
      [0x38, 0x76, 0x2c, 0xf7, 0xf5, 0x59, 0x34, 0xb3, 0x4d, 0x17, 0x9a, 0xe6, 0xa4, 0xc8, 0x0c, 0xad, 0xcc, 0xbb, 0x7f, 0x0a] dcid).ge
    obtain ⟨ci, h1⟩ := hlab _ (ascii "client in") (HashAlg.byteLen .sha256) hl (by decide)
    obtain ⟨si, h2⟩ := hlab _ (ascii "server in") (HashAlg.byteLen .sha256) hl (by decide)
    obtain ⟨c, h3⟩ := hsec ci (by rw [hkdfExpandLabel_len hr h1, byteLen_eq])
    obtain ⟨v, h4⟩ := hsec si (by rw [hkdfExpandLabel_len hr h2, byteLen_eq])
    exact ⟨⟨c, v⟩, by unfold Quic.ConnectionSecrets.fromInitial; rw [h1, h2]; simp only [bind, Except.bind, h3, h4]; rfl⟩
  obtain ⟨s, h⟩ := hall
  have hok := (Quic.fromConnectionId_same (sameWithin_refusing p rest fun _ => none) hr .sha256 dcid).2 s h
  refine ⟨s, h, ?_⟩
  intro d hd
  simp only [List.mem_cons, List.not_mem_nil, or_false] at hd
  rcases hd with rfl | rfl
  · exact ⟨hok.client.key, hok.client.iv, hok.client.hp⟩
  · exact ⟨hok.server.key, hok.server.iv, hok.server.hp⟩

/-! ### Examples -/

/-- Primitives for the examples. -/
def toyPrims : Prims where
  hash alg data := List.replicate (hashLen alg) (data.getLastD 0 * 5 + 1)
  enc _ key _ _ text := some (text ++ (key ++ List.replicate 16 0).take 16)
  dec _ key _ _ text := if text.drop (text.length - 16) = (key ++ List.replicate 16 0).take 16 then some (text.take (text.length - 16)) else none

theorem toyPrims_work : PrimsWork toyPrims where
  hash := fun alg data => by simp [toyPrims]
  enc := fun _ _ _ _ _ _ _ _ _ => ⟨_, rfl⟩

/-- C180: refusals do exist, and how they are answered matters to who gets one: a short key, a short nonce, a short secret. -/
example : encryptInPlace toyPrims .aes256Gcm (List.replicate 16 1) (List.replicate 12 2) [] [3] = .error .invalidKeyLength ∧
    decryptInPlace toyPrims .aes128Gcm (List.replicate 16 1) (List.replicate 8 2) [] [3] = .error .invalidNonceLength ∧
    hkdfExpand toyPrims .sha384 (List.replicate 32 1) [] 32 = .error .invalidPrkLength ∧
    hkdfExpand toyPrims .sha256 (List.replicate 32 1) [] 8161 = .error .invalidLength ∧
    (refusing toyPrims honestCrypto fun _ => some [9]).hkdfExpand .sha384 (List.replicate 32 1) [] 32 ≠
      (tls toyPrims honestCrypto).hkdfExpand .sha384 (List.replicate 32 1) [] 32 := by decide +kernel

/-- C180: HKDF-Expand makes more than one block, and they differ. -/
example : (hkdfExpand toyPrims .sha256 (List.replicate 32 1) [5] 48).toOption.map (fun o => (o.length, o.getD 0 0 != o.getD 47 0)) = some (48, true) := by
  decide +kernel

/-- C180: the library of the honest run that gets through the handshake (C160) has the right sizes. -/
example : RightSizes honestCrypto := ⟨honestCrypto_works.extract, toyCrypto_expands⟩

end Ngfs.Crypt
