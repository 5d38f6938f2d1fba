import Verif.Model.QuicEndpoint

/-!
Model of `src/crypto/crypt.rs` and `src/crypto/aead.rs`: what they check before they call the other crates, and with which errors they
refuse. Below them, the crates `hmac` and `hkdf` are taken to do what RFC 2104 and RFC 5869 say, with the hash functions of `sha2` and
the ciphers of `aes_gcm` as parameters.

Simplifications: of the hash functions, only the two that the program uses are here (not SHA-512); an incremental `Hasher`
(crypt.rs 127-150) is the bytes given to it so far.
-/
namespace Ngfs.Crypt

open Ngfs.Tls (HashAlg AeadAlg)

/-- `CryptError`, src/crypto/error.rs:5-12. -/
inductive CryptErr where
  | invalidPrkLength
  | invalidLength
  | invalidKeyLength
  | invalidNonceLength
  | encryptionFailed
  | decryptionFailed
  deriving DecidableEq, Repr

/-- The crates `sha2` and `aes_gcm`. The ciphers are only ever called with a key and a nonce of the type that they demand. -/
structure Prims where
  hash : HashAlg → Bytes → Bytes
  /-- algorithm, key, nonce, associated data, text. -/
  enc : AeadAlg → Bytes → Bytes → Bytes → Bytes → Option Bytes
  dec : AeadAlg → Bytes → Bytes → Bytes → Bytes → Option Bytes

/-! ### crypt.rs -/

/-- The block of the hash function (FIPS 180-4, figure 1). -/
def blockLen : HashAlg → Nat
  | .sha256 => 64
  | .sha384 => 128

/-- The key of HMAC, as long as a block (RFC 2104, 2). -/
def hmacKey (p : Prims) (alg : HashAlg) (key : Bytes) : Bytes :=
  let k := if key.length > blockLen alg then p.hash alg key else key
  k ++ List.replicate (blockLen alg - k.length) 0

/-- The crate `hmac`: RFC 2104, 2. -/
def hmac (p : Prims) (alg : HashAlg) (key data : Bytes) : Bytes :=
  p.hash alg ((hmacKey p alg key).map (· ^^^ 0x5c) ++ p.hash alg ((hmacKey p alg key).map (· ^^^ 0x36) ++ data))

/-- `hmac_sign`, crypt.rs:64-85. A key for HMAC may have any length, so `new_from_slice` does not fail. -/
def hmacSign (p : Prims) (alg : HashAlg) (key data : Bytes) : Except CryptErr Bytes := .ok (hmac p alg key data)

/-- `hkdf_extract`, crypt.rs:56-62 (RFC 5869, 2.2). -/
def hkdfExtract (p : Prims) (alg : HashAlg) (salt ikm : Bytes) : Bytes := hmac p alg salt ikm

/-- The blocks of HKDF-Expand, of which each has the number `i` (RFC 5869, 2.3). -/
def expandBlocks (p : Prims) (alg : HashAlg) (prk info : Bytes) : Nat → Nat → Bytes → Bytes
  | 0, _, _ => []
  | n + 1, i, prev =>
    let t := hmac p alg prk (prev ++ info ++ [UInt8.ofNat i])
    t ++ expandBlocks p alg prk info n (i + 1) t

/-- `hkdf_expand`, crypt.rs:32-54: `from_prk` wants a key as long as the hash, `expand` at most 255 blocks. -/
def hkdfExpand (p : Prims) (alg : HashAlg) (prk info : Bytes) (len : Nat) : Except CryptErr Bytes :=
  if prk.length < alg.byteLen then .error .invalidPrkLength
  else if len > 255 * alg.byteLen then .error .invalidLength
  else .ok ((expandBlocks p alg prk info ((len + alg.byteLen - 1) / alg.byteLen) 1 []).take len)

/-! ### aead.rs -/

/-- `nonce_len`, aead.rs:90-95. -/
def nonceLen (_ : AeadAlg) : Nat := 12

/-- `encrypt_in_place` with `try_key_from_slice` and `try_nonce_from_slice`, aead.rs:18-34, 51-64, 104-117. A failure of the cipher is
reported as one to decrypt (63). -/
def encryptInPlace (p : Prims) (alg : AeadAlg) (key nonce ad buffer : Bytes) : Except CryptErr Bytes :=
  if key.length ≠ alg.keyLen then .error .invalidKeyLength
  else if nonce.length ≠ nonceLen alg then .error .invalidNonceLength
  else match p.enc alg key nonce ad buffer with
    | some c => .ok c
    | none => .error .decryptionFailed

/-- `decrypt_in_place`, aead.rs:18-34, 67-79, 119-132. -/
def decryptInPlace (p : Prims) (alg : AeadAlg) (key nonce ad buffer : Bytes) : Except CryptErr Bytes :=
  if key.length ≠ alg.keyLen then .error .invalidKeyLength
  else if nonce.length ≠ nonceLen alg then .error .invalidNonceLength
  else match p.dec alg key nonce ad buffer with
    | some t => .ok t
    | none => .error .decryptionFailed

/-! ### The callers -/

/-- The module as the TLS client uses it; every error has the same effect on it (`CryptError` in src/tls/helpers.rs:138-167, and the
`map_err` at 262 and 306). Certificates, signatures and key agreement are those of `rest`. -/
def tls {X K : Type} (p : Prims) (rest : Tls.Crypto X K) : Tls.Crypto X K :=
  { rest with
    aeadEncrypt := fun alg key nonce ad text => (encryptInPlace p alg key nonce ad text).toOption
    aeadDecrypt := fun alg key nonce ad text => (decryptInPlace p alg key nonce ad text).toOption
    hash := p.hash
    hmac := hmac p
    hkdfExtract := hkdfExtract p
    hkdfExpand := fun alg prk info n => (hkdfExpand p alg prk info n).toOption }

/-- The module as the QUIC code uses it (src/quic/encryption.rs:75, 108, always with AES-128). -/
def quic (p : Prims) (aes : Bytes → Bytes → Bytes) : Quic.Crypto where
  aes := aes
  encrypt := fun key nonce ad text => (encryptInPlace p .aes128Gcm key nonce ad text).toOption
  decrypt := fun key nonce ad text => (decryptInPlace p .aes128Gcm key nonce ad text).toOption

end Ngfs.Crypt
