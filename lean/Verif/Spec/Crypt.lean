import Verif.Model.Crypt
import Verif.Spec.TlsHandshake
import Verif.Spec.TlsHonest
import Verif.Spec.TlsConn

/-!
Vocabulary for the claim that the crypto module is never asked for something of the wrong length (C180).
-/
namespace Ngfs.Spec

open Ngfs.Tls

/-- Two libraries do the same as long as they get what is right: HKDF-Expand a key as long as the hash and at most 255 blocks to make
(RFC 5869, 2.3), a cipher a key and a nonce of its own lengths, and less than 2^32 bytes of text. Otherwise they may do what they like. -/
structure SameWithin {X K : Type} (cr cr' : Tls.Crypto X K) : Prop where
  hash : cr'.hash = cr.hash
  hmac : cr'.hmac = cr.hmac
  extract : cr'.hkdfExtract = cr.hkdfExtract
  agree : cr'.agree = cr.agree
  sigVerify : cr'.sigVerify = cr.sigVerify
  sign : cr'.sign = cr.sign
  x509 : cr'.x509 = cr.x509
  publicKey : cr'.publicKey = cr.publicKey
  verifyCertificate : cr'.verifyCertificate = cr.verifyCertificate
  expand : ∀ alg prk info n, hashLen alg ≤ prk.length → n ≤ 255 * hashLen alg → cr'.hkdfExpand alg prk info n = cr.hkdfExpand alg prk info n
  encrypt : ∀ alg key nonce ad text, key.length = aeadKeyLen alg → nonce.length = 12 → text.length < 2 ^ 32 →
    cr'.aeadEncrypt alg key nonce ad text = cr.aeadEncrypt alg key nonce ad text
  decrypt : ∀ alg key nonce ad text, key.length = aeadKeyLen alg → nonce.length = 12 → text.length < 2 ^ 32 →
    cr'.aeadDecrypt alg key nonce ad text = cr.aeadDecrypt alg key nonce ad text

/-- What HKDF makes has the length that it should have. -/
structure RightSizes {X K : Type} (cr : Tls.Crypto X K) : Prop where
  extract : ∀ alg salt ikm, (cr.hkdfExtract alg salt ikm).length = hashLen alg
  expand : cr.Expands

/-- Two ciphers for QUIC do the same with keys of 16 and nonces of 12 bytes, and blocks of 16 bytes. -/
structure SameWithinQuic (c c' : Quic.Crypto) : Prop where
  aes : ∀ key block, key.length = 16 → block.length = 16 → c'.aes key block = c.aes key block
  encrypt : ∀ key nonce ad text, key.length = 16 → nonce.length = 12 → c'.encrypt key nonce ad text = c.encrypt key nonce ad text
  decrypt : ∀ key nonce ad text, key.length = 16 → nonce.length = 12 → c'.decrypt key nonce ad text = c.decrypt key nonce ad text

/-- What is assumed of the hash functions and the ciphers: a hash has its length (FIPS 180-4), and a cipher does not fail on fewer than
2^32 bytes (AES-GCM has room for about 2^36, NIST SP 800-38D, 5.2.1.1). -/
structure PrimsWork (p : Crypt.Prims) : Prop where
  hash : ∀ alg data, (p.hash alg data).length = hashLen alg
  enc : ∀ alg key nonce ad text, key.length = aeadKeyLen alg → nonce.length = 12 → ad.length < 2 ^ 32 → text.length < 2 ^ 32 →
    ∃ c, p.enc alg key nonce ad text = some c

/-- The whole life of a connection: `k` polls of the handshake, and if it is established then the calls of its user. The answers, and what
is left. -/
def life {X K : Type} (cr : Tls.Crypto X K) (start : ECState X K) (k : Nat) (ops : List ConnOp) :
    List ConnEvent × ECState X K :=
  match pollTimes cr k start with
  | .done c => ((connRun cr c ops).1, .done (connRun cr c ops).2)
  | s => ([], s)

end Ngfs.Spec

namespace Ngfs.Spec

/-- What comes of an answer of the crypto module, if a refusal because of a length is answered by `f`. A failure of a cipher stays one. -/
def orElse (f : Crypt.CryptErr → Option Bytes) : Except Crypt.CryptErr Bytes → Option Bytes
  | .ok b => some b
  | .error .decryptionFailed => none
  | .error e => f e

/-- The crypto module, if every refusal because of a length is answered by `f`. -/
def refusing {X K : Type} (p : Crypt.Prims) (rest : Tls.Crypto X K) (f : Crypt.CryptErr → Option Bytes) : Tls.Crypto X K :=
  { Crypt.tls p rest with
    aeadEncrypt := fun alg key nonce ad text => orElse f (Crypt.encryptInPlace p alg key nonce ad text)
    aeadDecrypt := fun alg key nonce ad text => orElse f (Crypt.decryptInPlace p alg key nonce ad text)
    hkdfExpand := fun alg prk info n => orElse f (Crypt.hkdfExpand p alg prk info n) }

@[inherit_doc refusing]
def refusingQuic (p : Crypt.Prims) (aes : Bytes → Bytes → Bytes) (f : Crypt.CryptErr → Option Bytes) : Quic.Crypto where
  aes := aes
  encrypt := fun key nonce ad text => orElse f (Crypt.encryptInPlace p .aes128Gcm key nonce ad text)
  decrypt := fun key nonce ad text => orElse f (Crypt.decryptInPlace p .aes128Gcm key nonce ad text)

end Ngfs.Spec
