import Verif.Spec.TlsHandshake

/-!
Vocabulary for the claim that the TLS client reaches every honest server (C160): transports that do their work, and
primitives and credentials that work.
-/
namespace Ngfs.Tls

/-- The transport takes at least `n` bytes: it never fails, it takes something whenever it answers at all, and it
answers often enough. -/
def WillTake (writes : List WriteEvent) (n : Nat) : Prop :=
  (∀ e ∈ writes, e = .pending ∨ ∃ m, 0 < m ∧ e = .accept m) ∧
    n ≤ (writes.filter fun e => e != .pending).length

/-- The transport lets itself be flushed at least `n` times. -/
def WillFlush (flushes : List DoneEvent) (n : Nat) : Prop :=
  (∀ e ∈ flushes, e = .pending ∨ e = .ok) ∧ n ≤ (flushes.filter fun e => e != .pending).length

/-- The transport brings exactly these bytes, in pieces of any sizes with pauses anywhere; then it may say, any number of
times, that it has ended. -/
def WillBring (reads : List ReadEvent) (data : Bytes) : Prop :=
  ∃ es k, reads = es ++ List.replicate k (.ready []) ∧
    (∀ e ∈ es, e = .pending ∨ ∃ d, d ≠ [] ∧ e = .ready d) ∧ readData es = data

/-- The primitives do not fail on input of the right sizes, and give results of the right sizes: HKDF-Expand needs a key at least as
long as the hash (RFC 5869, 2.3), AES-GCM a key and a nonce of exactly the right lengths. -/
structure Crypto.Works {X K : Type} (cr : Crypto X K) : Prop where
  extract : ∀ alg salt ikm, (cr.hkdfExtract alg salt ikm).length = hashLen alg
  expand : ∀ alg prk info n, hashLen alg ≤ prk.length → n ≤ 48 → ∃ okm, cr.hkdfExpand alg prk info n = some okm
  encrypt : ∀ alg key nonce ad text, key.length = aeadKeyLen alg → nonce.length = 12 → ad.length < 2 ^ 32 → text.length < 2 ^ 32 →
    ∃ c, cr.aeadEncrypt alg key nonce ad text = some c
  hmac : ∀ alg key data, (cr.hmac alg key data).length = hashLen alg

/-- The client's own credentials can be used: its certificate, if it has one, is a certificate, its key signs, and
neither is large. -/
def ClientAuth.Usable {X K : Type} (cr : Crypto X K) : ClientAuth → Prop
  | .none => True
  | .certificate cert isRsa key => (∃ x, cr.x509 cert = some x) ∧ cert.length ≤ 8192 ∧
      ∀ msg, ∃ signature, cr.sign isRsa key msg = some signature ∧ signature.length ≤ 4096

end Ngfs.Tls
