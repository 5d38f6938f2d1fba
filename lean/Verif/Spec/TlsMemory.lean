import Verif.Spec.TlsConn

/-! Vocabulary for C184: how many bytes a TLS connection keeps. -/
namespace Ngfs.Tls

/-- The bytes that a connection keeps between two calls: received and not yet decrypted, decrypted and not yet read, encrypted and not
yet sent. -/
def Conn.kept (c : Conn) : Nat :=
  c.plaintext.receiver.incoming.length + c.incomingDecrypted.length + c.plaintext.outgoing.length

/-- The buffer given to the transport has room for 1024 bytes (`READ_SIZE`, tls/protocol/stream.rs:1), so no answer has more. -/
def SmallReads (reads : List ReadEvent) : Prop := ∀ data, .ready data ∈ reads → data.length ≤ 1024

/-- Decrypting does not make data longer. -/
def Crypto.Shrinks {X K : Type} (cr : Crypto X K) : Prop :=
  ∀ alg key nonce ad c p, cr.aeadDecrypt alg key nonce ad c = some p → p.length ≤ c.length

end Ngfs.Tls
