import Verif.Spec.TlsHandshake

/-!
Vocabulary for C138: everything that is computed on the way to the keys of a TLS connection, and what it means that none of it is a
collision.
-/
namespace Ngfs.Tls

/-- The value is the result of at most one computation: no two inputs of the hash, of HKDF-Extract or of HKDF-Expand give it. This is
asked of single values, not of all: the functions have collisions, as their results are short. -/
structure Sole {X K : Type} (cr : Crypto X K) (alg : HashAlg) (v : Bytes) : Prop where
  hash : ∀ a b, cr.hash alg a = v → cr.hash alg b = v → a = b
  extract : ∀ s a t b, cr.hkdfExtract alg s a = v → cr.hkdfExtract alg t b = v → s = t ∧ a = b
  expand : ∀ a i n b j m, cr.hkdfExpand alg a i n = some v → cr.hkdfExpand alg b j m = some v → a = b ∧ i = j ∧ n = m

/-- The computation of the keys of a connection (RFC 8446, 7.1): the hello of the client, the messages of the server, the shared secret,
the secrets of the key schedule, and the keys of the handshake. -/
structure Session {X K : Type} (cr : Crypto X K) (conn : Conn) where
  ch : Bytes
  flight : Flight X
  dhe : Bytes
  salt : Bytes
  hsSecret : Bytes
  masterSalt : Bytes
  master : Bytes
  hsClient : EncryptionKey
  hsServer : EncryptionKey
  suite : conn.seqenc.ciphers = ⟨.sha256, .aes128Gcm⟩ ∨ conn.seqenc.ciphers = ⟨.sha384, .aes256Gcm⟩
  isSalt : expandLabel cr conn.seqenc.ciphers.hashAlg (earlySecret cr conn.seqenc.ciphers.hashAlg) labelDerived
    (cr.hash conn.seqenc.ciphers.hashAlg []) (hashLen conn.seqenc.ciphers.hashAlg) = some salt
  isHsSecret : cr.hkdfExtract conn.seqenc.ciphers.hashAlg salt dhe = hsSecret
  isMasterSalt : expandLabel cr conn.seqenc.ciphers.hashAlg hsSecret labelDerived
    (cr.hash conn.seqenc.ciphers.hashAlg []) (hashLen conn.seqenc.ciphers.hashAlg) = some masterSalt
  isMaster : cr.hkdfExtract conn.seqenc.ciphers.hashAlg masterSalt (List.replicate (hashLen conn.seqenc.ciphers.hashAlg) 0) = master
  isHsClient : IsTrafficKey cr conn.seqenc.ciphers.hashAlg conn.seqenc.ciphers.aeadAlg hsSecret labelClientHs (ch ++ flight.shRaw) hsClient
  isHsServer : IsTrafficKey cr conn.seqenc.ciphers.hashAlg conn.seqenc.ciphers.aeadAlg hsSecret labelServerHs (ch ++ flight.shRaw) hsServer
  isClient : IsTrafficKey cr conn.seqenc.ciphers.hashAlg conn.seqenc.ciphers.aeadAlg master labelClientAp (flight.toFinished ch)
    conn.seqenc.trafficSecrets.client
  isServer : IsTrafficKey cr conn.seqenc.ciphers.hashAlg conn.seqenc.ciphers.aeadAlg master labelServerAp (flight.toFinished ch)
    conn.seqenc.trafficSecrets.server

/-- No value computed on the way to the keys is a collision. -/
def Session.NoCollision {X K : Type} {cr : Crypto X K} {conn : Conn} (s : Session cr conn) : Prop :=
  ∀ v ∈ [s.salt, s.hsSecret, s.masterSalt, s.master, s.hsClient.raw, s.hsClient.writeKey, s.hsServer.raw, s.hsServer.writeKey,
    conn.seqenc.trafficSecrets.client.raw, conn.seqenc.trafficSecrets.client.writeKey, conn.seqenc.trafficSecrets.server.raw,
    conn.seqenc.trafficSecrets.server.writeKey, cr.hash conn.seqenc.ciphers.hashAlg (s.flight.toFinished s.ch)],
    Sole cr conn.seqenc.ciphers.hashAlg v

/-- All messages of the handshake up to the Finished message of the server. -/
def Session.messages {X K : Type} {cr : Crypto X K} {conn : Conn} (s : Session cr conn) : Bytes := s.flight.toFinished s.ch

end Ngfs.Tls
