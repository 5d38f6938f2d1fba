import Verif.Model.TlsTypes
import Verif.Model.Transport

/-!
Model of the TLS record layer: src/tls/types/record.rs, src/tls/protocol/stream.rs, and the traffic
encryption of src/tls/helpers.rs.

Parameters (`Crypto`): the AEAD, hash, HMAC, HKDF, key agreement and signature primitives, the X.509
parser, the certificate check. Simplification: `TLSError::UnexpectedMessage` does not carry the
name of the message, `TLSError::Internal` not its cause.
-/
namespace Ngfs.Tls

open Ngfs.Binary

/-- `TLSError`, src/tls/error.rs:7-39. `panic` stands for a panic of the program. -/
inductive TlsErr where
  | encryptionFailed
  | decryptionFailed
  | messageEncodingFailed
  | unexpectedMessage (name : String)
  | unexpectedEof
  | unexpectedAlert (a : Alert)
  | invalidPlaintextRecord
  | invalidMessageRecord
  | internal
  | finishedVerificationFailed
  | unsupportedCipherSuite
  | unsupportedSignatureScheme
  | verifyCertificateFailed
  | signatureFailed
  | signatureVerificationFailed
  | invalidCertificate
  | getSharedSecretFailed
  | emptyCertificateList
  | missingCertificateMessage
  | missingCertificateVerifyMessage
  | caCertificateUnavailable
  | ioError (kind : IoKind)
  | receiveInWrongPlace
  | panic
  deriving DecidableEq, Repr

/-- `HashAlgorithm`, src/crypto/crypt.rs:8-13 (the two that TLS uses). -/
inductive HashAlg where
  | sha256
  | sha384
  deriving DecidableEq, Repr

/-- `byte_len`, crypt.rs:16-22. -/
def HashAlg.byteLen : HashAlg → Nat
  | .sha256 => 32
  | .sha384 => 48

/-- `AeadAlgorithm`, src/crypto/aead.rs:9-15. -/
inductive AeadAlg where
  | aes128Gcm
  | aes256Gcm
  deriving DecidableEq, Repr

/-- `key_len`, aead.rs:83-88. -/
def AeadAlg.keyLen : AeadAlg → Nat
  | .aes128Gcm => 16
  | .aes256Gcm => 32

/-- `tag_len`, aead.rs:97-102. -/
def AeadAlg.tagLen (_ : AeadAlg) : Nat := 16

/-- The primitives of other crates. `X` is the type of parsed certificates, `K` of private keys. -/
structure Crypto (X K : Type) where
  /-- `encrypt_in_place`: algorithm, key, nonce, additional data, plaintext. -/
  aeadEncrypt : AeadAlg → Bytes → Bytes → Bytes → Bytes → Option Bytes
  /-- `decrypt_in_place`. -/
  aeadDecrypt : AeadAlg → Bytes → Bytes → Bytes → Bytes → Option Bytes
  hash : HashAlg → Bytes → Bytes
  hmac : HashAlg → Bytes → Bytes → Bytes
  /-- algorithm, salt, input keying material. -/
  hkdfExtract : HashAlg → Bytes → Bytes → Bytes
  /-- algorithm, pseudorandom key, info, length. -/
  hkdfExpand : HashAlg → Bytes → Bytes → Nat → Option Bytes
  /-- X25519: private key, peer's public key. -/
  agree : K → Bytes → Option Bytes
  /-- `ring` signature verification: scheme, public key, message, signature. -/
  sigVerify : SignatureScheme → Bytes → Bytes → Bytes → Bool
  /-- Signing for client authentication: is the key an RSA key, key data, message. -/
  sign : Bool → Bytes → Bytes → Option Bytes
  /-- `x509::Certificate::from_bytes`. -/
  x509 : Bytes → Option X
  /-- `tbs_certificate.subject_public_key_info.subject_public_key.bytes`. -/
  publicKey : X → Bytes
  /-- `verify_certificate(ca_raw, target_raw)`, client.rs:257-303. -/
  verifyCertificate : Bytes → Bytes → Except TlsErr Unit

/-- `EncryptionKey`, helpers.rs:51-56. -/
structure EncryptionKey where
  raw : Bytes
  aeadAlg : AeadAlg
  writeKey : Bytes
  writeIv : Bytes
  deriving DecidableEq, Repr

/-! ### record.rs -/

/-- record.rs:10. -/
def maxPlaintextRecordSize : Nat := 16384
/-- record.rs:11. -/
def maxCiphertextRecordSize : Nat := 16640
/-- record.rs:13. -/
def tlsMaxEncryptedRecordLen : Nat := (1 <<< 14) + 256

/-- `TLSCiphertext::from_raw_data`, record.rs:127-161: the encrypted record and the number of bytes
used; `none` for both errors, which the only caller does not distinguish. -/
def ciphertextFromRaw (data : Bytes) : Option (Bytes × Nat) :=
  if data.length < 5 then none
  else
    let length := beNat ((data.drop 3).take 2)
    if length > tlsMaxEncryptedRecordLen then none
    else if 5 + length > data.length then none
    else some ((data.drop 5).take length, 5 + length)

/-- `TLSOutputPlaintext::encode`, record.rs:179-184: the bytes appended. -/
def encodeRecord (contentType : ContentType) (version : Nat) (fragment : Bytes) : Bytes :=
  [contentType.toRaw] ++ beBytes 2 version ++ beBytes 2 fragment.length ++ fragment

/-! ### helpers.rs: traffic encryption -/

/-- The nonce, helpers.rs:241-246 and 273-278: four zero bytes and the big-endian sequence number,
combined with the static iv. -/
def makeNonce (iv : Bytes) (sequenceNo : Nat) : Bytes :=
  (List.replicate 4 0 ++ beBytes 8 sequenceNo).zipWith (· ^^^ ·) iv

/-- `encrypt_traffic`, helpers.rs:236-265. -/
def encryptTraffic {X K : Type} (cr : Crypto X K) (key : EncryptionKey) (sequenceNo : Nat) (inout : Bytes) :
    Except TlsErr Bytes :=
  let len := inout.length + key.aeadAlg.tagLen
  let additionalData : Bytes := [0x17, 0x03, 0x03, UInt8.ofNat (len >>> 8), UInt8.ofNat len]
  match cr.aeadEncrypt key.aeadAlg key.writeKey (makeNonce key.writeIv sequenceNo) additionalData inout with
  | some c => .ok c
  | none => .error .encryptionFailed

/-- `decrypt_traffic`, helpers.rs:268-309. -/
def decryptTraffic {X K : Type} (cr : Crypto X K) (key : EncryptionKey) (sequenceNo : Nat) (raw : Bytes) :
    Except TlsErr Bytes :=
  match ciphertextFromRaw raw with
  | none => .error .decryptionFailed
  | some (encryptedRecord, consumed) =>
    if consumed ≠ raw.length then .error .decryptionFailed
    else if raw.length < 5 then .error .decryptionFailed
    else
      match cr.aeadDecrypt key.aeadAlg key.writeKey (makeNonce key.writeIv sequenceNo) (raw.take 5)
          encryptedRecord with
      | some p => .ok p
      | none => .error .decryptionFailed

/-- The loop helpers.rs:327-330: the offset just behind the last non-zero byte. -/
def typeOffset (plaintext : Bytes) : Nat → Nat
  | 0 => 0
  | n + 1 => if plaintext.getD n 0 = 0 then typeOffset plaintext n else n + 1

/-- `decrypt_message`, helpers.rs:311-344. -/
def decryptMessage {X K : Type} (cr : Crypto X K) (sequenceNo : Nat) (key : EncryptionKey) (raw : Bytes) :
    Except TlsErr (Message X × Bytes) :=
  match decryptTraffic cr key sequenceNo raw with
  | .error e => .error e
  | .ok plaintext =>
    let off := typeOffset plaintext plaintext.length
    if off = 0 then .error .invalidPlaintextRecord
    else
      let innerContentType := ContentType.fromRaw (plaintext.getD (off - 1) 0)
      let innerBody := plaintext.take (off - 1)
      match Message.fromRaw cr.x509 innerBody innerContentType with
      | .ok message => .ok (message, innerBody)
      | .error .panic => .error .panic
      | .error _ => .error .invalidMessageRecord

/-! ### stream.rs -/

/-- `ReadState`, stream.rs:27-31. -/
inductive ReadState where
  | active
  | eof
  | error (e : TlsErr)
  deriving DecidableEq, Repr

/-- `WriteState`, stream.rs:33-37. -/
inductive WriteState where
  | active
  | inShutdown
  | error (e : TlsErr)
  deriving DecidableEq, Repr

/-- `TLSOwnedPlaintext`, record.rs:164-170. -/
structure OwnedRecord where
  contentType : ContentType
  legacyRecordVersion : Nat
  header : Bytes
  fragment : Bytes
  raw : Bytes
  deriving DecidableEq, Repr

/-- `RecordReceiver`, stream.rs:71-74. -/
structure RecordReceiver where
  incoming : Bytes
  readState : ReadState
  deriving DecidableEq, Repr

/-- `RecordReceiver::new`, stream.rs:77-82. -/
def RecordReceiver.new : RecordReceiver := ⟨[], .active⟩

/-- `pop_record`, stream.rs:84-145. -/
def RecordReceiver.popRecord (r : RecordReceiver) :
    Poll (Except TlsErr (Option OwnedRecord)) × RecordReceiver :=
  if r.incoming.length < 5 then
    match r.readState with
    | .active => (.pending, r)
    | .eof => (.ready (.ok none), r)
    | .error e => (.ready (.error e), r)
  else
    let length := beNat ((r.incoming.drop 3).take 2)
    if length > maxCiphertextRecordSize then (.ready (.error .invalidPlaintextRecord), r)
    else if r.incoming.length < 5 + length then
      match r.readState with
      | .active => (.pending, r)
      | .eof => (.ready (.error .invalidPlaintextRecord), { r with readState := .error .invalidPlaintextRecord })
      | .error e => (.ready (.error e), r)
    else
      (.ready (.ok (some
        { contentType := ContentType.fromRaw (r.incoming.getD 0 0)
          legacyRecordVersion := beNat ((r.incoming.drop 1).take 2)
          header := r.incoming.take 5
          fragment := (r.incoming.drop 5).take length
          raw := r.incoming.take (5 + length) })),
       { r with incoming := r.incoming.drop (5 + length) })

/-- `append_data`, stream.rs:147-149. -/
def RecordReceiver.appendData (r : RecordReceiver) (data : Bytes) : RecordReceiver :=
  { r with incoming := r.incoming ++ data }

/-- `close`, stream.rs:151-155. -/
def RecordReceiver.close (r : RecordReceiver) : RecordReceiver :=
  match r.readState with
  | .active => { r with readState := .eof }
  | _ => r

/-- `poll_receive_and_add_data` with `poll_receive_data`, stream.rs:158-211. -/
def pollReceiveAndAddData (r : RecordReceiver) (t : Transport) :
    Poll (Except TlsErr Unit) × RecordReceiver × Transport :=
  match t.pollRead with
  | (.ready [], t') => (.ready (.ok ()), r.close, t')
  | (.ready (b :: bs), t') => (.ready (.ok ()), r.appendData (b :: bs), t')
  | (.error k, t') => (.ready (.error (.ioError k)), { r with readState := .error (.ioError k) }, t')
  | (.pending, t') => (.pending, r, t')

/-- The loop of `poll_receive_record_ignore_cc`, stream.rs:213-234; the number bounds the
iterations (each consumes at least five bytes). -/
def ignoreCcLoop : Nat → RecordReceiver → Poll (Except TlsErr (Option OwnedRecord)) × RecordReceiver
  | 0, r => (.ready (.error .panic), r)
  | n + 1, r =>
    match r.popRecord with
    | (.ready (.ok (some record)), r') =>
      if record.contentType ≠ .changeCipherSpec then (.ready (.ok (some record)), r')
      else ignoreCcLoop n r'
    | (other, r') => (other, r')

@[inherit_doc ignoreCcLoop]
def pollReceiveRecordIgnoreCc (r : RecordReceiver) :
    Poll (Except TlsErr (Option OwnedRecord)) × RecordReceiver :=
  ignoreCcLoop (r.incoming.length + 1) r

/-- One call of the AEAD for sending (history variable): key and nonce. -/
structure SealCall where
  key : Bytes
  nonce : Bytes
  deriving DecidableEq, Repr

/-- `PlaintextStream`, stream.rs:242-247. -/
structure PlaintextStream where
  inner : Transport
  receiver : RecordReceiver
  outgoing : Bytes
  writeState : WriteState
  /-- All AEAD calls for sending so far (history variable). -/
  seals : List SealCall
  deriving DecidableEq, Repr

/-- `PlaintextStream::new`, stream.rs:250-257. -/
def PlaintextStream.new (inner : Transport) (receiver : RecordReceiver) : PlaintextStream :=
  ⟨inner, receiver, [], .active, []⟩

/-- `encrypt_record`, stream.rs:44-69, appending to the stream's `outgoing`. -/
def encryptRecord {X K : Type} (cr : Crypto X K) (p : PlaintextStream) (dataRef : Bytes) (contentType : ContentType)
    (key : EncryptionKey) (sequenceNo : Nat) : Except TlsErr Unit × PlaintextStream :=
  if dataRef.length > maxPlaintextRecordSize then (.error .invalidPlaintextRecord, p)
  else
    let p := { p with seals := p.seals ++ [⟨key.writeKey, makeNonce key.writeIv sequenceNo⟩] }
    match encryptTraffic cr key sequenceNo (dataRef ++ [contentType.toRaw]) with
    | .error e => (.error e, p)
    | .ok data => (.ok (), { p with outgoing := p.outgoing ++ encodeRecord .applicationData 0x0303 data })

/-- `poll_recv`, stream.rs:259-261. -/
def PlaintextStream.pollRecv (p : PlaintextStream) : Poll (Except TlsErr Unit) × PlaintextStream :=
  match pollReceiveAndAddData p.receiver p.inner with
  | (res, receiver, inner) => (res, { p with receiver := receiver, inner := inner })

/-- `poll_receive_plaintext_message`, stream.rs:263-285; also gives the longer transcript. -/
def PlaintextStream.pollReceivePlaintextMessage {X : Type} (x509 : Bytes → Option X) (p : PlaintextStream)
    (transcript : Bytes) : Poll (Except TlsErr (Option (Message X))) × PlaintextStream × Bytes :=
  match pollReceiveRecordIgnoreCc p.receiver with
  | (.ready (.ok (some record)), r) =>
    let res := match Message.fromRaw x509 record.fragment record.contentType with
      | .ok m => Except.ok (some m)
      | .error .panic => .error .panic
      | .error _ => .error .invalidMessageRecord
    (.ready res, { p with receiver := r }, transcript ++ record.fragment)
  | (.ready (.ok none), r) => (.ready (.ok none), { p with receiver := r }, transcript)
  | (.ready (.error e), r) => (.ready (.error e), { p with receiver := r }, transcript)
  | (.pending, r) => (.pending, { p with receiver := r }, transcript)

/-- `poll_flush`, stream.rs:287-313. -/
def PlaintextStream.pollFlush (p : PlaintextStream) : Poll (Except TlsErr Unit) × PlaintextStream :=
  match writeLoop p.inner.writes p.outgoing p.inner.sent with
  | (res, ws, o, sent) =>
    let p := { p with outgoing := o, inner := { p.inner with writes := ws, sent := sent } }
    match res with
    | .pending => (.pending, p)
    | .ready (.error k) => (.ready (.error (.ioError k)), { p with writeState := .error (.ioError k) })
    | .ready (.ok ()) =>
      match p.inner.pollFlush with
      | (.ok, t) => (.ready (.ok ()), { p with inner := t })
      | (.error k, t) => (.ready (.error (.ioError k)), { p with inner := t })
      | (.pending, t) => (.pending, { p with inner := t })

/-- `Ciphers`, helpers.rs:74-77. -/
structure Ciphers where
  hashAlg : HashAlg
  aeadAlg : AeadAlg
  deriving DecidableEq, Repr

/-- `TrafficSecrets`, helpers.rs:101-104. -/
structure TrafficSecrets where
  client : EncryptionKey
  server : EncryptionKey
  deriving DecidableEq, Repr

/-- `SequenceEncryption` with `Encryption`, stream.rs:39-42, 333-337. -/
structure SequenceEncryption where
  clientSequenceNo : Nat
  serverSequenceNo : Nat
  trafficSecrets : TrafficSecrets
  ciphers : Ciphers
  deriving DecidableEq, Repr

/-- `poll_receive_encrypted_message`, stream.rs:339-364: the result, the receiver, the server
sequence number and the bytes to add to the transcript. -/
def pollReceiveEncryptedMessage {X K : Type} (cr : Crypto X K) (r : RecordReceiver) (serverSequenceNo : Nat)
    (key : EncryptionKey) :
    Poll (Except TlsErr (Option (Message X))) × RecordReceiver × Nat × Bytes :=
  match pollReceiveRecordIgnoreCc r with
  | (.pending, r) => (.pending, r, serverSequenceNo, [])
  | (.ready (.error e), r) => (.ready (.error e), r, serverSequenceNo, [])
  | (.ready (.ok none), r) => (.ready (.ok none), r, serverSequenceNo, [])
  | (.ready (.ok (some record)), r) =>
    match decryptMessage cr serverSequenceNo key record.raw with
    | .error e => (.ready (.error e), r, serverSequenceNo, [])
    | .ok (message, messageRaw) => (.ready (.ok (some message)), r, serverSequenceNo + 1, messageRaw)

end Ngfs.Tls
