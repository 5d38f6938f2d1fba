import Verif.Model.TlsRecord

/-!
Vocabulary for the claims about the TLS record layer (C24, C25, C27), from RFC 8446 section 5.
-/
namespace Ngfs.Tls

/-- A record as it travels: type, protocol version, contents. -/
structure WireRecord where
  typ : UInt8
  v1 : UInt8
  v2 : UInt8
  fragment : Bytes
  deriving DecidableEq, Repr

/-- The five header bytes: type, version, 16-bit length. -/
def WireRecord.header (w : WireRecord) : Bytes :=
  [w.typ, w.v1, w.v2, UInt8.ofNat (w.fragment.length / 256), UInt8.ofNat (w.fragment.length % 256)]

/-- The bytes of a record. -/
def WireRecord.bytes (w : WireRecord) : Bytes := w.header ++ w.fragment

/-- Contents are at most 2^14 + 256 bytes (RFC 8446, 5.2). -/
def WireRecord.Legal (w : WireRecord) : Prop := w.fragment.length ≤ 2 ^ 14 + 256

/-- The header of an encrypted record (RFC 8446, 5.2): type "application data", version 3.3. -/
def WireRecord.Outer (w : WireRecord) : Prop := w.typ = 23 ∧ w.v1 = 3 ∧ w.v2 = 3

/-- The bytes of a sequence of records. -/
def wire (ws : List WireRecord) : Bytes := ws.flatMap WireRecord.bytes

/-- What the upper layer is to see of a record. -/
def WireRecord.owned (w : WireRecord) : OwnedRecord where
  contentType := ContentType.fromRaw w.typ
  legacyRecordVersion := w.v1.toNat * 256 + w.v2.toNat
  header := w.header
  fragment := w.fragment
  raw := w.bytes

/-- The AEAD is correct: what it encrypts, it decrypts, and the tag takes 16 bytes. -/
def Crypto.Correct {X K : Type} (cr : Crypto X K) : Prop :=
  ∀ alg key nonce ad p c, cr.aeadEncrypt alg key nonce ad p = some c →
    cr.aeadDecrypt alg key nonce ad c = some p ∧ c.length = p.length + 16

/-- The nonce of record number `n` (RFC 8446, 5.3): byte `i` of the iv, and for the last eight
bytes, combined with the bytes of the record number, most significant first. -/
def nonceSpec (iv : Bytes) (n : Nat) : Bytes :=
  iv.take 4 ++ (List.range 8).map (fun i => iv.getD (4 + i) 0 ^^^ UInt8.ofNat (n / 256 ^ (7 - i) % 256))

/-- The record is an encrypted one whose decryption under the key as record number `n` is
the contents, the type and padding with zeros. -/
def Protects {X K : Type} (cr : Crypto X K) (key : EncryptionKey) (n : Nat) (w : WireRecord) (typ : UInt8)
    (content : Bytes) : Prop :=
  ∃ pad, cr.aeadDecrypt key.aeadAlg key.writeKey (nonceSpec key.writeIv n) w.header w.fragment
    = some (content ++ [typ] ++ List.replicate pad 0)

end Ngfs.Tls

namespace Ngfs.Tls

/-- What can happen to the receiver: bytes arrive, the upper layer asks for a record, the transport
ends. -/
inductive RxOp where
  | data (chunk : Bytes)
  | pop
  | close
  deriving DecidableEq, Repr

/-- One step, and what the upper layer is told, if it asked. -/
def RxOp.step (r : RecordReceiver) : RxOp → List (Poll (Except TlsErr (Option OwnedRecord))) × RecordReceiver
  | .data chunk => ([], r.appendData chunk)
  | .pop => ([r.popRecord.1], r.popRecord.2)
  | .close => ([], r.close)

/-- A history: all answers, and the final state. -/
def rxRun (r : RecordReceiver) : List RxOp → List (Poll (Except TlsErr (Option OwnedRecord))) × RecordReceiver
  | [] => ([], r)
  | op :: ops =>
    let s := op.step r
    let rest := rxRun s.2 ops
    (s.1 ++ rest.1, rest.2)

/-- The bytes that arrived in a history. -/
def arrived : List RxOp → Bytes
  | [] => []
  | .data chunk :: ops => chunk ++ arrived ops
  | _ :: ops => arrived ops

/-- The records among the answers. -/
def delivered : List (Poll (Except TlsErr (Option OwnedRecord))) → List OwnedRecord
  | [] => []
  | .ready (.ok (some o)) :: rest => o :: delivered rest
  | _ :: rest => delivered rest

end Ngfs.Tls
