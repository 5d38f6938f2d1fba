import Verif.Model.TlsClient
import Verif.Spec.TlsRecord

/-!
Vocabulary for the claims about an established TLS connection (C26, C27, C28, C31, C57, C60):
histories of calls with what each call answered, and what such a history says about the bytes
written and read.
-/
namespace Ngfs.Tls

/-- A call of the user of a connection. -/
inductive ConnOp where
  | read (room : Nat)
  | write (buf : Bytes)
  | flush
  | shutdown
  deriving DecidableEq, Repr

/-- A call with its answer. -/
inductive ConnEvent where
  | read (room : Nat) (answer : Poll (Except TlsErr Bytes))
  | write (buf : Bytes) (answer : Poll (Except TlsErr Nat))
  | flush (answer : Poll (Except TlsErr Unit))
  | shutdown (answer : Poll (Except TlsErr Unit))

/-- One call. -/
def ConnOp.step {X K : Type} (cr : Crypto X K) (c : Conn) : ConnOp → ConnEvent × Conn
  | .read room => (.read room (c.pollRead cr room).1, (c.pollRead cr room).2)
  | .write buf => (.write buf (c.pollWrite cr buf).1, (c.pollWrite cr buf).2)
  | .flush => (.flush c.pollFlush.1, c.pollFlush.2)
  | .shutdown => (.shutdown (c.pollShutdown cr).1, (c.pollShutdown cr).2)

/-- A history of calls: the answers and the final state. -/
def connRun {X K : Type} (cr : Crypto X K) (c : Conn) : List ConnOp → List ConnEvent × Conn
  | [] => ([], c)
  | op :: ops =>
    let s := op.step cr c
    let rest := connRun cr s.2 ops
    (s.1 :: rest.1, rest.2)

/-- The pieces of data that the connection said it accepted: of each write that answered `n`, the
first `n` bytes. -/
def accepted : List ConnEvent → List Bytes
  | [] => []
  | .write buf (.ready (.ok n)) :: rest => buf.take n :: accepted rest
  | _ :: rest => accepted rest

/-- The bytes that the connection gave to its reader. -/
def readBytes : List ConnEvent → Bytes
  | [] => []
  | .read _ (.ready (.ok data)) :: rest => data ++ readBytes rest
  | _ :: rest => readBytes rest

/-- The records are the protected form of the messages (type and contents), numbered from `n`. -/
def ProtectsAll {X K : Type} (cr : Crypto X K) (key : EncryptionKey) :
    Nat → List WireRecord → List (UInt8 × Bytes) → Prop
  | _, [], [] => True
  | n, w :: ws, m :: ms => w.Legal ∧ Protects cr key n w m.1 m.2 ∧ ProtectsAll cr key (n + 1) ws ms
  | _, _, _ => False

/-- The messages for written data, and the alert that ends it: type 23 is application data, type 21
with contents 1, 0 the warning "close notify" (RFC 8446, 5.1 and 6). -/
def dataMessages (acc : List Bytes) : List (UInt8 × Bytes) := acc.map (fun d => (23, d))

@[inherit_doc dataMessages]
def closeMessage : UInt8 × Bytes := (21, [1, 0])

end Ngfs.Tls

namespace Ngfs.Tls

/-- The bytes that the transport has still to deliver. -/
def readData : List ReadEvent → Bytes
  | [] => []
  | .ready data :: es => data ++ readData es
  | _ :: es => readData es

/-- The message is the alert "close notify". -/
def IsCloseNotify (m : UInt8 × Bytes) : Prop := m.1 = 21 ∧ ∃ level rest, m.2 = level :: 0 :: rest

/-- The application data among messages. -/
def appData : List (UInt8 × Bytes) → Bytes
  | [] => []
  | m :: ms => (if m.1 = 23 then m.2 else []) ++ appData ms

/-- What the peer sent and the connection took in, since the state `c0` of the connection: `all` are the
records into which the bytes from the transport fall, `taken` those of them that were accepted, and `msgs`
what these carry under the peer's key, numbered without gaps (the type of a message is the last byte that is not zero). -/
structure Received {X K : Type} (cr : Crypto X K) (c0 c : Conn) (all taken : List WireRecord)
    (msgs : List (UInt8 × Bytes)) : Prop where
  framed : c0.plaintext.receiver.incoming ++ readData c0.plaintext.inner.reads
    = wire all ++ c.plaintext.receiver.incoming ++ readData c.plaintext.inner.reads
  legal : ∀ w ∈ all, w.Legal
  sub : taken.Sublist all
  auth : ProtectsAll cr c0.seqenc.trafficSecrets.server c0.seqenc.serverSequenceNo taken msgs
  types : ∀ m ∈ msgs, m.1 ≠ 0

/-- What is assumed of somebody without the keys: among the records into which the bytes that arrive fall, one that
opens as record number `n` is the very record that the peer sealed as number `n` (the first one has the number `n0`;
only numbers are considered that can be reached with these records, because the nonces repeat after 2^64 records).
Records may be dropped, repeated, put in another order, cut and changed; new ones may be made up. -/
def NotForged {X K : Type} (cr : Crypto X K) (key : EncryptionKey) (n0 : Nat) (peer arrived : Bytes) : Prop :=
  ∀ (all ws : List WireRecord) (rest : Bytes), (∀ w ∈ all, w.Legal) → arrived = wire all ++ rest →
    (∀ w ∈ ws, w.Legal) → peer = wire ws →
    ∀ w ∈ all, ∀ i < all.length, ∀ typ content, typ ≠ 0 → Protects cr key (n0 + i) w typ content → ws[i]? = some w

end Ngfs.Tls
