import Verif.Spec.TlsTool
import Verif.Spec.TlsHonest

/-!
Vocabulary for the claim that the TLS client program shows the whole answer of an honest server (C163).
-/
namespace Ngfs.Tls

/-- What a server may send once the handshake is over: data (no empty records), and session tickets between it. -/
def Answer {X K : Type} (cr : Crypto X K) (ms : List (UInt8 × Bytes)) : Prop :=
  ∀ m ∈ ms, (m.1 = 23 ∧ m.2 ≠ []) ∨ (m.1 = 22 ∧ ∃ ticket, Parses cr m.2 (.newSessionTicket ticket))

/-- The data among the messages. -/
def answerData (ms : List (UInt8 × Bytes)) : Bytes := ((ms.filter fun m => m.1 == 23).map Prod.snd).flatten

/-- The records of an honest server: those of the handshake, with others of the type ChangeCipherSpec between them but not
after them, then the messages of its answer and the alert that ends it, protected with its application key and numbered
from 0. -/
structure ServerSends {X K : Type} (cr : Crypto X K) (f : Flight X) (hsServer key : EncryptionKey)
    (flight answer : List WireRecord) (ms : List (UInt8 × Bytes)) : Prop where
  legal : ∀ w ∈ flight, w.Legal
  last : ∀ w, flight.getLast? = some w → w.typ ≠ 20
  handshake : ∃ w0 ws, flight.filter (fun w => w.typ != 20) = w0 :: ws ∧ w0.typ = 22 ∧ w0.fragment = f.shRaw ∧
    ProtectsAll cr hsServer 0 ws (f.encrypted.map fun raw => (22, raw))
  data : Answer cr ms
  sealed : ProtectsAll cr key 0 answer (ms ++ [closeMessage])
  outer : ∀ w ∈ answer, w.Outer

end Ngfs.Tls
