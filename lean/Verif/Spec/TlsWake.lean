import Verif.Model.TlsWake
import Verif.Spec.TlsHandshake

/-! Vocabulary for the claims about waking a task that waits for a TLS connection (C161, C162). -/
namespace Ngfs.Tls

/-- A task that waits for bytes to come will be polled again: it has woken itself, or the transport will wake it as soon as
there is something to read. -/
def Wakes.Reader (w : Wakes) : Prop := 0 < w.self ∨ w.reading = true

/-- A task that waits for bytes to go will be polled again: the transport will wake it as soon as it can go on. -/
def Wakes.Writer (w : Wakes) : Prop := w.writing = true

/-- The handshake waits for its own bytes to go. -/
def ECState.Sending {X K : Type} : ECState X K → Prop
  | .begin _ => True
  | .afterReceiveServerMessages _ => True
  | _ => False

/-- How many pieces of data are among these answers. -/
def pieces : List ReadEvent → Nat
  | [] => 0
  | .ready (_ :: _) :: es => pieces es + 1
  | _ :: es => pieces es

/-- How often the first `n` polls of a handshake wake their own task. -/
def selfWakes {X K : Type} (cr : Crypto X K) : Nat → ECState X K → Nat
  | 0, _ => 0
  | n + 1, s => (establishWakes cr s).self + selfWakes cr n (establishPoll cr s).2

end Ngfs.Tls
