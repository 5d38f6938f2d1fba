import Verif.Spec.Failure
import Verif.Spec.TlsHandshake
import Verif.Spec.TlsConn

/-!
Vocabulary for the claim that a TLS client reports the failures of its transport, and only those (C203).
-/
namespace Ngfs.Tls

/-- An error about the transport has its cause there: a failure, or the end of the stream. `down` is whether shutting down
has been asked for, after which writing is a "broken pipe". Nothing is said about other errors. -/
def _root_.Ngfs.Transport.Explains (t : Transport) (down : Prop) : TlsErr → Prop
  | .ioError k => t.CanFail k ∨ (k = .brokenPipe ∧ down)
  | .unexpectedEof => ReadEvent.ready [] ∈ t.reads
  | _ => True

/-- The error that a call answered with. -/
def ConnEvent.failure : ConnEvent → Option TlsErr
  | .read _ (.ready (.error e)) => some e
  | .write _ (.ready (.error e)) => some e
  | .flush (.ready (.error e)) => some e
  | .shutdown (.ready (.error e)) => some e
  | _ => none

/-- The transport of a client that is still connecting, or has connected. -/
def ECState.transport? {X K : Type} : ECState X K → Option Transport
  | .begin s => some s.plaintext.inner
  | .afterSendClientHello s => some s.plaintext.inner
  | .afterReceiveServerHello s => some s.plaintext.inner
  | .afterReceiveServerMessages s => some s.plaintext.inner
  | .done c => some c.plaintext.inner
  | .error _ => none

end Ngfs.Tls
