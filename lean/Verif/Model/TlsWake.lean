import Verif.Model.TlsClient

/-!
Model of the wakers of `src/tls/protocol/client.rs` and `stream.rs`: who wakes the task that polls, on top of
`Model/TlsRecord.lean` and `Model/TlsClient.lean`, which say what each poll answers.

The transport keeps the waker of the last poll that it answered with "pending", one for reading and one for writing,
flushing and shutting down, as `AsyncRead` and `AsyncWrite` of tokio promise (and no more than that): once it has given
another answer to a later poll, it keeps none. Each function below goes through the same rounds as the one it belongs to.
-/
namespace Ngfs.Tls

/-- What wakes the task that polls: the calls of `cx.waker().wake_by_ref()` so far, and whether the transport keeps its
waker for reading and for writing. No counterpart in the code. -/
structure Wakes where
  self : Nat
  reading : Bool
  writing : Bool
  deriving DecidableEq, Repr

/-- At the beginning of a poll nothing is known to wake the task. -/
def Wakes.none : Wakes := ⟨0, false, false⟩

/-- `AsyncRead::poll_read` of the transport has answered. -/
def Wakes.onRead (w : Wakes) : ReadEvent → Wakes
  | .pending => { w with reading := true }
  | _ => { w with reading := false }

/-- `AsyncWrite::poll_write` of the transport has answered. -/
def Wakes.onWrite (w : Wakes) : WriteEvent → Wakes
  | .pending => { w with writing := true }
  | _ => { w with writing := false }

/-- `AsyncWrite::poll_flush` or `poll_shutdown` of the transport has answered. -/
def Wakes.onDone (w : Wakes) : DoneEvent → Wakes
  | .pending => { w with writing := true }
  | _ => { w with writing := false }

/-- `cx.waker().wake_by_ref()`. -/
def Wakes.wake (w : Wakes) : Wakes := { w with self := w.self + 1 }

/-- `poll_receive_data`, stream.rs:182-211: wakes the task if it has received something. -/
def Transport.readWakes (t : Transport) (w : Wakes) : Wakes :=
  match t.pollRead.1 with
  | .ready (b :: bs) => (w.onRead (.ready (b :: bs))).wake
  | e => w.onRead e

/-- `poll_recv`, stream.rs:259-261, with `poll_receive_and_add_data`, 158-180. -/
def PlaintextStream.recvWakes (p : PlaintextStream) (w : Wakes) : Wakes := Transport.readWakes p.inner w

/-- The loop of `poll_flush`, stream.rs:288-306; same rounds as `writeLoop`. -/
def writeLoopWakes : List WriteEvent → Bytes → Wakes → Wakes
  | _, [], w => w
  | [], _ :: _, w => w.onWrite .pending
  | .pending :: _, _ :: _, w => w.onWrite .pending
  | .error k :: _, _ :: _, w => w.onWrite (.error k)
  | .accept n :: ws, o :: os, w => writeLoopWakes ws ((o :: os).drop n) (w.onWrite (.accept n))

/-- `poll_flush`, stream.rs:287-313. -/
def PlaintextStream.flushWakes (p : PlaintextStream) (w : Wakes) : Wakes :=
  let w := writeLoopWakes p.inner.writes p.outgoing w
  match (writeLoop p.inner.writes p.outgoing p.inner.sent).1 with
  | .ready (.ok ()) => w.onDone p.inner.pollFlush.1
  | _ => w

/-! ### The handshake -/

/-- `ECState::do_poll_recv`, where `want_recv`, client.rs:451-483. -/
def ECState.recvWakes {X K : Type} (s : ECState X K) (w : Wakes) : Wakes :=
  match s with
  | .afterSendClientHello s => s.plaintext.recvWakes w
  | .afterReceiveServerHello s => s.plaintext.recvWakes w
  | _ => w

/-- `ECState::poll_step`, client.rs:428-449: only the states that send poll the transport. -/
def ECState.stepWakes {X K : Type} (s : ECState X K) (w : Wakes) : Wakes :=
  match s with
  | .begin s => s.plaintext.flushWakes w
  | .afterReceiveServerMessages s => s.plaintext.flushWakes w
  | _ => w

/-- The loop of `EstablishConnection::poll`, client.rs:375-401; same rounds as `establishLoop`. -/
def establishLoopWakes {X K : Type} (cr : Crypto X K) : Nat → ECState X K → Wakes → Wakes
  | 0, _, w => w
  | n + 1, s, w =>
    match s with
    | .done _ => w
    | .error _ => w
    | s =>
      let w := s.recvWakes w
      match s.recv with
      | (some _, _) => w
      | (none, s) =>
        let w := s.stepWakes w
        match s.pollStep cr with
        | (.ready (), s) => establishLoopWakes cr n s w
        | (.pending, _) => w

/-- `EstablishConnection::poll`, client.rs:375-402. -/
def establishWakes {X K : Type} (cr : Crypto X K) (s : ECState X K) : Wakes := establishLoopWakes cr 6 s .none

/-! ### The connection -/

/-- The loop of `poll_fill_incoming`, client.rs:971-1022; same rounds as `Conn.fillLoop`. -/
def Conn.fillLoopWakes {X K : Type} (cr : Crypto X K) : Nat → Conn → Wakes → Wakes
  | 0, _, w => w
  | n + 1, c, w =>
    let w := c.plaintext.recvWakes w
    match c.plaintext.pollRecv with
    | (.ready (.error _), _) => w
    | (.pending, _) => w.wake
    | (.ready (.ok ()), p) =>
      match pollReceiveEncryptedMessage cr p.receiver c.seqenc.serverSequenceNo
          c.seqenc.trafficSecrets.server with
      | (res, r, seqNo, _) =>
        let c := { c with
          plaintext := { p with receiver := r }
          seqenc := { c.seqenc with serverSequenceNo := seqNo } }
        match res with
        | .pending => w.wake
        | .ready (.ok (some (.handshake (.newSessionTicket _)))) => fillLoopWakes cr n c w
        | .ready _ => w

/-- `poll_fill_incoming`, client.rs:967-1023. -/
def Conn.fillWakes {X K : Type} (cr : Crypto X K) (c : Conn) (w : Wakes) : Wakes :=
  if c.incomingDecrypted.length > 0 then w
  else c.fillLoopWakes cr (c.plaintext.inner.reads.length + 1) w

/-- `AsyncRead::poll_read`, client.rs:1027-1049. -/
def Conn.readWakes {X K : Type} (cr : Crypto X K) (c : Conn) : Wakes :=
  match c.readState with
  | .active => c.fillWakes cr .none
  | _ => .none

/-- `AsyncWrite::poll_write`, client.rs:1053-1080. -/
def Conn.writeWakes (c : Conn) : Wakes :=
  match c.plaintext.writeState with
  | .active => c.plaintext.flushWakes .none
  | _ => .none

/-- `AsyncWrite::poll_flush`, client.rs:1082-1099. -/
def Conn.flushWakes (c : Conn) : Wakes :=
  match c.plaintext.writeState with
  | .active => c.plaintext.flushWakes .none
  | _ => .none

/-- The second half of `poll_shutdown`, client.rs:1125-1143. -/
def Conn.finishWakes (c : Conn) (w : Wakes) : Wakes :=
  let w := c.plaintext.flushWakes w
  match c.pollFlushEncrypted with
  | (.ready (.ok ()), c) => w.onDone c.plaintext.inner.pollShutdown.1
  | _ => w

/-- `AsyncWrite::poll_shutdown`, client.rs:1101-1144. -/
def Conn.shutdownWakes {X K : Type} (cr : Crypto X K) (c : Conn) : Wakes :=
  match c.plaintext.writeState with
  | .error _ => .none
  | .inShutdown => c.finishWakes .none
  | .active =>
    match c.appendCloseNotify cr with
    | (.error _, _) => .none
    | (.ok (), c) => Conn.finishWakes { c with plaintext := { c.plaintext with writeState := .inShutdown } } .none

end Ngfs.Tls
