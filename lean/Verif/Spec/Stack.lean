import Verif.Spec.MplexPair
import Verif.Spec.TlsConn

/-!
Two multiplexers that talk to each other over a TLS connection, over a network that somebody may control. At each side the
multiplexer writes to and reads from the TLS connection (as in bin/ipfs.rs, where the multiplexer is given the connection that the
TLS handshake produced).
-/
namespace Ngfs.Spec.Stack
open Ngfs.Tls Ngfs.Spec.Mplex

/-- One side: the multiplexer, the TLS connection, the answers the connection has given, and the connection as it was at the start
(but with everything that has come from the network since as what it will receive). -/
structure Side where
  mux : End
  tls : Conn
  evs : List ConnEvent
  start : Conn

/-- A side whose TLS connection has just been established. -/
def Side.new (c : Conn) : Side := ⟨End.new, c, [], c⟩

/-- The network will answer a further read of the TLS connection in this way. -/
def receive (c : Conn) (e : ReadEvent) : Conn :=
  { c with plaintext := { c.plaintext with inner := { c.plaintext.inner with reads := c.plaintext.inner.reads ++ [e] } } }

/-- The transport of a multiplexer will answer further writes and flushes in these ways. -/
def answers (x : End) (ws : List WriteEvent) (fs : List DoneEvent) : End := fs.foldl End.takeFlush (ws.foldl End.takeWrite x)

/-- What can happen at one side. -/
inductive Move where
  /-- something comes from the network -/
  | network (e : ReadEvent)
  /-- the user of the multiplexer polls; it makes calls to the connection, which are answered in the given ways -/
  | poll (op : Ngfs.Mplex.Op) (ws : List WriteEvent) (fs : List DoneEvent) (calls : List ConnOp)
  /-- the connection is read; if it fails, the multiplexer is told that it is an error of kind `k` -/
  | read (room : Nat) (k : IoKind)

/-- What the multiplexer sees of an answer to a read. -/
def seen (k : IoKind) (x : End) : Poll (Except TlsErr Bytes) → End
  | .pending => x
  | .ready (.ok d) => x.arrive (.ready d)
  | .ready (.error _) => x.arrive (.error k)

/-- Something happens at a side. -/
def Side.move {X K : Type} (cr : Crypto X K) (x : Side) : Move → Side
  | .network e => { x with tls := receive x.tls e, start := receive x.start e }
  | .poll op ws fs calls =>
    ⟨(answers x.mux ws fs).poll op, (connRun cr x.tls calls).2, x.evs ++ (connRun cr x.tls calls).1, x.start⟩
  | .read room k =>
    ⟨seen k x.mux (x.tls.pollRead cr room).1, (x.tls.pollRead cr room).2, x.evs ++ [.read room (x.tls.pollRead cr room).1], x.start⟩

/-- What can happen at side `x` when `y` is the other one. From the network comes anything that can be made without the keys,
given what `y` has sent so far. When the multiplexer polls, the bytes that it gets rid of are those that the connection accepts
from it (and it does not read). -/
def Allowed {X K : Type} (cr : Crypto X K) (x y : Side) : Move → Prop
  | .network e => NotForged cr y.start.seqenc.trafficSecrets.client y.start.seqenc.clientSequenceNo
      (y.tls.plaintext.inner.sent ++ y.tls.plaintext.outgoing) (readData (x.start.plaintext.inner.reads ++ [e]))
  | .poll op ws fs calls =>
    ((answers x.mux ws fs).poll op).sent = x.mux.sent ++ (accepted (connRun cr x.tls calls).1).flatten ∧
    ∀ room, .read room ∉ calls
  | .read _ _ => True

/-- Both sides. -/
structure Stack where
  a : Side
  b : Side

/-- Something happens, at one side or the other (`true`: the first). -/
def Stack.move {X K : Type} (cr : Crypto X K) (s : Stack) (m : Bool × Move) : Stack :=
  if m.1 then { s with a := s.a.move cr m.2 } else { s with b := s.b.move cr m.2 }

/-- Any sequence of happenings. -/
def Stack.run {X K : Type} (cr : Crypto X K) (s : Stack) : List (Bool × Move) → Stack
  | [] => s
  | m :: ms => (s.move cr m).run cr ms

/-- Each of which is possible when it happens. -/
def Stack.Possible {X K : Type} (cr : Crypto X K) (s : Stack) : List (Bool × Move) → Prop
  | [] => True
  | m :: ms => (if m.1 then Allowed cr s.a s.b m.2 else Allowed cr s.b s.a m.2) ∧ (s.move cr m).Possible cr ms

/-- The streams the first (`true`) or second side opens. -/
def opens (side : Bool) (ms : List (Bool × Move)) : Nat :=
  ms.countP fun
    | (s, .poll (.connect _) _ _ _) => s == side
    | _ => false

end Ngfs.Spec.Stack
