import Verif.Spec.Mplex

/-!
Two ends of a multiplexed connection, joined by a transport that carries bytes in both directions. The
transport keeps the order of the bytes and loses none, but it may hold them back for as long as it
likes, cut them anywhere, refuse to take more, report errors and report the end of the data.
-/
namespace Ngfs.Spec.Mplex
open Ngfs.Mplex

/-- One end: the connection, what happened at it, what its polls answered, and the answers its
transport has given or will give to reads. -/
structure End where
  conn : Conn
  evs : List Event
  answers : List Answer
  arrived : List ReadEvent

/-- An end that has just been set up. -/
def End.new : End := ⟨Conn.new ⟨[], [], [], [], []⟩, [], [], []⟩

/-- The transport will answer a further read in this way. -/
def End.arrive (x : End) (e : ReadEvent) : End :=
  { x with
    arrived := x.arrived ++ [e]
    conn := { x.conn with shared := { x.conn.shared with frames := { x.conn.shared.frames with
      transport := { x.conn.shared.frames.transport with reads := x.conn.shared.frames.transport.reads ++ [e] } } } } }

/-- The transport will answer a further write in this way. -/
def End.takeWrite (x : End) (e : WriteEvent) : End :=
  { x with
    conn := { x.conn with shared := { x.conn.shared with frames := { x.conn.shared.frames with
      transport := { x.conn.shared.frames.transport with writes := x.conn.shared.frames.transport.writes ++ [e] } } } } }

/-- The transport will answer a further flush in this way. -/
def End.takeFlush (x : End) (e : DoneEvent) : End :=
  { x with
    conn := { x.conn with shared := { x.conn.shared with frames := { x.conn.shared.frames with
      transport := { x.conn.shared.frames.transport with flushes := x.conn.shared.frames.transport.flushes ++ [e] } } } } }

/-- The user of this end polls. -/
def End.poll (x : End) (op : Op) : End :=
  { x with conn := (x.conn.step op).2.1, evs := x.evs ++ (x.conn.step op).2.2,
           answers := x.answers ++ [(x.conn.step op).1] }

/-- The bytes this end has put on the way. -/
def End.sent (x : End) : Bytes := x.conn.shared.frames.transport.sent

/-- The bytes it has received, or can receive by reading. -/
def End.received (x : End) : Bytes := readBytes x.arrived

/-- The bytes on the way from one end to the other. -/
def inFlight (x y : End) : Bytes := x.sent.drop y.received.length

/-- Both ends. -/
structure Pair where
  a : End
  b : End

/-- What can happen at one end. -/
inductive Act where
  | poll (op : Op)
  /-- up to `n` of the bytes on the way arrive, in one piece -/
  | deliver (n : Nat)
  /-- the next read is answered with an error, or with the end of the data -/
  | readError (k : IoKind)
  | readEnd
  | takeWrite (e : WriteEvent)
  | takeFlush (e : DoneEvent)

/-- Something happens at end `x`; the other end is `y`. -/
def End.act (x y : End) : Act → End
  | .poll op => x.poll op
  | .deliver n => if (inFlight y x).take n = [] then x else x.arrive (.ready ((inFlight y x).take n))
  | .readError k => x.arrive (.error k)
  | .readEnd => x.arrive (.ready [])
  | .takeWrite e => x.takeWrite e
  | .takeFlush e => x.takeFlush e

/-- Something happens, at one end or the other (`true`: the first). -/
def Pair.step (p : Pair) (m : Bool × Act) : Pair :=
  if m.1 then { p with a := p.a.act p.b m.2 } else { p with b := p.b.act p.a m.2 }

/-- Any sequence of happenings, from the beginning. -/
def Pair.run (ms : List (Bool × Act)) : Pair := ms.foldl Pair.step ⟨End.new, End.new⟩

/-- The streams the first (`true`) or second end opens. -/
def opensAt (side : Bool) (ms : List (Bool × Act)) : Nat :=
  ms.countP fun
    | (s, .poll (.connect _)) => s == side
    | _ => false

/-- All bytes that have been read from a stream. -/
def readFrom (id : StreamId) (evs : List Event) : Bytes :=
  evs.flatMap fun
    | .got i d => if i = id then d else []
    | _ => []

/-- All bytes that have been written to a stream. -/
def writtenTo (id : StreamId) (evs : List Event) : Bytes :=
  evs.flatMap fun
    | .wrote i d => if i = id then d else []
    | _ => []

/-- The name the other end knows a stream by. -/
def peerId : StreamId → StreamId
  | .receiver n => .initiator n
  | .initiator n => .receiver n

end Ngfs.Spec.Mplex
