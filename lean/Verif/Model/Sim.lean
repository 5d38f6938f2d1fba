
/-! The simulated network (`src/sim`) and the transfer protocol that runs on it (`src/bin/netsim.rs`). -/
namespace Ngfs.Sim

/-- `ChannelParameters` (`sim/network.rs` 5-23), without the two probabilities: see `Luck`. -/
structure Params where
  latencyMin : Nat
  latencyMax : Nat
  invBandwidth : Nat
  deriving DecidableEq, Repr

/-- The random decisions about one copy of a message (`sim/network.rs` 75-89): the latency beyond the minimum, whether
it is lost, and its priority among messages that arrive at the same time. -/
structure Fate where
  extra : Nat
  lost : Bool
  priority : Nat
  deriving DecidableEq, Repr

/-- The random decisions of one `send` (`sim/network.rs` 67-68, 75-89): whether there are two copies, and what becomes of
each. Any probability and any generator gives some sequence of these. -/
structure Luck where
  dup : Bool
  first : Fate
  second : Fate
  deriving DecidableEq, Repr

/-- `MessageInTransit` (`sim/network.rs` 25-30). -/
structure InTransit (M : Type) where
  messageNo : Nat
  recvTime : Nat
  recvPriority : Nat
  message : M
  deriving DecidableEq, Repr

/-- `Channel` (`sim/network.rs` 38-45), without its name and the handle of the simulation. -/
structure Channel (M : Type) where
  messages : List (InTransit M)
  nextMessageNo : Nat
  nextSendTime : Nat
  params : Params
  deriving Repr

/-- `Channel::new` (`sim/network.rs` 48-57). -/
def Channel.new (M : Type) (p : Params) : Channel M := ⟨[], 0, 0, p⟩

/-- The latency (`sim/network.rs` 75-78): if the maximum is not below the minimum, a fraction of the difference is added. -/
def latency (p : Params) (f : Fate) : Nat :=
  if p.latencyMin ≤ p.latencyMax then p.latencyMin + min f.extra (p.latencyMax - p.latencyMin) else p.latencyMin

/-- The loop over the copies of a message (`sim/network.rs` 70-98). A lost copy ends the loop (line 84). -/
def Channel.sendCopies {M : Type} (sendTime : Nat) (m : M) : List Fate → Channel M → Channel M
  | [], c => c
  | f :: fs, c =>
    let no := c.nextMessageNo
    let c1 : Channel M := { c with nextMessageNo := no + 1 }
    if f.lost then c1
    else
      Channel.sendCopies sendTime m fs
        { c1 with messages := c1.messages ++ [⟨no, sendTime + latency c.params f, f.priority, m⟩] }

/-- `Channel::send` (`sim/network.rs` 63-99). -/
def Channel.send {M : Type} (c : Channel M) (m : M) (l : Luck) : Channel M :=
  let sendTime := c.nextSendTime
  let c1 : Channel M := { c with nextSendTime := c.nextSendTime + c.params.invBandwidth }
  c1.sendCopies sendTime m (if l.dup then [l.first, l.second] else [l.first])

/-- `Channel::next_recv_time` (`sim/network.rs` 101-118). -/
def Channel.nextRecvTime {M : Type} (c : Channel M) : Option Nat :=
  c.messages.foldl (fun result mit =>
    match result with
    | none => some mit.recvTime
    | some next => if next > mit.recvTime then some mit.recvTime else some next) none

/-- The search for the message to deliver (`sim/network.rs` 126-140), from position `i` on. -/
def bestIndex {M : Type} (ms : List (InTransit M)) (time : Nat) : List (InTransit M) → Nat → Option Nat → Option Nat
  | [], _, best => best
  | mit :: rest, i, best =>
    bestIndex ms time rest (i + 1)
      (if mit.recvTime == time then
        match best with
        | none => some i
        | some bi =>
          match ms[bi]? with
          | none => some bi
          | some b => if b.recvPriority > mit.recvPriority then some i else some bi
      else best)

/-- `Channel::recv` (`sim/network.rs` 120-152), with what is taken out of the channel. The clock is not consulted. -/
def Channel.recv {M : Type} (c : Channel M) : Option (InTransit M) × Channel M :=
  match c.nextRecvTime with
  | none => (none, c)
  | some time =>
    match bestIndex c.messages time c.messages 0 none with
    | none => (none, c)
    | some i =>
      match c.messages[i]? with
      | none => (none, c)
      | some mit => (some mit, { c with messages := c.messages.eraseIdx i })

/-- `opt_min` (`sim/mod.rs` 10-20), from the given result on. -/
def optMinLoop : List (Option Nat) → Option Nat → Option Nat
  | [], res => res
  | none :: vs, res => optMinLoop vs res
  | some v :: vs, none => optMinLoop vs (some v)
  | some v :: vs, some r => optMinLoop vs (some (min r v))

/-- `opt_min` (`sim/mod.rs` 10-20). -/
def optMin (vs : List (Option Nat)) : Option Nat := optMinLoop vs none

/-- `Endpoint::next_event_time` (`sim/network.rs` 197-199), of the endpoint that sends on `out` and receives from `inn`. -/
def nextEventTime {M : Type} (out inn : Channel M) : Option Nat := optMin [some out.nextSendTime, inn.nextRecvTime]

/-- An operation on a channel, with the time the clock shows. -/
inductive Op (M : Type) where
  | send (now : Nat) (m : M) (l : Luck)
  | recv (now : Nat)
  deriving Repr

/-- The time of an operation. -/
def Op.now {M : Type} : Op M → Nat
  | .send n _ _ => n
  | .recv n => n

/-- A channel used by any sequence of operations; what has been delivered, and at which time, oldest first. -/
def run {M : Type} : Channel M → List (Op M) → List (Nat × InTransit M) × Channel M
  | c, [] => ([], c)
  | c, .send _ m l :: ops => run (c.send m l) ops
  | c, .recv now :: ops =>
    match c.recv with
    | (none, c') => run c' ops
    | (some mit, c') => ((now, mit) :: (run c' ops).1, (run c' ops).2)

/-! ### The transfer protocol of `netsim.rs` -/

/-- `Message` (`bin/netsim.rs` 23-37). -/
inductive Message where
  | data (seq : Nat) (data : String)
  | ack (ack : Nat)
  deriving DecidableEq, Repr

/-- `Peer` (`bin/netsim.rs` 52-60), without name and endpoint. `delivered` is a history variable: what line 97 reports. -/
structure Peer where
  seq : Nat
  count : Nat
  ack : Nat
  retransmitTime : Option Nat
  delivered : List (Nat × String)
  deriving DecidableEq, Repr

/-- `Peer::new` (`bin/netsim.rs` 63-73). -/
def Peer.new (count : Nat) : Peer := ⟨0, count, 0, none, []⟩

/-- `RETRANSMIT_DELAY` (`bin/netsim.rs` 21). -/
def retransmitDelay : Nat := 1000

/-- What a peer works on: its own state, the channel it sends on, the channel it receives from, and how many sends have
drawn random decisions so far. -/
structure Side where
  peer : Peer
  out : Channel Message
  inn : Channel Message
  draws : Nat

/-- `Endpoint::send` (`sim/network.rs` 189-191) with the next random decisions. -/
def Side.send (luck : Nat → Luck) (s : Side) (m : Message) : Side :=
  { s with out := s.out.send m (luck s.draws), draws := s.draws + 1 }

/-- The body of the receive loop (`bin/netsim.rs` 81-127). -/
def Side.handle (luck : Nat → Luck) (s : Side) : Message → Side
  | .data seq data =>
    if s.peer.ack < seq then s
    else if s.peer.ack = seq then
      { s with peer := { s.peer with ack := seq + 1, delivered := s.peer.delivered ++ [(seq, data)] } }.send luck
        (.ack (seq + 1))
    else s.send luck (.ack s.peer.ack)
  | .ack a =>
    if s.peer.ack < a then { s with peer := { s.peer with ack := a, retransmitTime := none } } else s

/-- The receive loop (`bin/netsim.rs` 80-128). Nothing is added to the channel received from while it runs, so as many rounds
as there are messages in it are enough. -/
def Side.receive (luck : Nat → Luck) : Nat → Side → Side
  | 0, s => s
  | n + 1, s =>
    match s.inn.recv with
    | (none, _) => s
    | (some mit, inn') => Side.receive luck n ({ s with inn := inn' }.handle luck mit.message)

/-- `Peer::can_send` (`bin/netsim.rs` 75-77). -/
def Side.canSend (now : Nat) (s : Side) : Bool := decide (s.out.nextSendTime ≤ now)

/-- The retransmission check (`bin/netsim.rs` 130-138). -/
def Side.retransmit (now : Nat) (s : Side) : Side :=
  match s.peer.retransmitTime with
  | none => s
  | some t => if now ≤ t ∧ s.canSend now = true then { s with peer := { s.peer with seq := s.peer.ack } } else s

/-- Sending the next message (`bin/netsim.rs` 140-150). -/
def Side.transmit (luck : Nat → Luck) (now : Nat) (s : Side) : Side :=
  if s.peer.ack = s.peer.seq ∧ s.canSend now = true then
    if s.peer.seq < s.peer.count then
      let s1 := s.send luck (.data s.peer.seq s!"Message {s.peer.seq}")
      { s1 with peer := { s1.peer with seq := s1.peer.seq + 1, retransmitTime := some (now + retransmitDelay) } }
    else s
  else s

/-- `Peer::step` (`bin/netsim.rs` 79-150). -/
def Side.step (luck : Nat → Luck) (now : Nat) (s : Side) : Side :=
  ((s.receive luck s.inn.messages.length).retransmit now).transmit luck now

/-- The two peers and the two channels (`bin/netsim.rs` 219-244). -/
structure World where
  producer : Peer
  consumer : Peer
  toConsumer : Channel Message
  toProducer : Channel Message
  draws : Nat

/-- The initial state (`bin/netsim.rs` 232-243) for `count` messages; the program sends five. -/
def World.init (p : Params) (count : Nat) : World :=
  ⟨.new count, .new 0, .new _ p, .new _ p, 0⟩

/-- One step of the producer or of the consumer, at some time (`bin/netsim.rs` 246-248). -/
inductive Turn where
  | producer (now : Nat)
  | consumer (now : Nat)
  deriving DecidableEq, Repr

/-- The time of a turn. -/
def Turn.now : Turn → Nat
  | .producer n => n
  | .consumer n => n

/-- One turn. -/
def World.turn (luck : Nat → Luck) (w : World) : Turn → World
  | .producer now =>
    let s := Side.step luck now ⟨w.producer, w.toConsumer, w.toProducer, w.draws⟩
    { w with producer := s.peer, toConsumer := s.out, toProducer := s.inn, draws := s.draws }
  | .consumer now =>
    let s := Side.step luck now ⟨w.consumer, w.toProducer, w.toConsumer, w.draws⟩
    { w with consumer := s.peer, toProducer := s.out, toConsumer := s.inn, draws := s.draws }

/-- Any number of turns. -/
def World.run (luck : Nat → Luck) (w : World) (ts : List Turn) : World := ts.foldl (World.turn luck) w

end Ngfs.Sim
