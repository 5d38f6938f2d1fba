import Verif.Model.Mplex

/-!
Model of the wakers of `src/libp2p/mplex/stream.rs`: who is woken when, on top of `Model/Mplex.lean`,
which says what each poll answers.

A task is a number. A waker is the task it wakes. The transport keeps the waker of the last poll that
it answered with "pending", one for reading and one for writing, as `AsyncRead` and `AsyncWrite` of
tokio promise (and no more than that). A poll by another task therefore replaces the waker.
-/
namespace Ngfs.Mplex

/-- A task of the executor. No counterpart in the code. -/
abbrev Task := Nat

/-- `MplexStreams::accept_waker` and the wakers in `MplexStreams::readers`, `stream.rs` 12-14, 34-38;
the waker the transport keeps for reading; and the tasks woken, in order (history). -/
structure Wakers where
  accept : Option Task
  readers : List (StreamId × Task)
  transport : Option Task
  woken : List Task
  deriving DecidableEq, Repr

/-- `wake_accept`, `stream.rs` 49-53. -/
def Wakers.wakeAccept (w : Wakers) : Wakers :=
  { w with accept := none, woken := w.woken ++ w.accept.toList }

/-- `set_accept_waker`, `stream.rs` 55-57. -/
def Wakers.setAccept (w : Wakers) (t : Task) : Wakers := { w with accept := some t }

/-- `wake_reader`, `stream.rs` 59-65. -/
def Wakers.wakeReader (w : Wakers) (id : StreamId) : Wakers :=
  { w with readers := w.readers.filter (·.1 ≠ id), woken := w.woken ++ (w.readers.filter (·.1 = id)).map (·.2) }

/-- `set_read_waker`, `stream.rs` 67-71: nothing is stored for a stream that is not in the table. -/
def Wakers.setRead (w : Wakers) (m : Shared) (id : StreamId) (t : Task) : Wakers :=
  if m.haveReader id then { w with readers := (id, t) :: w.readers.filter (·.1 ≠ id) } else w

/-- `wake_all_readers`, `stream.rs` 73-80. -/
def Wakers.wakeAll (w : Wakers) : Wakers :=
  { w with accept := none, readers := [], woken := w.woken ++ w.accept.toList ++ w.readers.map (·.2) }

/-- `MplexStreams::add`, `stream.rs` 82-88: the entry of the table is replaced by one without waker. -/
def Wakers.add (w : Wakers) (id : StreamId) : Wakers := { w with readers := w.readers.filter (·.1 ≠ id) }

/-- `MplexStreams::remove_reader`, `stream.rs` 90-94. -/
def Wakers.removeReader (w : Wakers) (id : StreamId) : Wakers := (w.add id).wakeAll

/-- The waker kept by the transport when `poll_read_frame` (`frame.rs` 146-203) has not answered
"pending": as before if the transport was not polled at all, none otherwise. -/
def Wakers.answered (w : Wakers) (fs : FrameStream) : Wakers :=
  if (readyFrame fs.incoming fs.readEof).isSome then w else { w with transport := none }

/-- `poll_fill_incoming`, `stream.rs` 230-271, called by task `t`: the wakers. Same rounds as
`fillLoop`. -/
def fillWakers (t : Task) : Nat → Shared → Wakers → Wakers
  | 0, _, w => w
  | fuel + 1, m, w =>
    if m.closed then w
    else if m.frameWanted then w
    else
      match m.frames.pollReadFrame with
      | (.pending, _) => { w with transport := some t }
      | (.ready (.error _), _) => w.answered m.frames
      | (.ready (.ok none), _) => (w.answered m.frames).wakeAll
      | (.ready (.ok (some f)), fs) =>
        fillWakers t fuel { m with incoming := some f, frames := fs }
          (if f.op = .new then (w.answered m.frames).wakeAccept else (w.answered m.frames).wakeReader f.streamId)

/-- `poll_fill_incoming` with the number of rounds of `Shared.pollFill`. -/
def Shared.fillWakers (m : Shared) (t : Task) (w : Wakers) : Wakers :=
  Mplex.fillWakers t (m.frames.incoming.length + (readBytes m.frames.transport.reads).length + 1) m w

/-- `poll_accept_id`, `stream.rs` 150-179: the wakers. -/
def Shared.acceptWakers (m : Shared) (t : Task) (w : Wakers) : Wakers :=
  match m.pollFill with
  | (.pending, _, _) => (m.fillWakers t w).setAccept t
  | (.ready (.error _), _, _) => m.fillWakers t w
  | (.ready (.ok ()), m', _) =>
    match m'.incoming with
    | some f => if f.op = .new then ((m.fillWakers t w).add f.streamId).wakeAll else (m.fillWakers t w).setAccept t
    | none => m.fillWakers t w

/-- `MplexShared::poll_read`, `stream.rs` 181-228: the wakers. -/
def Shared.readWakers (m : Shared) (id : StreamId) (room : Nat) (t : Task) (w : Wakers) : Wakers :=
  match m.pollFill with
  | (.pending, m', _) => (m.fillWakers t w).setRead m' id t
  | (.ready (.error _), _, _) => m.fillWakers t w
  | (.ready (.ok ()), m', _) =>
    match m'.incoming with
    | some f =>
      if f.streamId = id then
        if f.op = .close then (m.fillWakers t w).wakeAll
        else if (f.data.drop (min f.data.length room)).isEmpty then (m.fillWakers t w).wakeAll
        else m.fillWakers t w
      else (m.fillWakers t w).setRead m' id t
    | none => m.fillWakers t w

/-- One poll by task `t`: the wakers for reading. Operations that write leave them alone, but opening
a stream (`append_new`, `stream.rs` 273-284) enters it into the table. -/
def Conn.wakers (c : Conn) (op : Op) (t : Task) (w : Wakers) : Wakers :=
  if c.poisoned then w
  else
    match op with
    | .accept => c.shared.acceptWakers t w
    | .read h room =>
      match c.handles[h]? with
      | some x => c.shared.readWakers x.id room t w
      | none => w
    | .connect name => w.add (c.shared.appendNew name).1
    | .dropReader h =>
      match c.handles[h]? with
      | some x => w.removeReader x.id
      | none => w
    | _ => w

/-- `FrameStream::poll_drain`, `frame.rs` 205-224, called by task `t`: the waker the transport keeps
for writing. It is polled at least once (`poll_flush`). There is no table of waiting writers
(`InternalWriter`, `stream.rs` 16-17, is empty). -/
def FrameStream.drainWaker (s : FrameStream) (t : Task) : Option Task :=
  match s.pollDrain with
  | (.pending, _) => some t
  | _ => none

/-- `StreamWriter::poll_drain`, `stream.rs` 429-447: the waker kept for writing. -/
def Conn.writerWaker (c : Conn) (h : Nat) (t : Task) (old : Option Task) : Option Task :=
  match c.handles[h]? with
  | none => old
  | some x => if x.writeError.isSome then old else c.shared.frames.drainWaker t

/-- One poll by task `t`: the waker the transport keeps for writing. -/
def Conn.writeWaker (c : Conn) (op : Op) (t : Task) (old : Option Task) : Option Task :=
  if c.poisoned then old
  else
    match op with
    | .connect name => (c.shared.appendNew name).2.frames.drainWaker t
    | .reconnect k => if (c.connecting[k]?).isSome then c.shared.frames.drainWaker t else old
    | .write h _ => c.writerWaker h t old
    | .flush h => c.writerWaker h t old
    | .shutdown h => c.writerWaker h t old
    | _ => old

/-- What only one future at a time can use, because it borrows it: the `Acceptor`, the `Connector`
(`stream.rs` 284-288, 300-304), and the two halves of a `Stream`. -/
inductive Resource where
  | acceptor
  | connector
  | reader (h : Nat)
  | writer (h : Nat)
  deriving DecidableEq, Repr

/-- What a poll uses. -/
def Op.resource : Op → Resource
  | .accept => .acceptor
  | .connect _ => .connector
  | .reconnect _ => .connector
  | .read h _ => .reader h
  | .write h _ => .writer h
  | .flush h => .writer h
  | .shutdown h => .writer h
  | .dropReader h => .reader h

/-- A connection and the tasks that use it: what each waiting task waits for (its last poll was answered
"pending"), the tasks woken since their last poll, the streams dropped, and the history of answers
and of frames taken from the transport. -/
structure Sys where
  conn : Conn
  wakers : Wakers
  writeWaker : Option Task
  waits : List (Task × Op)
  awake : List Task
  gone : List Nat
  answers : List Answer
  taken : List Frame
  deriving DecidableEq, Repr

/-- A new connection. -/
def Sys.new (t : Transport) : Sys := ⟨Conn.new t, ⟨none, [], none, []⟩, none, [], [], [], [], []⟩

/-- What can happen. -/
inductive Action where
  /-- a task polls -/
  | poll (t : Task) (op : Op)
  /-- a stream is dropped -/
  | drop (h : Nat)
  /-- the transport wakes the task that waits to read -/
  | readable
  /-- the transport wakes the task that waits to write -/
  | writable
  /-- a task drops a future before it is finished, but keeps the stream -/
  | abandon (t : Task)
  deriving DecidableEq, Repr

/-- The poll that a waiting task repeats; a `Connect` remembers that it has sent its announcement
(`stream.rs` 312-322). -/
def Conn.again (c : Conn) : Op → Op
  | .connect _ => .reconnect (c.connecting.length - 1)
  | op => op

/-- May the task poll? A waiting task can only repeat its poll; any other can start something that nobody
else is using, on a stream that has not been dropped. -/
def Sys.mayPoll (s : Sys) (t : Task) (op : Op) : Bool :=
  match s.waits.find? (·.1 = t) with
  | some (_, op') => op = op'
  | none =>
    (match op with
      | .reconnect _ => false
      | .dropReader _ => false
      | .read h _ => h ∉ s.gone ∧ h < s.conn.handles.length
      | .write h _ => h ∉ s.gone ∧ h < s.conn.handles.length
      | .flush h => h ∉ s.gone ∧ h < s.conn.handles.length
      | .shutdown h => h ∉ s.gone ∧ h < s.conn.handles.length
      | _ => true) &&
    s.waits.all (fun p => p.2.resource ≠ op.resource)

/-- The frames in a list of events. -/
def takenFrames (evs : List Event) : List Frame :=
  evs.filterMap fun
    | .taken f => some f
    | _ => none

/-- A task polls. -/
def Sys.poll (s : Sys) (t : Task) (op : Op) : Sys :=
  let r := s.conn.step op
  let w := s.conn.wakers op t s.wakers
  let rest := s.waits.filter (·.1 ≠ t)
  { conn := r.2.1, wakers := { w with woken := [] }, writeWaker := s.conn.writeWaker op t s.writeWaker,
    waits := if r.1 = .pending then (t, r.2.1.again op) :: rest else rest,
    awake := s.awake.filter (· ≠ t) ++ w.woken, gone := s.gone, answers := s.answers ++ [r.1],
    taken := s.taken ++ takenFrames r.2.2 }

/-- A stream that nobody is using is dropped: `Drop for StreamReader`, `stream.rs` 398-403 (dropping the
writer, 450-455, wakes nobody). -/
def Sys.drop (s : Sys) (h : Nat) : Sys :=
  let w := s.conn.wakers (.dropReader h) 0 s.wakers
  { s with conn := (s.conn.step (.dropReader h)).2.1, wakers := { w with woken := [] }, awake := s.awake ++ w.woken, gone := h :: s.gone }

/-- One action. What is not possible does nothing. -/
def Sys.step (s : Sys) : Action → Sys
  | .poll t op => if s.mayPoll t op then s.poll t op else s
  | .drop h =>
    if h ∉ s.gone ∧ h < s.conn.handles.length ∧
        s.waits.all (fun p => p.2.resource ≠ .reader h ∧ p.2.resource ≠ .writer h) then s.drop h
    else s
  | .readable => { s with wakers := { s.wakers with transport := none }, awake := s.awake ++ s.wakers.transport.toList }
  | .writable => { s with writeWaker := none, awake := s.awake ++ s.writeWaker.toList }
  | .abandon t => { s with waits := s.waits.filter (·.1 ≠ t) }

/-- Any number of actions. -/
def Sys.run (s : Sys) (as : List Action) : Sys := as.foldl Sys.step s

end Ngfs.Mplex
