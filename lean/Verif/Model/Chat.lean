import Verif.Model.Utf8

/-!
Model of `/repo/src/bin/chatserver.rs` and of `escape_string` (`/repo/src/util/util.rs` 70-94).

Every connection is a task of its own and the tasks run in parallel (`tokio::main`, `tokio::spawn`), so the model is a
transition system: one `Action` is one access to what the tasks share (the list of connections, a queue) or one
operation on a socket, and the actions of all tasks may follow each other in any order. Reader and writer of one
connection are one task (`join`, line 224), which cannot run them at the same time; the model allows the orders this
excludes as well. The totals that are only printed (lines 91-96, 109-116) are left out.
-/
namespace Ngfs.Chat

/-- The loop of `escape_string`, util.rs 73-91. -/
def escapeChars : List Char → List Char
  | [] => []
  | c :: cs =>
    (if c = '"' then ['\\', '"'] else if c = '\r' then ['\\', 'r'] else if c = '\n' then ['\\', 'n'] else [c]) ++ escapeChars cs

/-- `escape_string`, util.rs 70-94. -/
def escapeString (s : String) : String := String.ofList ('"' :: (escapeChars s.toList ++ ['"']))

/-- The announcement, chatserver.rs 88, 98-100; `lossy` is `String::from_utf8_lossy`. -/
def announcement (lossy : Bytes → String) (sender : Nat) (data : Bytes) : Bytes :=
  utf8Encode ("Received from " ++ toString sender ++ ": " ++ escapeString (lossy data) ++ "\n")

/-- `WriterMessage`, chatserver.rs 152-155. -/
inductive WriterMessage where
  | write (data : Bytes)
  | close
deriving DecidableEq

/-- Where `process_connection` (213-227) and `connection_reader` (157-179) are. -/
inductive ReaderState where
  /-- before `add_connection`, 220 -/
  | starting
  /-- in `read`, 160 -/
  | waiting
  /-- in `on_receive`, before `get_connections` has answered, 87-107 -/
  | received (data : Bytes)
  /-- in the loop of `broadcast`, 66-74: what is sent, and the connections still to come -/
  | sending (text : Bytes) (targets : List Nat)
  /-- in `on_receive_close`, 120-127 -/
  | closing
  | finished
deriving DecidableEq

/-- Where `connection_writer` (181-211) is. -/
inductive WriterState where
  /-- in `recv`, 187 -/
  | waiting
  /-- the rest of the data to write, 190-203 -/
  | writing (rest : Bytes)
  | finished
deriving DecidableEq

/-- A connection (130-149). `sent` is what the client has been sent. The rest is history: what was read from the
client (`reads`), the announcements made for it (`published`), who caused which of the announcements put into its queue (`queued`), how many of
them came before `Close` (`mark`), and whether writing failed. -/
structure Conn where
  reader : ReaderState
  writer : WriterState
  queue : List WriterMessage
  sent : Bytes
  reads : List Bytes
  published : List Bytes
  queued : List (Nat × Bytes)
  mark : Option Nat
  failed : Bool

/-- A new connection. -/
def Conn.new : Conn := ⟨.starting, .waiting, [], [], [], [], [], none, false⟩

/-- The server: how many connections were accepted (`next_connection_id`, 238), the connections by their number, and `connlist` (24). -/
structure State where
  next : Nat
  conn : Nat → Conn
  connlist : List Nat

/-- The start, 232-238. -/
def State.init : State := ⟨0, fun _ => .new, []⟩

/-- Replace connection `i`. -/
def State.set (s : State) (i : Nat) (c : Conn) : State := { s with conn := fun j => if j = i then c else s.conn j }

/-- What can happen next. -/
inductive Action where
  /-- `accept`, 240-248 -/
  | accept
  /-- `add_connection`, 28-31, 220 -/
  | join (i : Nat)
  /-- `read` gives data, 166-170 -/
  | recv (i : Nat) (data : Bytes)
  /-- `read` reports the end or an error, 161-165, 171-175 -/
  | recvEnd (i : Nat)
  /-- `get_connections`, 76-78 -/
  | list (i : Nat)
  /-- `send` to the next connection, 68-73, 140-143; or the end of the loop -/
  | push (i : Nat)
  /-- `close`, 121, 145-148 -/
  | close (i : Nat)
  /-- `recv` on the queue gives a message, 187 -/
  | pop (i : Nat)
  /-- `write` takes `n` bytes, 192-196 -/
  | write (i n : Nat)
  /-- `write` fails, 197-201 -/
  | writeError (i : Nat)
  /-- `remove_connection`, 33-48, 225 -/
  | leave (i : Nat)

/-- `send`, 140-143, called for connection `sender`: it fails if the writer is no longer there, and the failure is ignored (69-72). -/
def Conn.send (c : Conn) (sender : Nat) (text : Bytes) : Conn :=
  if c.writer = .finished then c
  else { c with queue := c.queue ++ [.write text], queued := c.queued ++ [(sender, text)] }

/-- `close`, 145-148: likewise (121-126). -/
def Conn.close (c : Conn) : Conn :=
  if c.writer = .finished then c
  else { c with queue := c.queue ++ [.close], mark := some c.queued.length }

/-- One action. An action that is not possible changes nothing. -/
def State.step (lossy : Bytes → String) (s : State) : Action → State
  | .accept => { s with next := s.next + 1 }
  | .join i =>
    if i < s.next ∧ (s.conn i).reader = .starting then
      { s.set i { s.conn i with reader := .waiting } with connlist := s.connlist ++ [i] }
    else s
  | .recv i data =>
    if (s.conn i).reader = .waiting ∧ data ≠ [] ∧ data.length ≤ 1024 then
      s.set i { s.conn i with reader := .received data, reads := (s.conn i).reads ++ [data] }
    else s
  | .recvEnd i => if (s.conn i).reader = .waiting then s.set i { s.conn i with reader := .closing } else s
  | .list i =>
    match (s.conn i).reader with
    | .received data =>
      let text := announcement lossy i data
      s.set i { s.conn i with reader := .sending text s.connlist, published := (s.conn i).published ++ [text] }
    | _ => s
  | .push i =>
    match (s.conn i).reader with
    | .sending _ [] => s.set i { s.conn i with reader := .waiting }
    | .sending text (t :: ts) =>
      let s := s.set i { s.conn i with reader := .sending text ts }
      s.set t ((s.conn t).send i text)
    | _ => s
  | .close i =>
    if (s.conn i).reader = .closing then s.set i { s.conn i with reader := .finished }.close else s
  | .pop i =>
    if (s.conn i).writer = .waiting then
      match (s.conn i).queue with
      | .write d :: q => s.set i { s.conn i with writer := .writing d, queue := q }
      | .close :: q => s.set i { s.conn i with writer := .finished, queue := q }
      | [] => s
    else s
  | .write i n =>
    match (s.conn i).writer with
    | .writing rest =>
      let c := { s.conn i with sent := (s.conn i).sent ++ rest.take n }
      if (rest.drop n).isEmpty then s.set i { c with writer := .waiting } else s.set i { c with writer := .writing (rest.drop n) }
    | _ => s
  | .writeError i =>
    match (s.conn i).writer with
    | .writing _ => s.set i { s.conn i with writer := .finished, failed := true }
    | _ => s
  | .leave i =>
    if (s.conn i).reader = .finished ∧ (s.conn i).writer = .finished then { s with connlist := s.connlist.erase i } else s

/-- Any actions, one after the other. -/
def State.run (lossy : Bytes → String) : State → List Action → State
  | s, [] => s
  | s, a :: as => State.run lossy (s.step lossy a) as

end Ngfs.Chat
