import Verif.Model.Mplex
import Verif.Spec.Varint

/-!
What the mplex wire format is, and what a multiplexer owes its users, independently of the code.
From the model only the types of frames, transports and events are used.
-/
namespace Ngfs.Spec.Mplex
open Ngfs.Mplex Ngfs.Spec

/-- The bytes of one frame: a varint holding the stream number and, in its three lowest bits, a flag;
a varint holding the length of the payload; the payload. A frame must be addressable: fewer than
`2^64` bytes in all. -/
def FrameBytes (bs : Bytes) (num flag : Nat) (payload : Bytes) : Prop :=
  ∃ h l, bs = h ++ l ++ payload ∧
    IsVarint h ∧ h.length ≤ 10 ∧ base128 h = num * 8 + flag ∧ num * 8 + flag < 2 ^ 64 ∧ flag < 7 ∧
    IsVarint l ∧ l.length ≤ 10 ∧ base128 l = payload.length ∧ bs.length < 2 ^ 64

/-- Kinds of frames in the order of the flags: new stream, then message, close, reset. -/
def opOf : Nat → FrameOp
  | 0 => .new
  | 1 => .message
  | 2 => .close
  | _ => .reset

/-- The frame that bytes stand for. Flag 0 opens a stream; after it odd flags are sent by the receiver
of a stream and even ones by its initiator, two flags per kind. The name that comes with a new stream
is not part of the frame. -/
def IsFrame (bs : Bytes) (f : Frame) : Prop :=
  ∃ num flag payload, FrameBytes bs num flag payload ∧
    f = ⟨if flag % 2 = 1 then .receiver num else .initiator num, opOf ((flag + 1) / 2),
         if flag = 0 then [] else payload⟩

/-- A string of bytes that is a sequence of frames. -/
inductive Frames : Bytes → List Frame → Prop
  | nil : Frames [] []
  | snoc {bs fs b f} : Frames bs fs → IsFrame b f → Frames (bs ++ b) (fs ++ [f])

/-- What one end can send. -/
inductive OutFrame where
  | new (num : Nat) (name : Option Bytes)
  | message (id : StreamId) (data : Bytes)
  | close (id : StreamId)

/-- The number in an identifier. -/
def numOf : StreamId → Nat
  | .receiver n => n
  | .initiator n => n

/-- Can be sent: the stream number leaves room for the flag in 64 bits, and the frame (with two varints of at
most ten bytes) is addressable. -/
def OutFrame.Fits : OutFrame → Prop
  | .new num name => num < 2 ^ 61 ∧ (name.getD []).length + 20 < 2 ^ 64
  | .message id data => numOf id < 2 ^ 61 ∧ data.length + 20 < 2 ^ 64
  | .close id => numOf id < 2 ^ 61

/-- What the other end should see of it. -/
def OutFrame.seen : OutFrame → Frame
  | .new num _ => ⟨.initiator num, .new, []⟩
  | .message id data => ⟨id, .message, data⟩
  | .close id => ⟨id, .close, []⟩

/-- Sending a sequence of frames. -/
def sendAll (s : FrameStream) : List OutFrame → FrameStream
  | [] => s
  | .new num name :: os => sendAll (s.appendNew num name) os
  | .message id data :: os => sendAll (s.appendMessage id data) os
  | .close id :: os => sendAll (s.appendClose id) os

/-- A transport that delivers some bytes and then ends: pieces of any non-zero size, with any number of
pauses. -/
inductive Delivers : List ReadEvent → Bytes → Prop
  | eof (rest) : Delivers (.ready [] :: rest) []
  | pause {es bs} : Delivers es bs → Delivers (.pending :: es) bs
  | piece {es bs} (d : Bytes) : d ≠ [] → Delivers es bs → Delivers (.ready d :: es) (d ++ bs)

/-- Polling for a frame again and again. -/
def pollTimes : Nat → FrameStream → List (Poll (Except Fault (Option Frame))) × FrameStream
  | 0, s => ([], s)
  | n + 1, s =>
    let (r, s') := s.pollReadFrame
    let (rs, s'') := pollTimes n s'
    (r :: rs, s'')

/-- The frames among the answers of polls. -/
def framesIn (rs : List (Poll (Except Fault (Option Frame)))) : List Frame :=
  rs.filterMap fun
    | .ready (.ok (some f)) => some f
    | _ => none

/-! ### What a stream's reader is owed -/

/-- One stream as its reader sees it: `none` while the stream is not open for reading, otherwise the
bytes that have arrived for it and have not been handed over yet. `step` is what an event does to
it, `none` being a violation: bytes handed over that are not the next bytes owed. -/
def owedStep (id : StreamId) (owed : Option Bytes) : Event → Option (Option Bytes)
  | .opened i => if i = id then some (some (owed.getD [])) else some owed
  | .dropped i => if i = id then some none else some owed
  | .taken f =>
    if f.streamId = id ∧ (f.op = .message ∨ f.op = .reset) then some (owed.map (· ++ f.data))
    else some owed
  | .got i bs =>
    if i = id then
      match owed with
      | none => if bs = [] then some none else none
      | some o => if bs <+: o then some (some (o.drop bs.length)) else none
    else some owed
  | _ => some owed

/-- The same over a history. -/
def owedAfter (id : StreamId) : Option Bytes → List Event → Option (Option Bytes)
  | owed, [] => some owed
  | owed, e :: es => (owedStep id owed e).bind (owedAfter id · es)

/-- The frames taken from the transport in a history. -/
def takenIn (evs : List Event) : List Frame :=
  evs.filterMap fun
    | .taken f => some f
    | _ => none

/-- The frames that the user's actions in a history ask to be sent. A stream is known to the other end
under the opposite role. -/
def outIn (evs : List Event) : List OutFrame :=
  evs.filterMap fun
    | .announced num name => some (.new num (some name))
    | .wrote (.receiver n) data => some (.message (.initiator n) data)
    | .wrote (.initiator n) data => some (.message (.receiver n) data)
    | .shut (.receiver n) => some (.close (.initiator n))
    | .shut (.initiator n) => some (.close (.receiver n))
    | _ => none

end Ngfs.Spec.Mplex
