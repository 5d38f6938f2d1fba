import Verif.Model.Io
import Verif.Spec.Varint

/-!
What a reader delivers, and what a length-prefixed message is, independently of the code. From the model only
the transport and the reader's list of limits are used.
-/
namespace Ngfs.Spec.Io
open Ngfs.Io

/-- How a stream of bytes ends: in an orderly way, with an error, or not at all (nothing more comes, but no end is
reported). -/
inductive End where
  | eof
  | error (k : IoKind)
  | silent
  deriving DecidableEq, Repr

/-- The bytes a transport delivers, however it cuts them, and how they end. -/
def content : List ReadEvent → Bytes × End
  | [] => ([], .silent)
  | .pending :: es => content es
  | .error k :: _ => ([], .error k)
  | .ready [] :: _ => ([], .eof)
  | .ready (b :: d) :: es => (b :: d ++ (content es).1, (content es).2)

/-- Reading no further than `m` bytes. -/
def trunc (m : Nat) (v : Bytes × End) : Bytes × End :=
  if m ≤ v.1.length then (v.1.take m, .eof) else v

/-- What a reader below some `take`s delivers. -/
def view (r : Reader) : Bytes × End := r.limits.foldr trunc (content r.t.reads)

/-- A message with its length in front. The length is a varint of at most ten bytes, taken modulo `2^64`. -/
def Prefixed (bs data : Bytes) : Prop :=
  ∃ p, bs = p ++ data ∧ IsVarint p ∧ p.length ≤ 10 ∧ data.length = base128 p % 2 ^ 64

/-- Some bytes of a message, but not all. -/
def Unfinished (bs : Bytes) : Prop :=
  ((∀ b ∈ bs, 128 ≤ b.toNat) ∧ bs.length ≤ 10) ∨
  ∃ p data, bs = p ++ data ∧ IsVarint p ∧ p.length ≤ 10 ∧ data.length < base128 p % 2 ^ 64

/-- What reading one message from a stream of bytes should give: the message; the news that the stream is over, if
it ends before the first byte of a message; an error, if the length has more than ten bytes or the stream ends or breaks
inside a message. A broken stream whose error is "unexpected end of file" counts as over. -/
inductive Reads : Bytes × End → Except IoKind (Option Bytes) → Prop
  | message {m data} (rest e) : Prefixed m data → Reads (m ++ rest, e) (.ok (some data))
  | over : Reads ([], .eof) (.ok none)
  | overBroken : Reads ([], .error .unexpectedEof) (.ok none)
  | tooLong {p} (rest e) : (∀ b ∈ p, 128 ≤ b.toNat) → p.length = 10 → rest ≠ [] → Reads (p ++ rest, e) (.error .invalidData)
  | cut {bs} : Unfinished bs → bs ≠ [] → Reads (bs, .eof) (.error .unexpectedEof)
  | broken {bs k} : Unfinished bs → (bs = [] → k ≠ .unexpectedEof) → Reads (bs, .error k) (.error k)

/-- The bytes of a sequence of messages. -/
inductive Messages : Bytes → List Bytes → Prop
  | nil : Messages [] []
  | cons {b bs m ms} : Prefixed b m → Messages bs ms → Messages (b ++ bs) (m :: ms)

end Ngfs.Spec.Io
