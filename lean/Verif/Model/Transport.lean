import Verif.Model.Basic

/-!
What the code sees of the transport below it: `AsyncRead` and `AsyncWrite` of tokio, as scripts of
the answers that the successive polls get. Quantifying over all scripts is quantifying over all
behaviours of the transport. A script that has run out answers "pending".

Wakers (`cx.waker().wake_by_ref()`), which only decide when the next poll happens, are not part of it; they are modelled
beside it in `MplexWake` and `TlsWake`.
-/
namespace Ngfs

/-- `std::task::Poll`. -/
inductive Poll (α : Type) where
  | pending
  | ready (a : α)
  deriving DecidableEq, Repr

/-- `std::io::ErrorKind`, the kinds the code distinguishes. -/
inductive IoKind where
  | brokenPipe
  | unexpectedEof
  | invalidData
  | writeZero
  | other (n : Nat)
  deriving DecidableEq, Repr

/-- One answer of `AsyncRead::poll_read`. `ready []` is how tokio reports the end of the stream. -/
inductive ReadEvent where
  | pending
  | ready (data : Bytes)
  | error (kind : IoKind)
  deriving DecidableEq, Repr

/-- One answer of `AsyncWrite::poll_write`; `accept n` takes at most `n` bytes of what is offered. -/
inductive WriteEvent where
  | pending
  | accept (n : Nat)
  | error (kind : IoKind)
  deriving DecidableEq, Repr

/-- One answer of `AsyncWrite::poll_flush` or `poll_shutdown`. -/
inductive DoneEvent where
  | pending
  | ok
  | error (kind : IoKind)
  deriving DecidableEq, Repr

/-- A transport: what it will answer, and what it has taken so far. -/
structure Transport where
  reads : List ReadEvent
  writes : List WriteEvent
  flushes : List DoneEvent
  shutdowns : List DoneEvent
  /-- All bytes accepted by `poll_write`, in order (history variable). -/
  sent : Bytes
  deriving DecidableEq, Repr

/-- `AsyncRead::poll_read`. -/
def Transport.pollRead (t : Transport) : ReadEvent × Transport :=
  match t.reads with
  | [] => (.pending, t)
  | e :: es => (e, { t with reads := es })

/-- `AsyncWrite::poll_flush`. -/
def Transport.pollFlush (t : Transport) : DoneEvent × Transport :=
  match t.flushes with
  | [] => (.pending, t)
  | e :: es => (e, { t with flushes := es })

/-- `AsyncWrite::poll_shutdown`. -/
def Transport.pollShutdown (t : Transport) : DoneEvent × Transport :=
  match t.shutdowns with
  | [] => (.pending, t)
  | e :: es => (e, { t with shutdowns := es })

/-- The usual loop `while !outgoing.is_empty() { poll_write; advance }`: the answers still to come,
the bytes still to send, the bytes sent. -/
def writeLoop : List WriteEvent → Bytes → Bytes →
    Poll (Except IoKind Unit) × List WriteEvent × Bytes × Bytes
  | ws, [], sent => (.ready (.ok ()), ws, [], sent)
  | [], o :: os, sent => (.pending, [], o :: os, sent)
  | .pending :: ws, o :: os, sent => (.pending, ws, o :: os, sent)
  | .error k :: ws, o :: os, sent => (.ready (.error k), ws, o :: os, sent)
  | .accept n :: ws, o :: os, sent =>
    writeLoop ws ((o :: os).drop n) (sent ++ (o :: os).take n)

end Ngfs
