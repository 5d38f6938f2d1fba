import Verif.Lemmas.MplexFailure

/-! C204: a multiplexer reports the failures of its transport, and only those. -/
namespace Ngfs.Mplex
open Ngfs.Spec Ngfs.Spec.Mplex

/-- C204. Whatever is accepted, opened, read, written, flushed, shut down and dropped, in any order, and whatever the peer
sends: a call that takes from the transport fails only if reading from the transport failed in this way, the stream ended in
the middle of a frame, or what arrived is not the beginning of any sequence of frames; a call that puts into it fails only
if writing or flushing failed in this way, or, with "broken pipe", if shutting down this stream was asked for before. -/
theorem C204_only (t : Transport) (before : List Op) (op : Op) (k : IoKind)
    (h : (((Conn.new t).run before).2.1.step op).1 = .failed k) : Explained t before op k :=
  (step_cause (run_cause before (new_caused t)).1 op).1 k h

/-- C204. And they are reported: as long as no call has answered with a failure, the transport has not failed. -/
theorem C204_reports (t : Transport) (ops : List Op) (h : ∀ k, Answer.failed k ∉ ((Conn.new t).run ops).1) :
    NoFailure t ((Conn.new t).run ops).2.1.shared.frames.transport :=
  (run_cause ops (new_caused t)).2 h

/-- C204. In particular a failure is reported by the very call that met it. -/
theorem C204_reported_at_once (t : Transport) (before : List Op) (op : Op)
    (h : ¬ NoFailure ((Conn.new t).run before).2.1.shared.frames.transport
      (((Conn.new t).run before).2.1.step op).2.1.shared.frames.transport) :
    ∃ k, (((Conn.new t).run before).2.1.step op).1 = .failed k ∧ Explained t before op k := by
  by_contra hc
  have hn : ∀ k, (((Conn.new t).run before).2.1.step op).1 ≠ .failed k :=
    fun k hk => hc ⟨k, hk, C204_only t before op k hk⟩
  exact h ((step_cause (run_cause before (new_caused t)).1 op).2.2 hn)

/-! ### Examples -/

/-- The hypothesis of `C204_only` can be met in each of the ways: a write fails, then a read; the stream is cut off in the
middle of a frame, and a stream is written to after it was shut down; a peer sends a flag that does not exist. -/
example :
    ((Conn.new ⟨[.ready [8, 0, 10, 1, 7], .pending, .error (.other 104)], [.accept 100, .error (.other 32)], [.ok, .ok, .ok], [], []⟩).run
      [.accept, .read 0 10, .write 0 [1, 2], .flush 0, .write 0 [3], .flush 0, .flush 0, .read 0 10, .read 0 10]).1 =
      [.stream (.initiator 1), .bytes [7], .written 2, .done, .written 1, .failed (.other 32), .failed (.other 32), .pending,
        .failed (.other 104)] ∧
    ((Conn.new ⟨[.ready [8, 0, 10, 3, 7], .ready []], [.accept 100], [.ok, .ok, .ok], [], []⟩).run
      [.accept, .read 0 10, .shutdown 0, .write 0 [1], .flush 0]).1 =
      [.stream (.initiator 1), .failed .unexpectedEof, .done, .failed .brokenPipe, .failed .brokenPipe] ∧
    ((Conn.new ⟨[.pending, .ready [15]], [.accept 100], [.ok, .ok, .ok], [], []⟩).run [.accept, .connect none, .accept]).1 =
      [.pending, .stream (.receiver 33), .failed .invalidData] := by
  decide +kernel

/-- The hypothesis of `C204_reports` can be met, with a failure still to come. -/
example (k : IoKind) : Answer.failed k ∉ ((Conn.new ⟨[.ready [8, 0, 10, 1, 7], .pending, .error (.other 104)], [.accept 100], [.ok, .ok],
    [], []⟩).run [.accept, .read 0 10, .write 0 [1, 2], .flush 0, .read 0 10]).1 := by
  have h : ((Conn.new ⟨[.ready [8, 0, 10, 1, 7], .pending, .error (.other 104)], [.accept 100], [.ok, .ok],
    [], []⟩).run [.accept, .read 0 10, .write 0 [1, 2], .flush 0, .read 0 10]).1 =
      [.stream (.initiator 1), .bytes [7], .written 2, .done, .pending] := by decide +kernel
  rw [h]
  simp

end Ngfs.Mplex
