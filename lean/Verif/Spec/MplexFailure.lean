import Verif.Spec.Failure
import Verif.Spec.Mplex

/-!
Vocabulary for the claim that a multiplexer reports the failures of its transport, and only those (C204).
-/
namespace Ngfs.Spec.Mplex
open Ngfs.Mplex Ngfs.Spec

/-- The stream of the transport ends in the middle of a frame. -/
def CutOff (t : Transport) : Prop :=
  ∃ used, used <+: t.reads ∧ ReadEvent.ready [] ∈ used ∧ ∀ fs, ¬ Frames (readBytes used) fs

/-- What the transport brings is not the beginning of any sequence of frames. -/
def Garbled (t : Transport) : Prop :=
  ∃ used, used <+: t.reads ∧ ∀ more fs, ¬ Frames (readBytes used ++ more) fs

/-- The causes that a failing call can have, `before` being the calls before it. -/
def Explained (t : Transport) (before : List Op) (op : Op) (k : IoKind) : Prop :=
  match op with
  | .accept | .read _ _ =>
    ReadEvent.error k ∈ t.reads ∨ (k = .unexpectedEof ∧ CutOff t) ∨ (k = .invalidData ∧ Garbled t)
  | .connect _ | .reconnect _ => WriteEvent.error k ∈ t.writes ∨ DoneEvent.error k ∈ t.flushes
  | .write h _ | .flush h | .shutdown h =>
    WriteEvent.error k ∈ t.writes ∨ DoneEvent.error k ∈ t.flushes ∨ (k = .brokenPipe ∧ Op.shutdown h ∈ before)
  | .dropReader _ => False

end Ngfs.Spec.Mplex
