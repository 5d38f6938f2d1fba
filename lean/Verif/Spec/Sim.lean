import Verif.Model.Sim

/-! What a lossy channel may do, without the channel's own bookkeeping. -/
namespace Ngfs.Spec.Sim
open Ngfs.Sim

/-- Which copies of a message get through: none if the first copy is lost, the second only if there is one. -/
def copies (l : Luck) : List Fate :=
  if l.first.lost then [] else if l.dup && !l.second.lost then [l.first, l.second] else [l.first]

/-- When a copy of the `k`th message arrives: packets leave at a fixed rate, and travel for at least the minimal and at most the
maximal latency. -/
def due (p : Params) (k : Nat) (f : Fate) : Nat :=
  k * p.invBandwidth + (p.latencyMin + min f.extra (p.latencyMax - p.latencyMin))

/-- The copies that arrive, with their times of arrival, of the messages sent in a history, the first of which is the
`k`th. -/
def arrivals {M : Type} (p : Params) : Nat → List (Op M) → List (Nat × M)
  | _, [] => []
  | k, .recv _ :: ops => arrivals p k ops
  | k, .send _ m l :: ops => (copies l).map (fun f => (due p k f, m)) ++ arrivals p (k + 1) ops

/-- The number of messages sent in a history. -/
def sends {M : Type} : List (Op M) → Nat
  | [] => 0
  | .recv _ :: ops => sends ops
  | .send _ _ _ :: ops => sends ops + 1

/-- The clock does not go back. -/
def Clocked {M : Type} : Nat → List (Op M) → Prop
  | _, [] => True
  | t, op :: ops => t ≤ op.now ∧ Clocked op.now ops

end Ngfs.Spec.Sim
