import Verif.Model.Proxy
import Verif.Lemmas.Io

/-! Properties of the proxy: C111, C112. -/
namespace Ngfs.Proxy
open Io Spec.Io

/-- Whether the receiver stopped taking data. -/
def Outcome.refused : Outcome → Bool
  | .writing => true
  | .writeError _ => true
  | _ => false

/-! ### C111: everything is passed on -/

/-- Unless the receiver stops taking data, it gets everything the sender sends. -/
def C111_statement : Prop :=
  ∀ (bufSize : Nat) (reader writer : Transport),
    (proxyLoop bufSize reader writer).1.refused = false →
    (proxyLoop bufSize reader writer).2.sent = writer.sent ++ (content reader.reads).1

/-- **C111** does not hold: with a buffer of size 0, which the option accepts, a read gives no bytes and is taken for the end. -/
theorem C111_false : ¬ C111_statement := by
  intro h
  have := h 0 ⟨[.ready [1]], [], [], [], []⟩ ⟨[], [], [], [], []⟩ (by decide)
  exact absurd this (by decide)

theorem loop_spec (bufSize : Nat) (hb : 0 < bufSize) (fuel : Nat) : ∀ (r : Reader) (w : Transport), r.limits = [] → scriptSize r.t.reads < fuel →
    ∃ pre, (loop bufSize fuel r w).2.sent = w.sent ++ pre ∧ pre <+: (content r.t.reads).1 ∧
      ((loop bufSize fuel r w).1.refused = false → pre = (content r.t.reads).1) ∧
      ((loop bufSize fuel r w).1 = .reading → (content r.t.reads).2 = .silent) ∧
      ((loop bufSize fuel r w).1 = .readEof → (content r.t.reads).2 = .eof) ∧
      (∀ k, (loop bufSize fuel r w).1 = .readError k → (content r.t.reads).2 = .error k) := by
  induction fuel with
  | zero => intro r w _ h; omega
  | succ fuel ih =>
    intro r w hl hf
    have hv : view r = content r.t.reads := by simp [view, hl]
    have hs := read_spec (scriptSize r.t.reads + 1) r bufSize hb (.inl (by omega))
    unfold loop
    generalize r.read (scriptSize r.t.reads + 1) bufSize = P at hs
    obtain ⟨x, r1⟩ := P
    rcases x with _ | (k | d)
    · simp only at hs ⊢
      rw [hv] at hs
      exact ⟨[], by simp, List.nil_prefix, by simp [hs], by simp [hs], by simp, by simp⟩
    · simp only at hs ⊢
      rw [hv] at hs
      exact ⟨[], by simp, List.nil_prefix, by simp [hs], by simp, by simp, by simp [hs]⟩
    · cases d with
      | nil =>
        simp only at hs ⊢
        rw [hv] at hs
        exact ⟨[], by simp, List.nil_prefix, by simp [hs], by simp, by simp [hs], by simp⟩
      | cons b d =>
        simp only at hs ⊢
        obtain ⟨bs, e, h1, h2⟩ := hs.view
        have hl1 : r1.limits = [] := by rw [hs.limits, hl]; rfl
        have hv1 : view r1 = content r1.t.reads := by simp [view, hl1]
        rw [hv] at h1
        rw [hv1] at h2
        have hc1 : (content r.t.reads).1 = (b :: d) ++ (content r1.t.reads).1 := by rw [h1, h2]
        have hc2 : (content r.t.reads).2 = (content r1.t.reads).2 := by rw [h1, h2]
        obtain ⟨ws, pre, hw1, hw2, hw3⟩ := writeAll_spec w (b :: d)
        generalize writeAll w (b :: d) = W at hw1 hw3
        obtain ⟨x, w1⟩ := W
        simp only at hw1 hw3
        have hp : pre <+: (content r.t.reads).1 := by rw [hc1]; exact hw2.trans (List.prefix_append _ _)
        rcases x with _ | (k | ⟨⟩)
        · exact ⟨pre, by rw [hw1], hp, by simp [Outcome.refused], by simp, by simp, by simp⟩
        · exact ⟨pre, by rw [hw1], hp, by simp [Outcome.refused], by simp, by simp, by simp⟩
        · simp only
          have hsz := hs.size
          simp only [List.length_cons] at hsz
          obtain ⟨pre', g1, g2, g3, g4, g5, g6⟩ := ih r1 w1 hl1 (by omega)
          have := hw3 rfl
          subst this
          refine ⟨(b :: d) ++ pre', ?_, ?_, ?_, ?_, ?_, ?_⟩
          · rw [g1, hw1]; simp
          · rw [hc1]; exact (List.prefix_append_right_inj _).2 g2
          · intro h; rw [g3 h, hc1]
          · rw [hc2]; exact g4
          · rw [hc2]; exact g5
          · rw [hc2]; exact g6

/-- **C111**, as far as it holds: with a buffer of any other size, whatever pieces the data comes in and is taken in, the receiver has always got
a prefix of what was sent, and all of it unless it stopped taking data. (Missing: buffers of size 0; see `C111_false`.) -/
theorem C111_forwards_partial (bufSize : Nat) (hb : 0 < bufSize) (reader writer : Transport) :
    ∃ pre, (proxyLoop bufSize reader writer).2.sent = writer.sent ++ pre ∧ pre <+: (content reader.reads).1 ∧
      ((proxyLoop bufSize reader writer).1.refused = false → pre = (content reader.reads).1) := by
  obtain ⟨pre, h1, h2, h3, -⟩ := loop_spec bufSize hb (scriptSize reader.reads + 1) ⟨reader, []⟩ writer rfl (by simp)
  exact ⟨pre, h1, h2, h3⟩

example : (proxyLoop 2 ⟨[.ready [1, 2, 3], .pending, .ready [4], .ready []], [], [], [], []⟩
    ⟨[], [.accept 1, .pending, .accept 9, .accept 9, .accept 9], [], [], []⟩).1 = .readEof ∧
    (proxyLoop 2 ⟨[.ready [1, 2, 3], .pending, .ready [4], .ready []], [], [], [], []⟩
    ⟨[], [.accept 1, .pending, .accept 9, .accept 9, .accept 9], [], [], []⟩).2.sent = [1, 2, 3, 4] := by decide

/-! ### C112: the end is passed on -/

/-- The receiver is told that the data is complete only if the sender said so. -/
def C112_statement : Prop :=
  ∀ (bufSize : Nat) (reader writer : Transport), 0 < bufSize →
    (proxyLoop bufSize reader writer).1.ends = true → (proxyLoop bufSize reader writer).1.refused = false →
    (content reader.reads).2 = .eof

/-- **C112** does not hold: after a connection that broke, the other one is ended as if everything had been sent. -/
theorem C112_false : ¬ C112_statement := by
  intro h
  have := h 4096 ⟨[.ready [1], .error (.other 104)], [], [], [], []⟩ ⟨[], [.accept 1], [], [], []⟩ (by decide) (by decide +kernel) (by decide +kernel)
  exact absurd this (by decide)

/-- **C112**, as far as it holds: the receiver is told that the data is complete only if the sender said so or its connection broke; and it is told,
unless it stopped taking data. (Missing: a broken connection looks like a complete one; see `C112_false`.) -/
theorem C112_end_partial (bufSize : Nat) (hb : 0 < bufSize) (reader writer : Transport)
    (hr : (proxyLoop bufSize reader writer).1.refused = false) :
    (proxyLoop bufSize reader writer).1.ends = true ↔ (content reader.reads).2 ≠ .silent := by
  obtain ⟨pre, -, -, -, h4, h5, h6⟩ := loop_spec bufSize hb (scriptSize reader.reads + 1) ⟨reader, []⟩ writer rfl (by simp)
  change (proxyLoop bufSize reader writer).1 = _ → _ at h4
  change (proxyLoop bufSize reader writer).1 = _ → _ at h5
  change ∀ k, (proxyLoop bufSize reader writer).1 = _ → _ at h6
  generalize (proxyLoop bufSize reader writer).1 = o at *
  simp only at h4 h5 h6
  cases o with
  | reading => simp [Outcome.ends, h4 rfl]
  | writing => simp [Outcome.refused] at hr
  | readError k => simp [Outcome.ends, h6 k rfl]
  | readEof => simp [Outcome.ends, h5 rfl]
  | writeError k => simp [Outcome.refused] at hr

end Ngfs.Proxy
