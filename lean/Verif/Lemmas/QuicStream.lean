import Verif.Spec.Quic
import Mathlib.Data.List.Perm.Basic

/-! Helper lemmas about the crypto stream. No claims here. -/
namespace Ngfs.Quic
open Spec.Quic

theorem findIdx_spec {α : Type} {p : α → Bool} {l : List α} {i : Nat} (h : l.findIdx? p = some i) :
    ∃ a, l[i]? = some a ∧ p a = true := by
  rw [List.findIdx?_eq_some_iff_getElem] at h
  obtain ⟨hi, hp, _⟩ := h
  exact ⟨l[i], by simp [hi], hp⟩

theorem erase_perm {α : Type} {l : List α} {i : Nat} {a : α} (h : l[i]? = some a) : (a :: l.eraseIdx i).Perm l := by
  obtain ⟨hi, rfl⟩ := List.getElem?_eq_some_iff.mp h
  exact List.getElem_cons_eraseIdx_perm hi

theorem absorb {S data : Bytes} {f : CryptoFrame} (hd : data = S.take data.length) (hf : FrameOf S f)
    (h1 : f.startOffset ≤ data.length) (h2 : data.length - f.startOffset ≤ f.data.length) :
    data ++ f.data.drop (data.length - f.startOffset) = S.take (f.startOffset + f.data.length) ∧
      (data ++ f.data.drop (data.length - f.startOffset)).length = f.startOffset + f.data.length := by
  obtain ⟨hl, he⟩ := hf
  have hk : (data ++ f.data.drop (data.length - f.startOffset)).length = f.startOffset + f.data.length := by
    rw [List.length_append, List.length_drop]; omega
  refine ⟨?_, hk⟩
  generalize hn : data.length = n at *
  rw [show f.startOffset + f.data.length = n + (f.data.length - (n - f.startOffset)) by omega, List.take_add, hd]
  congr 1
  generalize f.data.length = m at *
  rw [he, List.drop_take, List.drop_drop, show f.startOffset + (n - f.startOffset) = n by omega]

/-- What holds after the rounds that take up pending frames. -/
theorem checkPending_spec {S : Bytes} (n : Nat) (s s' : CryptoStream) (hn : s.pending.length ≤ n) (h0 : s.dataStartOffset = 0)
    (hd : s.data = S.take s.data.length) (hf : ∀ f ∈ s.pending, FrameOf S f) (h : CryptoStream.checkPending n s = some s') :
    s'.dataStartOffset = 0 ∧ s'.data = S.take s'.data.length ∧ s.data.length ≤ s'.data.length ∧
      (∀ f ∈ s'.pending, s'.data.length < f.startOffset) ∧
      ∃ A, (A ++ s'.pending).Perm s.pending ∧ (∀ f ∈ A, f.startOffset + f.data.length ≤ s'.data.length) ∧
        ∀ i, s.data.length ≤ i → i < s'.data.length → ∃ f ∈ A, Covers f i := by
  induction n generalizing s with
  | zero =>
    obtain rfl : s = s' := by simpa [CryptoStream.checkPending] using h
    have : s.pending = [] := List.length_eq_zero_iff.mp (by omega)
    exact ⟨h0, hd, le_refl _, by simp [this], [], by simp, by simp, fun i _ _ => by omega⟩
  | succ n ih =>
    unfold CryptoStream.checkPending at h
    have hE : s.endOffset = s.data.length := by simp [CryptoStream.endOffset, h0]
    rw [hE] at h
    split at h
    · rename_i hnone
      obtain rfl : s = s' := by simpa using h
      rw [List.findIdx?_eq_none_iff] at hnone
      refine ⟨h0, hd, le_refl _, fun f hf => ?_, [], by simp, by simp, fun i _ _ => by omega⟩
      have := hnone f hf
      simpa using this
    · rename_i i hi
      obtain ⟨f, hfi, hp⟩ := findIdx_spec hi
      simp only [decide_eq_true_eq] at hp
      simp only [hfi] at h
      split at h
      · rename_i hle
        have hperm := erase_perm hfi
        have hmem : f ∈ s.pending := List.mem_of_getElem? hfi
        obtain ⟨ha, hal⟩ := absorb hd (hf f hmem) hp hle
        have := ih { s with pending := s.pending.eraseIdx i, data := s.data ++ f.data.drop (s.data.length - f.startOffset) }
          (by have := hperm.length_eq; simp only [List.length_cons] at this; simp only; omega) h0
          (by simp only; rw [hal]; exact ha)
          (fun g hg => hf g (List.mem_of_mem_eraseIdx hg)) h
        obtain ⟨g0, gd, gl, gp, A, gA, gE, gC⟩ := this
        simp only at gl gA gC
        rw [hal] at gl gC
        refine ⟨g0, gd, by omega, gp, f :: A, ?_, ?_, ?_⟩
        · exact (List.Perm.cons f gA).trans hperm
        · intro g hg
          rcases List.mem_cons.mp hg with rfl | hg
          · exact gl
          · exact gE g hg
        · intro j hj hj'
          by_cases hjf : j < f.startOffset + f.data.length
          · exact ⟨f, by simp, by omega, hjf⟩
          · obtain ⟨g, hg, hc⟩ := gC j (by omega) hj'
            exact ⟨g, by simp [hg], hc⟩
      · simp at h

/-- What holds after any number of frames: `A` are the frames taken up. -/
structure StreamInv (S : Bytes) (fs : List CryptoFrame) (s : CryptoStream) : Prop where
  start : s.dataStartOffset = 0
  data : s.data = S.take s.data.length
  pending : ∀ f ∈ s.pending, s.data.length < f.startOffset
  frames : ∃ A, (A ++ s.pending).Perm fs ∧ (∀ f ∈ A, f.startOffset + f.data.length ≤ s.data.length) ∧
    ∀ i, i < s.data.length → ∃ f ∈ A, Covers f i

theorem streamInv_new (S : Bytes) : StreamInv S [] .new :=
  ⟨rfl, by simp [CryptoStream.new], by simp [CryptoStream.new], [], by simp [CryptoStream.new], by simp, by simp [CryptoStream.new]⟩

theorem streamInv_add {S : Bytes} {fs : List CryptoFrame} {s s' : CryptoStream} {f : CryptoFrame} (h : StreamInv S fs s)
    (hfs : ∀ g ∈ fs, FrameOf S g) (hf : FrameOf S f) (ha : s.addFrame f = some s') : StreamInv S (fs ++ [f]) s' := by
  obtain ⟨h0, hd, hp, A, hA, hE, hC⟩ := h
  unfold CryptoStream.addFrame at ha
  obtain ⟨g0, gd, gl, gp, B, gB, gE, gC⟩ := checkPending_spec (S := S) _ { s with pending := s.pending ++ [f] } _ (by simp) h0 hd (by
    intro g hg
    simp only [List.mem_append, List.mem_singleton] at hg
    rcases hg with hg | rfl
    · exact hfs g (hA.subset (List.mem_append_right _ hg))
    · exact hf) ha
  simp only at gl gB gC
  refine ⟨g0, gd, gp, A ++ B, ?_, ?_, ?_⟩
  · rw [List.append_assoc]
    refine (List.Perm.append_left A gB).trans ?_
    rw [← List.append_assoc]
    exact List.Perm.append_right _ hA
  · intro g hg
    rcases List.mem_append.mp hg with hg | hg
    · have := hE g hg; omega
    · exact gE g hg
  · intro i hi
    by_cases hlt : i < s.data.length
    · obtain ⟨g, hg, hc⟩ := hC i hlt
      exact ⟨g, List.mem_append_left _ hg, hc⟩
    · obtain ⟨g, hg, hc⟩ := gC i (by omega) hi
      exact ⟨g, List.mem_append_right _ hg, hc⟩

theorem streamInv_addAll {S : Bytes} (gs : List CryptoFrame) {fs : List CryptoFrame} {s s' : CryptoStream} (h : StreamInv S fs s)
    (hfs : ∀ g ∈ fs, FrameOf S g) (hgs : ∀ g ∈ gs, FrameOf S g) (ha : s.addFrames gs = some s') : StreamInv S (fs ++ gs) s' := by
  induction gs generalizing fs s with
  | nil =>
    obtain rfl : s = s' := by simpa [CryptoStream.addFrames] using ha
    simpa using h
  | cons g gs ih =>
    unfold CryptoStream.addFrames at ha
    split at ha
    · simp at ha
    · rename_i t ht
      have := ih (streamInv_add h hfs (hgs g (by simp)) ht) (by
        intro x hx
        rcases List.mem_append.mp hx with hx | hx
        · exact hfs x hx
        · obtain rfl : x = g := by simpa using hx
          exact hgs x (by simp)) (fun x hx => hgs x (by simp [hx])) ha
      simpa using this

/-- The end of the data is the first byte no frame carries. -/
theorem streamInv_end {S : Bytes} {fs : List CryptoFrame} {s : CryptoStream} (h : StreamInv S fs s) :
    (∀ i, i < s.data.length → ∃ f ∈ fs, Covers f i) ∧ ¬ ∃ f ∈ fs, Covers f s.data.length := by
  obtain ⟨h0, hd, hp, A, hA, hE, hC⟩ := h
  constructor
  · intro i hi
    obtain ⟨f, hf, hc⟩ := hC i hi
    exact ⟨f, hA.subset (List.mem_append_left _ hf), hc⟩
  · rintro ⟨f, hf, h1, h2⟩
    rcases List.mem_append.mp (hA.mem_iff.mpr hf) with hf | hf
    · have := hE f hf; omega
    · have := hp f hf; omega

/-! ### The next frame -/

theorem findIdx_last {α : Type} {p : α → Bool} {l : List α} {a : α} (hl : ∀ x ∈ l, p x = false) (ha : p a = true) :
    (l ++ [a]).findIdx? p = some l.length := by
  rw [List.findIdx?_eq_some_iff_getElem]
  refine ⟨by simp, by simpa using ha, fun j hj => ?_⟩
  rw [List.getElem_append_left hj]
  simpa using hl _ (List.getElem_mem hj)

theorem addFrame_early {s : CryptoStream} {f : CryptoFrame} (h0 : s.dataStartOffset = 0)
    (hp : ∀ g ∈ s.pending, s.data.length < g.startOffset) (hf : s.data.length < f.startOffset) :
    s.addFrame f = some { s with pending := s.pending ++ [f] } := by
  unfold CryptoStream.addFrame CryptoStream.checkPending
  have hE : CryptoStream.endOffset { s with pending := s.pending ++ [f] } = s.data.length := by
    simp [CryptoStream.endOffset, h0]
  rw [hE]
  have : (s.pending ++ [f]).findIdx? (fun f => decide (f.startOffset ≤ s.data.length)) = none := by
    rw [List.findIdx?_eq_none_iff]
    intro g hg
    simp only [List.mem_append, List.mem_singleton] at hg
    simp only [decide_eq_false_iff_not, Nat.not_le]
    rcases hg with hg | rfl
    · exact hp g hg
    · exact hf
  simp only [this]

theorem addFrame_now {s : CryptoStream} {f : CryptoFrame} (h0 : s.dataStartOffset = 0)
    (hp : ∀ g ∈ s.pending, s.data.length < g.startOffset) (hf : f.startOffset ≤ s.data.length) :
    s.addFrame f = if s.data.length ≤ f.startOffset + f.data.length then
      CryptoStream.checkPending s.pending.length { s with data := s.data ++ f.data.drop (s.data.length - f.startOffset) }
      else none := by
  unfold CryptoStream.addFrame
  rw [CryptoStream.checkPending]
  have hE : CryptoStream.endOffset { s with pending := s.pending ++ [f] } = s.data.length := by
    simp [CryptoStream.endOffset, h0]
  rw [hE]
  have := findIdx_last (p := fun f : CryptoFrame => decide (f.startOffset ≤ s.data.length)) (l := s.pending) (a := f)
    (fun g hg => by simpa using hp g hg) (by simpa using hf)
  simp only [this, List.getElem?_append_right (le_refl _), Nat.sub_self, List.getElem?_cons_zero,
    List.eraseIdx_append_of_length_le (le_refl _), List.eraseIdx_cons_zero, List.append_nil]
  by_cases hc : s.data.length ≤ f.startOffset + f.data.length
  · rw [if_pos hc, if_pos (by omega)]
  · rw [if_neg hc, if_neg (by omega)]

theorem checkPending_stay {n : Nat} {s : CryptoStream} (h0 : s.dataStartOffset = 0)
    (hp : ∀ g ∈ s.pending, s.data.length < g.startOffset) : CryptoStream.checkPending n s = some s := by
  cases n with
  | zero => rfl
  | succ n =>
    have hE : s.endOffset = s.data.length := by simp [CryptoStream.endOffset, h0]
    rw [CryptoStream.checkPending, hE]
    have : s.pending.findIdx? (fun f => decide (f.startOffset ≤ s.data.length)) = none := by
      rw [List.findIdx?_eq_none_iff]
      intro g hg
      simpa using hp g hg
    simp only [this]

theorem addFrames_append (fs gs : List CryptoFrame) (s : CryptoStream) :
    s.addFrames (fs ++ gs) = (s.addFrames fs).bind fun t => t.addFrames gs := by
  induction fs generalizing s with
  | nil => rfl
  | cons f fs ih =>
    rw [List.cons_append, CryptoStream.addFrames, CryptoStream.addFrames]
    cases s.addFrame f with
    | none => rfl
    | some t => exact ih t

/-! ### Disjoint frames -/

/-- What holds while disjoint, non-empty frames arrive: `A` are the frames taken up, `later` those to come. -/
def DisjInv (A later : List CryptoFrame) (s : CryptoStream) : Prop :=
  s.dataStartOffset = 0 ∧ (∀ i, i < s.data.length → ∃ f ∈ A, Covers f i) ∧ (A ++ s.pending ++ later).Pairwise Disjoint ∧
    ∀ f ∈ s.pending ++ later, f.data ≠ []

theorem disjoint_symm : Std.Symm Disjoint := ⟨fun f g h i hc => h i ⟨hc.2, hc.1⟩⟩

theorem pairwise_perm {l l' : List CryptoFrame} (h : l.Perm l') (hp : l.Pairwise Disjoint) : l'.Pairwise Disjoint :=
  haveI := disjoint_symm
  h.pairwise hp (fun {_ _} h i hc => h i ⟨hc.2, hc.1⟩)

theorem checkPending_disj (n : Nat) (A later : List CryptoFrame) (s : CryptoStream) (h : DisjInv A later s) :
    ∃ A' s', CryptoStream.checkPending n s = some s' ∧ DisjInv A' later s' := by
  induction n generalizing A s with
  | zero => exact ⟨A, s, rfl, h⟩
  | succ n ih =>
    unfold CryptoStream.checkPending
    have hE : s.endOffset = s.data.length := by simp [CryptoStream.endOffset, h.1]
    rw [hE]
    split
    · exact ⟨A, s, rfl, h⟩
    · rename_i i hi
      obtain ⟨f, hfi, hp⟩ := findIdx_spec hi
      simp only [decide_eq_true_eq] at hp
      simp only [hfi]
      obtain ⟨h0, hC, hP, hN⟩ := h
      have hmem : f ∈ s.pending := List.mem_of_getElem? hfi
      have hne : 0 < f.data.length := List.length_pos_iff.mpr (hN f (by simp [hmem]))
      have hge : s.data.length ≤ f.startOffset := by
        by_contra hlt
        obtain ⟨a, ha, hc⟩ := hC f.startOffset (by omega)
        rw [List.append_assoc, List.pairwise_append] at hP
        exact hP.2.2 a ha f (by simp [hmem]) f.startOffset ⟨hc, ⟨le_refl _, by omega⟩⟩
      have hz : s.data.length - f.startOffset = 0 := by omega
      rw [hz, if_pos (Nat.zero_le _), List.drop_zero]
      refine ih (A ++ [f]) _ ⟨h0, ?_, ?_, ?_⟩
      · intro j hj
        simp only [List.length_append] at hj
        by_cases hlt : j < s.data.length
        · obtain ⟨a, ha, hc⟩ := hC j hlt
          exact ⟨a, by simp [ha], hc⟩
        · exact ⟨f, by simp, by omega, by omega⟩
      · refine pairwise_perm ?_ hP
        refine List.Perm.append_right _ ?_
        rw [List.append_assoc]
        exact List.Perm.append_left _ (erase_perm hfi).symm
      · intro g hg
        rcases List.mem_append.mp hg with hg | hg
        · exact hN g (by simp [List.mem_of_mem_eraseIdx hg])
        · exact hN g (by simp [hg])

theorem addFrames_disj (fs A : List CryptoFrame) (s : CryptoStream) (h : DisjInv A fs s) : ∃ s', s.addFrames fs = some s' := by
  induction fs generalizing A s with
  | nil => exact ⟨s, rfl⟩
  | cons f fs ih =>
    unfold CryptoStream.addFrames CryptoStream.addFrame
    obtain ⟨h0, hC, hP, hN⟩ := h
    obtain ⟨A', s', hs, hI⟩ := checkPending_disj (s.pending.length + 1) A fs { s with pending := s.pending ++ [f] }
      ⟨h0, hC, by simpa using hP, by simpa using hN⟩
    rw [hs]
    exact ih A' s' hI

end Ngfs.Quic
