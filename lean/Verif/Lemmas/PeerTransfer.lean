import Verif.Lemmas.PeerLoop

/-! Requests and blocks (C49). -/
namespace Ngfs.Torrent
open Binary Spec Spec.Torrent Util

/-! ### Tiling -/

theorem blockLoop_count {index L : Nat} (hL : L ≤ 2 ^ 32) (i o : Nat) : ∀ (n start : Nat), (L - start) / 16384 + 1 ≤ n →
    (blockLoop index L n start).countP (fun r => decide (Request.Has i o r)) = if i = index % 2 ^ 32 ∧ start ≤ o ∧ o < L then 1 else 0 := by
  intro n
  induction n with
  | zero => intro start h; omega
  | succ n ih =>
    intro start h
    rw [blockLoop]
    split
    · rename_i hs
      have h2 : start + min 16384 (L - start) = min (start + 16384) L := by omega
      rw [List.countP_cons, h2]
      by_cases hfull : start + 16384 ≤ L
      · rw [ih _ (by omega)]
        have e1 : start % 2 ^ 32 = start := Nat.mod_eq_of_lt (by omega)
        have e2 : min 16384 (L - start) % 2 ^ 32 = 16384 := by omega
        simp only [Request.Has, e1, e2, decide_eq_true_eq]
        by_cases c1 : i = index % 2 ^ 32
        · subst c1
          simp only [true_and]
          split <;> split <;> split <;> omega
        · have : ¬ index % 2 ^ 32 = i := fun h => c1 h.symm
          simp only [c1, this, false_and, if_false]
      · have e1 : start % 2 ^ 32 = start := Nat.mod_eq_of_lt (by omega)
        have e2 : min 16384 (L - start) % 2 ^ 32 = L - start := by omega
        have htail : blockLoop index L n (min (start + 16384) L) = [] := by
          rcases n with _ | n
          · rfl
          · rw [blockLoop, if_neg (by omega)]
        rw [htail]
        simp only [Request.Has, e1, e2, decide_eq_true_eq, List.countP_nil]
        by_cases c1 : i = index % 2 ^ 32
        · subst c1
          simp only [true_and]
          split <;> split <;> omega
        · have : ¬ index % 2 ^ 32 = i := fun h => c1 h.symm
          simp only [c1, this, false_and, if_false]
    · rw [if_neg (by omega)]; rfl

theorem blockLoop_mem {index L : Nat} : ∀ (n start : Nat), ∀ r ∈ blockLoop index L n start, 0 < r.length ∧ r.length ≤ 16384 ∧ Fits r := by
  intro n
  induction n with
  | zero => intro start r h; simp [blockLoop] at h
  | succ n ih =>
    intro start r h
    rw [blockLoop] at h
    split at h
    · rcases List.mem_cons.mp h with rfl | h
      · refine ⟨?_, ?_, ?_, ?_, ?_⟩ <;> simp only <;> omega
      · exact ih _ r h
    · simp at h

/-- The length of a piece. -/
def pieceLen (t : Torrent) (i : Nat) : Nat :=
  if i + 1 = t.pieces.length then t.totalLength - t.pieceLength * (t.pieces.length - 1) else t.pieceLength

theorem consistent_last {t : Torrent} (h : Consistent t) (hn : t.pieces.length ≠ 0) :
    t.lastPieceLength = .ok (t.totalLength - t.pieceLength * (t.pieces.length - 1)) := by
  obtain ⟨h1, h2, h3⟩ := h
  have : t.pieceLength * (t.pieces.length - 1) ≤ t.pieceLength * t.pieces.length := Nat.mul_le_mul_left _ (by omega)
  simp only [Torrent.lastPieceLength, if_neg hn, mulU, subU]
  rw [if_pos (by omega)]
  simp only [bind, Except.bind, if_pos h2]

theorem last_le {t : Torrent} (h : Consistent t) (hn : t.pieces.length ≠ 0) :
    t.totalLength - t.pieceLength * (t.pieces.length - 1) ≤ t.pieceLength := by
  obtain ⟨h1, h2, h3⟩ := h
  have : t.pieceLength * t.pieces.length = t.pieceLength * (t.pieces.length - 1) + t.pieceLength := by
    conv_lhs => rw [show t.pieces.length = (t.pieces.length - 1) + 1 by omega, Nat.mul_succ]
  omega

theorem pieceRequests_ok {t : Torrent} (h : Consistent t) (i : Nat) :
    pieceRequests t i = .ok (blockLoop i (pieceLen t i) (pieceLen t i / 16384 + 1) 0) := by
  unfold pieceRequests lengthOfPiece pieceLen
  by_cases hi : i + 1 = t.pieces.length
  · simp only [if_pos hi, consistent_last h (by omega)]
    have := last_le h (by omega)
    simp only [Except.map]
    split
    · rfl
    · have e : t.totalLength - t.pieceLength * (t.pieces.length - 1) = t.pieceLength := by omega
      rw [e]
  · simp only [if_neg hi]; rfl

theorem pieceLoop_ok {t : Torrent} (h : Consistent t) (is : List Nat) :
    pieceLoop t is = .ok (is.flatMap fun i => blockLoop i (pieceLen t i) (pieceLen t i / 16384 + 1) 0) := by
  induction is with
  | nil => rfl
  | cons i is ih =>
    rw [pieceLoop, pieceRequests_ok h, ih]
    rfl

theorem new_ok {t : Torrent} (h : Consistent t) :
    Transfer.new t = .ok ⟨t, (List.range t.pieces.length).flatMap fun i => blockLoop i (pieceLen t i) (pieceLen t i / 16384 + 1) 0, [], []⟩ := by
  rw [Transfer.new, pieceLoop_ok h]; rfl

theorem range_count {f : Nat → List Request} {g : Nat → Nat → Bool} {i o : Nat} :
    ∀ n, (∀ j, j < n → (f j).countP (fun r => decide (Request.Has i o r)) = if i = j ∧ g j o = true then 1 else 0) →
    ((List.range n).flatMap f).countP (fun r => decide (Request.Has i o r)) = if i < n ∧ g i o = true then 1 else 0 := by
  intro n
  induction n with
  | zero => intro _; simp
  | succ n ih =>
    intro h
    rw [List.range_succ, List.flatMap_append, List.countP_append, ih (fun j hj => h j (by omega)), List.flatMap_cons, List.flatMap_nil,
      List.append_nil, h n (by omega)]
    by_cases hg : g i o = true
    · simp only [hg, and_true]
      by_cases c : i = n
      · subst c; simp [hg]
      · simp only [c, false_and, if_false]
        split <;> split <;> omega
    · by_cases c : i = n
      · subst c; simp [hg]
      · simp [hg, c]

theorem hasByte_iff {t : Torrent} (h : Consistent t) (i o : Nat) : HasByte t i o ↔ i < t.pieces.length ∧ o < pieceLen t i := by
  have hcons := h
  obtain ⟨h1, h2, h3⟩ := h
  unfold HasByte pieceLen
  rw [Nat.mul_comm i]
  constructor
  · rintro ⟨a, b⟩
    have hi : i < t.pieces.length := by
      by_contra hc
      have := Nat.mul_le_mul_left t.pieceLength (Nat.le_of_not_lt hc)
      omega
    refine ⟨hi, ?_⟩
    split
    · rename_i hl
      rw [show t.pieces.length - 1 = i by omega]
      omega
    · exact a
  · rintro ⟨hi, b⟩
    split at b
    · rename_i hl
      have := last_le hcons (by omega)
      rw [show t.pieces.length - 1 = i by omega] at b this
      omega
    · rename_i hl
      have : t.pieceLength * (i + 1) ≤ t.pieceLength * (t.pieces.length - 1) := Nat.mul_le_mul_left _ (by omega)
      rw [Nat.mul_succ] at this
      omega

theorem pieceLen_le {t : Torrent} (h : Consistent t) (i : Nat) (hi : i < t.pieces.length) : pieceLen t i ≤ t.pieceLength := by
  unfold pieceLen
  split
  · exact last_le h (by omega)
  · exact Nat.le_refl _

theorem new_tiles {t : Torrent} {s : Transfer} (h : Consistent t) (hp : t.pieceLength ≤ 2 ^ 32) (hn : t.pieces.length ≤ 2 ^ 32)
    (hs : Transfer.new t = .ok s) : Tiles t s.pending := by
  rw [new_ok h] at hs
  injection hs with hs
  subst hs
  constructor
  · intro i o
    simp only
    rw [range_count (g := fun j o => decide (o < pieceLen t j))]
    · simp only [decide_eq_true_eq, hasByte_iff h]
    · intro j hj
      rw [blockLoop_count (Nat.le_trans (pieceLen_le h j hj) hp) i o _ _ (by omega), Nat.mod_eq_of_lt (by omega)]
      simp
  · intro r hr
    obtain ⟨i, -, hi⟩ := List.mem_flatMap.mp hr
    obtain ⟨a, b, -⟩ := blockLoop_mem _ _ r hi
    exact ⟨a, b⟩

theorem pieceLoop_fits {t : Torrent} : ∀ (is : List Nat) (rs : List Request), pieceLoop t is = .ok rs → ∀ r ∈ rs, Fits r := by
  intro is
  induction is with
  | nil => intro rs h r hr; injection h with h; subst h; simp at hr
  | cons i is ih =>
    intro rs h r hr
    rw [pieceLoop] at h
    rcases h1 : pieceRequests t i with e | r1
    · rw [h1] at h; simp [bind, Except.bind] at h
    · rcases h2 : pieceLoop t is with e | r2
      · rw [h1, h2] at h; simp [bind, Except.bind] at h
      · rw [h1, h2] at h
        simp only [bind, Except.bind, pure, Except.pure, Except.ok.injEq] at h
        subst h
        rcases List.mem_append.mp hr with hr | hr
        · unfold pieceRequests at h1
          rcases h3 : lengthOfPiece t i with e | l
          · rw [h3] at h1; simp [Except.map] at h1
          · rw [h3] at h1
            simp only [Except.map, Except.ok.injEq] at h1
            subst h1
            exact (blockLoop_mem _ _ r hr).2.2
        · exact ih _ h2 r hr

theorem new_parts {t : Torrent} {s : Transfer} (h : Transfer.new t = .ok s) :
    s.torrent = t ∧ s.active = [] ∧ s.completed = [] ∧ ∀ r ∈ s.pending, Fits r := by
  unfold Transfer.new at h
  rcases h1 : pieceLoop t (List.range t.pieces.length) with e | rs
  · rw [h1] at h; simp [bind, Except.bind] at h
  · rw [h1] at h
    simp only [bind, Except.bind, pure, Except.pure, Except.ok.injEq] at h
    subst h
    exact ⟨rfl, rfl, rfl, pieceLoop_fits _ _ h1⟩

/-! ### Conservation -/

theorem eraseIdx_perm {α : Type} : ∀ (l : List α) (k : Nat) (h : k < l.length), (l[k] :: l.eraseIdx k).Perm l
  | a :: l, 0, _ => .refl _
  | a :: l, k + 1, h => by
    have := eraseIdx_perm l k (by simpa using h)
    simp only [List.getElem_cons_succ, List.eraseIdx_cons_succ]
    exact (List.Perm.swap _ _ _).trans (this.cons a)

theorem start_perm (s : Transfer) : (allRequests s.startRequest.2).Perm (allRequests s) := by
  unfold Transfer.startRequest
  rcases h : s.pending with _ | ⟨r, rest⟩
  · simp [allRequests, h]
  · simp only [allRequests, h]
    apply List.Perm.append_right
    rw [← List.append_assoc]
    exact List.perm_append_comm.trans (by simp)

theorem complete_perm (s : Transfer) (i b : Nat) (data : Bytes) : (allRequests (s.completeRequest i b data)).Perm (allRequests s) := by
  unfold Transfer.completeRequest
  rcases h : s.active.findIdx? (matchesBlock i b data.length) with _ | k
  · simp
  · rw [List.findIdx?_eq_some_iff_getElem] at h
    obtain ⟨hk, hp, -⟩ := h
    simp only [allRequests, List.map_append, List.map_cons, List.map_nil]
    have hr : answered ⟨i, b, data⟩ = s.active[k] := by
      simp only [matchesBlock, decide_eq_true_eq] at hp
      obtain ⟨h1, h2, h3⟩ := hp
      rcases hr : s.active[k] with ⟨ri, rs, rl⟩
      rw [hr] at h1 h2 h3
      simp only at h1 h2 h3
      simp [answered, h1, h2, h3]
    rw [hr, List.append_assoc, List.append_assoc]
    apply List.Perm.append_left
    have h1 : (s.active[k] :: s.active.eraseIdx k).Perm s.active := eraseIdx_perm _ k hk
    have h2 : (s.active.eraseIdx k ++ (s.completed.map answered ++ [s.active[k]])).Perm
        (s.active[k] :: s.active.eraseIdx k ++ s.completed.map answered) := by
      rw [← List.append_assoc]
      exact List.perm_append_comm
    exact h2.trans (h1.append_right _)

theorem start_torrent (s : Transfer) : s.startRequest.2.torrent = s.torrent := by
  unfold Transfer.startRequest; split <;> rfl

theorem complete_torrent (s : Transfer) (i b : Nat) (data : Bytes) : (s.completeRequest i b data).torrent = s.torrent := by
  unfold Transfer.completeRequest; split <;> rfl

theorem run_perm (ops : List Op) : ∀ s : Transfer, (allRequests (run s ops)).Perm (allRequests s) ∧ (run s ops).torrent = s.torrent := by
  induction ops with
  | nil => intro s; exact ⟨.refl _, rfl⟩
  | cons op ops ih =>
    intro s
    cases op with
    | start => exact ⟨(ih _).1.trans (start_perm s), (ih _).2.trans (start_torrent s)⟩
    | complete i b data => exact ⟨(ih _).1.trans (complete_perm s i b data), (ih _).2.trans (complete_torrent s i b data)⟩

theorem run_append (s : Transfer) (a b : List Op) : run s (a ++ b) = run (run s a) b := by
  induction a generalizing s with
  | nil => rfl
  | cons op a ih => cases op <;> exact ih _

/-! ### The loop that sends requests -/

theorem requestLoop_eq : ∀ (n : Nat) (s : Transfer), 102 ≤ n + s.active.length →
    requestLoop n s = ((s.pending.take (101 - s.active.length)).flatMap queueRequest ++
        (if s.pending.length < 101 - s.active.length then queueNotInterested else []),
      { s with pending := s.pending.drop (101 - s.active.length), active := s.active ++ s.pending.take (101 - s.active.length) }) := by
  intro n
  induction n with
  | zero =>
    intro s h
    rw [requestLoop, show 101 - s.active.length = 0 by omega]
    simp
  | succ n ih =>
    intro s h
    rw [requestLoop]
    split
    · rename_i ha
      obtain ⟨k, hk⟩ : ∃ k, 101 - s.active.length = k + 1 := ⟨100 - s.active.length, by omega⟩
      unfold Transfer.startRequest
      rcases hp : s.pending with _ | ⟨r, rest⟩
      · simp only [hk]
        simp
        rw [← hp]
      · simp only
        rw [ih]
        · have e : 101 - (s.active ++ [r]).length = k := by simp; omega
          simp only [e, hk]
          simp
        · simp; omega
    · rw [show 101 - s.active.length = 0 by omega]
      simp

/-- What the loop does is a number of starts. -/
theorem requestLoop_run : ∀ (n : Nat) (s : Transfer), ∃ k, (requestLoop n s).2 = run s (List.replicate k .start) := by
  intro n
  induction n with
  | zero => intro s; exact ⟨0, rfl⟩
  | succ n ih =>
    intro s
    rw [requestLoop]
    split
    · rcases hs : s.startRequest with ⟨_ | r, s'⟩
      · refine ⟨0, ?_⟩
        unfold Transfer.startRequest at hs
        split at hs <;> simp at hs
        simp only [List.replicate, run, hs]
      · obtain ⟨k, hk⟩ := ih s'
        refine ⟨k + 1, ?_⟩
        rw [List.replicate_succ, run, hs]
        simpa using hk
    · exact ⟨0, rfl⟩

end Ngfs.Torrent
