import Verif.Spec.Sim
import Mathlib.Data.List.Perm.Basic

namespace Ngfs.Sim
open Spec.Sim

theorem nextRecvTime_fold {M : Type} (ms : List (InTransit M)) : ∀ (acc : Option Nat),
    let r := ms.foldl (fun (result : Option Nat) (mit : InTransit M) =>
      match result with
      | none => some mit.recvTime
      | some next => if next > mit.recvTime then some mit.recvTime else some next) acc
    (r = none ↔ ms = [] ∧ acc = none) ∧
    ∀ t, r = some t → (acc = some t ∨ ∃ m ∈ ms, m.recvTime = t) ∧ (∀ m ∈ ms, t ≤ m.recvTime) ∧ (∀ a, acc = some a → t ≤ a) := by
  induction ms with
  | nil =>
    intro acc
    simp only [List.foldl_nil]
    refine ⟨by simp, ?_⟩
    rintro t rfl
    exact ⟨.inl rfl, by simp, by rintro a ⟨⟩; exact Nat.le_refl _⟩
  | cons x xs ih =>
    intro acc
    simp only [List.foldl_cons]
    cases acc with
    | none =>
      obtain ⟨h1, h2⟩ := ih (some x.recvTime)
      refine ⟨by simp [h1], fun t ht => ?_⟩
      obtain ⟨h3, h4, h5⟩ := h2 t ht
      refine ⟨.inr ?_, ?_, by simp⟩
      · rcases h3 with h | ⟨m, hm, hmt⟩
        · cases h; exact ⟨x, List.mem_cons_self, rfl⟩
        · exact ⟨m, List.mem_cons_of_mem _ hm, hmt⟩
      · intro m hm
        rcases List.mem_cons.mp hm with rfl | hm
        · exact h5 _ rfl
        · exact h4 m hm
    | some a =>
      simp only
      split
      · rename_i hlt
        obtain ⟨h1, h2⟩ := ih (some x.recvTime)
        refine ⟨by simp [h1], fun t ht => ?_⟩
        obtain ⟨h3, h4, h5⟩ := h2 t ht
        have := h5 _ rfl
        refine ⟨.inr ?_, ?_, by rintro b ⟨⟩; omega⟩
        · rcases h3 with h | ⟨m, hm, hmt⟩
          · cases h; exact ⟨x, List.mem_cons_self, rfl⟩
          · exact ⟨m, List.mem_cons_of_mem _ hm, hmt⟩
        · intro m hm
          rcases List.mem_cons.mp hm with rfl | hm
          · exact this
          · exact h4 m hm
      · rename_i hlt
        obtain ⟨h1, h2⟩ := ih (some a)
        refine ⟨by simp [h1], fun t ht => ?_⟩
        obtain ⟨h3, h4, h5⟩ := h2 t ht
        have := h5 _ rfl
        refine ⟨?_, ?_, by rintro b ⟨⟩; omega⟩
        · rcases h3 with h | ⟨m, hm, hmt⟩
          · exact .inl h
          · exact .inr ⟨m, List.mem_cons_of_mem _ hm, hmt⟩
        · intro m hm
          rcases List.mem_cons.mp hm with rfl | hm
          · omega
          · exact h4 m hm

theorem nextRecvTime_none {M : Type} (c : Channel M) : c.nextRecvTime = none ↔ c.messages = [] := by
  exact (nextRecvTime_fold c.messages none).1.trans (by simp)

theorem nextRecvTime_some {M : Type} {c : Channel M} {t : Nat} (h : c.nextRecvTime = some t) :
    (∃ m ∈ c.messages, m.recvTime = t) ∧ ∀ m ∈ c.messages, t ≤ m.recvTime := by
  obtain ⟨h1, h2, -⟩ := (nextRecvTime_fold c.messages none).2 t h
  exact ⟨by simpa using h1, h2⟩

theorem bestIndex_spec {M : Type} (ms : List (InTransit M)) (time : Nat) (rest : List (InTransit M)) :
    ∀ (done : List (InTransit M)) (best : Option Nat), ms = done ++ rest →
    (best = none → ∀ m ∈ done, m.recvTime ≠ time) →
    (∀ bi, best = some bi → ∃ b, ms[bi]? = some b ∧ b.recvTime = time ∧
      ∀ m ∈ done, m.recvTime = time → b.recvPriority ≤ m.recvPriority) →
    (bestIndex ms time rest done.length best = none → ∀ m ∈ ms, m.recvTime ≠ time) ∧
    (∀ bi, bestIndex ms time rest done.length best = some bi → ∃ b, ms[bi]? = some b ∧ b.recvTime = time ∧
      ∀ m ∈ ms, m.recvTime = time → b.recvPriority ≤ m.recvPriority) := by
  induction rest with
  | nil =>
    intro done best hms h1 h2
    rw [List.append_nil] at hms
    subst hms
    exact ⟨h1, h2⟩
  | cons x xs ih =>
    intro done best hms h1 h2
    unfold bestIndex
    have hlen : (done ++ [x]).length = done.length + 1 := by simp
    have hx : ms[done.length]? = some x := by rw [hms]; simp
    rw [← hlen]
    apply ih (done ++ [x])
    · simp [hms]
    · intro hb m hm
      rcases List.mem_append.mp hm with hm | hm
      · refine h1 ?_ m hm
        by_cases ht : x.recvTime == time
        · rw [if_pos ht] at hb
          cases best with
          | none => rfl
          | some bi =>
            obtain ⟨b, hb1, -⟩ := h2 bi rfl
            simp only [hb1] at hb
            split at hb <;> cases hb
        · rw [if_neg ht] at hb; exact hb
      · rw [List.mem_singleton] at hm
        subst hm
        intro ht
        rw [if_pos (by simpa using ht)] at hb
        cases best with
        | none => cases hb
        | some bi =>
          obtain ⟨b, hb1, -⟩ := h2 bi rfl
          simp only [hb1] at hb
          split at hb <;> cases hb
    · intro bi hb
      by_cases ht : x.recvTime == time
      · rw [if_pos ht] at hb
        have ht' : x.recvTime = time := by simpa using ht
        cases best with
        | none =>
          cases hb
          refine ⟨x, hx, ht', ?_⟩
          intro m hm hmt
          rcases List.mem_append.mp hm with hm | hm
          · exact (h1 rfl m hm hmt).elim
          · rw [List.mem_singleton] at hm; subst hm; exact Nat.le_refl _
        | some b0 =>
          obtain ⟨b, hb1, hb2, hb3⟩ := h2 b0 rfl
          simp only [hb1] at hb
          split at hb
          · rename_i hgt
            cases hb
            refine ⟨x, hx, ht', ?_⟩
            intro m hm hmt
            rcases List.mem_append.mp hm with hm | hm
            · have := hb3 m hm hmt; omega
            · rw [List.mem_singleton] at hm; subst hm; exact Nat.le_refl _
          · rename_i hgt
            cases hb
            refine ⟨b, hb1, hb2, ?_⟩
            intro m hm hmt
            rcases List.mem_append.mp hm with hm | hm
            · exact hb3 m hm hmt
            · rw [List.mem_singleton] at hm; subst hm; omega
      · rw [if_neg ht] at hb
        obtain ⟨b, hb1, hb2, hb3⟩ := h2 bi hb
        refine ⟨b, hb1, hb2, ?_⟩
        intro m hm hmt
        rcases List.mem_append.mp hm with hm | hm
        · exact hb3 m hm hmt
        · rw [List.mem_singleton] at hm; subst hm; simp [hmt] at ht

theorem recv_none {M : Type} {c : Channel M} (h : c.recv.1 = none) : c.messages = [] ∧ c.recv.2 = c := by
  unfold Channel.recv at h ⊢
  cases ht : c.nextRecvTime with
  | none => exact ⟨(nextRecvTime_none c).mp ht, rfl⟩
  | some t =>
    exfalso
    simp only [ht] at h
    obtain ⟨⟨m, hm, hmt⟩, -⟩ := nextRecvTime_some ht
    obtain ⟨h1, h2⟩ := bestIndex_spec c.messages t c.messages [] none rfl (by simp) (by simp)
    simp only [List.length_nil] at h1 h2
    cases hb : bestIndex c.messages t c.messages 0 none with
    | none => exact h1 hb m hm hmt
    | some i =>
      obtain ⟨b, hb1, -⟩ := h2 i hb
      simp [hb, hb1] at h

theorem recv_some {M : Type} {c : Channel M} {mit : InTransit M} (h : c.recv.1 = some mit) :
    ∃ pre post, c.messages = pre ++ mit :: post ∧ c.recv.2 = { c with messages := pre ++ post } ∧
      c.nextRecvTime = some mit.recvTime ∧
      ∀ m ∈ c.messages, mit.recvTime ≤ m.recvTime ∧ (m.recvTime = mit.recvTime → mit.recvPriority ≤ m.recvPriority) := by
  unfold Channel.recv at h ⊢
  cases ht : c.nextRecvTime with
  | none => simp [ht] at h
  | some t =>
    simp only [ht] at h ⊢
    obtain ⟨-, hmin⟩ := nextRecvTime_some ht
    obtain ⟨-, h2⟩ := bestIndex_spec c.messages t c.messages [] none rfl (by simp) (by simp)
    simp only [List.length_nil] at h2
    cases hb : bestIndex c.messages t c.messages 0 none with
    | none => simp [hb] at h
    | some i =>
      obtain ⟨b, hb1, hb2, hb3⟩ := h2 i hb
      simp only [hb, hb1, Option.some.injEq] at h ⊢
      subst h
      obtain ⟨hi, he⟩ := List.getElem?_eq_some_iff.mp hb1
      refine ⟨c.messages.take i, c.messages.drop (i + 1), ?_, ?_, by rw [hb2], ?_⟩
      · conv => lhs; rw [← List.take_append_drop i c.messages]
        rw [List.drop_eq_getElem_cons hi, he]
      · rw [List.eraseIdx_eq_take_drop_succ]
      · intro m hm
        exact ⟨by rw [hb2]; exact hmin m hm, fun h => hb3 m hm (by omega)⟩

theorem recv_isSome {M : Type} {c : Channel M} (h : c.messages ≠ []) : ∃ mit, c.recv.1 = some mit := by
  cases hr : c.recv.1 with
  | none => exact (h (recv_none hr).1).elim
  | some mit => exact ⟨mit, rfl⟩

/-! ### Sending -/

theorem latency_eq (p : Params) (f : Fate) : latency p f = p.latencyMin + min f.extra (p.latencyMax - p.latencyMin) := by
  unfold latency
  split
  · rfl
  · have : p.latencyMax - p.latencyMin = 0 := by omega
    rw [this]; simp

theorem send_spec {M : Type} (c : Channel M) (m : M) (l : Luck) :
    ∃ new, (c.send m l).messages = c.messages ++ new ∧ (c.send m l).params = c.params ∧
      (c.send m l).nextSendTime = c.nextSendTime + c.params.invBandwidth ∧
      (c.send m l).nextMessageNo ≥ c.nextMessageNo + 1 ∧
      new.map (fun x => (x.recvTime, x.message)) =
        (copies l).map (fun f => (c.nextSendTime + (c.params.latencyMin + min f.extra (c.params.latencyMax - c.params.latencyMin)), m)) := by
  obtain ⟨dup, ⟨e1, l1, p1⟩, ⟨e2, l2, p2⟩⟩ := l
  cases dup <;> cases l1 <;> cases l2 <;>
    simp only [Channel.send, Channel.sendCopies, copies, if_true, if_false, Bool.false_eq_true, Bool.not_true, Bool.not_false,
      Bool.and_true, Bool.and_false, Bool.false_and, Bool.true_and, List.map_cons, List.map_nil, List.append_assoc,
      latency_eq, List.cons_append, List.nil_append] <;>
    first
      | exact ⟨_, rfl, by simp, by simp, by omega, by simp⟩
      | exact ⟨[], (List.append_nil _).symm, by simp, by simp, by omega, by simp⟩

end Ngfs.Sim
