import Verif.Spec.Peer
import Verif.Lemmas.Binary

/-! Peer messages (C50). -/
namespace Ngfs.Torrent
open Binary Spec Spec.Torrent Util

theorem protocolName_eq : protocolName = 19 :: utf8Encode "BitTorrent protocol" := by decide +kernel

theorem field_beBytes {w n : Nat} (h : n < 256 ^ w) : Field w n (beBytes w n) :=
  ⟨beBytes_length w n, by rw [bigEndian_beBytes, Nat.mod_eq_of_lt h]⟩

theorem checkLen_ok {body : Bytes} {n : Nat} {u : Unit} : checkLen body n = .ok u ↔ body.length = n := by
  unfold checkLen; split <;> simp_all

theorem checkLen_err {body : Bytes} {n : Nat} {e : MsgErr} : checkLen body n = .error e ↔ body.length ≠ n ∧ e = .incorrectLength := by
  unfold checkLen; split <;> simp_all [eq_comm]

/-- What `parse_message` accepts. -/
theorem parse_iff (id : UInt8) (body : Bytes) (m : Message) :
    parseMessage id body = .ok m ↔ Body m (id :: body) ∧ Supported m := by
  have hmap : ∀ n (f : Message), (checkLen body n).map (fun _ => f) = .ok m ↔ body.length = n ∧ f = m := by
    intro n f
    unfold checkLen
    split <;> simp_all [Except.map]
  constructor
  · intro h
    unfold parseMessage at h
    split at h
    · rename_i hi; subst hi
      rw [hmap] at h; obtain ⟨hb, rfl⟩ := h
      rw [List.length_eq_zero_iff] at hb; subst hb; exact ⟨.choke, trivial⟩
    split at h
    · rename_i hi; subst hi
      rw [hmap] at h; obtain ⟨hb, rfl⟩ := h
      rw [List.length_eq_zero_iff] at hb; subst hb; exact ⟨.unchoke, trivial⟩
    split at h
    · rename_i hi; subst hi
      rw [hmap] at h; obtain ⟨hb, rfl⟩ := h
      rw [List.length_eq_zero_iff] at hb; subst hb; exact ⟨.interested, trivial⟩
    split at h
    · rename_i hi; subst hi
      rw [hmap] at h; obtain ⟨hb, rfl⟩ := h
      rw [List.length_eq_zero_iff] at hb; subst hb; exact ⟨.notInterested, trivial⟩
    split at h
    · rename_i hi; subst hi
      rw [hmap] at h; obtain ⟨hb, rfl⟩ := h
      exact ⟨.have ⟨hb, (beNat_eq body).symm⟩, trivial⟩
    split at h
    · rename_i hi; subst hi
      injection h with h; subst h
      exact ⟨.bitField, trivial⟩
    split at h
    · simp at h
    split at h
    · rename_i hi; subst hi
      split at h
      · simp at h
      · rename_i hb
        injection h with h; subst h
        refine ⟨?_, trivial⟩
        have e : body = body.take 4 ++ (body.drop 4).take 4 ++ body.drop 8 := by
          conv_lhs => rw [← List.take_append_drop 4 body, ← List.take_append_drop 4 (body.drop 4), List.drop_drop]
          rw [List.append_assoc]
        have := Body.piece (i := beNat (body.take 4)) (s := beNat ((body.drop 4).take 4)) (data := body.drop 8) (fi := body.take 4)
          (fs := (body.drop 4).take 4) ⟨by rw [List.length_take]; omega, (beNat_eq _).symm⟩
          ⟨by rw [List.length_take, List.length_drop]; omega, (beNat_eq _).symm⟩
        rw [← e] at this
        exact this
    split at h
    · simp at h
    split at h <;> simp at h
  · rintro ⟨h, hs⟩
    cases h with
    | choke => rfl
    | unchoke => rfl
    | interested => rfl
    | notInterested => rfl
    | «have» hf =>
      obtain ⟨h1, h2⟩ := hf
      simp [parseMessage, checkLen, h1, Except.map, beNat_eq, h2]
    | bitField => rfl
    | request => exact hs.elim
    | @piece i s data fi fs h1 h2 =>
      have l1 := h1.1
      have l2 := h2.1
      have e1 : (fi ++ fs ++ data).take 4 = fi := by rw [List.append_assoc, List.take_append_of_le_length (by omega), List.take_of_length_le (by omega)]
      have e2 : (fi ++ fs ++ data).drop 4 = fs ++ data := by
        rw [List.append_assoc, List.drop_append_of_le_length (by omega), List.drop_of_length_le (by omega), List.nil_append]
      have e3 : (fs ++ data).take 4 = fs := by rw [List.take_append_of_le_length (by omega), List.take_of_length_le (by omega)]
      have e4 : (fi ++ fs ++ data).drop 8 = data := by
        rw [show (8 : Nat) = 4 + 4 from rfl, ← List.drop_drop, e2, List.drop_append_of_le_length (by omega), List.drop_of_length_le (by omega), List.nil_append]
      have hl : ¬ (fi ++ fs ++ data).length < 8 := by simp only [List.length_append]; omega
      have : parseMessage 7 (fi ++ fs ++ data) =
          if (fi ++ fs ++ data).length < 8 then .error .panic
          else .ok (.piece (beNat ((fi ++ fs ++ data).take 4)) (beNat (((fi ++ fs ++ data).drop 4).take 4)) ((fi ++ fs ++ data).drop 8)) := rfl
      rw [this, if_neg hl, e1, e2, e3, e4, beNat_eq, beNat_eq, h1.2, h2.2]
    | cancel => exact hs.elim
    | port => exact hs.elim

/-- When `parse_message` panics. -/
theorem parse_panic (id : UInt8) (body : Bytes) : parseMessage id body = .error .panic ↔ Panics (id :: body) := by
  have hmap : ∀ n (f : Message), (checkLen body n).map (fun _ => f) ≠ .error .panic := by
    intro n f
    unfold checkLen
    split <;> simp_all [Except.map]
  unfold parseMessage
  split
  · rename_i hi; subst hi; simp only [hmap, false_iff]; exact id
  split
  · rename_i hi; subst hi; simp only [hmap, false_iff]; exact id
  split
  · rename_i hi; subst hi; simp only [hmap, false_iff]; exact id
  split
  · rename_i hi; subst hi; simp only [hmap, false_iff]; exact id
  split
  · rename_i hi; subst hi
    constructor
    · intro h; unfold checkLen at h; split at h <;> simp_all [Except.map]
    · exact fun h => h.elim
  split
  · rename_i hi; subst hi; simp only [reduceCtorEq, false_iff]; exact id
  split
  · rename_i hi; subst hi; simp only [true_iff]; trivial
  split
  · rename_i hi; subst hi
    show _ ↔ body.length < 8
    split <;> simp_all
  split
  · rename_i hi; subst hi; simp only [true_iff]; trivial
  split
  · rename_i hi; subst hi; simp only [true_iff]; trivial
  · simp only [Except.error.injEq, reduceCtorEq, false_iff]
    unfold Panics
    split <;> simp_all

end Ngfs.Torrent
