import Verif.Lemmas.Asn1

/-! What `read_object_identifier` makes of any object identifier, also of one whose numbers do not fit. -/
namespace Ngfs.Asn1
open Ngfs.Binary Ngfs.Spec

theorem shift_mod_or (acc d : Nat) (h : d < 128) : (acc <<< 7) % 2 ^ 64 ||| d = (acc * 128 + d) % 2 ^ 64 := by
  have e : (acc <<< 7) % 2 ^ 64 = (acc % 2 ^ 57) <<< 7 := by
    rw [Nat.shiftLeft_eq, Nat.shiftLeft_eq]; omega
  rw [e, shift_or_add (by simpa using h)]
  omega

theorem readsAs_varLoop_mod (init : Bytes) (last : UInt8) (hi : ∀ b ∈ init, 128 ≤ b.toNat) (hl : last.toNat < 128)
    (acc fuel : Nat) (hf : init.length < fuel) :
    ReadsAs (varLoop fuel acc) (init ++ [last])
      ((acc * 128 ^ (init ++ [last]).length + digits128 (init ++ [last])) % 2 ^ 64) := by
  induction init generalizing acc fuel with
  | nil =>
    obtain ⟨m, rfl⟩ : ∃ m, fuel = m + 1 := ⟨fuel - 1, by omega⟩
    have hv : digits128 [last] = last.toNat := by simp [digits128, Nat.ofDigits, Nat.mod_eq_of_lt hl]
    simp only [List.nil_append, hv, List.length_singleton, pow_one]
    refine readsAs_bind_pure (readsAs_u8 _) ?_
    simp only
    rw [if_pos ((u8_and_80_eq_zero last).mpr hl), u8_and_7f, Nat.mod_eq_of_lt hl, shift_mod_or _ _ hl]
    exact readsAs_pure _
  | cons b init ih =>
    obtain ⟨m, rfl⟩ : ∃ m, fuel = m + 1 := ⟨fuel - 1, by omega⟩
    have hb : 128 ≤ b.toNat := hi b (by simp)
    rw [List.cons_append, digits128_cons]
    have e : acc * 128 ^ (b :: (init ++ [last])).length + (b.toNat % 128 * 128 ^ (init ++ [last]).length + digits128 (init ++ [last]))
        = (acc * 128 + b.toNat % 128) * 128 ^ (init ++ [last]).length + digits128 (init ++ [last]) := by
      rw [List.length_cons, pow_succ]; ring
    rw [e]
    have hs : (acc <<< 7) % 2 ^ 64 ||| (b &&& 0x7f).toNat = (acc * 128 + b.toNat % 128) % 2 ^ 64 := by
      rw [u8_and_7f, shift_mod_or _ _ (Nat.mod_lt _ (by decide))]
    have em : ((acc * 128 + b.toNat % 128) * 128 ^ (init ++ [last]).length + digits128 (init ++ [last])) % 2 ^ 64
        = ((acc * 128 + b.toNat % 128) % 2 ^ 64 * 128 ^ (init ++ [last]).length + digits128 (init ++ [last])) % 2 ^ 64 := by
      rw [Nat.add_mod, Nat.mul_mod, ← Nat.mod_mod (acc * 128 + b.toNat % 128), ← Nat.mul_mod, ← Nat.add_mod, Nat.mod_mod]
    rw [em]
    have := readsAs_bind (p := readU8) (readsAs_u8 b) (e2 := init ++ [last])
      (f := fun b => if b &&& 0x80 = 0 then pure ((acc <<< 7) % 2 ^ 64 ||| (b &&& 0x7f).toNat)
        else varLoop m ((acc <<< 7) % 2 ^ 64 ||| (b &&& 0x7f).toNat))
      (b := ((acc * 128 + b.toNat % 128) % 2 ^ 64 * 128 ^ (init ++ [last]).length + digits128 (init ++ [last])) % 2 ^ 64)
      (by
        rw [if_neg (fun h => by have := (u8_and_80_eq_zero b).mp h; omega), hs]
        exact ih (fun x hx => hi x (by simp [hx])) _ _ (by simpa using hf))
    simpa [varLoop] using this

theorem readsAs_varU64_mod {n : Nat} {bs : Bytes} (h : Subidentifier n bs) : ReadsAs readVarU64 bs (n % 2 ^ 64) := by
  obtain ⟨hv, -, init, last, rfl, hi, hl⟩ := h
  intro pre post hlen
  have := readsAs_varLoop_mod init last hi hl 0 ((⟨pre ++ (init ++ [last]) ++ post, pre.length⟩ : Reader).remaining + 1)
    (by simp [Reader.remaining]; omega) pre post hlen
  have hd : digits128 (init ++ [last]) = n := hv
  rw [hd, Nat.zero_mul, Nat.zero_add] at this
  simpa [readVarU64] using this

theorem oidLoop_more_mod (parts : List Bytes) (ns : List Nat) (h : List.Forall₂ Subidentifier ns parts)
    (acc : List Nat) (hacc : acc ≠ []) (fuel : Nat) (hf : parts.flatten.length < fuel) :
    ReadsToEnd (oidLoop fuel acc) parts.flatten (acc ++ ns.map (· % 2 ^ 64)) := by
  induction h generalizing acc fuel with
  | nil =>
    intro pre _
    obtain ⟨m, rfl⟩ : ∃ m, fuel = m + 1 := ⟨fuel - 1, by omega⟩
    simp [oidLoop, Reader.remaining]
  | @cons n e ns parts h1 _ ih =>
    intro pre hl
    obtain ⟨m, rfl⟩ : ∃ m, fuel = m + 1 := ⟨fuel - 1, by omega⟩
    have hpos : 0 < e.length := by
      obtain ⟨-, -, init, last, rfl, -⟩ := h1; simp
    have hl' := hl
    simp only [List.flatten_cons, List.length_append] at hl' hf
    have g := readsAs_varU64_mod h1 pre parts.flatten (by simp only [List.length_append]; omega)
    have ee : pre ++ (e :: parts).flatten = pre ++ e ++ parts.flatten := by simp
    have g2 := ih (acc ++ [n % 2 ^ 64]) (by simp) m (by omega) (pre ++ e)
      (by simp only [List.length_append]; omega)
    rw [List.length_append] at g2
    rw [ee]
    simp only [oidLoop]
    rw [if_pos (by simp only [Reader.remaining, List.length_append]; omega), g]
    simp only
    rw [if_neg (by simp only [Reader.remaining, List.length_append]; omega), if_neg (by simpa using hacc)]
    simpa using g2

theorem readsToEnd_oid_mod {v : Nat} {rest : List Nat} {parts : List Bytes}
    (h : List.Forall₂ Subidentifier (v :: rest) parts) :
    ReadsToEnd readObjectIdentifier parts.flatten
      (v % 2 ^ 64 / 40 :: v % 2 ^ 64 % 40 :: rest.map (· % 2 ^ 64)) := by
  cases h with
  | @cons _ e _ parts h1 h2 =>
    intro pre hl
    have hpos : 0 < e.length := by
      obtain ⟨-, -, init, last, rfl, -⟩ := h1; simp
    have hl' := hl
    simp only [List.flatten_cons, List.length_append] at hl'
    have g := readsAs_varU64_mod h1 pre parts.flatten (by simp only [List.length_append]; omega)
    have ee : pre ++ (e :: parts).flatten = pre ++ e ++ parts.flatten := by simp
    rw [ee]
    have g2 := oidLoop_more_mod parts rest h2 [v % 2 ^ 64 / 40, v % 2 ^ 64 % 40] (by simp)
      ((⟨pre ++ e ++ parts.flatten, pre.length⟩ : Reader).remaining)
      (by simp only [Reader.remaining, List.length_append]; omega) (pre ++ e)
      (by simp only [List.length_append]; omega)
    rw [List.length_append] at g2
    simp only [readObjectIdentifier, oidLoop]
    rw [if_pos (by simp only [Reader.remaining, List.length_append]; omega), g]
    simp only
    rw [if_neg (by simp only [Reader.remaining, List.length_append]; omega)]
    simpa using g2

theorem readItem_oid {x y : Nat} {rest : List Nat} {d bs : Bytes} (h : OidContent (x :: y :: rest) d)
    (ht : Tlv 0 false 6 d bs) (hl : bs.length < 2 ^ 32) (pre post : Bytes) (hlen : (pre ++ bs ++ post).length < 2 ^ 64) :
    readItem ⟨pre ++ bs ++ post, pre.length⟩ =
      (.ok (.mk pre.length (pre.length + bs.length) (.objectIdentifier
        ((40 * x + y) % 2 ^ 64 / 40 :: (40 * x + y) % 2 ^ 64 % 40 :: rest.map (· % 2 ^ 64)))),
        ⟨pre ++ bs ++ post, pre.length + bs.length⟩) := by
  obtain ⟨x', y', rest', parts, he, hx, hy, hf, rfl⟩ := h
  obtain ⟨rfl, rfl, rfl⟩ : x = x' ∧ y = y' ∧ rest = rest' := by simpa using he
  have hd : parts.flatten.length < 2 ^ 32 := by
    obtain ⟨_, len, _, rfl⟩ := ht
    simp at hl ⊢; omega
  generalize hm : (⟨pre ++ bs ++ post, pre.length⟩ : Reader).remaining = m
  obtain ⟨hdr, he, h2, hread⟩ := readValue_tlv ht (by decide) hd (readItemN m)
  have g := hread pre post hlen
  have hc : (readContents (readItemN m) ⟨clsOf 0, formFor false, 6⟩ parts.flatten.length
      ⟨(pre ++ hdr) ++ parts.flatten, (pre ++ hdr).length⟩).1 = .ok (.objectIdentifier
        ((40 * x + y) % 2 ^ 64 / 40 :: (40 * x + y) % 2 ^ 64 % 40 :: rest.map (· % 2 ^ 64))) := by
    simp only [clsOf, formFor, readContents, readUniversal]
    simp only [ne_eq, not_true_eq_false, if_false]
    refine readsToEnd_ok (readsToEnd_oid_mod hf) ?_ (fun r => rfl)
    rw [he] at hlen; simp only [List.length_append] at hlen ⊢; omega
  rw [hc] at g
  simp only [readItem, hm, readItemN]
  rw [g]

end Ngfs.Asn1
