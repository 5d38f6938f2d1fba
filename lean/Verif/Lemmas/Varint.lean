import Verif.Lemmas.Basic
import Verif.Model.Varint
import Verif.Spec.Varint

/-! Helper lemmas about varints. -/
namespace Ngfs.Varint
open Spec

theorem base128_append (a b : Bytes) : base128 (a ++ b) = base128 a + 128 ^ a.length * base128 b := by
  induction a with
  | nil => simp [base128]
  | cons x xs ih =>
    simp only [List.cons_append, base128, ih, List.length_cons, Nat.pow_succ]
    rw [Nat.mul_add, ← Nat.mul_assoc, Nat.mul_comm 128 (128 ^ xs.length), Nat.add_assoc]

theorem base128_lt (a : Bytes) : base128 a < 128 ^ a.length := by
  induction a with
  | nil => simp [base128]
  | cons x xs ih => simp only [base128, List.length_cons, Nat.pow_succ]; omega

theorem isVarint_cons_final {b : UInt8} {rest : Bytes} (hb : b.toNat < 128) :
    IsVarint (b :: rest) ↔ rest = [] := by
  constructor
  · rintro ⟨init, last, h, hi, hl⟩
    cases init with
    | nil => simp at h; exact h.2
    | cons x xs =>
      simp at h
      have := hi x (by simp)
      rw [← h.1] at this; omega
  · rintro rfl; exact ⟨[], b, by simp, by simp, hb⟩

theorem isVarint_cons_more {b : UInt8} {rest : Bytes} (hb : 128 ≤ b.toNat) :
    IsVarint (b :: rest) ↔ IsVarint rest := by
  constructor
  · rintro ⟨init, last, h, hi, hl⟩
    cases init with
    | nil => simp at h; rw [h.1] at hb; omega
    | cons x xs =>
      simp at h
      exact ⟨xs, last, h.2, fun y hy => hi y (by simp [hy]), hl⟩
  · rintro ⟨init, last, h, hi, hl⟩
    refine ⟨b :: init, last, by simp [h], ?_, hl⟩
    intro y hy
    rcases List.mem_cons.mp hy with rfl | hy
    · exact hb
    · exact hi y hy

theorem not_isVarint_nil : ¬ IsVarint [] := by
  rintro ⟨init, last, h, _, _⟩; simp at h

theorem encodeU64_small {v : Nat} (h : v < 128) : encodeU64 v = [UInt8.ofNat v] := by
  rw [encodeU64]
  have : v >>> 7 = 0 := by rw [Nat.shiftRight_eq_div_pow]; omega
  simp [this, and_7f, Nat.mod_eq_of_lt h]

theorem encodeU64_big {v : Nat} (h : 128 ≤ v) :
    encodeU64 v = UInt8.ofNat (v % 128 + 128) :: encodeU64 (v / 128) := by
  rw [encodeU64]
  have h1 : v >>> 7 = v / 128 := by rw [Nat.shiftRight_eq_div_pow]
  have h2 : v / 128 ≠ 0 := by omega
  have h3 : (v &&& 0x7f) ||| 0x80 = v % 128 + 128 := by
    rw [and_7f]
    have := or_shift_add (a := 1) (b := v % 128) (i := 7) (by omega)
    simpa using this
  simp [h1, h2, h3]

/-- Well-founded induction on the value, following the encoder. -/
theorem encode_induction {P : Nat → Prop} (small : ∀ v, v < 128 → P v)
    (big : ∀ v, 128 ≤ v → P (v / 128) → P v) (v : Nat) : P v := by
  induction v using Nat.strongRecOn with
  | _ v ih =>
    by_cases h : v < 128
    · exact small v h
    · exact big v (by omega) (ih _ (by omega))

theorem base128_encode (v : Nat) : base128 (encodeU64 v) = v := by
  induction v using encode_induction with
  | small v h => rw [encodeU64_small h]; simp [base128]; omega
  | big v h ih =>
    rw [encodeU64_big h, base128, ih, toNat_ofNat_lt (by omega)]; omega

theorem isVarint_encode (v : Nat) : IsVarint (encodeU64 v) := by
  induction v using encode_induction with
  | small v h =>
    rw [encodeU64_small h, isVarint_cons_final (by rw [toNat_ofNat_lt] <;> omega)]
  | big v h ih =>
    rw [encodeU64_big h, isVarint_cons_more (by rw [toNat_ofNat_lt] <;> omega)]; exact ih

theorem encode_ne_nil (v : Nat) : encodeU64 v ≠ [] := fun h =>
  not_isVarint_nil (h ▸ isVarint_encode v)

theorem encode_length_le {v k : Nat} (h : v < 128 ^ k) (hk : 0 < k) : (encodeU64 v).length ≤ k := by
  induction v using encode_induction generalizing k with
  | small v hv => rw [encodeU64_small hv]; exact hk
  | big v hv ih =>
    rw [encodeU64_big hv]
    cases k with
    | zero => omega
    | succ k =>
      have hk' : 0 < k := by
        rcases Nat.eq_zero_or_pos k with rfl | h'
        · simp at h; omega
        · exact h'
      have := ih (k := k) (by rw [Nat.pow_succ] at h; omega) hk'
      simpa using this

theorem encode_length_min (v : Nat) (bs : Bytes) (h : base128 bs = v) (hne : bs ≠ []) :
    (encodeU64 v).length ≤ bs.length := by
  apply encode_length_le
  · rw [← h]; exact base128_lt bs
  · exact List.length_pos_iff.mpr hne

/-- What `decodeLoop` computes, in terms of the specification. `k` bytes have been consumed. -/
theorem decodeLoop_ok_iff (bs : Bytes) (k res : Nat) (hk : k ≤ 9) (hres : res < 2 ^ (7 * k)) (v : Nat) :
    decodeLoop res (7 * k) bs = .ok v ↔
      IsVarint bs ∧ k + bs.length ≤ 10 ∧ v = res + 2 ^ (7 * k) * base128 bs ∧ v < 2 ^ 64 := by
  induction bs generalizing k res with
  | nil => simp [decodeLoop, not_isVarint_nil]
  | cons b rest ih =>
    have hb := u8_lt b
    have h63 : 7 * k ≤ 63 := by omega
    have hnot64 : ¬ (7 * k ≥ 64) := by omega
    by_cases hov : 7 * k = 63 ∧ b.toNat > 1
    · -- overflow
      have hk9 : k = 9 := by omega
      simp only [decodeLoop, if_neg hnot64, if_pos hov]
      subst hk9
      constructor
      · intro h; cases h
      · rintro ⟨hv, hlen, hval, hlt⟩
        have hrest : rest = [] := by
          cases rest with
          | nil => rfl
          | cons _ _ => simp at hlen; omega
        subst hrest
        have hb128 : b.toNat < 128 := by
          by_contra hc
          rw [isVarint_cons_more (by omega)] at hv
          exact not_isVarint_nil hv
        simp only [base128] at hval
        omega
    · have hmod : ((b &&& 0x7f).toNat <<< (7 * k)) % 2 ^ 64 = (b.toNat % 128) <<< (7 * k) := by
        rw [u8_and_7f]
        apply Nat.mod_eq_of_lt
        rw [Nat.shiftLeft_eq]
        by_cases hk9 : k = 9
        · subst hk9
          have : b.toNat ≤ 1 := by omega
          have : b.toNat % 128 ≤ 1 := by omega
          calc b.toNat % 128 * 2 ^ (7 * 9) ≤ 1 * 2 ^ (7 * 9) := Nat.mul_le_mul_right _ this
            _ < 2 ^ 64 := by decide
        · have h1 : 2 ^ (7 * k) ≤ 2 ^ 56 := Nat.pow_le_pow_right (by decide) (by omega)
          calc b.toNat % 128 * 2 ^ (7 * k) ≤ 127 * 2 ^ 56 := Nat.mul_le_mul (by omega) h1
            _ < 2 ^ 64 := by decide
      have hor : res ||| (b.toNat % 128) <<< (7 * k) = res + b.toNat % 128 * 2 ^ (7 * k) :=
        or_shift_add hres
      simp only [decodeLoop, if_neg hnot64, if_neg hov, hmod, hor, u8_and_80_beq]
      have hmul : res + b.toNat % 128 * 2 ^ (7 * k) + 2 ^ (7 * (k + 1)) * base128 rest
          = res + 2 ^ (7 * k) * base128 (b :: rest) := by
        simp only [base128]
        have : 2 ^ (7 * (k + 1)) = 2 ^ (7 * k) * 128 := by
          rw [Nat.mul_add, Nat.pow_add]
        rw [this, Nat.mul_add, Nat.mul_comm (b.toNat % 128), Nat.mul_assoc, Nat.add_assoc]
      by_cases hlast : b.toNat < 128
      · simp only [hlast, decide_true, if_true]
        rw [isVarint_cons_final hlast]
        cases rest with
        | nil =>
          simp only [List.isEmpty_nil, if_true, Except.ok.injEq, List.length_cons, List.length_nil]
          simp only [base128, Nat.mul_zero, Nat.add_zero] at hmul ⊢
          have hbound : res + b.toNat % 128 * 2 ^ (7 * k) < 2 ^ 64 := by
            have := Nat.or_lt_two_pow (x := res) (y := (b.toNat % 128) <<< (7 * k)) (n := 64)
              (Nat.lt_of_lt_of_le hres (Nat.pow_le_pow_right (by decide) (by omega)))
              (by rw [← hmod]; exact Nat.mod_lt _ (by decide))
            rwa [hor] at this
          constructor
          · rintro rfl; exact ⟨trivial, by omega, hmul, hbound⟩
          · rintro ⟨_, _, h, _⟩; omega
        | cons c cs => simp
      · simp only [hlast, decide_false]
        rw [isVarint_cons_more (by omega)]
        by_cases hk9 : k = 9
        · exfalso; apply hov; constructor <;> omega
        · have hres' : res + b.toNat % 128 * 2 ^ (7 * k) < 2 ^ (7 * (k + 1)) := by
            have hp : 2 ^ (7 * (k + 1)) = 2 ^ (7 * k) * 128 := by rw [Nat.mul_add, Nat.pow_add]
            rw [hp]
            have : b.toNat % 128 * 2 ^ (7 * k) ≤ 127 * 2 ^ (7 * k) := Nat.mul_le_mul_right _ (by omega)
            omega
          have := ih (k + 1) _ (by omega) hres'
          rw [show 7 * k + 7 = 7 * (k + 1) by omega]
          simp only [Bool.false_eq_true, if_false]
          rw [this, hmul, List.length_cons]
          constructor
          · rintro ⟨a, b, c, d⟩; exact ⟨a, by omega, c, d⟩
          · rintro ⟨a, b, c, d⟩; exact ⟨a, by omega, c, d⟩

theorem decodeU64_ok_iff (bs : Bytes) (v : Nat) :
    decodeU64 bs = .ok v ↔ IsVarint bs ∧ bs.length ≤ 10 ∧ v = base128 bs ∧ v < 2 ^ 64 := by
  have := decodeLoop_ok_iff bs 0 0 (by decide) (by decide) v
  simpa [decodeU64] using this

theorem decode_encode {v : Nat} (h : v < 2 ^ 64) : decodeU64 (encodeU64 v) = .ok v := by
  rw [decodeU64_ok_iff]
  refine ⟨isVarint_encode v, ?_, (base128_encode v).symm, h⟩
  apply encode_length_le _ (by decide)
  exact Nat.lt_trans h (by decide)

/-- What the incremental decoder computes after `k` bytes. -/
theorem feed_finished_iff (bs : Bytes) (k res : Nat) (hk : k ≤ 10) (hres : res < 2 ^ (7 * k))
    (hres64 : res < 2 ^ 64) (v : Nat) (rest : Bytes) :
    (Decoder.mk res (7 * k)).feed bs = (.finished v, rest) ↔
      ∃ p, bs = p ++ rest ∧ IsVarint p ∧ k + p.length ≤ 10 ∧
        v = (res + 2 ^ (7 * k) * base128 p) % 2 ^ 64 := by
  induction bs generalizing k res with
  | nil =>
    simp only [Decoder.feed]
    constructor
    · intro h; cases h
    · rintro ⟨p, h, hp, _⟩
      have : p = [] := (List.append_eq_nil_iff.mp h.symm).1
      subst this; exact (not_isVarint_nil hp).elim
  | cons b bs ih =>
    by_cases hk10 : k = 10
    · have h64 : (7 * k ≥ 64) := by omega
      simp only [Decoder.feed, Decoder.input, if_pos h64]
      constructor
      · intro h; cases h
      · rintro ⟨p, h, hp, hlen, _⟩
        have : p = [] := by
          cases p with
          | nil => rfl
          | cons _ _ => simp at hlen; omega
        subst this; exact (not_isVarint_nil hp).elim
    · have h64 : ¬ (7 * k ≥ 64) := by omega
      simp only [Decoder.feed, Decoder.input, if_neg h64, u8_and_7f, u8_and_80_beq]
      generalize hr : res ||| ((b.toNat % 128) <<< (7 * k)) % 2 ^ 64 = res'
      have hpow : 2 ^ (7 * (k + 1)) = 2 ^ (7 * k) * 128 := by rw [Nat.mul_add, Nat.pow_add]
      have hr64 : res' < 2 ^ 64 := by
        rw [← hr]; exact Nat.or_lt_two_pow hres64 (Nat.mod_lt _ (by decide))
      have hsum : res + b.toNat % 128 * 2 ^ (7 * k) < 2 ^ (7 * (k + 1)) := by
        rw [hpow]
        have : b.toNat % 128 * 2 ^ (7 * k) ≤ 127 * 2 ^ (7 * k) := Nat.mul_le_mul_right _ (by omega)
        omega
      have hval : res' = (res + b.toNat % 128 * 2 ^ (7 * k)) % 2 ^ 64 := by
        rw [← or_shift_add hres, Nat.or_mod_two_pow, ← hr, Nat.mod_eq_of_lt hres64]
      have hrk : res' < 2 ^ (7 * (k + 1)) := by
        rw [hval]; exact Nat.lt_of_le_of_lt (Nat.mod_le _ _) hsum
      by_cases hlast : b.toNat < 128
      · simp only [hlast, decide_true, if_true, Prod.mk.injEq, DecoderResult.finished.injEq]
        constructor
        · rintro ⟨rfl, rfl⟩
          refine ⟨[b], by simp, (isVarint_cons_final hlast).mpr rfl, by simp; omega, ?_⟩
          simp only [base128, Nat.mul_zero, Nat.add_zero]
          rw [hval, Nat.mul_comm]
        · rintro ⟨p, h, hp, hlen, hv⟩
          cases p with
          | nil => exact (not_isVarint_nil hp).elim
          | cons c cs =>
            simp only [List.cons_append, List.cons.injEq] at h
            obtain ⟨rfl, h⟩ := h
            rw [isVarint_cons_final hlast] at hp
            subst hp
            simp only [base128, Nat.mul_zero, Nat.add_zero] at hv
            refine ⟨?_, by simpa using h⟩
            rw [hv, hval, Nat.mul_comm]
      · simp only [hlast, decide_false, Bool.false_eq_true, if_false]
        rw [show 7 * k + 7 = 7 * (k + 1) by omega, ih (k + 1) res' (by omega) hrk hr64]
        have key : ∀ n, (res' + 2 ^ (7 * (k + 1)) * n) % 2 ^ 64
            = (res + 2 ^ (7 * k) * (b.toNat % 128 + 128 * n)) % 2 ^ 64 := by
          intro n
          rw [hval, Nat.mod_add_mod, hpow, Nat.mul_add, Nat.mul_assoc, Nat.mul_comm (b.toNat % 128),
            Nat.add_assoc]
        constructor
        · rintro ⟨p, rfl, hp, hlen, hv⟩
          refine ⟨b :: p, by simp, (isVarint_cons_more (by omega)).mpr hp, by simp; omega, ?_⟩
          rw [hv, key]; rfl
        · rintro ⟨p, h, hp, hlen, hv⟩
          cases p with
          | nil => exact (not_isVarint_nil hp).elim
          | cons c cs =>
            simp only [List.cons_append, List.cons.injEq] at h
            obtain ⟨rfl, h⟩ := h
            rw [isVarint_cons_more (by omega)] at hp
            refine ⟨cs, h, hp, by simp at hlen; omega, ?_⟩
            rw [hv, key]; rfl

/-- When the incremental decoder wants more input. -/
theorem feed_pending_iff (bs : Bytes) (k res : Nat) (hk : k ≤ 10) (rest : Bytes) :
    (Decoder.mk res (7 * k)).feed bs = (.pending, rest) ↔
      rest = [] ∧ (∀ b ∈ bs, 128 ≤ b.toNat) ∧ k + bs.length ≤ 10 := by
  induction bs generalizing k res with
  | nil => simp [Decoder.feed, eq_comm]; omega
  | cons b bs ih =>
    by_cases hk10 : k = 10
    · have h64 : (7 * k ≥ 64) := by omega
      simp only [Decoder.feed, Decoder.input, if_pos h64]
      simp; omega
    · have h64 : ¬ (7 * k ≥ 64) := by omega
      simp only [Decoder.feed, Decoder.input, if_neg h64, u8_and_80_beq]
      by_cases hlast : b.toNat < 128
      · simp [hlast]
      · simp only [hlast, decide_false, Bool.false_eq_true, if_false]
        rw [show 7 * k + 7 = 7 * (k + 1) by omega, ih (k + 1) _ (by omega)]
        simp only [List.mem_cons, forall_eq_or_imp, List.length_cons]
        constructor
        · rintro ⟨a, c, d⟩; exact ⟨a, ⟨by omega, c⟩, by omega⟩
        · rintro ⟨a, ⟨_, c⟩, d⟩; exact ⟨a, c, by omega⟩

/-- Missing final byte: nothing but continuation bytes, at most nine of them. -/
theorem decodeLoop_missing_iff (bs : Bytes) (k res : Nat) (hk : k ≤ 9) :
    decodeLoop res (7 * k) bs = .error .missingFinalByte ↔
      (∀ b ∈ bs, 128 ≤ b.toNat) ∧ k + bs.length ≤ 9 := by
  induction bs generalizing k res with
  | nil => simp [decodeLoop]; omega
  | cons b bs ih =>
    have h64 : ¬ (7 * k ≥ 64) := by omega
    by_cases hov : 7 * k = 63 ∧ b.toNat > 1
    · simp only [decodeLoop, if_neg h64, if_pos hov]
      simp; omega
    · simp only [decodeLoop, if_neg h64, if_neg hov, u8_and_80_beq]
      by_cases hlast : b.toNat < 128
      · simp only [hlast, decide_true, if_true]
        split <;> simp <;> omega
      · simp only [hlast, decide_false, Bool.false_eq_true, if_false]
        have hk9 : k ≠ 9 := by rintro rfl; apply hov; omega
        rw [show 7 * k + 7 = 7 * (k + 1) by omega, ih (k + 1) _ (by omega)]
        simp only [List.mem_cons, forall_eq_or_imp, List.length_cons]
        constructor
        · rintro ⟨c, d⟩; exact ⟨⟨by omega, c⟩, by omega⟩
        · rintro ⟨⟨_, c⟩, d⟩; exact ⟨c, by omega⟩

/-- Misplaced final byte: a complete value followed by something. -/
theorem decodeLoop_misplaced_iff (bs : Bytes) (k res : Nat) (hk : k ≤ 9) :
    decodeLoop res (7 * k) bs = .error .misplacedFinalByte ↔
      ∃ p s, bs = p ++ s ∧ s ≠ [] ∧ ∃ v, decodeLoop res (7 * k) p = .ok v := by
  induction bs generalizing k res with
  | nil =>
    simp only [decodeLoop]
    constructor
    · intro h; cases h
    · rintro ⟨p, s, h, hs, _⟩
      exact (hs (List.append_eq_nil_iff.mp h.symm).2).elim
  | cons b bs ih =>
    have h64 : ¬ (7 * k ≥ 64) := by omega
    have unf : ∀ cs, decodeLoop res (7 * k) (b :: cs) =
        if 7 * k = 63 ∧ b.toNat > 1 then .error .overflow else
          if b.toNat < 128 then
            if cs.isEmpty then .ok (res ||| (((b &&& 0x7f).toNat <<< (7 * k)) % 2 ^ 64))
            else .error .misplacedFinalByte
          else decodeLoop (res ||| (((b &&& 0x7f).toNat <<< (7 * k)) % 2 ^ 64)) (7 * (k + 1)) cs := by
      intro cs
      simp only [decodeLoop, if_neg h64, u8_and_80_beq, decide_eq_true_eq]
      rfl
    by_cases hov : 7 * k = 63 ∧ b.toNat > 1
    · rw [unf, if_pos hov]
      constructor
      · intro h; cases h
      · rintro ⟨p, s, h, hs, v, hv⟩
        cases p with
        | nil => simp [decodeLoop] at hv
        | cons c cs =>
          simp only [List.cons_append, List.cons.injEq] at h
          obtain ⟨rfl, h⟩ := h
          rw [unf, if_pos hov] at hv; cases hv
    · rw [unf, if_neg hov]
      by_cases hlast : b.toNat < 128
      · rw [if_pos hlast]
        constructor
        · intro h
          cases bs with
          | nil => simp at h
          | cons d ds =>
            refine ⟨[b], d :: ds, by simp, by simp, ?_⟩
            rw [unf, if_neg hov, if_pos hlast]; simp
        · rintro ⟨p, s, h, hs, v, hv⟩
          cases bs with
          | nil =>
            cases p with
            | nil => simp [decodeLoop] at hv
            | cons c cs =>
              simp only [List.cons_append, List.cons.injEq] at h
              exact (hs (List.append_eq_nil_iff.mp h.2.symm).2).elim
          | cons d ds => simp
      · rw [if_neg hlast]
        have hk9 : k ≠ 9 := by rintro rfl; apply hov; omega
        rw [ih (k + 1) _ (by omega)]
        constructor
        · rintro ⟨p, s, rfl, hs, v, hv⟩
          refine ⟨b :: p, s, by simp, hs, v, ?_⟩
          rw [unf, if_neg hov, if_neg hlast]; exact hv
        · rintro ⟨p, s, h, hs, v, hv⟩
          cases p with
          | nil => simp [decodeLoop] at hv
          | cons c cs =>
            simp only [List.cons_append, List.cons.injEq] at h
            obtain ⟨rfl, h⟩ := h
            rw [unf, if_neg hov, if_neg hlast] at hv
            exact ⟨cs, s, h, hs, v, hv⟩

/-- A well-formed varint determines how much of a longer string it takes. -/
theorem isVarint_prefix_unique {p q r s : Bytes} (hp : IsVarint p) (hq : IsVarint q)
    (h : p ++ r = q ++ s) : p = q := by
  induction p generalizing q with
  | nil => exact (not_isVarint_nil hp).elim
  | cons a p ih =>
    cases q with
    | nil => exact (not_isVarint_nil hq).elim
    | cons b q =>
      simp only [List.cons_append, List.cons.injEq] at h
      obtain ⟨rfl, h⟩ := h
      by_cases ha : a.toNat < 128
      · rw [isVarint_cons_final ha] at hp hq; rw [hp, hq]
      · rw [isVarint_cons_more (by omega)] at hp hq
        rw [ih hp hq h]

theorem decodeLoop_overflow_iff (bs : Bytes) (k res : Nat) (hk : k ≤ 9) :
    decodeLoop res (7 * k) bs = .error .overflow ↔
      ∃ p b s, bs = p ++ b :: s ∧ k + p.length = 9 ∧ (∀ c ∈ p, 128 ≤ c.toNat) ∧ 1 < b.toNat := by
  induction bs generalizing k res with
  | nil => simp [decodeLoop]
  | cons b bs ih =>
    have h64 : ¬ (7 * k ≥ 64) := by omega
    by_cases hov : 7 * k = 63 ∧ b.toNat > 1
    · simp only [decodeLoop, if_neg h64, if_pos hov, true_iff]
      exact ⟨[], b, bs, rfl, by simp; omega, by simp, hov.2⟩
    · simp only [decodeLoop, if_neg h64, if_neg hov, u8_and_80_beq]
      by_cases hlast : b.toNat < 128
      · simp only [hlast, decide_true, if_true]
        constructor
        · intro h; split at h <;> cases h
        · rintro ⟨p, c, s, h, hl, hp, hc⟩
          cases p with
          | nil =>
            simp only [List.nil_append, List.cons.injEq] at h
            obtain ⟨rfl, h⟩ := h
            simp at hl
            exact (hov ⟨by omega, hc⟩).elim
          | cons d ds =>
            simp only [List.cons_append, List.cons.injEq] at h
            obtain ⟨rfl, h⟩ := h
            have := hp b (by simp)
            omega
      · simp only [hlast, decide_false, Bool.false_eq_true, if_false]
        have hk9 : k ≠ 9 := by rintro rfl; apply hov; omega
        rw [show 7 * k + 7 = 7 * (k + 1) by omega, ih (k + 1) _ (by omega)]
        constructor
        · rintro ⟨p, c, s, rfl, hl, hp, hc⟩
          refine ⟨b :: p, c, s, rfl, by simp; omega, ?_, hc⟩
          intro x hx
          rcases List.mem_cons.mp hx with rfl | hx
          · omega
          · exact hp x hx
        · rintro ⟨p, c, s, h, hl, hp, hc⟩
          cases p with
          | nil => simp at hl; exact (hk9 hl).elim
          | cons d ds =>
            simp only [List.cons_append, List.cons.injEq] at h
            obtain ⟨rfl, h⟩ := h
            exact ⟨ds, c, s, h, by simp at hl; omega, fun x hx => hp x (by simp [hx]), hc⟩

theorem decodeU64_overflow_iff (bs : Bytes) :
    decodeU64 bs = .error .overflow ↔
      ∃ p b s, bs = p ++ b :: s ∧ p.length = 9 ∧ (∀ c ∈ p, 128 ≤ c.toNat) ∧ 1 < b.toNat := by
  have := decodeLoop_overflow_iff bs 0 0 (by decide)
  simpa [decodeU64] using this

theorem base128_lt_of_tenth (p : Bytes) (hl : p.length ≤ 10) (h : ∀ b, p[9]? = some b → b.toNat ≤ 1) :
    base128 p < 2 ^ 64 := by
  by_cases h9 : p.length ≤ 9
  · have h1 := base128_lt p
    have h2 : 128 ^ p.length ≤ 128 ^ 9 := Nat.pow_le_pow_right (by decide) h9
    have h3 : 128 ^ 9 < 2 ^ 64 := by decide
    omega
  · have hlen : p.length = 10 := by omega
    have hsplit : p = p.take 9 ++ [p[9]] := by
      conv => lhs; rw [← List.take_append_drop 9 p]
      congr 1
      rw [List.drop_eq_getElem_cons (by omega)]
      congr 1
      rw [List.drop_eq_nil_iff]; omega
    rw [hsplit, base128_append]
    have h1 := base128_lt (p.take 9)
    have hlt : (p.take 9).length = 9 := by simp; omega
    rw [hlt] at h1 ⊢
    have := h p[9] (by simp)
    simp only [base128]
    have h3 : (128:Nat) ^ 9 = 2 ^ 63 := by decide
    rw [h3] at h1 ⊢
    omega

end Ngfs.Varint
