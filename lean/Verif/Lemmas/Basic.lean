import Verif.Model.Basic
import Mathlib.Data.Nat.Bitwise

/-! Helper lemmas about bytes and bit operations. No claims here. -/
namespace Ngfs

theorem u8_lt (b : UInt8) : b.toNat < 256 := UInt8.toNat_lt b

theorem u8_ext {a b : UInt8} (h : a.toNat = b.toNat) : a = b := UInt8.toNat_inj.mp h

@[simp] theorem u8_ofNat_toNat (b : UInt8) : UInt8.ofNat b.toNat = b := by
  apply u8_ext; simp

theorem toNat_ofNat_lt {n : Nat} (h : n < 256) : (UInt8.ofNat n).toNat = n := by
  simp; omega

theorem and_7f (n : Nat) : n &&& 0x7f = n % 128 := Nat.and_two_pow_sub_one_eq_mod n 7
theorem and_3f (n : Nat) : n &&& 0x3f = n % 64 := Nat.and_two_pow_sub_one_eq_mod n 6
theorem and_1f (n : Nat) : n &&& 0x1f = n % 32 := Nat.and_two_pow_sub_one_eq_mod n 5
theorem and_0f (n : Nat) : n &&& 0x0f = n % 16 := Nat.and_two_pow_sub_one_eq_mod n 4
theorem and_7 (n : Nat) : n &&& 7 = n % 8 := Nat.and_two_pow_sub_one_eq_mod n 3
theorem and_3 (n : Nat) : n &&& 3 = n % 4 := Nat.and_two_pow_sub_one_eq_mod n 2
theorem and_1 (n : Nat) : n &&& 1 = n % 2 := Nat.and_two_pow_sub_one_eq_mod n 1
theorem and_ff (n : Nat) : n &&& 0xff = n % 256 := Nat.and_two_pow_sub_one_eq_mod n 8

theorem u8_and_7f (b : UInt8) : (b &&& 0x7f).toNat = b.toNat % 128 := by
  simp; exact and_7f _

/-- Every byte is one of 256 values: a statement about bytes can be checked by cases. -/
theorem forall_u8 {P : UInt8 → Prop} (h : ∀ n, n < 256 → P (UInt8.ofNat n)) (b : UInt8) : P b := by
  have := h b.toNat (u8_lt b)
  simpa using this

theorem u8_and_80_eq_zero (b : UInt8) : (b &&& 0x80 = 0) ↔ b.toNat < 128 := by
  revert b
  apply forall_u8
  decide +kernel

theorem u8_and_80_beq (b : UInt8) : (b &&& 0x80 == 0) = decide (b.toNat < 128) := by
  have := u8_and_80_eq_zero b
  by_cases h : b.toNat < 128 <;> simp [h, this]

/-- A shifted number or-ed with a smaller one is their sum. -/
theorem or_shift_add {a b i : Nat} (h : b < 2 ^ i) : b ||| (a <<< i) = b + a * 2 ^ i := by
  rw [Nat.or_comm, ← Nat.shiftLeft_add_eq_or_of_lt h, Nat.shiftLeft_eq]; omega

theorem shift_or_add {a b i : Nat} (h : b < 2 ^ i) : (a <<< i) ||| b = a * 2 ^ i + b := by
  rw [← Nat.shiftLeft_add_eq_or_of_lt h, Nat.shiftLeft_eq]

end Ngfs
