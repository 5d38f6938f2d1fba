import Verif.Model.CertTime
import Verif.Spec.CertTime
import Mathlib.Tactic.IntervalCases

/-! Lemmas on the calendar. -/
namespace Ngfs.X509
open Ngfs.Spec

theorem isLeap_iff (y : Nat) : isLeap y = true ↔ LeapYear y := by
  simp only [isLeap, LeapYear, Bool.or_eq_true, Bool.and_eq_true, beq_iff_eq, bne_iff_ne, ne_eq]
  omega

theorem daysToYear_succ (y : Nat) : daysToYear (y + 1) = daysToYear y + yearDays y := by
  have h4 : (y + 1 + 3) / 4 = (y + 3) / 4 + (if y % 4 = 0 then 1 else 0) := by split <;> omega
  have h100 : (y + 1 + 99) / 100 = (y + 99) / 100 + (if y % 100 = 0 then 1 else 0) := by split <;> omega
  have h400 : (y + 1 + 399) / 400 = (y + 399) / 400 + (if y % 400 = 0 then 1 else 0) := by split <;> omega
  have hle : (y + 99) / 100 ≤ (y + 3) / 4 := by omega
  have hd : yearDays y + (if y % 100 = 0 then 1 else 0) = 365 + (if y % 4 = 0 then 1 else 0) + (if y % 400 = 0 then 1 else 0) := by
    simp only [yearDays, isLeap, Bool.or_eq_true, Bool.and_eq_true, beq_iff_eq, bne_iff_ne, ne_eq]
    have a1 : y % 400 = 0 → y % 100 = 0 := by omega
    have a2 : y % 100 = 0 → y % 4 = 0 := by omega
    by_cases c4 : y % 4 = 0 <;> by_cases c100 : y % 100 = 0 <;> by_cases c400 : y % 400 = 0 <;> simp_all
  simp only [daysToYear]
  rw [h4, h100, h400]
  omega

theorem yearOf_spec (fuel : Nat) : ∀ y d, d < fuel → (yearOf fuel y d).2 < yearDays (yearOf fuel y d).1 ∧ y ≤ (yearOf fuel y d).1 ∧
    daysToYear (yearOf fuel y d).1 + (yearOf fuel y d).2 = daysToYear y + d := by
  induction fuel with
  | zero => intro y d h; omega
  | succ fuel ih =>
    intro y d h
    rw [yearOf]
    by_cases hd : d < yearDays y
    · rw [if_pos hd]
      exact ⟨hd, Nat.le_refl _, rfl⟩
    · rw [if_neg hd]
      have hy : 365 ≤ yearDays y := by rw [yearDays]; split <;> omega
      obtain ⟨h1, h2, h3⟩ := ih (y + 1) (d - yearDays y) (by omega)
      refine ⟨h1, by omega, ?_⟩
      rw [h3, daysToYear_succ]
      omega

/-- The days from the beginning of the year to the beginning of the month `m`. -/
def toMonth (y m : Nat) : Nat := (monthStarts[m - 1]?).getD 0 + (if 2 < m then (if isLeap y then 1 else 0) else 0)

theorem toMonth_succ (y m : Nat) (h1 : 1 ≤ m) (h2 : m ≤ 12) : toMonth y (m + 1) = toMonth y m + monthDays y m := by
  cases hy : isLeap y <;> interval_cases m <;> simp [toMonth, monthDays, hy, monthStarts]

theorem monthOf_inv (y : Nat) (fuel : Nat) : ∀ m d, m + fuel = 12 → 1 ≤ m → toMonth y m + d < yearDays y →
    ∃ m' d', monthOf y fuel m d = (m', d') ∧ 1 ≤ m' ∧ m' ≤ 12 ∧ d' < monthDays y m' ∧ toMonth y m' + d' = toMonth y m + d := by
  induction fuel with
  | zero =>
    intro m d hm _ hd
    obtain rfl : m = 12 := by omega
    refine ⟨12, d, rfl, by omega, by omega, ?_, rfl⟩
    revert hd
    cases hy : isLeap y <;> simp [toMonth, monthDays, yearDays, hy, monthStarts] <;> omega
  | succ fuel ih =>
    intro m d hm h1 hd
    rw [monthOf]
    by_cases h : d < monthDays y m
    · rw [if_pos h]
      exact ⟨m, d, rfl, h1, by omega, h, rfl⟩
    · rw [if_neg h]
      have hs := toMonth_succ y m h1 (by omega)
      obtain ⟨m', d', a, b, c, e, f⟩ := ih (m + 1) (d - monthDays y m) (by omega) (by omega) (by omega)
      exact ⟨m', d', a, b, c, e, by omega⟩

theorem monthOf_spec (y d : Nat) (h : d < yearDays y) :
    ∃ m d', monthOf y 11 1 d = (m, d') ∧ 1 ≤ m ∧ m ≤ 12 ∧ d' < 31 ∧ DayNumber y m (d' + 1) (daysToYear y + d) := by
  have h0 : toMonth y 1 = 0 := rfl
  obtain ⟨m, d', a, b, c, e, f⟩ := monthOf_inv y 11 1 d rfl (by omega) (by omega)
  refine ⟨m, d', a, b, c, ?_, ?_⟩
  · revert e
    rw [monthDays]
    split
    · split <;> omega
    · split <;> omega
  · have hl : LeapYear y ∧ (if isLeap y then 1 else 0) = 1 ∨ ¬ LeapYear y ∧ (if isLeap y then 1 else 0) = 0 := by
      rw [← isLeap_iff]
      cases isLeap y <;> simp
    have hm : ∀ m, 1 ≤ m → m ≤ 12 → ∃ start next, monthStarts[m - 1]? = some start ∧ monthStarts[m]? = some next ∧
        toMonth y m = start + (if 2 < m then (if isLeap y then 1 else 0) else 0) ∧
        monthDays y m = next - start + (if m = 2 then (if isLeap y then 1 else 0) else 0) := by
      intro m h1 h2
      cases hy : isLeap y <;> interval_cases m <;> simp [toMonth, monthDays, hy, monthStarts]
    obtain ⟨start, next, h1, h2, h3, h4⟩ := hm m b c
    refine ⟨start, next, _, _, b, h1, h2, hl, rfl, by omega, by omega, by omega⟩

theorem digit_spec : ∀ n < 10, ('0' ≤ Nat.digitChar n && Nat.digitChar n ≤ '9') = true ∧ (Nat.digitChar n).toNat - 48 = n := by decide

theorem twoDigits_spec (n : Nat) (h : n < 100) : (twoDigits n).length = 2 ∧ decimalNumber (twoDigits n) = some n := by
  obtain ⟨a1, a2⟩ := digit_spec (n / 10) (by omega)
  obtain ⟨b1, b2⟩ := digit_spec (n % 10) (by omega)
  refine ⟨rfl, ?_⟩
  simp only [decimalNumber, twoDigits, List.all_cons, List.all_nil, a1, b1, Bool.and_true, if_true, List.foldl_cons, List.foldl_nil,
    a2, b2, Option.some.injEq]
  omega

theorem yearText_spec (y : Nat) (h : y < 10000) : (yearText y).length = 4 ∧ decimalNumber (yearText y) = some y := by
  obtain ⟨a1, a2⟩ := digit_spec (y / 100 / 10) (by omega)
  obtain ⟨b1, b2⟩ := digit_spec (y / 100 % 10) (by omega)
  obtain ⟨c1, c2⟩ := digit_spec (y % 100 / 10) (by omega)
  obtain ⟨d1, d2⟩ := digit_spec (y % 100 % 10) (by omega)
  rw [yearText, if_pos h]
  refine ⟨rfl, ?_⟩
  simp only [decimalNumber, twoDigits, List.cons_append, List.nil_append, List.all_cons, List.all_nil, a1, b1, c1, d1, Bool.and_true, if_true,
    List.foldl_cons, List.foldl_nil, a2, b2, c2, d2, Option.some.injEq]
  omega

/-- The text of every moment before the year 10000 is the text of that moment. -/
theorem timeText_spec (t : Nat) (h : t < 253402300800) : TimeText (timeText t) t := by
  obtain ⟨h1, h2, h3⟩ := yearOf_spec (t / 86400 + 1) 1970 (t / 86400) (by omega)
  rw [timeText]
  generalize yearOf (t / 86400 + 1) 1970 (t / 86400) = Y at *
  obtain ⟨y, d⟩ := Y
  simp only at h1 h2 h3 ⊢
  obtain ⟨m, d', m1, m2, m3, m4, m5⟩ := monthOf_spec y d h1
  rw [m1]
  simp only
  have e0 : daysToYear 1970 = epochDay := by decide
  have hy : y < 10000 := by
    by_contra hy
    have : daysToYear 10000 ≤ daysToYear y := by
      simp only [daysToYear]; omega
    have e1 : daysToYear 10000 = 3652425 := by decide
    simp only [epochDay] at e0
    omega
  obtain ⟨y1, y2⟩ := yearText_spec y hy
  obtain ⟨_, p1⟩ := twoDigits_spec m (by omega)
  obtain ⟨_, p2⟩ := twoDigits_spec (d' + 1) (by omega)
  obtain ⟨_, p3⟩ := twoDigits_spec (t % 86400 / 3600) (by omega)
  obtain ⟨_, p4⟩ := twoDigits_spec (t % 86400 / 60 % 60) (by omega)
  obtain ⟨_, p5⟩ := twoDigits_spec (t % 86400 % 60) (by omega)
  refine ⟨_, _, _, _, _, _, y, m, d' + 1, _, _, _, daysToYear y + d, by simp only [List.append_assoc], y1, rfl, rfl, rfl, rfl, rfl, y2, p1, p2, p3, p4,
    p5, m5, by omega, by omega, by omega, ?_⟩
  rw [h3, e0]
  omega

end Ngfs.X509
