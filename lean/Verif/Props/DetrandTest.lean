import Verif.Model.DetrandTest
import Verif.Spec.DetrandTest
import Mathlib.Data.List.Forall2

/-!
C212: the table of `test_detrand`.
-/
namespace Ngfs.Detrand
open Spec Asn1

/-! ### Numbers as text -/

theorem digitChar_hex : ∀ d < 16, HexDigit (Nat.digitChar d) d := by
  intro d hd
  refine ⟨hd, .inl ?_⟩
  revert d
  decide

theorem hexadecimal_digits (n : Nat) : HexNumber (hexadecimal n) n := by
  induction n using Nat.strongRecOn with
  | ind n ih =>
    unfold hexadecimal
    rw [Nat.toDigits_eq_if (by decide)]
    split
    · exact ⟨[n], .cons (digitChar_hex n ‹_›) .nil, by simp⟩
    · obtain ⟨ds, h1, h2⟩ := ih (n / 16) (by omega)
      refine ⟨ds ++ [n % 16], List.rel_append h1 (.cons (digitChar_hex _ (Nat.mod_lt _ (by decide))) .nil), ?_⟩
      rw [List.foldl_append, ← h2]
      simp only [List.foldl_cons, List.foldl_nil]
      omega

theorem foldl_zeros (f : Nat → Nat → Nat) (hf : f 0 0 = 0) (k : Nat) : (List.replicate k 0).foldl f 0 = 0 := by
  induction k with
  | zero => rfl
  | succ k ih => rw [List.replicate_succ, List.foldl_cons, hf, ih]

theorem hexNumber_pad (k : Nat) {text : List Char} {n : Nat} (h : HexNumber text n) : HexNumber (List.replicate k '0' ++ text) n := by
  obtain ⟨ds, h1, h2⟩ := h
  refine ⟨List.replicate k 0 ++ ds, List.rel_append ?_ h1, ?_⟩
  · induction k with
    | zero => exact .nil
    | succ k ih => exact .cons (digitChar_hex 0 (by decide)) ih
  · rw [List.foldl_append, foldl_zeros _ rfl, h2]

theorem hex8_shows (v : UInt32) : (hex8 v).length = 8 ∧ HexNumber (hex8 v) v.toNat := by
  refine ⟨?_, hexNumber_pad _ (hexadecimal_digits _)⟩
  have : (hexadecimal v.toNat).length ≤ 8 := by
    unfold hexadecimal
    rw [Nat.length_toDigits_le_iff (by decide) (by decide)]
    have := v.toNat_lt
    omega
  unfold hex8
  rw [List.length_append, List.length_replicate]
  omega

theorem decimalNumber_decimal (n : Nat) : decimalNumber (decimal n) = some n := by
  have h : (decimal n).all (fun c => '0' ≤ c && c ≤ '9') = true ∧ (decimal n).foldl (fun n c => 10 * n + (c.toNat - 48)) 0 = n := by
    induction n using Nat.strongRecOn with
    | ind n ih =>
      have hd : ∀ d < 10, (decide ('0' ≤ Nat.digitChar d) && decide (Nat.digitChar d ≤ '9')) = true ∧ (Nat.digitChar d).toNat - 48 = d := by decide
      unfold decimal at ih ⊢
      rw [Nat.toDigits_eq_if (by decide)]
      split
      · have := hd n ‹_›
        simp only [List.all_cons, List.all_nil, List.foldl_cons, List.foldl_nil, Bool.and_true, this]
        exact ⟨trivial, by omega⟩
      · obtain ⟨h1, h2⟩ := ih (n / 10) (by omega)
        have := hd (n % 10) (Nat.mod_lt _ (by decide))
        rw [List.all_append, List.foldl_append, h1, h2]
        simp only [List.all_cons, List.all_nil, List.foldl_cons, List.foldl_nil, Bool.and_true, this]
        exact ⟨trivial, by omega⟩
  unfold decimalNumber
  rw [if_pos h.1, h.2]

/-! ### The digits -/

/-- The digits that are printed. -/
def bitsOf (v : UInt32) (i k : Nat) : List Char := (List.range' i k).map fun j => if v.toNat.testBit (31 - j) then '1' else '0'

theorem bit_test (v : UInt32) {i : Nat} (hi : i < 32) : ((v >>> (31 - UInt32.ofNat i)) &&& 1 = 1) ↔ v.toNat.testBit (31 - i) = true := by
  have h1 : (31 - UInt32.ofNat i).toNat = 31 - i := by
    rw [UInt32.toNat_sub_of_le]
    · simp; omega
    · rw [UInt32.le_iff_toNat_le]; simp; omega
  rw [← UInt32.toNat_inj, UInt32.toNat_and, UInt32.toNat_shiftRight, h1, Nat.mod_eq_of_lt (by omega : 31 - i < 32)]
  show (v.toNat >>> (31 - i)) &&& 1 = 1 ↔ _
  rw [Nat.and_one_is_mod, Nat.testBit, Nat.one_and_eq_mod_two]
  simp

theorem bitLoop_spec (v : UInt32) (k : Nat) : ∀ (i : Nat) (f : List Nat), i + k ≤ 32 →
    (bitLoop v i k f).1 = bitsOf v i k ∧
    ∀ j, (bitLoop v i k f).2[j]? = (f[j]?).map fun x => x + if i ≤ j ∧ j < i + k ∧ v.toNat.testBit (31 - j) then 1 else 0 := by
  induction k with
  | zero =>
    intro i f _
    refine ⟨rfl, fun j => ?_⟩
    have h : ¬ (i ≤ j ∧ j < i + 0 ∧ v.toNat.testBit (31 - j) = true) := by omega
    show f[j]? = _
    cases f[j]? with
    | none => rfl
    | some x => rw [Option.map_some, if_neg h, Nat.add_zero]
  | succ k ih =>
    intro i f hi
    have hb := bit_test v (i := i) (by omega)
    rw [bitLoop, bitsOf, List.range'_succ, List.map_cons]
    by_cases h : v.toNat.testBit (31 - i) = true
    · obtain ⟨i1, i2⟩ := ih (i + 1) (f.modify i (· + 1)) (by omega)
      rw [if_pos (hb.mpr h), if_pos h]
      refine ⟨by rw [i1]; rfl, fun j => ?_⟩
      rw [i2, List.getElem?_modify]
      by_cases hj : i = j
      · subst hj
        cases f[i]? <;> simp [h]
      · have : (i + 1 ≤ j ∧ j < i + 1 + k ∧ v.toNat.testBit (31 - j) = true) ↔ (i ≤ j ∧ j < i + (k + 1) ∧ v.toNat.testBit (31 - j) = true) := by
          constructor
          · rintro ⟨a, b, c⟩; exact ⟨by omega, by omega, c⟩
          · rintro ⟨a, b, c⟩; exact ⟨by omega, by omega, c⟩
        simp only [this, if_neg hj]
        cases f[j]? <;> rfl
    · obtain ⟨i1, i2⟩ := ih (i + 1) f (by omega)
      rw [if_neg (fun h' => h (hb.mp h')), if_neg h]
      refine ⟨by rw [i1]; rfl, fun j => ?_⟩
      rw [i2]
      have : (i + 1 ≤ j ∧ j < i + 1 + k ∧ v.toNat.testBit (31 - j) = true) ↔ (i ≤ j ∧ j < i + (k + 1) ∧ v.toNat.testBit (31 - j) = true) := by
        constructor
        · rintro ⟨a, b, c⟩; exact ⟨by omega, by omega, c⟩
        · rintro ⟨a, b, c⟩
          refine ⟨?_, by omega, c⟩
          rcases Nat.lt_or_eq_of_le a with a | rfl
          · omega
          · exact (h c).elim
      simp only [this]

theorem bitsOf_value (v : UInt32) (k : Nat) : ∀ i, i + k ≤ 32 →
    (bitsOf v i k).foldl (fun a c => 2 * a + if c = '1' then 1 else 0) (v.toNat / 2 ^ (32 - i)) = v.toNat / 2 ^ (32 - (i + k)) := by
  induction k with
  | zero => intro i _; rfl
  | succ k ih =>
    intro i hi
    rw [bitsOf, List.range'_succ, List.map_cons, List.foldl_cons]
    have hstep : 2 * (v.toNat / 2 ^ (32 - i)) + (if (if v.toNat.testBit (31 - i) = true then '1' else '0') = '1' then 1 else 0) =
        v.toNat / 2 ^ (32 - (i + 1)) := by
      rw [show 32 - i = (31 - i) + 1 by omega, Nat.pow_succ, ← Nat.div_div_eq_div_mul, show 32 - (i + 1) = 31 - i by omega,
        Nat.testBit_eq_decide_div_mod_eq]
      rcases Nat.mod_two_eq_zero_or_one (v.toNat / 2 ^ (31 - i)) with h | h <;> simp only [h] <;> simp <;> omega
    rw [hstep, show i + (k + 1) = i + 1 + k by omega]
    exact ih (i + 1) (by omega)

theorem bitsOf_shows (v : UInt32) : (bitsOf v 0 32).length = 32 ∧ BinaryNumber (bitsOf v 0 32) v.toNat := by
  refine ⟨by simp [bitsOf], ?_, ?_⟩
  · intro c hc
    obtain ⟨j, -, rfl⟩ := List.mem_map.mp hc
    split
    · exact .inr rfl
    · exact .inl rfl
  · have h := bitsOf_value v 32 0 (by decide)
    rw [show v.toNat / 2 ^ (32 - 0) = 0 from Nat.div_eq_of_lt v.toNat_lt] at h
    rw [h]
    simp

theorem bitsOf_get (v : UInt32) {j : Nat} (hj : j < 32) : ((bitsOf v 0 32)[j]? = some '1') ↔ v.toNat.testBit (31 - j) = true := by
  unfold bitsOf
  rw [List.getElem?_map, List.getElem?_range' (by omega)]
  simp

/-! ### The table -/

/-- The line for a number. -/
def lineOf (v : UInt32) : TableLine := ⟨hex8 v, bitsOf v 0 32⟩

theorem numberLoop_spec (n : Nat) : ∀ (g : Generator) (f : List Nat), f.length = 32 →
    (numberLoop n g f).1 = ((g.take n).map lineOf).flatMap TableLine.text ∧
    (numberLoop n g f).2.length = 32 ∧
    ∀ j < 32, (numberLoop n g f).2[j]? =
      (f[j]?).map fun x => x + ((g.take n).map lineOf).countP fun l => l.bits[j]? = some '1' := by
  induction n with
  | zero => intro g f hf; exact ⟨rfl, hf, fun j _ => by simp [numberLoop, Generator.take]⟩
  | succ n ih =>
    intro g f hf
    obtain ⟨b1, b3⟩ := bitLoop_spec g.next.1 32 0 f (by decide)
    have b2 : (bitLoop g.next.1 0 32 f).2.length = 32 := by
      have h1 := b3 32
      have h2 := b3 31
      rw [List.getElem?_eq_none (by omega : f.length ≤ 32)] at h1
      rw [List.getElem?_eq_getElem (by omega : 31 < f.length)] at h2
      have h3 := List.getElem?_eq_none_iff.mp h1
      have h4 := (List.getElem?_eq_some_iff.mp h2).1
      omega
    obtain ⟨i1, i2, i3⟩ := ih g.next.2 (bitLoop g.next.1 0 32 f).2 b2
    refine ⟨?_, i2, fun j hj => ?_⟩
    · show hex8 _ ++ ' ' :: (_ ++ '\n' :: _) = _
      rw [b1, i1, Generator.take, List.map_cons, List.flatMap_cons]
      simp [TableLine.text, lineOf]
    · show (numberLoop n g.next.2 (bitLoop g.next.1 0 32 f).2).2[j]? = _
      rw [i3 j hj, b3, Generator.take, List.map_cons, List.countP_cons, Option.map_map]
      congr 1
      funext x
      have hg := bitsOf_get g.next.1 hj
      simp only [Function.comp_apply, lineOf, decide_eq_true_eq, hg]
      have : (0 ≤ j ∧ j < 0 + 32 ∧ g.next.1.toNat.testBit (31 - j) = true) ↔ g.next.1.toNat.testBit (31 - j) = true :=
        ⟨fun h => h.2.2, fun h => ⟨by omega, by omega, h⟩⟩
      simp only [this]
      omega

theorem take_follow (n : Nat) : ∀ s : UInt32, Follow s.toNat (((Generator.new s).take n).map (·.toNat)) := by
  induction n with
  | zero => intro s; trivial
  | succ n ih =>
    intro s
    refine ⟨?_, ih _⟩
    show (214013 * s + 2531011 : UInt32).toNat = _
    simp [UInt32.toNat_add, UInt32.toNat_mul]

theorem takeLength (n : Nat) : ∀ g : Generator, (g.take n).length = n := by
  induction n with
  | zero => intro g; rfl
  | succ n ih => intro g; rw [Generator.take, List.length_cons, ih]

theorem frequencyLoop_spec (fs : List Nat) : ∀ i, i + fs.length ≤ 100 →
    ∃ texts : List (List Char), frequencyLoop i fs = texts.flatten ∧ texts.length = fs.length ∧
      ∀ j text, texts[j]? = some text → ∃ f, fs[j]? = some f ∧ CountLine text (i + j) f := by
  induction fs with
  | nil => intro i _; exact ⟨[], rfl, rfl, nofun⟩
  | cons f fs ih =>
    intro i hi
    rw [List.length_cons] at hi
    obtain ⟨texts, h1, h2, h3⟩ := ih (i + 1) (by omega)
    refine ⟨frequencyLine i f :: texts, by rw [frequencyLoop, h1, List.flatten_cons], by rw [List.length_cons, List.length_cons, h2], ?_⟩
    intro j text hj
    cases j with
    | zero =>
      rw [List.getElem?_cons_zero, Option.some.injEq] at hj
      refine ⟨f, rfl, decimal2 i, decimal f, hj.symm, ?_, ?_, decimalNumber_decimal f⟩
      · have : ∀ i < 100, (decimal2 i).length = 2 := by decide
        exact this i (by omega)
      · have : ∀ i < 100, decimalNumber (decimal2 i) = some i := by decide
        exact this i (by omega)
    | succ j =>
      rw [List.getElem?_cons_succ] at hj
      obtain ⟨g, h4, h5⟩ := h3 j text hj
      exact ⟨g, by rw [List.getElem?_cons_succ]; exact h4, by rw [show i + (j + 1) = i + 1 + j by omega]; exact h5⟩

/-- **C212**: the program prints a table and 32 lines below it. The table has a line for each of the numbers that follow 12345, in their order,
with the number in base 16 and in base 2; below it stands how many lines have a 1 in each place. -/
theorem C212_table (n : Nat) : ∃ (lines : List TableLine) (numbers : List Nat) (counts : List (List Char)),
    testMain n = lines.flatMap TableLine.text ++ counts.flatten ∧
    numbers.length = n ∧ Follow 12345 numbers ∧ List.Forall₂ TableLine.Shows lines numbers ∧ counts.length = 32 ∧
    ∀ i text, counts[i]? = some text → CountLine text i (lines.countP fun l => l.bits[i]? = some '1') := by
  obtain ⟨h1, h2, h3⟩ := numberLoop_spec n (Generator.new 12345) (List.replicate 32 0) (by simp)
  obtain ⟨texts, t1, t2, t3⟩ := frequencyLoop_spec (numberLoop n (Generator.new 12345) (List.replicate 32 0)).2 0 (by omega)
  refine ⟨((Generator.new 12345).take n).map lineOf, ((Generator.new 12345).take n).map (fun v : UInt32 => v.toNat), texts, ?_, ?_, take_follow n 12345, ?_,
    by rw [t2, h2], ?_⟩
  · unfold testMain
    simp only
    rw [h1, t1]
  · rw [List.length_map, takeLength]
  · rw [List.forall₂_map_left_iff, List.forall₂_map_right_iff, List.forall₂_same]
    intro v _
    exact ⟨(hex8_shows v).1, (hex8_shows v).2, (bitsOf_shows v).1, (bitsOf_shows v).2⟩
  · intro i text hi
    obtain ⟨f, g1, g2⟩ := t3 i text hi
    have hl : i < 32 := by
      have := (List.getElem?_eq_some_iff.mp hi).1
      omega
    rw [h3 i hl, List.getElem?_replicate, if_pos hl] at g1
    simp only [Option.map_some, Nat.zero_add, Option.some.injEq] at g1
    rw [g1]
    simpa using g2

/-- The first line of the table. -/
example : (testMain 1).take 42 = "9da03218 10011101101000000011001000011000\n".toList := by decide +kernel

end Ngfs.Detrand
