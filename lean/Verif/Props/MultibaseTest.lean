import Verif.Model.MultibaseTest
import Verif.Spec.MultibaseTest
import Verif.Props.MultibaseTool
import Verif.Props.Util
import Mathlib.Data.List.Forall2

/-! C186: the program that tests the multibase encodings. -/
namespace Ngfs.Multibase
open Spec Spec.Multibase

theorem dropCr_reverse {l : List Char} (h : l.getLast? ≠ some '\r') : Util.dropCr l.reverse = l := by
  cases hr : l.reverse with
  | nil => simpa [Util.dropCr] using (List.reverse_eq_nil_iff.mp hr).symm
  | cons c cs =>
    have hl : l = (c :: cs).reverse := by rw [← hr, List.reverse_reverse]
    have hc : c ≠ '\r' := by rintro rfl; apply h; rw [hl]; simp
    simp [Util.dropCr, hc, hl]

theorem linesLoop_line (l rest : List Char) : ∀ cur, '\n' ∉ l →
    Util.linesLoop cur (l ++ '\n' :: rest) = Util.dropCr (l.reverse ++ cur) :: Util.linesLoop [] rest := by
  induction l with
  | nil => intro cur _; simp [Util.linesLoop]
  | cons c cs ih =>
    intro cur h
    have hc : c ≠ '\n' := fun hc => h (by simp [hc])
    simp only [List.cons_append, Util.linesLoop, if_neg hc]
    rw [ih (c :: cur) (fun hm => h (by simp [hm]))]
    simp

theorem lines_textOf (lines : List (List Char)) (h : ∀ l ∈ lines, IsLine l) : Util.linesLoop [] (textOf lines) = lines := by
  induction lines with
  | nil => rfl
  | cons l ls ih =>
    have hl := h l (by simp)
    have : textOf (l :: ls) = l ++ '\n' :: textOf ls := by simp [textOf]
    rw [this, linesLoop_line _ _ _ hl.1, List.append_nil, dropCr_reverse hl.2, ih (fun x hx => h x (by simp [hx]))]

theorem row_fill (line encoded : List Char) : Row line encoded (fill40 line ++ ' ' :: encoded) :=
  ⟨40 - line.length, rfl, by omega, by omega⟩

theorem testLoop_row {base : Base} {n : Nat} {line : List Char} {lines : List (List Char)} {bytes : Bytes} (h : HexText line bytes) :
    testLoop base n (line :: lines) =
      ((fill40 line ++ ' ' :: encode bytes base) :: (testLoop base (n + 1) lines).1, (testLoop base (n + 1) lines).2) := by
  have h1 := (Util.C34_parses_exactly line bytes).mpr h
  simp only [testLoop, h1, (C13_multibase_round_trip bytes base).1, if_true]

/-- C186. If all lines are numbers in hex and the base has a name, the program prints one row for each, with the number and an encoding from which
every reader gets the number back, and succeeds. -/
theorem C186_table (base : Base) (lines : List (List Char)) (numbers : List Bytes) (hl : ∀ l ∈ lines, IsLine l)
    (hn : List.Forall₂ HexText lines numbers) :
    (testCmd (textOf lines) base.name).2 = .done ∧
    List.Forall₂ (fun line out => ∃ bytes encoded, HexText line bytes ∧ decode encoded = .ok bytes ∧ encoded.head? = some base.code ∧
      Row line encoded out) lines (testCmd (textOf lines) base.name).1 := by
  unfold testCmd
  rw [forName_name]
  simp only
  rw [lines_textOf lines hl]
  suffices h : ∀ n, (testLoop base n lines).2 = .done ∧
      List.Forall₂ (fun line out => ∃ bytes encoded, HexText line bytes ∧ decode encoded = .ok bytes ∧ encoded.head? = some base.code ∧
        Row line encoded out) lines (testLoop base n lines).1 from h 0
  clear hl
  induction hn with
  | nil => exact fun n => ⟨rfl, .nil⟩
  | @cons line bytes lines numbers h _ ih =>
    intro n
    rw [testLoop_row h]
    exact ⟨(ih _).1, .cons ⟨bytes, _, h, (C13_multibase_round_trip bytes base).1, rfl, row_fill _ _⟩ (ih _).2⟩

/-- C186. The first line that is no number in hex ends the program; its place, counted from zero, and its text are reported, and the rows before it
are printed. -/
theorem C186_bad_line (base : Base) (before after : List (List Char)) (line : List Char) (numbers : List Bytes)
    (hl : ∀ l ∈ before ++ line :: after, IsLine l) (hn : List.Forall₂ HexText before numbers) (hb : ∀ bytes, ¬ HexText line bytes) :
    (testCmd (textOf (before ++ line :: after)) base.name).2 = .invalidHex before.length line ∧
    (testCmd (textOf (before ++ line :: after)) base.name).1 = (testCmd (textOf before) base.name).1 := by
  unfold testCmd
  rw [forName_name]
  simp only
  rw [lines_textOf _ hl, lines_textOf before (fun l h => hl l (by simp [h]))]
  suffices h : ∀ n, (testLoop base n (before ++ line :: after)).2 = .invalidHex (n + before.length) line ∧
      (testLoop base n (before ++ line :: after)).1 = (testLoop base n before).1 by simpa using h 0
  clear hl
  have hbad : Util.fromHex line = none := by
    cases hf : Util.fromHex line with
    | none => rfl
    | some bytes => exact absurd ((Util.C34_parses_exactly line bytes).mp hf) (hb bytes)
  induction hn with
  | nil => intro n; simp [testLoop, hbad]
  | @cons l bytes ls _ h _ ih =>
    intro n
    rw [List.cons_append, testLoop_row h, testLoop_row h]
    obtain ⟨h1, h2⟩ := ih (n + 1)
    refine ⟨?_, by simp only [h2]⟩
    simp only [h1, List.length_cons]
    congr 1
    omega

/-- C186. The check that the program makes never fails, whatever the file and the base: it ends well, or because of its arguments. -/
theorem C186_check_passes (content : List Char) (baseName : String) :
    (testCmd content baseName).2 = .done ∨ (testCmd content baseName).2 = .unknownBase ∨
    ∃ n line, (testCmd content baseName).2 = .invalidHex n line ∧ ∀ bytes, ¬ HexText line bytes := by
  unfold testCmd
  split
  · exact .inr (.inl rfl)
  rename_i base _
  suffices h : ∀ lines n, (testLoop base n lines).2 = .done ∨
      ∃ m line, (testLoop base n lines).2 = .invalidHex m line ∧ ∀ bytes, ¬ HexText line bytes by
    rcases h (Util.linesLoop [] content) 0 with h | h
    · exact .inl h
    · exact .inr (.inr h)
  intro lines
  induction lines with
  | nil => exact fun n => .inl rfl
  | cons line lines ih =>
    intro n
    cases hf : Util.fromHex line with
    | none =>
      refine .inr ⟨n, line, by simp [testLoop, hf], fun bytes hb => ?_⟩
      rw [(Util.C34_parses_exactly line bytes).mpr hb] at hf
      cases hf
    | some bytes =>
      rw [testLoop_row ((Util.C34_parses_exactly line bytes).mp hf)]
      exact ih (n + 1)

/-- C186: two numbers and a line that is none. -/
example : testCmd "00ff\n\nxyz\n01\n".toList "base16" =
    ([("00ff" ++ String.join (List.replicate 36 " ") ++ " f00ff").toList, (String.join (List.replicate 40 " ") ++ " f").toList],
     .invalidHex 2 "xyz".toList) := by decide +kernel

example : ∀ l ∈ ["00ff".toList, [], "xyz".toList], IsLine l := by unfold IsLine; decide

end Ngfs.Multibase
