import Verif.Model.HexDump
import Verif.Lemmas.Asn1PrintInj

/-! C141: the hex dump. -/
namespace Ngfs.Util
open Ngfs.Asn1 (hexadecimal unlines unlines_inj split_unique NoDigit toHex_free toHex_inj hexadecimal_free)

theorem hexDigits_ne (b : UInt8) : ∃ x y, toHex [b] = [x, y] ∧ x ≠ ' ' := by
  refine ⟨_, _, rfl, fun h => ?_⟩
  exact toHex_free (c := ' ') (by decide) [b] (by simp [toHex, h])

/-! ### The plain form -/

theorem plainDump_inj : ∀ {a b : Bytes}, plainDump a = plainDump b → a = b
  | [], [], _ => rfl
  | [], b :: bs, h => by
    obtain ⟨x, y, e, _⟩ := hexDigits_ne b
    simp [plainDump, e] at h
  | a :: as, [], h => by
    obtain ⟨x, y, e, _⟩ := hexDigits_ne a
    simp [plainDump, e] at h
  | a :: as, b :: bs, h => by
    obtain ⟨x, y, e, _⟩ := hexDigits_ne a
    obtain ⟨z, w, f, _⟩ := hexDigits_ne b
    simp only [plainDump, e, f, List.cons_append, List.nil_append, List.append_assoc, List.cons.injEq] at h
    obtain ⟨h1, h2, h3⟩ := h
    have hab : [a] = [b] := toHex_inj (by rw [e, f, h1, h2])
    have hne : ∀ {l : Bytes}, 0 < l.length → plainDump l ≠ [] := by
      intro l hl
      cases l with
      | nil => simp at hl
      | cons c cs =>
        obtain ⟨u, v, g, _⟩ := hexDigits_ne c
        simp [plainDump, g]
    cases as with
    | nil =>
      cases bs with
      | nil => exact hab
      | cons b' bs => simp [plainDump] at h3
    | cons a' as =>
      cases bs with
      | nil => simp [plainDump] at h3
      | cons b' bs =>
        simp only [List.length_cons, Nat.zero_lt_succ, gt_iff_lt, if_true, List.cons_append, List.nil_append,
          List.cons.injEq, true_and] at h3
        rw [List.cons.inj hab |>.1, plainDump_inj h3]

/-! ### Lines -/

theorem cell_length (bytes : Bytes) (i : Nat) : (dumpCell bytes i).length = (if i % 8 = 0 then 1 else 0) + 3 := by
  unfold dumpCell
  rw [List.length_append]
  congr 1
  · split <;> rfl
  · split <;> rfl

theorem cell_inj {a b : Bytes} {i : Nat} (h : dumpCell a i = dumpCell b i) : a[i]? = b[i]? := by
  unfold dumpCell at h
  have h := List.append_cancel_left h
  cases hx : a[i]? with
  | none =>
    cases hy : b[i]? with
    | none => rfl
    | some y =>
      obtain ⟨u, v, e, hn⟩ := hexDigits_ne y
      simp only [hx, hy, e, List.cons.injEq, true_and] at h
      exact absurd h.1.symm hn
  | some x =>
    cases hy : b[i]? with
    | none =>
      obtain ⟨u, v, e, hn⟩ := hexDigits_ne x
      simp only [hx, hy, e, List.cons.injEq, true_and] at h
      exact absurd h.1 hn
    | some y =>
      simp only [hx, hy, List.cons.injEq, true_and] at h
      exact congrArg some (List.cons.inj (toHex_inj h)).1

theorem flatMap_inj {f g : Nat → List Char} : ∀ {l : List Nat}, (∀ i ∈ l, (f i).length = (g i).length) → l.flatMap f = l.flatMap g →
    ∀ i ∈ l, f i = g i
  | [], _, _, _, hi => by simp at hi
  | x :: xs, hl, h, i, hi => by
    simp only [List.flatMap_cons] at h
    obtain ⟨h1, h2⟩ := List.append_inj h (hl x (by simp))
    rcases List.mem_cons.1 hi with rfl | hi
    · exact h1
    · exact flatMap_inj (fun i hi => hl i (by simp [hi])) h2 i hi

theorem cells_length (bytes : Bytes) (start : Nat) (hs : start % 8 = 0) : ∀ n,
    ((List.range' start n).flatMap (dumpCell bytes)).length = 3 * n + (n + 7) / 8
  | 0 => rfl
  | n + 1 => by
    rw [List.range'_concat, List.flatMap_append, List.length_append, cells_length bytes start hs n]
    simp only [List.flatMap_cons, List.flatMap_nil, List.append_nil, cell_length]
    split <;> omega

theorem line_inj {a b : Bytes} {k : Nat} (h : dumpLine a k = dumpLine b k) (i : Nat) (h1 : k * 16 ≤ i) (h2 : i < k * 16 + 16) :
    a[i]? = b[i]? := by
  unfold dumpLine at h
  simp only [List.append_assoc] at h
  have h := (List.append_inj (List.append_cancel_left h) (by rw [cells_length _ _ (by omega), cells_length _ _ (by omega)])).1
  exact cell_inj (flatMap_inj (fun i _ => by rw [cell_length, cell_length]) h i (by simp; omega))

theorem dumpChar_free {c : Char} (h1 : c.toNat < 32) (h2 : c ≠ '.') (b : UInt8) : dumpChar b ≠ c := by
  unfold dumpChar
  split
  · rename_i h
    intro e
    have h3 : b.toNat = c.toNat := by
      have := b.toNat_lt
      rw [← e, Char.ofNat, dif_pos (Or.inl (by omega))]
      rfl
    have h4 := UInt8.le_iff_toNat_le.1 h.1
    simp at h4
    omega
  · exact fun e => h2 e.symm

theorem line_free {c : Char} (hc : NoDigit c) (h1 : c.toNat < 32) (h2 : c ≠ '.') (a : Bytes) (k : Nat) : c ∉ dumpLine a k := by
  have hs : c ≠ ' ' := by rintro rfl; exact absurd h1 (by decide)
  have hb : c ≠ '|' := by rintro rfl; exact absurd h1 (by decide)
  unfold dumpLine
  simp only [List.mem_append, not_or]
  refine ⟨⟨?_, ?_⟩, ?_⟩
  · unfold offsetText
    rw [List.mem_append, not_or]
    exact ⟨fun h => hc 0 (by decide) (List.eq_of_mem_replicate h), hexadecimal_free hc _⟩
  · intro h
    obtain ⟨i, _, hi⟩ := List.mem_flatMap.1 h
    unfold dumpCell at hi
    rcases List.mem_append.1 hi with hi | hi
    · split at hi <;> simp_all
    · split at hi
      · rcases List.mem_cons.1 hi with hi | hi
        · exact hs hi
        · exact toHex_free hc _ hi
      · simp_all
  · unfold fmtChars
    simp only [List.mem_append, not_or, List.mem_map, List.mem_cons, List.not_mem_nil, or_false, hs, hb, not_false_eq_true, and_true,
      true_and]
    rintro ⟨b, _, h⟩
    exact dumpChar_free h1 h2 b h

/-- The lines of the dump. -/
def dumpLines (bytes : Bytes) (lineno n : Nat) : List (List Char) := (List.range' lineno n).map (dumpLine bytes)

theorem loop_lines (bytes : Bytes) : ∀ n k, dumpLoop bytes k (n + 1) ++ ['\n'] = unlines (dumpLines bytes k (n + 1))
  | 0, k => by simp [dumpLoop, dumpLines, unlines]
  | n + 1, k => by
    rw [dumpLoop, dumpLines, List.range'_succ, List.map_cons, unlines, ← dumpLines, ← loop_lines bytes n (k + 1)]
    simp

/-- The number of lines. -/
def lineCount (bytes : Bytes) : Nat := if bytes.isEmpty then 1 else (bytes.length + 15) / 16

theorem lineCount_pos (bytes : Bytes) : lineCount bytes = lineCount bytes - 1 + 1 := by
  unfold lineCount
  cases bytes with
  | nil => rfl
  | cons b bs =>
    simp only [List.isEmpty_cons, List.length_cons, Bool.false_eq_true, if_false]
    omega

theorem lineCount_bound (bytes : Bytes) : bytes.length ≤ 16 * lineCount bytes := by
  unfold lineCount
  cases bytes with
  | nil => simp
  | cons b bs => simp only [List.isEmpty_cons, Bool.false_eq_true, if_false]; omega

theorem dump_lines (bytes : Bytes) : hexDump bytes ++ ['\n'] = unlines (dumpLines bytes 0 (lineCount bytes)) := by
  have h := lineCount_pos bytes
  show dumpLoop bytes 0 (lineCount bytes) ++ _ = _
  rw [h, loop_lines]

theorem lines_free (bytes : Bytes) (n : Nat) : ∀ l ∈ dumpLines bytes 0 n, '\n' ∉ l := by
  intro l hl
  obtain ⟨k, _, rfl⟩ := List.mem_map.1 hl
  exact line_free (by decide) (by decide) (by decide) _ _

theorem dumpLines_inj {a b : Bytes} (h : dumpLines a 0 (lineCount a) = dumpLines b 0 (lineCount b)) : a = b := by
  have hn : lineCount a = lineCount b := by simpa [dumpLines] using congrArg List.length h
  have ha := lineCount_bound a
  have hb := lineCount_bound b
  rw [← hn] at h hb
  apply List.ext_getElem?
  intro i
  by_cases hi : i < 16 * lineCount a
  · have hl : dumpLine a (i / 16) = dumpLine b (i / 16) := by
      have := congrArg (·[i / 16]?) h
      simp only [dumpLines, List.getElem?_map] at this
      rw [List.getElem?_range' (by omega)] at this
      simpa using this
    exact line_inj hl i (by omega) (by omega)
  · rw [List.getElem?_eq_none (by omega), List.getElem?_eq_none (by omega)]

/-! ### Indentation -/

theorem linesLoop_text : ∀ (l : List Char) (cur rest : List Char), '\n' ∉ l → linesLoop cur (l ++ rest) = linesLoop (l.reverse ++ cur) rest
  | [], _, _, _ => rfl
  | c :: cs, cur, rest, h => by
    simp only [List.mem_cons, not_or] at h
    rw [List.cons_append, linesLoop, if_neg (fun e => h.1 e.symm), linesLoop_text cs _ _ h.2]
    simp

theorem dumpLine_ne_nil (a : Bytes) (k : Nat) : dumpLine a k ≠ [] := by simp [dumpLine, fmtChars]

theorem lines_loop (bytes : Bytes) : ∀ n k, linesLoop [] (dumpLoop bytes k (n + 1)) = dumpLines bytes k (n + 1)
  | 0, k => by
    have hn : '\n' ∉ dumpLine bytes k := line_free (by decide) (by decide) (by decide) _ _
    have := linesLoop_text (dumpLine bytes k) [] [] hn
    simp only [dumpLoop, dumpLines, List.append_nil] at *
    simp [this, linesLoop, dumpLine_ne_nil]
  | n + 1, k => by
    have hn : '\n' ∉ dumpLine bytes k := line_free (by decide) (by decide) (by decide) _ _
    have hr : '\r' ∉ dumpLine bytes k := line_free (by decide) (by decide) (by decide) _ _
    rw [dumpLoop, if_pos (by omega), List.append_assoc, linesLoop_text _ _ _ hn, List.append_nil, List.cons_append, List.nil_append,
      linesLoop, if_pos rfl, lines_loop bytes n (k + 1), dumpLines, dumpLines, List.range'_succ, List.map_cons]
    congr 1
    rw [← List.mem_reverse] at hr
    rw [← List.reverse_reverse (dumpLine bytes k)]
    generalize (dumpLine bytes k).reverse = l at *
    cases l with
    | nil => rfl
    | cons c cs =>
      simp only [List.mem_cons, not_or] at hr
      rw [List.reverse_reverse, dropCr, if_neg (fun e => hr.1 e.symm)]

theorem indentLoop_succ (i : Nat) : ∀ ls : List (List Char), indentLoop (i + 1) ls ++ ['\n'] = '\n' :: unlines (ls.map ([' ', ' ', ' ', ' '] ++ ·))
  | [] => by simp [indentLoop, unlines]
  | l :: ls => by
    rw [indentLoop, List.append_assoc, indentLoop_succ (i + 1) ls]
    simp [unlines]

theorem indent_lines (bytes : Bytes) : indent (hexDump bytes) ++ ['\n'] =
    unlines ((dumpLines bytes 0 (lineCount bytes)).map ([' ', ' ', ' ', ' '] ++ ·)) := by
  have h := lineCount_pos bytes
  show indentLoop 0 (linesLoop [] (dumpLoop bytes 0 (lineCount bytes))) ++ _ = _
  rw [h, lines_loop, dumpLines, List.range'_succ, List.map_cons, indentLoop, List.append_assoc, indentLoop_succ]
  simp [unlines]

/-! ### C141 -/

/-- Byte strings with the same dump are the same: in the plain form, in the form over several lines, and in the latter
indented. -/
theorem C141_determines (a b : Bytes) :
    (plainDump a = plainDump b → a = b) ∧ (hexDump a = hexDump b → a = b) ∧
    (indent (hexDump a) = indent (hexDump b) → a = b) := by
  refine ⟨plainDump_inj, fun h => ?_, fun h => ?_⟩
  · have h := congrArg (· ++ ['\n']) h
    simp only [dump_lines] at h
    exact dumpLines_inj (unlines_inj (lines_free _ _) (lines_free _ _) h)
  · have h := congrArg (· ++ ['\n']) h
    simp only [indent_lines] at h
    have hf : ∀ c : Bytes, ∀ l ∈ (dumpLines c 0 (lineCount c)).map ([' ', ' ', ' ', ' '] ++ ·), '\n' ∉ l := by
      intro c l hl
      obtain ⟨m, hm, rfl⟩ := List.mem_map.1 hl
      have := lines_free _ _ m hm
      simp [this]
    exact dumpLines_inj ((List.map_inj_right fun _ _ e => List.append_cancel_left e).1 (unlines_inj (hf a) (hf b) h))

theorem range_split (s j k : Nat) : List.range' s (j + (k + 1)) = List.range' s j ++ (s + j) :: List.range' (s + j + 1) k := by
  rw [← List.range'_append_1, List.range'_succ]

theorem take_split (l : Bytes) (j k : Nat) (b : UInt8) (h : l[j]? = some b) :
    l.take (j + (k + 1)) = l.take j ++ b :: (l.drop (j + 1)).take k := by
  obtain ⟨hj, hb⟩ := List.getElem?_eq_some_iff.1 h
  rw [List.take_add, List.drop_eq_getElem_cons hj, List.take_succ_cons, hb]

/-- The place of byte `i`: in line `i / 16`, which begins with the position `i / 16 * 16` in hexadecimal in at least
eight places; there the hexadecimal digits of the byte stand at column `2 + 3 (i % 16) + i % 16 / 8` behind the position
and the character, a dot unless it is a printable ASCII character, at column `53 + i % 16` behind the position. -/
theorem C141_layout (bytes : Bytes) (i : Nat) (b : UInt8) (hb : bytes[i]? = some b) :
    ∃ before line after, hexDump bytes ++ ['\n'] = unlines (before ++ line :: after) ∧ before.length = i / 16 ∧
      (∀ l ∈ before ++ line :: after, '\n' ∉ l) ∧
      ∃ zeros rest, line = List.replicate zeros '0' ++ Nat.toDigits 16 (i / 16 * 16) ++ rest ∧
        zeros = 8 - (Nat.toDigits 16 (i / 16 * 16)).length ∧
        (∃ x y, x.length = 2 + 3 * (i % 16) + i % 16 / 8 ∧ rest = x ++ toHex [b] ++ y) ∧
        ∃ x y, x.length = 53 + i % 16 ∧
          rest = x ++ (if 0x20 ≤ b.toNat ∧ b.toNat ≤ 0x7e then Char.ofNat b.toNat else '.') :: y := by
  obtain ⟨hi, hb⟩ := List.getElem?_eq_some_iff.1 hb
  have hn := lineCount_bound bytes
  have hr : List.range' 0 (lineCount bytes) =
      List.range' 0 (i / 16) ++ i / 16 :: List.range' (i / 16 + 1) (lineCount bytes - i / 16 - 1) := by
    have h := range_split 0 (i / 16) (lineCount bytes - i / 16 - 1)
    rw [Nat.zero_add] at h
    rw [← h]
    congr 1
    omega
  refine ⟨(List.range' 0 (i / 16)).map (dumpLine bytes), dumpLine bytes (i / 16),
    (List.range' (i / 16 + 1) (lineCount bytes - i / 16 - 1)).map (dumpLine bytes), ?_, by simp, ?_, ?_⟩
  · rw [dump_lines, dumpLines, hr, List.map_append, List.map_cons]
  · rw [← List.map_cons, ← List.map_append, ← hr]
    exact lines_free bytes _
  · refine ⟨_, _, by rw [dumpLine, offsetText, List.append_assoc]; rfl, rfl, ?_, ?_⟩
    · have hc : List.range' (i / 16 * 16) 16 = List.range' (i / 16 * 16) (i % 16) ++ i :: List.range' (i + 1) (15 - i % 16) := by
        have h := range_split (i / 16 * 16) (i % 16) (15 - i % 16)
        rw [show i % 16 + (15 - i % 16 + 1) = 16 by omega, show i / 16 * 16 + i % 16 = i by omega] at h
        exact h
      refine ⟨(List.range' (i / 16 * 16) (i % 16)).flatMap (dumpCell bytes) ++ (if i % 8 = 0 then [' '] else []) ++ [' '],
        (List.range' (i + 1) (15 - i % 16)).flatMap (dumpCell bytes) ++ fmtChars bytes (i / 16 * 16), ?_, ?_⟩
      · rw [List.length_append, List.length_append, cells_length _ _ (by omega)]
        split <;> simp <;> omega
      · rw [hc, List.flatMap_append, List.flatMap_cons, dumpCell, List.getElem?_eq_getElem hi, hb]
        simp
    · have ht : (bytes.drop (i / 16 * 16)).take (min (i / 16 * 16 + 16) bytes.length - i / 16 * 16) =
          (bytes.drop (i / 16 * 16)).take (i % 16) ++ b ::
            (bytes.drop (i + 1)).take (min (i / 16 * 16 + 16) bytes.length - (i + 1)) := by
        have h := take_split (bytes.drop (i / 16 * 16)) (i % 16) (min (i / 16 * 16 + 16) bytes.length - (i + 1)) b (by
          rw [List.getElem?_drop, show i / 16 * 16 + i % 16 = i by omega, List.getElem?_eq_getElem hi, hb])
        rw [List.drop_drop, show i / 16 * 16 + (i % 16 + 1) = i + 1 by omega] at h
        rw [← h]
        congr 1
        omega
      refine ⟨(List.range' (i / 16 * 16) 16).flatMap (dumpCell bytes) ++ [' ', ' ', '|'] ++
          ((bytes.drop (i / 16 * 16)).take (i % 16)).map dumpChar,
        ((bytes.drop (i + 1)).take (min (i / 16 * 16 + 16) bytes.length - (i + 1))).map dumpChar ++ ['|'], ?_, ?_⟩
      · rw [List.length_append, List.length_append, cells_length _ _ (by omega)]
        simp
        omega
      · rw [fmtChars, ht]
        have : dumpChar b = if 0x20 ≤ b.toNat ∧ b.toNat ≤ 0x7e then Char.ofNat b.toNat else '.' := by
          unfold dumpChar
          simp only [UInt8.le_iff_toNat_le]
          rfl
        simp [this]

/-- Twenty bytes over two lines. -/
example : hexDump [72, 101, 108, 108, 111, 0, 255, 33, 1, 2, 3, 4, 5, 6, 7, 8, 65, 66, 10, 67] =
    ("00000000  48 65 6c 6c 6f 00 ff 21  01 02 03 04 05 06 07 08  |Hello..!........|\n" ++
     "00000010  41 42 0a 43                                       |AB.C|").toList := by decide +kernel

example : indent (hexDump []) =
    "    00000000                                                    ||".toList := by decide +kernel

end Ngfs.Util
