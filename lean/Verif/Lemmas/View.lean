import Verif.Spec.View
import Verif.Lemmas.Asn1PrintInj
import Verif.Lemmas.Slice

/-! Lines of text, and the printout of a bencoded value as lines. -/
namespace Ngfs.View
open Ngfs.Bencode Ngfs.Torrent Ngfs.Spec.View
open Ngfs.Spec hiding decimal Readable
open Ngfs.Asn1 (txt decimal split_unique decimal_free decimal_inj decimal_ne_nil toHex_free toHex_inj NoDigit)
open Ngfs.Util (toHex)

/-- Lines without newlines, each with one behind it. -/
def joinLines (ls : List (List Char)) : List Char := ls.flatMap fun l => l ++ ['\n']

theorem joinLines_inj : ∀ {a b : List (List Char)}, (∀ l ∈ a, '\n' ∉ l) → (∀ l ∈ b, '\n' ∉ l) → joinLines a = joinLines b → a = b
  | [], [], _, _, _ => rfl
  | [], l :: b, _, _, h => by simp [joinLines] at h
  | l :: a, [], _, _, h => by simp [joinLines] at h
  | l :: a, m :: b, ha, hb, h => by
    simp only [joinLines, List.flatMap_cons, List.append_assoc, List.singleton_append] at h
    obtain ⟨h1, h2⟩ := split_unique (ha l (by simp)) (hb m (by simp)) h
    rw [h1, joinLines_inj (fun x hx => ha x (by simp [hx])) (fun x hx => hb x (by simp [hx])) h2]

/-- How far a line is indented. -/
def lead (l : List Char) : Nat := (l.takeWhile (· = ' ')).length

theorem pad_eq (n : Nat) : pad n = List.replicate (4 * n) ' ' := by
  induction n with
  | zero => rfl
  | succ n ih =>
    rw [pad, ih, show 4 * (n + 1) = 4 + 4 * n by omega, List.replicate_add]
    rfl

theorem lead_pad (n : Nat) {l : List Char} (h : l.head? ≠ some ' ') : lead (pad n ++ l) = 4 * n := by
  have key : ∀ m, lead (List.replicate m ' ' ++ l) = m := by
    intro m
    induction m with
    | zero =>
      cases l with
      | nil => rfl
      | cons c l =>
        have hc : c ≠ ' ' := by simpa using h
        simp [lead, hc]
    | succ m ih =>
      unfold lead at ih ⊢
      rw [List.replicate_succ, List.cons_append, List.takeWhile_cons_of_pos (by simp), List.length_cons, ih]
  rw [pad_eq, key]

mutual
/-- The lines of `dump`. -/
def dumpLines (n : Nat) : Value → List (List Char)
  | .bytes _ data => [pad n ++ bytesText data]
  | .integer _ k => [pad n ++ decimal k]
  | .list _ items => (pad n ++ txt "list") :: itemLines n items
  | .dict _ entries => (pad n ++ txt "dict") :: entryLines n entries
def itemLines (n : Nat) : List Value → List (List Char)
  | [] => []
  | v :: vs => dumpLines (n + 1) v ++ itemLines n vs
def entryLines (n : Nat) : List (String × Value) → List (List Char)
  | [] => []
  | (k, v) :: es => (pad (n + 1) ++ (k.toList ++ txt " =")) :: (dumpLines (n + 2) v ++ entryLines n es)
end

theorem joinLines_append (a b : List (List Char)) : joinLines (a ++ b) = joinLines a ++ joinLines b := List.flatMap_append

theorem joinLines_cons (l : List Char) (b : List (List Char)) : joinLines (l :: b) = l ++ ['\n'] ++ joinLines b := List.flatMap_cons

mutual
theorem dump_lines : ∀ (n : Nat) (v : Value), dump n v = joinLines (dumpLines n v)
  | n, .bytes _ data => by simp [dump, dumpLines, joinLines]
  | n, .integer _ k => by simp [dump, dumpLines, joinLines]
  | n, .list _ items => by
    rw [dump, dumpLines, items_lines n items]; simp [joinLines]
  | n, .dict _ entries => by
    rw [dump, dumpLines, entries_lines n entries]; simp [joinLines]
theorem items_lines : ∀ (n : Nat) (vs : List Value), dumpItems n vs = joinLines (itemLines n vs)
  | _, [] => rfl
  | n, v :: vs => by rw [dumpItems, itemLines, joinLines_append, dump_lines (n + 1) v, items_lines n vs]
theorem entries_lines : ∀ (n : Nat) (es : List (String × Value)), dumpEntries n es = joinLines (entryLines n es)
  | _, [] => rfl
  | n, (k, v) :: es => by
    rw [dumpEntries, entryLines, dump_lines (n + 2) v, entries_lines n es, joinLines_cons, joinLines_append]
    simp
end

theorem pad_no_newline (n : Nat) : '\n' ∉ pad n := by
  rw [pad_eq]
  intro h
  have := List.eq_of_mem_replicate h
  revert this
  decide

theorem bytesText_encode (s : String) : bytesText (utf8Encode s) = s.toList := by
  rw [bytesText, utf8_round_trip]

theorem list_text : '\n' ∉ txt "list" ∧ (txt "list").head? ≠ some ' ' ∧ txt "list" ≠ txt "dict" ∧ 'l' ∈ txt "list" ∧
    txt "list" = "list".toList := by decide +kernel
theorem dict_text : '\n' ∉ txt "dict" ∧ (txt "dict").head? ≠ some ' ' ∧ 'd' ∉ txt "list" ∧ 'i' ∈ txt "dict" ∧
    txt "dict" = "dict".toList := by decide +kernel
theorem eq_text : '\n' ∉ txt " =" := by decide +kernel

theorem no_newline_append {a b : List Char} (h1 : '\n' ∉ a) (h2 : '\n' ∉ b) : '\n' ∉ a ++ b := by
  rw [List.mem_append, not_or]
  exact ⟨h1, h2⟩

mutual
theorem lines_ok : ∀ (n : Nat) (v : Value), Readable (plain v) → ∀ l ∈ dumpLines n v, '\n' ∉ l
  | n, .bytes _ data, h, l, hl => by
    simp only [plain, Readable] at h
    obtain ⟨s, rfl, ⟨h1, -⟩, -⟩ := h
    simp only [dumpLines, List.mem_singleton, bytesText_encode] at hl
    subst hl
    exact no_newline_append (pad_no_newline n) h1
  | n, .integer _ k, _, l, hl => by
    simp only [dumpLines, List.mem_singleton] at hl
    subst hl
    exact no_newline_append (pad_no_newline n) (decimal_free (by decide) k)
  | n, .list _ items, h, l, hl => by
    simp only [plain, Readable] at h
    rw [dumpLines] at hl
    rcases List.mem_cons.mp hl with rfl | hl
    · exact no_newline_append (pad_no_newline n) list_text.1
    · exact itemLines_ok n items h l hl
  | n, .dict _ entries, h, l, hl => by
    simp only [plain, Readable] at h
    rw [dumpLines] at hl
    rcases List.mem_cons.mp hl with rfl | hl
    · exact no_newline_append (pad_no_newline n) dict_text.1
    · exact entryLines_ok n entries h l hl
theorem itemLines_ok : ∀ (n : Nat) (vs : List Value), readableItems (plainItems vs) → ∀ l ∈ itemLines n vs, '\n' ∉ l
  | _, [], _, l, hl => by simp [itemLines] at hl
  | n, v :: vs, h, l, hl => by
    simp only [plainItems, readableItems] at h
    rw [itemLines] at hl
    rcases List.mem_append.mp hl with hl | hl
    · exact lines_ok (n + 1) v h.1 l hl
    · exact itemLines_ok n vs h.2 l hl
theorem entryLines_ok : ∀ (n : Nat) (es : List (String × Value)), readableEntries (plainEntries es) → ∀ l ∈ entryLines n es, '\n' ∉ l
  | _, [], _, l, hl => by simp [entryLines] at hl
  | n, (k, v) :: es, h, l, hl => by
    simp only [plainEntries, readableEntries] at h
    rw [entryLines] at hl
    rcases List.mem_cons.mp hl with rfl | hl
    · exact no_newline_append (pad_no_newline _) (no_newline_append h.1.2.1 eq_text)
    · rcases List.mem_append.mp hl with hl | hl
      · exact lines_ok (n + 2) v h.2.1 l hl
      · exact entryLines_ok n es h.2.2 l hl
end

/-- What follows is not indented further than `n` steps. -/
def Low (n : Nat) (r : List (List Char)) : Prop := ∀ l ∈ r.head?, lead l ≤ 4 * n

theorem decimal_head (k : Nat) : (decimal k).head? ≠ some ' ' := by
  intro h
  exact decimal_free (by decide) k (List.mem_of_mem_head? h)

/-- The first line of a value is indented by `n` steps. -/
theorem lines_head (n : Nat) (v : Value) (h : Readable (plain v)) : ∃ l r, dumpLines n v = l :: r ∧ lead l = 4 * n := by
  cases v with
  | bytes loc data =>
    simp only [plain, Readable] at h
    obtain ⟨s, rfl, ⟨-, h2⟩, -⟩ := h
    rw [dumpLines, bytesText_encode]
    exact ⟨_, [], rfl, lead_pad n h2⟩
  | integer loc k => exact ⟨_, [], by rw [dumpLines], lead_pad n (decimal_head k)⟩
  | list loc items => exact ⟨_, _, by rw [dumpLines], lead_pad n list_text.2.1⟩
  | dict loc es => exact ⟨_, _, by rw [dumpLines], lead_pad n dict_text.2.1⟩

theorem key_head {k : String} (h : k ≠ "" ∧ OneLine k) : (k.toList ++ txt " =").head? ≠ some ' ' := by
  have : k.toList ≠ [] := fun h' => h.1 (String.toList_eq_nil_iff.mp h')
  rw [List.head?_append_of_ne_nil _ this]
  exact h.2.2

theorem low_items (n : Nat) (vs : List Value) (h : readableItems (plainItems vs)) {r : List (List Char)} (hr : Low n r) :
    Low (n + 1) (itemLines n vs ++ r) := by
  cases vs with
  | nil => intro l hl; have := hr l hl; omega
  | cons v vs =>
    simp only [plainItems, readableItems] at h
    obtain ⟨l, r', h1, h2⟩ := lines_head (n + 1) v h.1
    intro l' hl'
    rw [itemLines, h1] at hl'
    simp only [List.cons_append, List.head?_cons, Option.mem_def, Option.some.injEq] at hl'
    rw [← hl']
    omega

theorem low_entries (n : Nat) (es : List (String × Value)) (h : readableEntries (plainEntries es)) {r : List (List Char)} (hr : Low n r) :
    Low (n + 2) (entryLines n es ++ r) := by
  cases es with
  | nil => intro l hl; have := hr l hl; omega
  | cons e es =>
    obtain ⟨k, v⟩ := e
    simp only [plainEntries, readableEntries] at h
    intro l' hl'
    rw [entryLines] at hl'
    simp only [List.cons_append, List.head?_cons, Option.mem_def, Option.some.injEq] at hl'
    rw [← hl', lead_pad _ (key_head h.1)]
    omega

/-- The kind of a value, from what stands on its first line. -/
def headText : Value → List Char
  | .bytes _ data => bytesText data
  | .integer _ k => decimal k
  | .list _ _ => txt "list"
  | .dict _ _ => txt "dict"

theorem lines_split (n : Nat) (v : Value) : ∃ r, dumpLines n v = (pad n ++ headText v) :: r := by
  cases v <;> exact ⟨_, by rw [dumpLines]; rfl⟩

theorem digit_char : ∀ d < 10, (Nat.digitChar d).isDigit = true := by decide

theorem decimal_isDigit (k : Nat) : ∀ c ∈ decimal k, c.isDigit = true := by
  intro c hc
  exact Nat.isDigit_of_mem_toDigits (by decide) (by decide) hc

theorem bytes_ne_list {s : String} (h : Unlike s) : s.toList ≠ txt "list" := by
  intro h'
  rw [list_text.2.2.2.2] at h'
  exact h.1 (String.toList_inj.mp h')
theorem bytes_ne_dict {s : String} (h : Unlike s) : s.toList ≠ txt "dict" := by
  intro h'
  rw [dict_text.2.2.2.2] at h'
  exact h.2.1 (String.toList_inj.mp h')
theorem bytes_ne_decimal {s : String} (h : Unlike s) (k : Nat) : s.toList ≠ decimal k := by
  intro h'
  rcases h.2.2 with rfl | ⟨c, h1, h2⟩
  · exact decimal_ne_nil k h'.symm
  · rw [h'] at h1
    rw [decimal_isDigit k c h1] at h2
    cases h2
theorem list_ne_decimal (k : Nat) : txt "list" ≠ decimal k := by
  intro h
  exact decimal_free (c := 'l') (by decide) k (h ▸ list_text.2.2.2.1)
theorem dict_ne_decimal (k : Nat) : txt "dict" ≠ decimal k := by
  intro h
  exact decimal_free (c := 'i') (by decide) k (h ▸ dict_text.2.2.2.1)

mutual
theorem lines_unique : ∀ (n : Nat) (v w : Value) (r r' : List (List Char)), Readable (plain v) → Readable (plain w) →
    Low n r → Low n r' → dumpLines n v ++ r = dumpLines n w ++ r' → plain v = plain w ∧ r = r'
  | n, v, w, r, r', hv, hw, hr, hr', h => by
    have hh : headText v = headText w := by
      obtain ⟨a, ha⟩ := lines_split n v
      obtain ⟨b, hb⟩ := lines_split n w
      rw [ha, hb] at h
      simp only [List.cons_append, List.cons.injEq, List.append_cancel_left_eq] at h
      exact h.1
    match v, w with
    | .bytes _ d, .bytes _ d' =>
      simp only [plain, Readable] at hv hw
      obtain ⟨s, rfl, -, -⟩ := hv
      obtain ⟨s', rfl, -, -⟩ := hw
      simp only [headText, bytesText_encode, String.toList_inj] at hh
      subst hh
      simp only [dumpLines, List.cons_append, List.nil_append, List.cons.injEq, true_and] at h
      exact ⟨rfl, h⟩
    | .integer _ k, .integer _ k' =>
      have := decimal_inj hh
      subst this
      simp only [dumpLines, List.cons_append, List.nil_append, List.cons.injEq, true_and] at h
      exact ⟨rfl, h⟩
    | .list _ vs, .list _ ws =>
      simp only [plain, Readable] at hv hw
      simp only [dumpLines, List.cons_append, List.cons.injEq, true_and] at h
      obtain ⟨h1, h2⟩ := items_unique n vs ws r r' hv hw hr hr' h
      exact ⟨by rw [plain, plain, h1], h2⟩
    | .dict _ vs, .dict _ ws =>
      simp only [plain, Readable] at hv hw
      simp only [dumpLines, List.cons_append, List.cons.injEq, true_and] at h
      obtain ⟨h1, h2⟩ := entries_unique n vs ws r r' hv hw hr hr' h
      exact ⟨by rw [plain, plain, h1], h2⟩
    | .bytes _ d, .integer _ k =>
      simp only [plain, Readable] at hv
      obtain ⟨s, rfl, -, g⟩ := hv
      exact absurd (bytesText_encode s ▸ hh) (bytes_ne_decimal g k)
    | .integer _ k, .bytes _ d =>
      simp only [plain, Readable] at hw
      obtain ⟨s, rfl, -, g⟩ := hw
      exact absurd (bytesText_encode s ▸ hh.symm) (bytes_ne_decimal g k)
    | .bytes _ d, .list _ _ =>
      simp only [plain, Readable] at hv
      obtain ⟨s, rfl, -, g⟩ := hv
      exact absurd (bytesText_encode s ▸ hh) (bytes_ne_list g)
    | .list _ _, .bytes _ d =>
      simp only [plain, Readable] at hw
      obtain ⟨s, rfl, -, g⟩ := hw
      exact absurd (bytesText_encode s ▸ hh.symm) (bytes_ne_list g)
    | .bytes _ d, .dict _ _ =>
      simp only [plain, Readable] at hv
      obtain ⟨s, rfl, -, g⟩ := hv
      exact absurd (bytesText_encode s ▸ hh) (bytes_ne_dict g)
    | .dict _ _, .bytes _ d =>
      simp only [plain, Readable] at hw
      obtain ⟨s, rfl, -, g⟩ := hw
      exact absurd (bytesText_encode s ▸ hh.symm) (bytes_ne_dict g)
    | .integer _ k, .list _ _ => exact absurd hh.symm (list_ne_decimal k)
    | .list _ _, .integer _ k => exact absurd hh (list_ne_decimal k)
    | .integer _ k, .dict _ _ => exact absurd hh.symm (dict_ne_decimal k)
    | .dict _ _, .integer _ k => exact absurd hh (dict_ne_decimal k)
    | .list _ _, .dict _ _ => exact absurd hh list_text.2.2.1
    | .dict _ _, .list _ _ => exact absurd hh.symm list_text.2.2.1
termination_by _ v => sizeOf v
theorem items_unique : ∀ (n : Nat) (vs ws : List Value) (r r' : List (List Char)), readableItems (plainItems vs) →
    readableItems (plainItems ws) → Low n r → Low n r' → itemLines n vs ++ r = itemLines n ws ++ r' →
    plainItems vs = plainItems ws ∧ r = r'
  | n, [], [], r, r', _, _, _, _, h => ⟨rfl, by simpa [itemLines] using h⟩
  | n, [], w :: ws, r, r', _, hw, hr, _, h => by
    simp only [plainItems, readableItems] at hw
    obtain ⟨l, q, h1, h2⟩ := lines_head (n + 1) w hw.1
    rw [itemLines, itemLines, h1, List.nil_append] at h
    have := hr l (by rw [h]; rfl)
    omega
  | n, v :: vs, [], r, r', hv, _, _, hr', h => by
    simp only [plainItems, readableItems] at hv
    obtain ⟨l, q, h1, h2⟩ := lines_head (n + 1) v hv.1
    rw [itemLines, itemLines, h1, List.nil_append] at h
    have := hr' l (by rw [← h]; rfl)
    omega
  | n, v :: vs, w :: ws, r, r', hv, hw, hr, hr', h => by
    simp only [plainItems, readableItems] at hv hw
    rw [itemLines, itemLines, List.append_assoc, List.append_assoc] at h
    obtain ⟨h1, h2⟩ := lines_unique (n + 1) v w _ _ hv.1 hw.1 (low_items n vs hv.2 hr) (low_items n ws hw.2 hr') h
    obtain ⟨h3, h4⟩ := items_unique n vs ws r r' hv.2 hw.2 hr hr' h2
    exact ⟨by rw [plainItems, plainItems, h1, h3], h4⟩
termination_by _ vs => sizeOf vs
theorem entries_unique : ∀ (n : Nat) (vs ws : List (String × Value)) (r r' : List (List Char)), readableEntries (plainEntries vs) →
    readableEntries (plainEntries ws) → Low n r → Low n r' → entryLines n vs ++ r = entryLines n ws ++ r' →
    plainEntries vs = plainEntries ws ∧ r = r'
  | n, [], [], r, r', _, _, _, _, h => ⟨rfl, by simpa [entryLines] using h⟩
  | n, [], (k, w) :: ws, r, r', _, hw, hr, _, h => by
    simp only [plainEntries, readableEntries] at hw
    rw [entryLines, entryLines, List.nil_append] at h
    have := hr (pad (n + 1) ++ (k.toList ++ txt " =")) (by rw [h]; rfl)
    rw [lead_pad _ (key_head hw.1)] at this
    omega
  | n, (k, v) :: vs, [], r, r', hv, _, _, hr', h => by
    simp only [plainEntries, readableEntries] at hv
    rw [entryLines, entryLines, List.nil_append] at h
    have := hr' (pad (n + 1) ++ (k.toList ++ txt " =")) (by rw [← h]; rfl)
    rw [lead_pad _ (key_head hv.1)] at this
    omega
  | n, (k, v) :: vs, (k', w) :: ws, r, r', hv, hw, hr, hr', h => by
    simp only [plainEntries, readableEntries] at hv hw
    rw [entryLines, entryLines, List.cons_append, List.cons_append, List.append_assoc, List.append_assoc] at h
    simp only [List.cons.injEq, List.append_cancel_left_eq, List.append_cancel_right_eq, String.toList_inj] at h
    obtain ⟨rfl, h⟩ := h
    obtain ⟨h1, h2⟩ := lines_unique (n + 2) v w _ _ hv.2.1 hw.2.1 (low_entries n vs hv.2.2 hr) (low_entries n ws hw.2.2 hr') h
    obtain ⟨h3, h4⟩ := entries_unique n vs ws r r' hv.2.2 hw.2.2 hr hr' h2
    exact ⟨by rw [plainEntries, plainEntries, h1, h3], h4⟩
termination_by _ vs => sizeOf vs
end

/-- The printout determines a readable value. -/
theorem dump_unique {v w : Value} (hv : Readable (plain v)) (hw : Readable (plain w)) (h : dump 0 v = dump 0 w) : plain v = plain w := by
  rw [dump_lines, dump_lines] at h
  have := joinLines_inj (lines_ok 0 v hv) (lines_ok 0 w hw) h
  exact (lines_unique 0 v w [] [] hv hw (by intro l hl; cases hl) (by intro l hl; cases hl) (by rw [this])).1

end Ngfs.View
