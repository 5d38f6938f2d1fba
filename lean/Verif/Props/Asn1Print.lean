import Verif.Lemmas.Asn1PrintInj

/-! C140: the printout of an ASN.1 item. -/
namespace Ngfs.Asn1
open Ngfs.Util (toHex)
open Ngfs.Spec

/-- A line the first character of which opens the lines of an item. -/
def Opens (l : List Char) : Prop := ∃ t, l = '├' :: t ∨ l = '└' :: t

private theorem e1 : txt "├── " = '├' :: txt "── " := by decide +kernel
private theorem e2 : txt "└── " = '└' :: txt "── " := by decide +kernel
private theorem e3 : txt "│   " = '│' :: txt "   " := by decide +kernel

theorem bodies_one (p : Printer) (i : Item) : p.bodies [i] = lastBranch (p.head i) (p.body i) := by
  simp [Printer.bodies]

theorem bodies_more (p : Printer) (i j : Item) (is : List Item) :
    p.bodies (i :: j :: is) = branch (p.head i) (p.body i) ++ p.bodies (j :: is) := by
  rw [Printer.bodies, if_pos (by simp)]

theorem bodies_opens (p : Printer) (i : Item) (is : List Item) : ∃ l ls, p.bodies (i :: is) = l :: ls ∧ Opens l := by
  rw [Printer.bodies]
  split
  · exact ⟨_, _, rfl, _, .inl (by rw [e1]; rfl)⟩
  · exact ⟨_, _, rfl, _, .inr (by rw [e2]; rfl)⟩

theorem map_split {l l' : List Char} {ls ls' : List (List Char)} (h1 : Opens l) (h2 : Opens l') :
    ∀ {b b' : List (List Char)}, b.map (txt "│   " ++ ·) ++ l :: ls = b'.map (txt "│   " ++ ·) ++ l' :: ls' →
      b = b' ∧ l :: ls = l' :: ls'
  | [], [], h => ⟨rfl, by simpa using h⟩
  | [], x :: xs, h => by
    simp only [List.map_nil, List.nil_append, List.map_cons, List.cons_append, List.cons.injEq] at h
    obtain ⟨t, h3 | h3⟩ := h1 <;> rw [h3, e3] at h <;> simp at h
  | x :: xs, [], h => by
    simp only [List.map_nil, List.nil_append, List.map_cons, List.cons_append, List.cons.injEq] at h
    obtain ⟨t, h3 | h3⟩ := h2 <;> rw [h3, e3] at h <;> simp at h
  | x :: xs, y :: ys, h => by
    simp only [List.map_cons, List.cons_append, List.cons.injEq] at h
    obtain ⟨h3, h4⟩ := map_split h1 h2 h.2
    exact ⟨by rw [List.append_cancel_left h.1, h3], h4⟩

theorem map_inj {s : List Char} {b b' : List (List Char)} (h : b.map (s ++ ·) = b'.map (s ++ ·)) : b = b' :=
  (List.map_inj_right fun _ _ e => List.append_cancel_left e).1 h

theorem kids_size (v : Value) : sizeOf (kids v) ≤ sizeOf v + 1 := by
  cases v <;> simp [kids] <;> omega

theorem kids_clear {p : Printer} {a b : Nat} {v : Value} (h : ∀ w, Occurs w (.mk a b v) → Clear p w) :
    ∀ i ∈ kids v, ∀ w, Occurs w i → Clear p w := by
  intro i hi w hw
  apply h
  cases v <;> simp only [kids, List.not_mem_nil, List.mem_singleton] at hi
  · exact .sequence hi hw
  · exact .set hi hw
  · subst hi; exact .application hw
  · subst hi; exact .contextSpecific hw
  · subst hi; exact .priv hw

mutual
theorem item_inj (p : Printer) (i j : Item) (hi : ∀ v, Occurs v i → Clear p v) (hj : ∀ v, Occurs v j → Clear p v)
    (h : p.head i = p.head j) (hb : p.body i = p.body j) : SameItem i j ∧ (p.ranges = true → i = j) := by
  match i, j with
  | .mk a b v, .mk c d w =>
    obtain ⟨h1, h2⟩ := head_inj (hi v .here) (hj w .here) h
    rw [Printer.body, Printer.body, valueBody_kids, valueBody_kids] at hb
    have hs := kids_size v
    obtain ⟨h3, h4⟩ := items_inj p (kids v) (kids w) (kids_clear hi) (kids_clear hj) hb
    refine ⟨.mk (own_same h1 h3), fun hr => ?_⟩
    obtain ⟨h5, h6⟩ := h2 hr
    rw [h5, h6, own_kids h1 (h4 hr)]
termination_by 2 * sizeOf i + 1
decreasing_by simp_wf; omega
theorem items_inj (p : Printer) (is js : List Item) (hi : ∀ i ∈ is, ∀ v, Occurs v i → Clear p v)
    (hj : ∀ j ∈ js, ∀ v, Occurs v j → Clear p v) (h : p.bodies is = p.bodies js) :
    SameItems is js ∧ (p.ranges = true → is = js) := by
  match is, js with
  | [], [] => exact ⟨.nil, fun _ => rfl⟩
  | [], j :: js =>
    obtain ⟨l, ls, h1, _⟩ := bodies_opens p j js
    rw [h1, Printer.bodies] at h
    cases h
  | i :: is, [] =>
    obtain ⟨l, ls, h1, _⟩ := bodies_opens p i is
    rw [h1, Printer.bodies] at h
    cases h
  | [i], [j] =>
    rw [bodies_one, bodies_one, lastBranch, lastBranch, List.cons.injEq] at h
    obtain ⟨h1, h2⟩ := item_inj p i j (hi i (by simp)) (hj j (by simp)) (List.append_cancel_left h.1) (map_inj h.2)
    exact ⟨.cons h1 .nil, fun hr => by rw [h2 hr]⟩
  | [i], j :: j' :: js =>
    exfalso
    rw [bodies_one, bodies_more] at h
    simp only [branch, lastBranch, List.cons_append, List.cons.injEq, e1, e2] at h
    exact absurd h.1.1 (by decide)
  | i :: i' :: is, [j] =>
    exfalso
    rw [bodies_one, bodies_more] at h
    simp only [branch, lastBranch, List.cons_append, List.cons.injEq, e1, e2] at h
    exact absurd h.1.1 (by decide)
  | i :: i' :: is, j :: j' :: js =>
    obtain ⟨l, ls, h1, o1⟩ := bodies_opens p i' is
    obtain ⟨m, ms, h2, o2⟩ := bodies_opens p j' js
    rw [bodies_more, bodies_more, h1, h2, branch, branch, List.cons_append,
      List.cons_append, List.cons.injEq] at h
    obtain ⟨h3, h4⟩ := map_split o1 o2 h.2
    rw [← h1, ← h2] at h4
    obtain ⟨h5, h6⟩ := item_inj p i j (hi i (by simp)) (hj j (by simp)) (List.append_cancel_left h.1) h3
    obtain ⟨h7, h8⟩ := items_inj p (i' :: is) (j' :: js) (fun x hx => hi x (by simp_all)) (fun x hx => hj x (by simp_all)) h4
    exact ⟨.cons h5 h7, fun hr => by rw [h6 hr, h8 hr]⟩
termination_by 2 * sizeOf is
decreasing_by all_goals (simp_wf; try omega)
end

/-! ### Every item is one line -/

theorem label_free {p : Printer} (hp : OneLineNames p.registry) (v : Value) : '\n' ∉ p.label v := by
  have h0 : NoDigit '\n' := by decide
  have hd : '\n' ≠ '.' := by decide
  cases v <;> simp only [Printer.label, Identifier.debug, List.mem_append, not_or, and_assoc]
  case objectIdentifier parts =>
    unfold Printer.oidLine
    split
    · rename_i name hn
      simp only [List.mem_append, not_or, and_assoc]
      refine ⟨by decide +kernel, ?_, by decide +kernel, oidText_free h0 hd _ _, by decide +kernel⟩
      obtain ⟨r, h1, h2⟩ := Option.bind_eq_some_iff.1 hn
      exact hp r h1 _ _ h2
    · simp only [List.mem_append, not_or]
      exact ⟨by decide +kernel, oidText_free h0 hd _ _⟩
  case unknown id n =>
    obtain ⟨c, f, t⟩ := id
    refine ⟨by decide +kernel, by decide +kernel, ?_, by decide +kernel, ?_, by decide +kernel, decimal_free h0 _, by decide +kernel,
      by decide +kernel, decimal_free h0 _⟩
    · show '\n' ∉ c.debug; cases c <;> decide +kernel
    · show '\n' ∉ f.debug; cases f <;> decide +kernel
  case boolean b => exact ⟨by decide +kernel, by cases b <;> decide +kernel⟩
  all_goals first
    | decide +kernel
    | exact ⟨by decide +kernel, escapeString_free _⟩
    | exact ⟨by decide +kernel, bytesLoop_free h0 hd _ _ _⟩
    | exact ⟨by decide +kernel, decimal_free h0 _, by decide +kernel⟩
    | exact ⟨by decide +kernel, bytesLoop_free h0 hd _ _ _, by decide +kernel, decimal_free h0 _, by decide +kernel⟩
    | exact ⟨by decide +kernel, bytesLoop_free h0 hd _ _ _, by decide +kernel, decimal_free h0 _, by decide +kernel,
        decimal_free h0 _, by decide +kernel⟩

theorem head_free {p : Printer} (hp : OneLineNames p.registry) (i : Item) : '\n' ∉ p.head i := by
  have h0 : NoDigit '\n' := by decide
  obtain ⟨a, b, v⟩ := i
  rw [Printer.head, List.mem_append, not_or]
  refine ⟨?_, label_free hp v⟩
  unfold Printer.rangeText
  split
  · simp only [List.mem_append, not_or, and_assoc]
    exact ⟨by decide +kernel, hexadecimal_free h0 _, by decide +kernel, hexadecimal_free h0 _, by decide +kernel⟩
  · simp

theorem prefixed_free {s : List Char} (hs : '\n' ∉ s) {b : List (List Char)} (hb : ∀ l ∈ b, '\n' ∉ l) :
    ∀ l ∈ b.map (s ++ ·), '\n' ∉ l := by
  intro l hl
  obtain ⟨m, hm, rfl⟩ := List.mem_map.1 hl
  rw [List.mem_append, not_or]
  exact ⟨hs, hb m hm⟩

mutual
theorem body_free {p : Printer} (hp : OneLineNames p.registry) (i : Item) :
    (∀ l ∈ p.body i, '\n' ∉ l) ∧ (p.body i).length + 1 = itemCount i := by
  match i with
  | .mk a b v =>
    have hs := kids_size v
    obtain ⟨h1, h2⟩ := bodies_free hp (kids v)
    rw [Printer.body, valueBody_kids]
    refine ⟨h1, ?_⟩
    rw [h2, itemCount]
    cases v <;> simp [kids, listCount, nestedCount] <;> omega
termination_by 2 * sizeOf i + 1
decreasing_by simp_wf; omega
theorem bodies_free {p : Printer} (hp : OneLineNames p.registry) (is : List Item) :
    (∀ l ∈ p.bodies is, '\n' ∉ l) ∧ (p.bodies is).length = listCount is := by
  match is with
  | [] => simp [Printer.bodies, listCount]
  | i :: is =>
    obtain ⟨h1, h2⟩ := body_free hp i
    obtain ⟨h3, h4⟩ := bodies_free hp is
    have hh := head_free hp i
    rw [Printer.bodies, listCount]
    refine ⟨fun l hl => ?_, ?_⟩
    · rcases List.mem_append.1 hl with hl | hl
      · split at hl
        · rcases List.mem_cons.1 hl with rfl | hl
          · rw [List.mem_append, not_or]; exact ⟨by decide +kernel, hh⟩
          · exact prefixed_free (by decide +kernel) h1 l hl
        · rcases List.mem_cons.1 hl with rfl | hl
          · rw [List.mem_append, not_or]; exact ⟨by decide +kernel, hh⟩
          · exact prefixed_free (by decide +kernel) h1 l hl
      · exact h3 l hl
    · split <;> simp [branch, lastBranch, h4] <;> omega
termination_by 2 * sizeOf is
decreasing_by all_goals (simp_wf; try omega)
end

theorem unlines_count : ∀ {ls : List (List Char)}, (∀ l ∈ ls, '\n' ∉ l) → (unlines ls).count '\n' = ls.length
  | [], _ => rfl
  | l :: ls, h => by
    rw [unlines, List.count_append, List.count_cons_self, unlines_count fun x hx => h x (by simp [hx]),
      List.count_eq_zero_of_not_mem (h l (by simp))]
    simp

theorem print_lines (p : Printer) (i : Item) : p.print i = unlines (p.head i :: p.body i) := by
  rw [Printer.print, printItem_eq]
  simp

theorem lines_free {p : Printer} (hp : OneLineNames p.registry) (i : Item) : ∀ l ∈ p.head i :: p.body i, '\n' ∉ l := by
  intro l hl
  rcases List.mem_cons.1 hl with rfl | hl
  · exact head_free hp i
  · exact (body_free hp i).1 l hl

/-! ### C140 -/

/-- The full claim: items with the same printout are the same, up to their ranges, and with the ranges shown
altogether. -/
def C140_statement : Prop :=
  ∀ (p : Printer) (i j : Item), p.truncate = false → OneLineNames p.registry → p.print i = p.print j →
    SameItem i j ∧ (p.ranges = true → i = j)

/-- A newline and a backslash followed by `n` look the same. -/
theorem C140_false : ¬ C140_statement := by
  intro h
  have h1 := (h ⟨false, none, true⟩ (.mk 0 3 (.utf8String "\n")) (.mk 0 3 (.utf8String "\\n")) rfl
    (fun r hr => by cases hr) (by decide +kernel)).2 rfl
  simp at h1

/-- The part that holds: texts without backslashes; byte strings cut off by the printer excepted. -/
theorem C140_determines_partial (p : Printer) (i j : Item) (hp : OneLineNames p.registry)
    (hi : ∀ v, Occurs v i → (∀ s, textOf v = some s → '\\' ∉ s.toList) ∧
      (∀ d, bytesOf v = some d → p.truncate = true → d.length ≤ 16))
    (hj : ∀ v, Occurs v j → (∀ s, textOf v = some s → '\\' ∉ s.toList) ∧
      (∀ d, bytesOf v = some d → p.truncate = true → d.length ≤ 16))
    (h : p.print i = p.print j) : SameItem i j ∧ (p.ranges = true → i = j) := by
  rw [print_lines, print_lines] at h
  have h1 := unlines_inj (lines_free hp i) (lines_free hp j) h
  simp only [List.cons.injEq] at h1
  exact item_inj p i j hi hj h1.1 h1.2

/-- Whatever the item contains, its printout has one line for it and one for each item nested in it. -/
theorem C140_one_line_each (p : Printer) (i : Item) (hp : OneLineNames p.registry) :
    (p.print i).count '\n' = itemCount i ∧ (p.print i).getLast? = some '\n' := by
  rw [print_lines]
  refine ⟨by rw [unlines_count (lines_free hp i), List.length_cons, (body_free hp i).2], ?_⟩
  have : ∀ (ls : List (List Char)) (l : List Char), (unlines (l :: ls)).getLast? = some '\n' := by
    intro ls
    induction ls with
    | nil => intro l; simp [unlines]
    | cons m ms ih =>
      intro l
      rw [unlines, List.getLast?_append]
      have := ih m
      rw [List.getLast?_cons, this]
      rfl
  exact this _ _

/-- A certificate-like item meets the hypotheses and is printed over six lines. -/
example : let i := Item.mk 0 30 (.sequence [.mk 2 5 (.integer [1]), .mk 5 20 (.contextSpecific 0 (.mk 7 20 (.set [.mk 9 20
      (.octetString [1, 2, 3])]))), .mk 20 30 (.printableString "a b")])
    Printer.print ⟨true, none, true⟩ i =
      ("[0..1e] Sequence\n├── [2..5] INTEGER 01\n├── [5..14] ContextSpecific (0)\n│   └── [7..14] Set\n│       " ++
       "└── [9..14] OCTET STRING 010203 (3 bytes)\n└── [14..1e] PrintableString \"a b\"\n").toList := by decide +kernel

example : OneLineNames (some fun oid => if oid = [2, 5, 4, 3] then some "commonName" else none) := by
  intro r hr oid name h
  cases hr
  simp only at h
  split at h
  · cases h; decide
  · cases h

end Ngfs.Asn1
