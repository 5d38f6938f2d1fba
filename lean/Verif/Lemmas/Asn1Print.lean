import Verif.Model.Asn1Print

/-! The printout of an item as a list of lines. -/
namespace Ngfs.Asn1
open Ngfs.Util (toHex)

/-- The lines one after the other, each ended by a newline. -/
def unlines : List (List Char) → List Char
  | [] => []
  | l :: ls => l ++ '\n' :: unlines ls

theorem unlines_append (a b : List (List Char)) : unlines (a ++ b) = unlines a ++ unlines b := by
  induction a with
  | nil => rfl
  | cons l ls ih => simp [unlines, ih]

theorem split_unique {s : Char} : ∀ {a a' r r' : List Char}, s ∉ a → s ∉ a' → a ++ s :: r = a' ++ s :: r' → a = a' ∧ r = r'
  | [], [], _, _, _, _, h => by simpa using h
  | [], c :: a', _, _, _, h2, h => by
    simp only [List.nil_append, List.cons_append, List.cons.injEq] at h
    exact absurd (List.mem_cons.2 (.inl h.1)) h2
  | c :: a, [], _, _, h1, _, h => by
    simp only [List.nil_append, List.cons_append, List.cons.injEq] at h
    exact absurd (List.mem_cons.2 (.inl h.1.symm)) h1
  | c :: a, c' :: a', r, r', h1, h2, h => by
    simp only [List.cons_append, List.cons.injEq] at h
    obtain ⟨h3, h4⟩ := split_unique (fun hm => h1 (List.mem_cons_of_mem _ hm)) (fun hm => h2 (List.mem_cons_of_mem _ hm)) h.2
    exact ⟨by rw [h.1, h3], h4⟩

theorem unlines_inj : ∀ {a b : List (List Char)}, (∀ l ∈ a, '\n' ∉ l) → (∀ l ∈ b, '\n' ∉ l) → unlines a = unlines b → a = b
  | [], [], _, _, _ => rfl
  | [], l :: ls, _, _, h => by simp [unlines] at h
  | l :: ls, [], _, _, h => by simp [unlines] at h
  | l :: ls, m :: ms, h1, h2, h => by
    obtain ⟨h3, h4⟩ := split_unique (h1 l (by simp)) (h2 m (by simp)) h
    rw [h3, unlines_inj (fun x hx => h1 x (by simp [hx])) (fun x hx => h2 x (by simp [hx])) h4]

/-- The line of a value, without range. -/
def Printer.label (p : Printer) : Value → List Char
  | .boolean b => txt "BOOLEAN " ++ (if b then txt "true" else txt "false")
  | .integer bytes => txt "INTEGER " ++ p.bytesToString bytes
  | .bitString unused bytes => txt "BIT STRING " ++ p.bytesToString bytes ++ txt " (" ++ decimal bytes.length ++
      txt " bytes, " ++ decimal unused.toNat ++ txt " unused bits)"
  | .octetString bytes => txt "OCTET STRING " ++ p.bytesToString bytes ++ txt " (" ++ decimal bytes.length ++
      txt " bytes)"
  | .null => txt "NULL"
  | .objectIdentifier parts => p.oidLine parts
  | .printableString s => txt "PrintableString " ++ (Chat.escapeString s).toList
  | .utf8String s => txt "UTF8String " ++ (Chat.escapeString s).toList
  | .utcTime s => txt "UTCTime " ++ (Chat.escapeString s).toList
  | .generalizedTime s => txt "GeneralizedTime " ++ (Chat.escapeString s).toList
  | .sequence _ => txt "Sequence"
  | .set _ => txt "Set"
  | .application tag _ => txt "Application (" ++ decimal tag ++ txt ")"
  | .contextSpecific tag _ => txt "ContextSpecific (" ++ decimal tag ++ txt ")"
  | .priv tag _ => txt "Private (" ++ decimal tag ++ txt ")"
  | .unknown id length => txt "Unknown " ++ id.debug ++ txt ", len = " ++ decimal length

/-- The line of an item. -/
def Printer.head (p : Printer) : Item → List Char
  | .mk a b v => p.rangeText a b ++ p.label v

/-- The lines of an item that is not the last in its list. -/
def branch (h : List Char) (b : List (List Char)) : List (List Char) :=
  (txt "├── " ++ h) :: b.map (txt "│   " ++ ·)

/-- The lines of the last item in a list. -/
def lastBranch (h : List Char) (b : List (List Char)) : List (List Char) :=
  (txt "└── " ++ h) :: b.map (txt "    " ++ ·)

mutual
/-- The lines below that of the item. -/
def Printer.body (p : Printer) : Item → List (List Char)
  | .mk _ _ v => p.valueBody v
/-- The lines below that of the value. -/
def Printer.valueBody (p : Printer) : Value → List (List Char)
  | .sequence items => p.bodies items
  | .set items => p.bodies items
  | .application _ child => lastBranch (p.head child) (p.body child)
  | .contextSpecific _ child => lastBranch (p.head child) (p.body child)
  | .priv _ child => lastBranch (p.head child) (p.body child)
  | _ => []
/-- The lines of a list. -/
def Printer.bodies (p : Printer) : List Item → List (List Char)
  | [] => []
  | item :: items =>
    (if 1 < (item :: items).length then branch (p.head item) (p.body item) else lastBranch (p.head item) (p.body item)) ++
      p.bodies items
end

theorem unlines_branch (ind h : List Char) (b : List (List Char)) :
    unlines ((branch h b).map (ind ++ ·)) =
      unlines ((ind ++ txt "├── " ++ h) :: b.map (ind ++ txt "│   " ++ ·)) := by
  simp [branch, Function.comp_def]

theorem unlines_lastBranch (ind h : List Char) (b : List (List Char)) :
    unlines ((lastBranch h b).map (ind ++ ·)) =
      unlines ((ind ++ txt "└── " ++ h) :: b.map (ind ++ txt "    " ++ ·)) := by
  simp [lastBranch, Function.comp_def]

/-- The items directly below a value. -/
def kids : Value → List Item
  | .sequence items | .set items => items
  | .application _ child | .contextSpecific _ child | .priv _ child => [child]
  | _ => []

theorem printValue_kids (p : Printer) (v : Value) (ind : List Char) :
    p.printValue v ind = p.label v ++ '\n' :: p.printList (kids v) ind := by
  cases v <;> simp only [Printer.printValue, Printer.label, kids, Printer.printList, List.append_assoc, List.append_nil,
    List.cons_append, List.nil_append, List.length_cons, List.length_nil, Nat.zero_add, Nat.lt_irrefl, if_false]

theorem valueBody_kids (p : Printer) (v : Value) : p.valueBody v = p.bodies (kids v) := by
  cases v <;> simp only [Printer.valueBody, kids, Printer.bodies, List.append_nil,
    List.length_cons, List.length_nil, Nat.zero_add, Nat.lt_irrefl, if_false]

theorem leaf_eq (p : Printer) (v : Value) (ind : List Char) (h : kids v = []) :
    p.printValue v ind = unlines (p.label v :: (p.valueBody v).map (ind ++ ·)) := by
  rw [printValue_kids, valueBody_kids, h, Printer.printList, Printer.bodies, List.map_nil, unlines, unlines]

mutual
theorem printItem_eq (p : Printer) : ∀ (i : Item) (pre ind : List Char),
    p.printItem i pre ind = unlines ((pre ++ p.head i) :: (p.body i).map (ind ++ ·))
  | .mk a b v, pre, ind => by
    rw [Printer.printItem, printValue_eq p v ind, Printer.head, Printer.body, unlines, unlines, List.append_assoc,
      List.append_assoc, List.append_assoc]
theorem printValue_eq (p : Printer) : ∀ (v : Value) (ind : List Char),
    p.printValue v ind = unlines (p.label v :: (p.valueBody v).map (ind ++ ·))
  | .sequence items, ind => by
    rw [printValue_kids, valueBody_kids, unlines, kids, printList_eq p items ind]
  | .set items, ind => by
    rw [printValue_kids, valueBody_kids, unlines, kids, printList_eq p items ind]
  | .application t c, ind => by
    rw [Printer.printValue, printItem_eq p c, Printer.label, Printer.valueBody]
    simp only [unlines, unlines_lastBranch, List.append_assoc, List.cons_append, List.nil_append]
  | .contextSpecific t c, ind => by
    rw [Printer.printValue, printItem_eq p c, Printer.label, Printer.valueBody]
    simp only [unlines, unlines_lastBranch, List.append_assoc, List.cons_append, List.nil_append]
  | .priv t c, ind => by
    rw [Printer.printValue, printItem_eq p c, Printer.label, Printer.valueBody]
    simp only [unlines, unlines_lastBranch, List.append_assoc, List.cons_append, List.nil_append]
  | .boolean b, ind => leaf_eq p _ ind rfl
  | .integer _, ind => leaf_eq p _ ind rfl
  | .bitString _ _, ind => leaf_eq p _ ind rfl
  | .octetString _, ind => leaf_eq p _ ind rfl
  | .null, ind => leaf_eq p _ ind rfl
  | .objectIdentifier _, ind => leaf_eq p _ ind rfl
  | .printableString _, ind => leaf_eq p _ ind rfl
  | .utf8String _, ind => leaf_eq p _ ind rfl
  | .utcTime _, ind => leaf_eq p _ ind rfl
  | .generalizedTime _, ind => leaf_eq p _ ind rfl
  | .unknown _ _, ind => leaf_eq p _ ind rfl
theorem printList_eq (p : Printer) : ∀ (is : List Item) (ind : List Char),
    p.printList is ind = unlines ((p.bodies is).map (ind ++ ·))
  | [], ind => by rw [Printer.printList, Printer.bodies, List.map_nil, unlines]
  | i :: is, ind => by
    rw [Printer.printList, Printer.bodies, printItem_eq p i, printItem_eq p i, printList_eq p is, List.map_append,
      unlines_append]
    split
    · rw [unlines_branch]
    · rw [unlines_lastBranch]
end

end Ngfs.Asn1
