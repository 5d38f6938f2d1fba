import Verif.Lemmas.Asn1Print
import Verif.Spec.Asn1Print
import Verif.Props.Util

/-! The printout determines the item. -/
namespace Ngfs.Asn1
open Ngfs.Util (toHex fromHex) 
open Ngfs.Spec

/-! ### Numbers -/

theorem digitChar_inj : ∀ a < 16, ∀ b < 16, Nat.digitChar a = Nat.digitChar b → a = b := by decide

theorem toDigits_inj {b : Nat} (h1 : 1 < b) (h2 : b ≤ 16) (n : Nat) : ∀ m, Nat.toDigits b n = Nat.toDigits b m → n = m := by
  induction n using Nat.strongRecOn with
  | _ n ih =>
    intro m h
    rw [Nat.toDigits_eq_if h1, Nat.toDigits_eq_if (n := m) h1] at h
    have mod (k) : k % b < 16 := Nat.lt_of_lt_of_le (Nat.mod_lt k (by omega)) h2
    split at h <;> split at h
    · exact digitChar_inj n (by omega) m (by omega) (by simpa using h)
    · have := congrArg List.length h
      have := Nat.length_toDigits_pos (b := b) (n := m / b)
      simp at *
    · have := congrArg List.length h
      have := Nat.length_toDigits_pos (b := b) (n := n / b)
      simp at *
    · obtain ⟨h3, h4⟩ := List.append_inj' h rfl
      have h5 := ih (n / b) (Nat.div_lt_self (by omega) h1) _ h3
      have h6 := digitChar_inj _ (mod n) _ (mod m) (by simpa using h4)
      rw [← Nat.div_add_mod n b, ← Nat.div_add_mod m b, h5, h6]

theorem mem_toDigits {b : Nat} (h1 : 1 < b) (h2 : b ≤ 16) (c : Char) (n : Nat) : c ∈ Nat.toDigits b n →
    ∃ d < 16, c = Nat.digitChar d := by
  induction n using Nat.strongRecOn with
  | _ n ih =>
    intro h
    rw [Nat.toDigits_eq_if h1] at h
    split at h
    · exact ⟨n, by omega, by simpa using h⟩
    · rcases List.mem_append.1 h with h | h
      · exact ih (n / b) (Nat.div_lt_self (by omega) h1) h
      · exact ⟨n % b, Nat.lt_of_lt_of_le (Nat.mod_lt n (by omega)) h2, by simpa using h⟩

theorem decimal_inj {n m : Nat} (h : decimal n = decimal m) : n = m := toDigits_inj (by decide) (by decide) n m h
theorem hexadecimal_inj {n m : Nat} (h : hexadecimal n = hexadecimal m) : n = m :=
  toDigits_inj (by decide) (by decide) n m h

/-- A character that is no digit. -/
def NoDigit (c : Char) : Prop := ∀ d < 16, c ≠ Nat.digitChar d
instance (c : Char) : Decidable (NoDigit c) := by unfold NoDigit; infer_instance

theorem decimal_free {c : Char} (h : NoDigit c) (n : Nat) : c ∉ decimal n := fun hm => by
  obtain ⟨d, hd, e⟩ := mem_toDigits (by decide) (by decide) c n hm
  exact h d hd e
theorem hexadecimal_free {c : Char} (h : NoDigit c) (n : Nat) : c ∉ hexadecimal n := fun hm => by
  obtain ⟨d, hd, e⟩ := mem_toDigits (by decide) (by decide) c n hm
  exact h d hd e
theorem decimal_ne_nil (n : Nat) : decimal n ≠ [] := Nat.toDigits_ne_nil

theorem toHex_inj {a b : Bytes} (h : toHex a = toHex b) : a = b := by
  have := Util.C34_round_trip a
  rw [h, Util.C34_round_trip] at this
  exact (Option.some.inj this).symm

theorem lowerHex_digit : ∀ n < 16, Util.lowerHex n = Nat.digitChar n := by decide

theorem toHex_free {c : Char} (h : NoDigit c) (bs : Bytes) : c ∉ toHex bs := by
  intro hm
  obtain ⟨b, _, hb⟩ := List.mem_flatMap.1 hm
  have h1 := b.toNat_lt
  simp only [List.mem_cons, List.not_mem_nil, or_false] at hb
  rcases hb with e | e
  · exact h (b.toNat / 16) (by omega) (by rw [e, lowerHex_digit _ (by omega)])
  · exact h (b.toNat % 16) (by omega) (by rw [e, lowerHex_digit _ (by omega)])

theorem bytesLoop_eq (t : Bool) : ∀ (bs : Bytes) (i : Nat), (t = true → i + bs.length ≤ 16) → bytesToStringLoop t i bs = toHex bs
  | [], _, _ => rfl
  | b :: bs, i, h => by
    rw [bytesToStringLoop, if_neg (by rintro ⟨h1, h2⟩; have := h h1; simp at this; omega),
      bytesLoop_eq t bs (i + 1) (fun ht => by have := h ht; simp at this; omega)]
    rfl

/-- The printer shows the byte string in full. -/
def Shown (p : Printer) (bs : Bytes) : Prop := p.truncate = true → bs.length ≤ 16

theorem bytesToString_eq {p : Printer} {bs : Bytes} (h : Shown p bs) : p.bytesToString bs = toHex bs :=
  bytesLoop_eq _ _ _ (by simpa [Shown] using h)

theorem bytesLoop_free {c : Char} (h : NoDigit c) (hd : c ≠ '.') (t : Bool) : ∀ (bs : Bytes) (i : Nat), c ∉ bytesToStringLoop t i bs
  | [], _ => by simp [bytesToStringLoop]
  | b :: bs, i => by
    rw [bytesToStringLoop]
    split
    · have : txt "..." = ['.', '.', '.'] := by decide +kernel
      rw [this]
      simp [hd]
    · rw [List.mem_append, not_or]
      exact ⟨toHex_free h _, bytesLoop_free h hd t bs (i + 1)⟩

/-! ### Object identifiers -/

theorem oidText_free {c : Char} (h : NoDigit c) (hd : c ≠ '.') : ∀ (ns : List Nat) (i : Nat), c ∉ oidText i ns
  | [], _ => by simp [oidText]
  | n :: ns, i => by
    rw [oidText, List.mem_append, List.mem_append, not_or, not_or]
    refine ⟨⟨?_, decimal_free h n⟩, oidText_free h hd ns (i + 1)⟩
    split <;> simp [hd]

theorem oidText_succ (i : Nat) : ∀ ns : List Nat, oidText (i + 1) ns = ns.flatMap fun n => '.' :: decimal n
  | [] => rfl
  | n :: ns => by rw [oidText, oidText_succ (i + 1) ns]; simp

theorem dots_inj : ∀ {ns ms : List Nat}, (ns.flatMap fun n => '.' :: decimal n) = (ms.flatMap fun n => '.' :: decimal n) → ns = ms
  | [], [], _ => rfl
  | [], m :: ms, h => by simp at h
  | n :: ns, [], h => by simp at h
  | n :: ns, m :: ms, h => by
    simp only [List.flatMap_cons, List.cons_append, List.cons.injEq, true_and] at h
    have key : ∀ (a : List Nat), ∃ r, (a.flatMap fun n => '.' :: decimal n) ++ ['.'] = '.' :: r := by
      intro a; cases a <;> simp
    obtain ⟨r, hr⟩ := key ns
    obtain ⟨s, hs⟩ := key ms
    have h' := congrArg (· ++ ['.']) h
    simp only [List.append_assoc, hr, hs] at h'
    obtain ⟨h1, h2⟩ := split_unique (decimal_free (by decide) n) (decimal_free (by decide) m) h'
    rw [h1] at h
    rw [decimal_inj h1, dots_inj (List.append_cancel_left h)]

theorem oidText_inj {ns ms : List Nat} (h : oidText 0 ns = oidText 0 ms) : ns = ms := by
  cases ns with
  | nil => cases ms with
    | nil => rfl
    | cons m ms =>
      simp [oidText] at h
      exact absurd h.1 (decimal_ne_nil m)
  | cons n ns => cases ms with
    | nil =>
      simp [oidText] at h
      exact absurd h.1 (decimal_ne_nil n)
    | cons m ms =>
      have e : ∀ k ks, '.' :: oidText 0 (k :: ks) = (k :: ks).flatMap fun n => '.' :: decimal n := by
        intro k ks
        rw [oidText, oidText_succ]
        simp
      exact dots_inj (by rw [← e, ← e, h])

theorem oidLine_inj {p : Printer} {ns ms : List Nat} (h : p.oidLine ns = p.oidLine ms) : ns = ms := by
  have ep : txt " (" = [' ', '('] := by decide +kernel
  have ec : txt ")" = [')'] := by decide +kernel
  unfold Printer.oidLine at h
  have free (c : Char) (hc : NoDigit c) (hd : c ≠ '.') (ns) : c ∉ (oidText 0 ns).reverse := by
    rw [List.mem_reverse]; exact oidText_free hc hd ns 0
  split at h <;> split at h <;> try simp only [ep, ec, List.append_assoc] at h
  · have h := congrArg List.reverse h
    simp at h
    have h1 := (split_unique (free '(' (by decide) (by decide) ns) (free '(' (by decide) (by decide) ms) h).1
    exact oidText_inj (List.reverse_injective h1)
  · exfalso
    have h := congrArg List.reverse (List.append_cancel_left h)
    simp at h
    exact free ')' (by decide) (by decide) ms (by rw [← h]; simp)
  · exfalso
    have h := congrArg List.reverse (List.append_cancel_left h)
    simp at h
    exact free ')' (by decide) (by decide) ns (by rw [h]; simp)
  · exact oidText_inj (List.append_cancel_left h)

/-! ### Texts -/

theorem escapeChars_inj : ∀ {a b : List Char}, '\\' ∉ a → '\\' ∉ b → Chat.escapeChars a = Chat.escapeChars b → a = b
  | [], [], _, _, _ => rfl
  | [], c :: cs, _, _, h => by
    simp only [Chat.escapeChars] at h
    split_ifs at h <;> simp at h
  | c :: cs, [], _, _, h => by
    simp only [Chat.escapeChars] at h
    split_ifs at h <;> simp at h
  | c :: cs, d :: ds, h1, h2, h => by
    simp only [List.mem_cons, not_or] at h1 h2
    have ih := @escapeChars_inj cs ds h1.2 h2.2
    simp only [Chat.escapeChars] at h
    split_ifs at h <;> simp_all

theorem escapeChars_free : ∀ a : List Char, '\n' ∉ Chat.escapeChars a
  | [] => by simp [Chat.escapeChars]
  | c :: cs => by
    rw [Chat.escapeChars, List.mem_append, not_or]
    refine ⟨?_, escapeChars_free cs⟩
    split_ifs <;> simp_all [eq_comm]

theorem escapeString_free (s : String) : '\n' ∉ (Chat.escapeString s).toList := by
  simp [Chat.escapeString, escapeChars_free]

theorem escapeString_inj {s t : String} (h1 : '\\' ∉ s.toList) (h2 : '\\' ∉ t.toList)
    (h : (Chat.escapeString s).toList = (Chat.escapeString t).toList) : s = t := by
  simp only [Chat.escapeString, String.toList_ofList, List.cons.injEq, true_and] at h
  exact String.toList_inj.1 (escapeChars_inj h1 h2 (List.append_inj' h rfl).1)

/-! ### Lines -/

/-- The kind of a value. -/
def kindOf : Value → Nat
  | .boolean _ => 0
  | .integer _ => 1
  | .bitString _ _ => 2
  | .octetString _ => 3
  | .null => 4
  | .objectIdentifier _ => 5
  | .printableString _ => 6
  | .utf8String _ => 7
  | .utcTime _ => 8
  | .generalizedTime _ => 9
  | .sequence _ => 10
  | .set _ => 11
  | .application _ _ => 12
  | .contextSpecific _ _ => 13
  | .priv _ _ => 14
  | .unknown _ _ => 15

/-- The first four characters of the line of a value of some kind. -/
def wordOf : Nat → List Char
  | 0 => ['B', 'O', 'O', 'L']
  | 1 => ['I', 'N', 'T', 'E']
  | 2 => ['B', 'I', 'T', ' ']
  | 3 => ['O', 'C', 'T', 'E']
  | 4 => ['N', 'U', 'L', 'L']
  | 5 => ['O', 'B', 'J', 'E']
  | 6 => ['P', 'r', 'i', 'n']
  | 7 => ['U', 'T', 'F', '8']
  | 8 => ['U', 'T', 'C', 'T']
  | 9 => ['G', 'e', 'n', 'e']
  | 10 => ['S', 'e', 'q', 'u']
  | 11 => ['S', 'e', 't']
  | 12 => ['A', 'p', 'p', 'l']
  | 13 => ['C', 'o', 'n', 't']
  | 14 => ['P', 'r', 'i', 'v']
  | 15 => ['U', 'n', 'k', 'n']
  | _ => []

theorem wordOf_inj : ∀ i < 16, ∀ j < 16, wordOf i = wordOf j → i = j := by decide

theorem kindOf_lt (v : Value) : kindOf v < 16 := by cases v <;> simp [kindOf]

theorem take4 {l : List Char} {a b c d : Char} {r : List Char} (h : l = a :: b :: c :: d :: r) (s : List Char) :
    (l ++ s).take 4 = [a, b, c, d] := by subst h; rfl

theorem label_word (p : Printer) (v : Value) : (p.label v).take 4 = wordOf (kindOf v) := by
  cases v <;> simp only [Printer.label, Printer.oidLine, List.append_assoc]
  · exact take4 (r := txt "EAN ") (by decide +kernel) _
  · exact take4 (r := txt "GER ") (by decide +kernel) _
  · exact take4 (r := txt "STRING ") (by decide +kernel) _
  · exact take4 (r := txt "T STRING ") (by decide +kernel) _
  · have : txt "NULL" = ['N', 'U', 'L', 'L'] := by decide +kernel
    rw [this]; rfl
  · split <;> exact take4 (r := txt "CT ") (by decide +kernel) _
  · exact take4 (r := txt "tableString ") (by decide +kernel) _
  · exact take4 (r := txt "String ") (by decide +kernel) _
  · exact take4 (r := txt "ime ") (by decide +kernel) _
  · exact take4 (r := txt "ralizedTime ") (by decide +kernel) _
  · have : txt "Sequence" = ['S', 'e', 'q', 'u', 'e', 'n', 'c', 'e'] := by decide +kernel
    rw [this]; rfl
  · have : txt "Set" = ['S', 'e', 't'] := by decide +kernel
    rw [this]; rfl
  · exact take4 (r := txt "ication (") (by decide +kernel) _
  · exact take4 (r := txt "extSpecific (") (by decide +kernel) _
  · exact take4 (r := txt "ate (") (by decide +kernel) _
  · exact take4 (r := txt "own ") (by decide +kernel) _

theorem label_kind {p : Printer} {v w : Value} (h : p.label v = p.label w) : kindOf v = kindOf w :=
  wordOf_inj _ (kindOf_lt v) _ (kindOf_lt w) (by rw [← label_word p, ← label_word p, h])

/-- The value without the items nested in it. -/
def own : Value → Value
  | .sequence _ => .sequence []
  | .set _ => .set []
  | .application t _ => .application t (.mk 0 0 .null)
  | .contextSpecific t _ => .contextSpecific t (.mk 0 0 .null)
  | .priv t _ => .priv t (.mk 0 0 .null)
  | v => v

/-- What the line shows in full: texts without backslash, byte strings not cut off. -/
def Clear (p : Printer) (v : Value) : Prop :=
  (∀ s, textOf v = some s → '\\' ∉ s.toList) ∧ (∀ d, bytesOf v = some d → Shown p d)

theorem tag_inj {n m : Nat} {l : List Char} (h : l ++ decimal n ++ txt ")" = l ++ decimal m ++ txt ")") : n = m :=
  decimal_inj (List.append_cancel_left (List.append_cancel_right h))

theorem debug_inj {a b : Identifier} {n m : Nat}
    (h : txt "Unknown " ++ a.debug ++ txt ", len = " ++ decimal n = txt "Unknown " ++ b.debug ++ txt ", len = " ++ decimal m) :
    a = b ∧ n = m := by
  have e1 : txt ", form: " = ',' :: txt " form: " := by decide +kernel
  have e2 : txt ", tag: " = ',' :: txt " tag: " := by decide +kernel
  have e3 : txt " }" = ' ' :: txt "}" := by decide +kernel
  have fc : ∀ c : Class, ',' ∉ c.debug := by intro c; cases c <;> decide +kernel
  have ff : ∀ c : Form, ',' ∉ c.debug := by intro c; cases c <;> decide +kernel
  have ic : ∀ c d : Class, c.debug = d.debug → c = d := by intro c d; cases c <;> cases d <;> decide +kernel
  have jf : ∀ c d : Form, c.debug = d.debug → c = d := by intro c d; cases c <;> cases d <;> decide +kernel
  obtain ⟨c1, f1, t1⟩ := a
  obtain ⟨c2, f2, t2⟩ := b
  simp only [Identifier.debug, List.append_assoc, e1, e2, e3, List.cons_append] at h
  have h := List.append_cancel_left (List.append_cancel_left h)
  obtain ⟨h1, h⟩ := split_unique (fc _) (fc _) h
  obtain ⟨h2, h⟩ := split_unique (ff _) (ff _) (List.append_cancel_left h)
  obtain ⟨h3, h⟩ := split_unique (decimal_free (by decide) _) (decimal_free (by decide) _) (List.append_cancel_left h)
  exact ⟨by rw [ic _ _ h1, jf _ _ h2, decimal_inj h3], decimal_inj (List.append_cancel_left (List.append_cancel_left h))⟩

theorem label_inj {p : Printer} {v w : Value} (hv : Clear p v) (hw : Clear p w) (h : p.label v = p.label w) : own v = own w := by
  have hk := label_kind h
  have ep : txt " (" = ' ' :: txt "(" := by decide +kernel
  have eb : txt " bytes, " = ' ' :: txt "bytes, " := by decide +kernel
  cases v <;> cases w <;> (first | (exfalso; simp [kindOf] at hk; done) | skip) <;> simp only [Printer.label] at h <;> simp only [own]
  · rename_i a b
    have h := List.append_cancel_left h
    cases a <;> cases b <;> first | rfl | (exfalso; revert h; decide +kernel)
  · rw [bytesToString_eq (hv.2 _ rfl), bytesToString_eq (hw.2 _ rfl)] at h
    rw [toHex_inj (List.append_cancel_left h)]
  · rw [bytesToString_eq (hv.2 _ rfl), bytesToString_eq (hw.2 _ rfl)] at h
    simp only [ep, eb, List.append_assoc, List.cons_append] at h
    obtain ⟨h1, h⟩ := split_unique (toHex_free (by decide) _) (toHex_free (by decide) _) (List.append_cancel_left h)
    obtain ⟨-, h⟩ := split_unique (decimal_free (by decide) _) (decimal_free (by decide) _) (List.append_cancel_left h)
    have h2 := decimal_inj (List.append_cancel_right (List.append_cancel_left h))
    rw [toHex_inj h1, UInt8.toNat_inj.1 h2]
  · rw [bytesToString_eq (hv.2 _ rfl), bytesToString_eq (hw.2 _ rfl)] at h
    simp only [ep, List.append_assoc, List.cons_append] at h
    obtain ⟨h1, h⟩ := split_unique (toHex_free (by decide) _) (toHex_free (by decide) _) (List.append_cancel_left h)
    rw [toHex_inj h1]
  · rw [oidLine_inj h]
  · rw [escapeString_inj (hv.1 _ rfl) (hw.1 _ rfl) (List.append_cancel_left h)]
  · rw [escapeString_inj (hv.1 _ rfl) (hw.1 _ rfl) (List.append_cancel_left h)]
  · rw [escapeString_inj (hv.1 _ rfl) (hw.1 _ rfl) (List.append_cancel_left h)]
  · rw [escapeString_inj (hv.1 _ rfl) (hw.1 _ rfl) (List.append_cancel_left h)]
  · rw [tag_inj h]
  · rw [tag_inj h]
  · rw [tag_inj h]
  · obtain ⟨h1, h2⟩ := debug_inj h
    rw [h1, h2]

theorem head_inj {p : Printer} {a b c d : Nat} {v w : Value} (hv : Clear p v) (hw : Clear p w)
    (h : p.head (.mk a b v) = p.head (.mk c d w)) : own v = own w ∧ (p.ranges = true → a = c ∧ b = d) := by
  have e1 : txt ".." = '.' :: txt "." := by decide +kernel
  have e2 : txt "] " = ']' :: txt " " := by decide +kernel
  simp only [Printer.head, Printer.rangeText] at h
  split at h
  · simp only [List.append_assoc, e1, e2, List.cons_append] at h
    obtain ⟨h1, h⟩ := split_unique (hexadecimal_free (by decide) _) (hexadecimal_free (by decide) _) (List.append_cancel_left h)
    obtain ⟨h2, h⟩ := split_unique (hexadecimal_free (by decide) _) (hexadecimal_free (by decide) _) (List.append_cancel_left h)
    exact ⟨label_inj hv hw (List.append_cancel_left h), fun _ => ⟨hexadecimal_inj h1, hexadecimal_inj h2⟩⟩
  · exact ⟨label_inj hv hw h, fun h => absurd h (by assumption)⟩

theorem own_kids {v w : Value} (h : own v = own w) (hk : kids v = kids w) : v = w := by
  cases v <;> cases w <;> simp_all [own, kids]

theorem own_same {v w : Value} (h : own v = own w) (hk : SameItems (kids v) (kids w)) : SameValue v w := by
  cases v <;> cases w <;> simp only [own, Value.sequence.injEq, Value.set.injEq, Value.application.injEq, Value.contextSpecific.injEq,
    Value.priv.injEq, reduceCtorEq, and_true] at h <;> first
    | exact .refl
    | (rw [h]; exact .refl)
    | exact .sequence hk
    | exact .set hk
    | (subst h; cases hk with | cons h1 _ => first | exact .application h1 | exact .contextSpecific h1 | exact .priv h1)

end Ngfs.Asn1
