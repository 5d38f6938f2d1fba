import Verif.Model.Pem
import Verif.Spec.Pem
import Verif.Lemmas.MultibaseDecode
import Verif.Lemmas.Slice

/-! Helper lemmas: PEM text. No claims here. -/
namespace Ngfs.Pem
open Ngfs.Spec Ngfs.Multibase

theorem utf8Encode_ofList (cs : List Char) : utf8Encode (String.ofList cs) = asBytes cs := by
  simp [utf8Encode, asBytes, List.utf8Encode]

theorem asBytes_toList (s : String) : asBytes s.toList = utf8Encode s := by
  rw [← utf8Encode_ofList]; simp

theorem ascii_char {b : UInt8} (h : b.toNat < 128) : String.utf8EncodeChar (Char.ofNat b.toNat) = [b] := by
  have hc : ∀ n < 128, (Char.ofNat n).toNat = n := by decide +kernel
  have hc := hc _ h
  rcases utf8_first (Char.ofNat b.toNat) with ⟨-, h2⟩ | ⟨h1, -⟩
  · rw [h2, hc]; simp
  · omega

theorem asBytes_ascii {bs : Bytes} (h : ∀ b ∈ bs, b.toNat < 128) : asBytes (bs.map fun b => Char.ofNat b.toNat) = bs := by
  induction bs with
  | nil => rfl
  | cons b bs ih =>
    have e := ih fun x hx => h x (List.mem_cons_of_mem _ hx)
    simp only [asBytes] at e
    simp only [asBytes, List.map_cons, List.flatMap_cons, ascii_char (h b List.mem_cons_self), e, List.singleton_append]

theorem utf8Decode_ascii {bs : Bytes} (h : ∀ b ∈ bs, b.toNat < 128) :
    utf8Decode bs = some (String.ofList (bs.map fun b => Char.ofNat b.toNat)) := by
  have := utf8_round_trip (String.ofList (bs.map fun b => Char.ofNat b.toNat))
  rwa [utf8Encode_ofList, asBytes_ascii h] at this

theorem span_append {p : UInt8 → Bool} {l r : Bytes} (h1 : ∀ b ∈ l, p b = true) (h2 : ∀ b, r.head? = some b → p b = false) :
    (l ++ r).takeWhile p = l ∧ (l ++ r).dropWhile p = r := by
  have hr : r.takeWhile p = [] ∧ r.dropWhile p = r := by
    cases r with
    | nil => exact ⟨rfl, rfl⟩
    | cons b r => have := h2 b rfl; simp [this]
  rw [List.takeWhile_append_of_pos h1, List.dropWhile_append_of_pos h1, hr.1, hr.2]
  simp

theorem span_split (p : UInt8 → Bool) (r : Bytes) : ∃ l t, r = l ++ t ∧ r.takeWhile p = l ∧ r.dropWhile p = t ∧
    (∀ b ∈ l, p b = true) ∧ (∀ b, t.head? = some b → p b = false) := by
  refine ⟨r.takeWhile p, r.dropWhile p, (List.takeWhile_append_dropWhile).symm, rfl, rfl, ?_, ?_⟩
  · have := List.all_takeWhile (p := p) (l := r)
    rwa [List.all_eq_true] at this
  · intro b hb
    have := List.head?_dropWhile_not (p := p) (l := r)
    rw [hb] at this
    simpa using this

theorem dashes_all {d : Bytes} (h : Dashes d) : (∀ b ∈ d, (b == 0x2d) = true) ∧ d.length ≠ 0 := by
  obtain ⟨n, rfl⟩ := h
  refine ⟨fun b hb => ?_, by simp⟩
  rw [List.eq_of_mem_replicate hb]; rfl

theorem dashes_of {d : Bytes} (h : ∀ b ∈ d, (b == 0x2d) = true) (hl : d.length ≠ 0) : Dashes d := by
  refine ⟨d.length - 1, ?_⟩
  rw [List.eq_replicate_iff]
  exact ⟨by omega, fun b hb => by simpa using h b hb⟩

theorem expectDashes_ok {d r : Bytes} (h : Dashes d) (hr : ∀ b, r.head? = some b → b ≠ 0x2d) :
    expectDashes (d ++ r) = .ok (d.length, r) := by
  obtain ⟨h1, h2⟩ := dashes_all h
  obtain ⟨e1, e2⟩ := span_append (r := r) h1 fun b hb => by simpa using hr b hb
  simp only [expectDashes, e1, e2, if_neg h2]

theorem expectDashes_inv {r r' : Bytes} {k : Nat} (h : expectDashes r = .ok (k, r')) : ∃ d, Dashes d ∧ r = d ++ r' := by
  obtain ⟨l, t, e, h1, h2, h3, -⟩ := span_split (· == 0x2d) r
  simp only [expectDashes, h1, h2] at h
  split at h
  · cases h
  · rename_i hne
    simp only [Except.ok.injEq, Prod.mk.injEq] at h
    obtain ⟨-, rfl⟩ := h
    exact ⟨l, dashes_of h3 hne, e⟩

theorem expectDashes_noloop (r : Bytes) : expectDashes r ≠ .error .loop := by
  simp only [expectDashes]; split <;> simp

theorem expectSpace_inv {r r' : Bytes} {u : Unit} (h : expectSpace r = .ok (u, r')) : r = 0x20 :: r' := by
  unfold expectSpace at h
  split at h
  · simp only [Except.ok.injEq, Prod.mk.injEq] at h; rw [h.2]
  · cases h

theorem expectSpace_noloop (r : Bytes) : expectSpace r ≠ .error .loop := by
  unfold expectSpace; split <;> simp

theorem lineEnd_iff {nl : Bytes} : LineEnd nl ↔ nl = [0x0a] ∨ nl = [0x0d, 0x0a] := by
  have h1 : utf8Encode "\n" = [0x0a] := by decide +kernel
  have h2 : utf8Encode "\r\n" = [0x0d, 0x0a] := by decide +kernel
  rw [LineEnd, h1, h2]

theorem expectNewline_ok {nl : Bytes} (h : LineEnd nl) (r : Bytes) : expectNewline (nl ++ r) = .ok ((), r) := by
  rcases lineEnd_iff.mp h with rfl | rfl <;> simp [expectNewline]

theorem expectNewline_inv {r r' : Bytes} {u : Unit} (h : expectNewline r = .ok (u, r')) : ∃ nl, LineEnd nl ∧ r = nl ++ r' := by
  simp only [expectNewline] at h
  split at h
  · rename_i heq
    simp only [Except.ok.injEq, Prod.mk.injEq] at h
    obtain ⟨-, rfl⟩ := h
    split at heq
    · rename_i hh
      cases r with
      | nil => cases hh
      | cons b r =>
        simp only [List.head?_cons, Option.some.injEq] at hh
        simp only [List.tail_cons] at heq
        subst hh heq
        exact ⟨_, lineEnd_iff.mpr (.inr rfl), rfl⟩
    · exact ⟨_, lineEnd_iff.mpr (.inl rfl), heq⟩
  · cases h

theorem expectNewline_noloop (r : Bytes) : expectNewline r ≠ .error .loop := by
  simp only [expectNewline]
  split
  · simp
  · simp

theorem isLabelByte_iff (b : UInt8) : isLabelByte b = true ↔ (65 ≤ b.toNat ∧ b.toNat ≤ 90) ∨ b.toNat = 32 := by
  simp only [isLabelByte, Bool.or_eq_true, Bool.and_eq_true, decide_eq_true_eq, beq_iff_eq, UInt8.le_iff_toNat_le]
  have : b = 0x20 ↔ b.toNat = 32 := ⟨fun h => by rw [h]; rfl, fun h => u8_ext (by rw [h]; rfl)⟩
  rw [this]
  rfl

theorem readLabel_ok {label : String} {r : Bytes} (h : LabelText (utf8Encode label)) (hr : ∀ b, r.head? = some b → isLabelByte b = false) :
    readLabel (utf8Encode label ++ r) = .ok (label, r) := by
  obtain ⟨e1, e2⟩ := span_append (r := r) (fun b hb => (isLabelByte_iff b).mpr (h b hb)) hr
  simp only [readLabel, e1, e2, utf8_round_trip]

theorem readLabel_inv {r r' : Bytes} {label : String} (h : readLabel r = .ok (label, r')) :
    LabelText (utf8Encode label) ∧ r = utf8Encode label ++ r' := by
  obtain ⟨l, t, e, h1, h2, h3, -⟩ := span_split isLabelByte r
  simp only [readLabel, h1, h2] at h
  split at h
  · cases h
  · rename_i s hs
    simp only [Except.ok.injEq, Prod.mk.injEq] at h
    obtain ⟨rfl, rfl⟩ := h
    rw [utf8_decode_some hs]
    exact ⟨fun b hb => (isLabelByte_iff b).mp (h3 b hb), e⟩

theorem readLabel_total (r : Bytes) : ∃ label r', readLabel r = .ok (label, r') := by
  obtain ⟨l, t, e, h1, h2, h3, -⟩ := span_split isLabelByte r
  have : ∀ b ∈ l, b.toNat < 128 := by
    intro b hb
    have := (isLabelByte_iff b).mp (h3 b hb)
    omega
  exact ⟨_, _, by simp only [readLabel, h1, utf8Decode_ascii this]; rfl⟩

theorem expectEnd_iff {r r' : Bytes} {u : Unit} : expectEnd r = .ok (u, r') ↔ r = [] ∧ r' = [] := by
  unfold expectEnd
  split
  · rename_i h; subst h; simp [eq_comm]
  · rename_i h; simp [h]

theorem expectEnd_noloop (r : Bytes) : expectEnd r ≠ .error .loop := by
  unfold expectEnd; split <;> simp

/-! ### Words -/

theorem expectString_ok (s : Bytes) (n : Nat) (e r : Bytes) (h : e.length < n) : expectString s n e (e ++ r) = .ok ((), r) := by
  induction e generalizing n with
  | nil => cases n with
    | zero => omega
    | succ n => simp [expectString]
  | cons b e ih => cases n with
    | zero => omega
    | succ n =>
      simp only [List.length_cons] at h
      simp only [List.cons_append, expectString, if_true]
      exact ih n (by omega)

theorem expectString_inv {s : Bytes} {n : Nat} {e r r' : Bytes} {u : Unit} (h : expectString s n e r = .ok (u, r')) : r = e ++ r' := by
  induction n generalizing e r with
  | zero => simp [expectString] at h
  | succ n ih =>
    cases e with
    | nil => simp only [expectString, Except.ok.injEq, Prod.mk.injEq] at h; simp [h.2]
    | cons b e =>
      cases r with
      | nil => simp only [expectString] at h; exact ih h
      | cons c r =>
        simp only [expectString] at h
        split at h
        · rename_i hb; rw [hb, List.cons_append, ← ih h]
        · cases h

/-- At the end of the input the loop never ends. -/
theorem expectString_loops (s : Bytes) (n : Nat) {e r : Bytes} (h : r <+: e) (hne : r ≠ e) :
    expectString s n e r = .error .loop := by
  induction n generalizing e r with
  | zero => rfl
  | succ n ih =>
    cases e with
    | nil => exact absurd (List.prefix_nil.mp h) hne
    | cons b e =>
      cases r with
      | nil => simp only [expectString]; exact ih h hne
      | cons c r =>
        obtain ⟨rfl, h'⟩ := List.cons_prefix_cons.mp h
        simp only [expectString, if_true]
        exact ih h' (by rintro rfl; exact hne rfl)

theorem expectString_loop_inv {s : Bytes} {n : Nat} {e r : Bytes} (hn : e.length < n) (h : expectString s n e r = .error .loop) :
    r <+: e ∧ r ≠ e := by
  induction n generalizing e r with
  | zero => omega
  | succ n ih =>
    cases e with
    | nil => simp [expectString] at h
    | cons b e =>
      cases r with
      | nil => exact ⟨List.nil_prefix, by simp⟩
      | cons c r =>
        simp only [List.length_cons] at hn
        simp only [expectString] at h
        split at h
        · rename_i hb
          subst hb
          obtain ⟨h1, h2⟩ := ih (by omega) h
          exact ⟨List.cons_prefix_cons.mpr ⟨rfl, h1⟩, by simpa using h2⟩
        · simp at h

/-! ### The data -/

theorem isBase64Byte_iff (b : UInt8) : isBase64Byte b = true ↔
    b ∈ utf8Encode "ABCDEFGHIJKLMNOPQRSTUVWXYZabcdefghijklmnopqrstuvwxyz0123456789+/=" := by
  have : ∀ n < 256, (isBase64Byte (UInt8.ofNat n) = true ↔
    UInt8.ofNat n ∈ utf8Encode "ABCDEFGHIJKLMNOPQRSTUVWXYZabcdefghijklmnopqrstuvwxyz0123456789+/=") := by decide +kernel
  simpa using this b.toNat (u8_lt b)

/-- The bytes that are no line end. -/
def strip (bs : Bytes) : Bytes := bs.filter fun b => b ≠ 10 ∧ b ≠ 13

theorem not_base64 {b : UInt8} (h : b = 0x0d ∨ b = 0x0a ∨ b = 0x2d) : isBase64Byte b = false := by
  rcases h with rfl | rfl | rfl <;> decide

theorem base64_keeps {b : UInt8} (h : isBase64Byte b = true) : (decide (b ≠ 10 ∧ b ≠ 13)) = true := by
  rw [decide_eq_true_eq]
  constructor
  · rintro rfl; exact absurd h (by decide)
  · rintro rfl; exact absurd h (by decide)

theorem readBase64_ok {body : Bytes} (h : BodyText body) {r : Bytes} (hr : ∀ b, r.head? = some b → b = 0x2d) :
    readBase64 (body ++ r) = .ok (strip body, r) := by
  induction body with
  | nil =>
    cases r with
    | nil => rfl
    | cons b r =>
      have := hr b rfl
      subst this
      simp [readBase64, not_base64, strip]
  | cons b body ih =>
    simp only [List.cons_append, readBase64]
    by_cases hb : isBase64Byte b = true
    · rw [if_pos hb]
      have e : strip (b :: body) = b :: strip body := by simp only [strip, List.filter_cons, base64_keeps hb, if_true]
      rw [ih fun x hx => h x (by rw [show (b :: body).filter _ = strip (b :: body) from rfl, e]; exact List.mem_cons_of_mem _ hx), e]
    · rw [if_neg hb]
      have hl : b = 0x0d ∨ b = 0x0a := by
        by_contra hc
        apply hb
        rw [isBase64Byte_iff]
        apply h
        rw [List.mem_filter, decide_eq_true_eq]
        exact ⟨List.mem_cons_self, fun e => hc (.inr e), fun e => hc (.inl e)⟩
      have e : strip (b :: body) = strip body := by rcases hl with rfl | rfl <;> simp [strip]
      rw [if_pos hl, e]
      exact ih fun x hx => h x (by rw [show (b :: body).filter _ = strip (b :: body) from rfl, e]; exact hx)

theorem readBase64_inv {r r' d : Bytes} (h : readBase64 r = .ok (d, r')) :
    ∃ body, BodyText body ∧ r = body ++ r' ∧ d = strip body ∧ ∀ b, r'.head? = some b → b = 0x2d := by
  induction r generalizing d with
  | nil =>
    simp only [readBase64, Except.ok.injEq, Prod.mk.injEq] at h
    obtain ⟨rfl, rfl⟩ := h
    exact ⟨[], by intro b hb; simp at hb, rfl, rfl, by simp⟩
  | cons b r ih =>
    simp only [readBase64] at h
    split at h
    · rename_i hb
      split at h
      · cases h
      · rename_i d' r'' he
        simp only [Except.ok.injEq, Prod.mk.injEq] at h
        obtain ⟨rfl, rfl⟩ := h
        obtain ⟨body, h1, rfl, rfl, h4⟩ := ih he
        have e : strip (b :: body) = b :: strip body := by simp only [strip, List.filter_cons, base64_keeps hb, if_true]
        refine ⟨b :: body, ?_, rfl, e.symm, h4⟩
        intro x hx
        rw [show (b :: body).filter _ = strip (b :: body) from rfl, e] at hx
        rcases List.mem_cons.mp hx with rfl | hx
        · exact (isBase64Byte_iff _).mp hb
        · exact h1 x hx
    · split at h
      · rename_i hl
        obtain ⟨body, h1, rfl, rfl, h4⟩ := ih h
        have e : strip (b :: body) = strip body := by rcases hl with rfl | rfl <;> simp [strip]
        refine ⟨b :: body, ?_, rfl, e.symm, h4⟩
        intro x hx
        rw [show (b :: body).filter _ = strip (b :: body) from rfl, e] at hx
        exact h1 x hx
      · split at h
        · rename_i hd
          simp only [Except.ok.injEq, Prod.mk.injEq] at h
          obtain ⟨rfl, rfl⟩ := h
          exact ⟨[], by intro b hb; simp at hb, rfl, rfl, by simp [hd]⟩
        · cases h

theorem readBase64_noloop (r : Bytes) : readBase64 r ≠ .error .loop := by
  induction r with
  | nil => simp [readBase64]
  | cons b r ih =>
    simp only [readBase64]
    split
    · split
      · rename_i e he; rw [he] at ih; simpa using ih
      · simp
    · split
      · exact ih
      · split <;> simp

theorem strip_ascii {body : Bytes} (h : BodyText body) : ∀ b ∈ strip body, b.toNat < 128 := by
  have : ∀ n < 256, UInt8.ofNat n ∈ utf8Encode "ABCDEFGHIJKLMNOPQRSTUVWXYZabcdefghijklmnopqrstuvwxyz0123456789+/=" → n < 128 := by
    decide +kernel
  intro b hb
  exact this b.toNat (u8_lt b) (by simpa using h b hb)

/-! ### The whole text -/

theorem BEGIN_eq : utf8Encode "BEGIN " = BEGIN ++ [0x20] ∧ utf8Encode "END " = END ++ [0x20] ∧ utf8Encode "BEGIN" = BEGIN ∧
    utf8Encode "END" = END := by decide +kernel

theorem dashes_head {d r : Bytes} (h : Dashes d) : ∀ b, (d ++ r).head? = some b → b = 0x2d := by
  obtain ⟨n, rfl⟩ := h
  intro b hb
  simpa [List.replicate_succ] using hb.symm

theorem lineEnd_head {nl r : Bytes} (h : LineEnd nl) : ∀ b, (nl ++ r).head? = some b → b ≠ 0x2d := by
  rcases lineEnd_iff.mp h with rfl | rfl <;> simp <;> decide

theorem bind_eq {α β : Type} {x : Except Err α} {a : α} {f : α → Except Err β} (h : x = .ok a) : (x >>= f) = f a := by rw [h]; rfl

theorem bind_inv {α β : Type} {x : Except Err α} {f : α → Except Err β} {b : β} (h : (x >>= f) = .ok b) :
    ∃ a, x = .ok a ∧ f a = .ok b := by
  cases x with
  | error e => cases h
  | ok a => exact ⟨a, rfl, h⟩

theorem bind_loop {α β : Type} {x : Except Err α} {f : α → Except Err β} (h : (x >>= f) = .error .loop) :
    x = .error .loop ∨ ∃ a, x = .ok a ∧ f a = .error .loop := by
  cases x with
  | error e => left; simpa [bind, Except.bind] using h
  | ok a => exact .inr ⟨a, rfl, h⟩

theorem toText_body {body : Bytes} (hb : BodyText body) : toText (strip body) =
    .ok (String.ofList ((strip body).map fun b => Char.ofNat b.toNat)) := by
  rw [toText, utf8Decode_ascii (strip_ascii hb)]

theorem decodeText_body {body data : Bytes} :
    decodeText (String.ofList ((strip body).map fun b => Char.ofNat b.toNat)) = .ok data ↔ bodyData body = some data := by
  rw [decodeText, String.toList_ofList, bodyData, strip]
  generalize decodeNoprefix _ _ = x
  cases x <;> simp

theorem decodeText_noloop (s : String) : decodeText s ≠ .error .loop := by
  rw [decodeText]; split <;> simp

theorem decodePem_ok (n : Nat) (hn : 6 ≤ n) {label : String} {h body f data : Bytes} (hh : Header (utf8Encode label) h)
    (hb : BodyText body) (hf : Footer (utf8Encode label) f) (hd : bodyData body = some data) :
    decodePem n (h ++ body ++ f) = .ok (label, data) := by
  obtain ⟨d1, d2, nl1, hd1, hd2, hn1, hl, rfl⟩ := hh
  obtain ⟨d3, d4, nl2, hd3, hd4, hn2, -, rfl⟩ := hf
  rw [BEGIN_eq.1, BEGIN_eq.2.1]
  have hdl : ∀ d r : Bytes, Dashes d → ∀ b, (d ++ r).head? = some b → isLabelByte b = false := by
    intro d r hd b hb
    rw [dashes_head hd b hb]
    rfl
  simp only [List.append_assoc]
  unfold decodePem
  refine (bind_eq (expectDashes_ok hd1 (by intro b hb; simp [BEGIN] at hb; rw [← hb]; decide))).trans ?_
  refine (bind_eq (expectString_ok BEGIN n BEGIN _ (by simp [BEGIN]; omega))).trans ?_
  refine (bind_eq (a := ((), _)) rfl).trans ?_
  refine (bind_eq (readLabel_ok hl (hdl _ _ hd2))).trans ?_
  refine (bind_eq (expectDashes_ok hd2 (lineEnd_head hn1))).trans ?_
  refine (bind_eq (expectNewline_ok hn1 _)).trans ?_
  refine (bind_eq (readBase64_ok hb (dashes_head hd3))).trans ?_
  refine (bind_eq (expectDashes_ok hd3 (by intro b hb; simp [END] at hb; rw [← hb]; decide))).trans ?_
  refine (bind_eq (expectString_ok END n END _ (by simp [END]; omega))).trans ?_
  refine (bind_eq (a := ((), _)) rfl).trans ?_
  refine (bind_eq (readLabel_ok hl (hdl _ _ hd4))).trans ?_
  refine (bind_eq (expectDashes_ok hd4 (by simpa using lineEnd_head (r := []) hn2))).trans ?_
  refine (bind_eq (by simpa using expectNewline_ok hn2 [])).trans ?_
  refine (bind_eq (expectEnd_iff (u := ()).mpr ⟨rfl, rfl⟩)).trans ?_
  refine (bind_eq (toText_body hb)).trans ?_
  refine (bind_eq (decodeText_body.mpr hd)).trans ?_
  simp

theorem decodePem_inv {n : Nat} {input : Bytes} {label : String} {data : Bytes} (h : decodePem n input = .ok (label, data)) :
    ∃ hd body f, Header (utf8Encode label) hd ∧ BodyText body ∧ Footer (utf8Encode label) f ∧ input = hd ++ body ++ f ∧
      bodyData body = some data := by
  unfold decodePem at h
  obtain ⟨⟨k1, r1⟩, e1, h⟩ := bind_inv h
  obtain ⟨⟨⟨⟩, r2⟩, e2, h⟩ := bind_inv h
  obtain ⟨⟨⟨⟩, r3⟩, e3, h⟩ := bind_inv h
  obtain ⟨⟨l1, r4⟩, e4, h⟩ := bind_inv h
  obtain ⟨⟨k5, r5⟩, e5, h⟩ := bind_inv h
  obtain ⟨⟨⟨⟩, r6⟩, e6, h⟩ := bind_inv h
  obtain ⟨⟨b7, r7⟩, e7, h⟩ := bind_inv h
  obtain ⟨⟨k8, r8⟩, e8, h⟩ := bind_inv h
  obtain ⟨⟨⟨⟩, r9⟩, e9, h⟩ := bind_inv h
  obtain ⟨⟨⟨⟩, r10⟩, e10, h⟩ := bind_inv h
  obtain ⟨⟨l2, r11⟩, e11, h⟩ := bind_inv h
  obtain ⟨⟨k12, r12⟩, e12, h⟩ := bind_inv h
  obtain ⟨⟨⟨⟩, r13⟩, e13, h⟩ := bind_inv h
  obtain ⟨⟨⟨⟩, r14⟩, e14, h⟩ := bind_inv h
  obtain ⟨bt, e15, h⟩ := bind_inv h
  obtain ⟨decoded, e16, h⟩ := bind_inv h
  have hfin := h
  clear h
  obtain ⟨d1, hd1, rfl⟩ := expectDashes_inv e1
  obtain rfl := expectString_inv e2
  obtain rfl := expectSpace_inv e3
  obtain ⟨hl1, rfl⟩ := readLabel_inv e4
  obtain ⟨d2, hd2, rfl⟩ := expectDashes_inv e5
  obtain ⟨nl1, hn1, rfl⟩ := expectNewline_inv e6
  obtain ⟨body, hb, rfl, rfl, -⟩ := readBase64_inv e7
  obtain ⟨d3, hd3, rfl⟩ := expectDashes_inv e8
  obtain rfl := expectString_inv e9
  obtain rfl := expectSpace_inv e10
  obtain ⟨hl2, rfl⟩ := readLabel_inv e11
  obtain ⟨d4, hd4, rfl⟩ := expectDashes_inv e12
  obtain ⟨nl2, hn2, rfl⟩ := expectNewline_inv e13
  obtain ⟨rfl, -⟩ := expectEnd_iff.mp e14
  rw [toText_body hb] at e15
  cases e15
  have hdec := decodeText_body.mp e16
  split at hfin
  · cases hfin
  · rename_i hll
    simp only [Except.ok.injEq, Prod.mk.injEq] at hfin
    obtain ⟨rfl, rfl⟩ := hfin
    rw [Decidable.not_not] at hll
    subst hll
    refine ⟨_, body, _, ⟨d1, d2, nl1, hd1, hd2, hn1, hl1, rfl⟩, hb, ⟨d3, d4, nl2, hd3, hd4, hn2, hl1, rfl⟩, ?_, hdec⟩
    rw [BEGIN_eq.1, BEGIN_eq.2.1]
    simp

theorem decodePem_loops (n : Nat) {input : Bytes} (h : CutInKeyword input) : decodePem n input = .error .loop := by
  have hpre : ∀ (p w : Bytes), p <+: w → ∀ b ∈ p.head?, b ∈ w := by
    rintro p w ⟨t, rfl⟩ b hb
    exact List.mem_append_left _ (List.mem_of_mem_head? hb)
  unfold CutInKeyword at h
  rw [BEGIN_eq.2.2.1, BEGIN_eq.2.2.2] at h
  rcases h with ⟨d, p, hd, hp, hne, rfl⟩ | ⟨label, h, body, d, p, ⟨d1, d2, nl1, hd1, hd2, hn1, hl, rfl⟩, hb, hd, hp, hne, rfl⟩
  · unfold decodePem
    refine (bind_eq (expectDashes_ok hd ?_)).trans ?_
    · intro b hb he
      subst he
      exact absurd (hpre _ _ hp _ hb) (by decide)
    · show (expectString BEGIN n BEGIN p >>= _) = _
      rw [expectString_loops BEGIN n hp hne]
      rfl
  · have hla : ∀ b ∈ label, b.toNat < 128 := by
      intro b hb
      have := hl b hb
      omega
    have hls : label = utf8Encode (String.ofList (label.map fun b => Char.ofNat b.toNat)) := by
      rw [utf8Encode_ofList, asBytes_ascii hla]
    generalize String.ofList (label.map fun b => Char.ofNat b.toNat) = ls at hls
    subst hls
    have hdl : ∀ d r : Bytes, Dashes d → ∀ b, (d ++ r).head? = some b → isLabelByte b = false := by
      intro d r hd b hb
      rw [dashes_head hd b hb]
      rfl
    rw [BEGIN_eq.1]
    simp only [List.append_assoc]
    unfold decodePem
    refine Classical.byContradiction fun hc => hc ?_
    by_cases hn : 6 ≤ n
    · refine (bind_eq (expectDashes_ok hd1 (by intro b hb; simp [BEGIN] at hb; rw [← hb]; decide))).trans ?_
      refine (bind_eq (expectString_ok BEGIN n BEGIN _ (by simp [BEGIN]; omega))).trans ?_
      refine (bind_eq (a := ((), _)) rfl).trans ?_
      refine (bind_eq (readLabel_ok hl (hdl _ _ hd2))).trans ?_
      refine (bind_eq (expectDashes_ok hd2 (lineEnd_head hn1))).trans ?_
      refine (bind_eq (expectNewline_ok hn1 _)).trans ?_
      refine (bind_eq (readBase64_ok hb (dashes_head hd))).trans ?_
      refine (bind_eq (expectDashes_ok hd ?_)).trans ?_
      · intro b hb he
        subst he
        exact absurd (hpre _ _ hp _ hb) (by decide)
      · show (expectString END n END p >>= _) = _
        rw [expectString_loops END n hp hne]
        rfl
    · refine (bind_eq (expectDashes_ok hd1 (by intro b hb; simp [BEGIN] at hb; rw [← hb]; decide))).trans ?_
      have : ∀ m r, m < 6 → expectString BEGIN m BEGIN (BEGIN ++ r) = .error .loop := by
        intro m r hm
        have : m = 0 ∨ m = 1 ∨ m = 2 ∨ m = 3 ∨ m = 4 ∨ m = 5 := by omega
        rcases this with rfl | rfl | rfl | rfl | rfl | rfl <;> rfl
      show (expectString BEGIN n BEGIN (BEGIN ++ _) >>= _) = _
      rw [this n _ (by omega)]
      rfl

theorem decodePem_loop_inv {n : Nat} (hn : 6 ≤ n) {input : Bytes} (h : decodePem n input = .error .loop) : CutInKeyword input := by
  unfold decodePem at h
  obtain h | ⟨⟨k1, r1⟩, e1, h⟩ := bind_loop h
  · exact absurd h (expectDashes_noloop _)
  obtain ⟨d1, hd1, q1⟩ := expectDashes_inv e1
  obtain h | ⟨⟨⟨⟩, r2⟩, e2, h⟩ := bind_loop h
  · obtain ⟨h1, h2⟩ := expectString_loop_inv (by simp [BEGIN]; omega) h
    exact .inl ⟨d1, r1, hd1, by rw [BEGIN_eq.2.2.1]; exact h1, by rw [BEGIN_eq.2.2.1]; exact h2, q1⟩
  have q2 := expectString_inv e2
  obtain h | ⟨⟨⟨⟩, r3⟩, e3, h⟩ := bind_loop h
  · exact absurd h (expectSpace_noloop _)
  have q3 := expectSpace_inv e3
  obtain h | ⟨⟨l1, r4⟩, e4, h⟩ := bind_loop h
  · obtain ⟨_, _, e⟩ := readLabel_total r3; rw [e] at h; cases h
  obtain ⟨hl1, q4⟩ := readLabel_inv e4
  obtain h | ⟨⟨k5, r5⟩, e5, h⟩ := bind_loop h
  · exact absurd h (expectDashes_noloop _)
  obtain ⟨d2, hd2, q5⟩ := expectDashes_inv e5
  obtain h | ⟨⟨⟨⟩, r6⟩, e6, h⟩ := bind_loop h
  · exact absurd h (expectNewline_noloop _)
  obtain ⟨nl1, hn1, q6⟩ := expectNewline_inv e6
  obtain h | ⟨⟨b7, r7⟩, e7, h⟩ := bind_loop h
  · exact absurd h (readBase64_noloop _)
  obtain ⟨body, hb, q7, q8, -⟩ := readBase64_inv e7
  obtain h | ⟨⟨k8, r8⟩, e8, h⟩ := bind_loop h
  · exact absurd h (expectDashes_noloop _)
  obtain ⟨d3, hd3, q9⟩ := expectDashes_inv e8
  obtain h | ⟨⟨⟨⟩, r9⟩, e9, h⟩ := bind_loop h
  · obtain ⟨h1, h2⟩ := expectString_loop_inv (by simp [END]; omega) h
    refine .inr ⟨_, _, body, d3, r8, ⟨d1, d2, nl1, hd1, hd2, hn1, hl1, rfl⟩, hb, hd3, by rw [BEGIN_eq.2.2.2]; exact h1,
      by rw [BEGIN_eq.2.2.2]; exact h2, ?_⟩
    rw [BEGIN_eq.1, q1, q2, q3, q4, q5, q6, q7, q9]
    simp
  obtain h | ⟨⟨⟨⟩, r10⟩, e10, h⟩ := bind_loop h
  · exact absurd h (expectSpace_noloop _)
  obtain h | ⟨⟨l2, r11⟩, e11, h⟩ := bind_loop h
  · obtain ⟨_, _, e⟩ := readLabel_total r10; rw [e] at h; cases h
  obtain h | ⟨⟨k12, r12⟩, e12, h⟩ := bind_loop h
  · exact absurd h (expectDashes_noloop _)
  obtain h | ⟨⟨⟨⟩, r13⟩, e13, h⟩ := bind_loop h
  · exact absurd h (expectNewline_noloop _)
  obtain h | ⟨⟨⟨⟩, r14⟩, e14, h⟩ := bind_loop h
  · exact absurd h (expectEnd_noloop _)
  obtain h | ⟨s, e15, h⟩ := bind_loop h
  · rw [q8, toText_body hb] at h; cases h
  obtain h | ⟨d, e16, h⟩ := bind_loop h
  · exact absurd h (decodeText_noloop _)
  · split at h <;> simp at h

/-! ### Wrapping -/

theorem wrap_body (n : Nat) (bs : Bytes) (hn : bs.length ≤ n) (h : Base64Text bs) : BodyText (wrap n bs) ∧ strip (wrap n bs) = bs := by
  have hk : ∀ l : Bytes, Base64Text l → strip l = l := by
    intro l hl
    rw [strip, List.filter_eq_self]
    intro b hb
    exact base64_keeps ((isBase64Byte_iff b).mpr (hl b hb))
  have key : strip (wrap n bs) = bs := by
    induction n generalizing bs with
    | zero => cases bs with
      | nil => rfl
      | cons b bs => simp at hn
    | succ n ih =>
      simp only [wrap]
      split
      · rename_i e; subst e; rfl
      · rename_i hne
        have hpos : 0 < bs.length := List.length_pos_iff.mpr hne
        have h1 := hk (bs.take 64) fun b hb => h b (List.mem_of_mem_take hb)
        have h2 := ih (bs.drop 64) (by rw [List.length_drop]; omega) fun b hb => h b (List.mem_of_mem_drop hb)
        rw [strip] at h1 h2 ⊢
        rw [List.filter_append, List.filter_cons, h1, h2]
        simp
  exact ⟨fun b hb => h b (by rwa [show (wrap n bs).filter _ = strip (wrap n bs) from rfl, key] at hb), key⟩

end Ngfs.Pem
