import Verif.Lemmas.MultibaseRead
import Verif.Props.Multibase
import Verif.Props.Cid

/-!
C199: a text in a base is read as what it stands for, and the same bytes have one text in each base.
-/
namespace Ngfs.Multibase
open Spec

/-- Without the base code. -/
theorem noprefix_iff (base : Base) (text : List Char) (data : Bytes) : decodeNoprefix text base = .ok data ↔ StandsFor base text data := by
  have asc := alphabets_ascii
  simp only [List.mem_cons, List.not_mem_nil, or_false, forall_eq_or_imp, forall_eq] at asc
  obtain ⟨a1, a2, a3, a4, a5, a6, a7, a8⟩ := asc
  cases base <;> simp only [decodeNoprefix, StandsFor, bitsPerDigit]
  · exact basen_iff (base := .base16) digitOK4 alpha16L table16L acc16L a1 text data
  · exact basen_iff (base := .base16Upper) digitOK4 alpha16U table16U acc16U a2 text data
  · exact basen_iff (base := .base32) digitOK5 alpha32L table32L acc32L a3 text data
  · exact basen_iff (base := .base32Upper) digitOK5 alpha32U table32U acc32U a4 text data
  · exact basen_iff (base := .base32Pad) digitOK5 alpha32L table32L acc32L a3 text data
  · exact basen_iff (base := .base32PadUpper) digitOK5 alpha32U table32U acc32U a4 text data
  · exact base58_iff alpha58F table58F acc58F a6 (by decide) text data
  · exact base58_iff alpha58B table58B acc58B a5 (by decide) text data
  · exact basen_iff (base := .base64) digitOK6 alpha64 table64 acc64 a7 text data
  · exact basen_iff (base := .base64Pad) digitOK6 alpha64 table64 acc64 a7 text data
  · exact basen_iff (base := .base64URL) digitOK6 alpha64U table64U acc64U a8 text data
  · exact basen_iff (base := .base64URLPad) digitOK6 alpha64U table64U acc64U a8 text data

/-- **C199**, first half: a text is read as what it stands for in the base of its first character, and every text that stands for something
is read. -/
theorem C199_read (text : List Char) (data : Bytes) :
    decode text = .ok data ↔ ∃ c base rest, text = c :: rest ∧ (c, base) ∈ baseCodes ∧ StandsFor base rest data := by
  have hcode : ∀ c base, Base.forCode c = some base ↔ (c, base) ∈ baseCodes := by
    intro c base
    constructor
    · intro h
      unfold Base.forCode at h
      split at h <;> first | (cases h; decide) | cases h
    · intro h
      simp only [baseCodes, List.mem_cons, Prod.mk.injEq, List.not_mem_nil, or_false] at h
      rcases h with h | h | h | h | h | h | h | h | h | h | h | h <;> obtain ⟨rfl, rfl⟩ := h <;> rfl
  have hd : ∀ c rest, decode (c :: rest) = .ok data ↔ ∃ base, Base.forCode c = some base ∧ decodeNoprefix rest base = .ok data := by
    intro c rest
    rw [decode]
    cases hb : Base.forCode c with
    | none => simp
    | some base =>
      cases rest with
      | nil =>
        have h0 : decodeNoprefix [] base = .ok [] := by cases base <;> rfl
        simp [h0]
      | cons x xs => simp
  cases text with
  | nil => simp [decode]
  | cons c rest =>
    rw [hd]
    constructor
    · rintro ⟨base, h1, h2⟩
      exact ⟨c, base, rest, rfl, (hcode c base).mp h1, (noprefix_iff base rest data).mp h2⟩
    · rintro ⟨c', base, rest', h, h1, h2⟩
      cases h
      exact ⟨base, (hcode c base).mpr h1, (noprefix_iff base rest data).mpr h2⟩

/-- Four digits of five bits are two bytes and four bits. -/
example : StandsFor .base32 "mfra".toList [0x61, 0x62] := (noprefix_iff _ _ _).mp (by decide +kernel)

example : decode "bmfra".toList = .ok [0x61, 0x62] :=
  (C199_read _ _).mpr ⟨'b', .base32, "mfra".toList, by decide +kernel, by decide, (noprefix_iff _ _ _).mp (by decide +kernel)⟩

/-- The claim, second half: in each base, the same bytes have one text, and the same identifier has one too. -/
def C199_statement : Prop :=
  (∀ s t data, decode s = .ok data → decode t = .ok data → s.head? = t.head? → s = t) ∧
  (∀ s t c, Cid.fromText s = .ok c → Cid.fromText t = .ok c → s.head? = t.head? → s = t)

/-- **C199** is false of identifiers: the text of one with 36 bytes has two bits too many in the last digit, which are not looked at. -/
theorem C199_identifiers_false : ¬ ∀ s t c, Cid.fromText s = .ok c → Cid.fromText t = .ok c → s.head? = t.head? → s = t := by
  intro h
  have := h "bafybeiaaaaaaaaaaaaaaaaaaaaaaaaaaaaaaaaaaaaaaaaaaaaaaaaaaaa".toList
    "bafybeiaaaaaaaaaaaaaaaaaaaaaaaaaaaaaaaaaaaaaaaaaaaaaaaaaaab".toList ⟨.v1, .dagPB, .sha2256, List.replicate 32 0⟩
    (by decide +kernel) (by decide +kernel) (by decide +kernel)
  exact absurd this (by decide +kernel)

/-- **C199** is false, already of bytes. -/
theorem C199_false : ¬ C199_statement := by
  intro h
  have := h.1 "mQQ".toList "mQR".toList [0x41] (by decide +kernel) (by decide +kernel) (by decide +kernel)
  exact absurd this (by decide)

/-- Padding may be missing, anything may follow it, and a digit may be too much. -/
example : decode "MQQ==".toList = .ok [0x41] ∧ decode "MQQ".toList = .ok [0x41] ∧ decode "MQQ=, and more".toList = .ok [0x41] ∧
    decode "f414".toList = .ok [0x41] := by decide +kernel

/-- In base 58 each byte string has one text.

Missing from the full claim: the other bases, see `C199_false` and `C199_standard_partial`. -/
theorem C199_base58_partial (base : Base) (h : base = .base58BTC ∨ base = .base58Flickr) (text : List Char) (data : Bytes) :
    decode (base.code :: text) = .ok data ↔ base.code :: text = encode data base := by
  have hstd := (C67_standard_text data base).1
  have h1 : decode (base.code :: text) = .ok data ↔ decodeNoprefix text base = .ok data := by
    rcases h with rfl | rfl <;> cases text <;> rfl
  rw [h1, noprefix_iff]
  constructor
  · intro hs
    have : StandardText base data text := by rcases h with rfl | rfl <;> exact hs
    rw [encode, C67_standard_unique data base _ _ this hstd]
  · intro he
    obtain rfl : text = encodeNoprefix data base := List.tail_eq_of_cons_eq he
    rcases h with rfl | rfl <;> exact hstd

example : encode [0, 0, 0x61, 0x62] .base58BTC = "z118Qq".toList := by
  have := (C199_base58_partial .base58BTC (.inl rfl) "118Qq".toList [0, 0, 0x61, 0x62]).mp (by decide +kernel)
  rw [← this]
  decide +kernel

/-- In the other bases a text is the one that `encode` gives for the bytes it stands for, exactly if nothing in it is superfluous.

Missing from the full claim: the texts with something superfluous are refused, which is false, see `C199_false`. -/
theorem C199_standard_partial (base : Base) (k : Nat) (hk : bitsPerDigit base = some k) (text : List Char) (data : Bytes)
    (h : decodeNoprefix text base = .ok data) : text = encodeNoprefix data base ↔ Exact base k text := by
  have hstd := (C67_standard_text data base).1
  have hk8 : k < 8 := by cases base <;> simp [bitsPerDigit] at hk <;> omega
  have hnd : (alphabet base).toList.Nodup ∧ (alphabet base).toList.length = 2 ^ k ∧ '=' ∉ (alphabet base).toList := by
    cases base <;> simp only [bitsPerDigit, Option.some.injEq, reduceCtorEq] at hk <;> subst hk <;> decide +kernel
  rw [noprefix_iff] at h
  simp only [StandsFor, hk] at h
  constructor
  · rintro rfl
    simp only [StandardText, hk] at hstd
    obtain ⟨ds, z, pads, e1, e2, e3, e4, e5, e6, e7, e8⟩ := hstd
    have hz : k * ds.length % 8 = z := by omega
    exact ⟨ds, pads, e1, e8, by omega, by rw [hz, e4]; exact Nat.dvd_mul_left _ _, e5, e6, e7⟩
  · rintro ⟨es, pads, e1, e2, e3, e4, e5, e6, e7⟩
    obtain ⟨ds, d1, d2, d3, d4⟩ := h
    have hne : ∀ c ∈ written base es, c ≠ '=' := by
      intro c hc he
      obtain ⟨d, hd, rfl⟩ := List.mem_map.mp hc
      have hl : d < (alphabet base).toList.length := by rw [hnd.2.1]; exact e1 d hd
      rw [List.getD_eq_getElem _ _ hl] at he
      exact hnd.2.2 (he ▸ List.getElem_mem hl)
    have hpart : digitsPart base text = written base es := by
      rw [digitsPart]
      cases hp : padded base with
      | false => rw [e7 hp] at e2; simpa using e2
      | true =>
        rw [if_pos rfl, e2, List.takeWhile_append_of_pos (by simpa using hne)]
        cases pads <;> simp [List.replicate_succ]
    rw [hpart] at d2
    have hinj : ∀ xs ys : List Nat, (∀ d ∈ xs, d < 2 ^ k) → (∀ d ∈ ys, d < 2 ^ k) → written base xs = written base ys → xs = ys := by
      intro xs
      induction xs with
      | nil => intro ys _ _ h; cases ys <;> simp [written] at h ⊢
      | cons x xs ih =>
        intro ys hx hy h
        cases ys with
        | nil => simp [written] at h
        | cons y ys =>
          simp only [written, List.map_cons, List.cons.injEq] at h
          rw [ih ys (fun d hd => hx d (by simp [hd])) (fun d hd => hy d (by simp [hd])) h.2]
          have lx : x < (alphabet base).toList.length := by rw [hnd.2.1]; exact hx x (by simp)
          have ly : y < (alphabet base).toList.length := by rw [hnd.2.1]; exact hy y (by simp)
          have h1 := h.1
          rw [List.getD_eq_getElem _ _ lx, List.getD_eq_getElem _ _ ly] at h1
          rw [(hnd.1.getElem_inj_iff).mp h1]
    obtain rfl := hinj es ds e1 d1 d2
    have hr : StandardText base data text := by
      simp only [StandardText, hk]
      refine ⟨es, k * es.length % 8, pads, e1, e3, by omega, ?_, e5, e6, e7, e2⟩
      rw [d4, Nat.div_mul_cancel e4]
    exact C67_standard_unique data base _ _ hr hstd

/-- Two texts for the same bytes, one of them the standard one. -/
example : decodeNoprefix "QQ==".toList .base64Pad = .ok [0x41] ∧ decodeNoprefix "QR==".toList .base64Pad = .ok [0x41] ∧
    encodeNoprefix [0x41] .base64Pad = "QQ==".toList ∧ Exact .base64Pad 6 "QQ==".toList ∧ ¬ Exact .base64Pad 6 "QR==".toList := by
  have h1 : decodeNoprefix "QQ==".toList .base64Pad = .ok [0x41] := by decide +kernel
  have h2 : decodeNoprefix "QR==".toList .base64Pad = .ok [0x41] := by decide +kernel
  have h3 : encodeNoprefix [0x41] .base64Pad = "QQ==".toList := by decide +kernel
  refine ⟨h1, h2, h3, (C199_standard_partial .base64Pad 6 rfl _ _ h1).mp h3.symm, fun h => ?_⟩
  have := (C199_standard_partial .base64Pad 6 rfl _ _ h2).mpr h
  rw [h3] at this
  exact absurd this (by decide)

end Ngfs.Multibase
