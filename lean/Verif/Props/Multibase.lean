import Verif.Lemmas.MultibaseStandard
import Verif.Model.Utf8

/-! Properties C13 and C14: multibase text. -/
namespace Ngfs.Multibase
open Spec

private theorem rt_noprefix (data : Bytes) (base : Base) : decodeNoprefix (encodeNoprefix data base) base = .ok data := by
  have h0 : (⟨[], 0, 0⟩ : BitState) = mk [] 0 0 := rfl
  have h1 : String.utf8EncodeChar (pick BASE58_BTC 0) = [0x31] := by decide
  have h2 : String.utf8EncodeChar (pick BASE58_FLICKR 0) = [0x31] := by decide
  cases base <;> simp only [decodeNoprefix, encodeNoprefix, decodeBasen, h0]
  · exact rt16 table16L data 0 []
  · exact rt16 table16U data 0 []
  · exact rt32 table32L _ data 0 []
  · exact rt32 table32U _ data 0 []
  · exact rt32 table32L _ data 0 []
  · exact rt32 table32U _ data 0 []
  · exact rt58 table58F h2 data
  · exact rt58 table58B h1 data
  · exact rt64 table64 _ data 0 []
  · exact rt64 table64 _ data 0 []
  · exact rt64 table64U _ data 0 []
  · exact rt64 table64U _ data 0 []

private theorem forCode_code (base : Base) : Base.forCode base.code = some base := by cases base <;> rfl

/-- **C13**: for every base and every byte string, decoding the encoded text returns the bytes, whether or not the
text carries its base prefix. -/
theorem C13_multibase_round_trip (data : Bytes) (base : Base) :
    decode (encode data base) = .ok data ∧ decodeNoprefix (encodeNoprefix data base) base = .ok data := by
  refine ⟨?_, rt_noprefix data base⟩
  have h := rt_noprefix data base
  simp only [decode, encode, forCode_code]
  cases he : encodeNoprefix data base with
  | nil =>
    rw [he] at h
    cases base <;> exact h
  | cons c cs => rw [he] at h; exact h

/-- **C13**, the base survives: the first character of encoded text is the code of the base it was encoded in, no two
bases share a code, and each base has the code given to it by the multibase table. -/
theorem C13_base_recovered (data : Bytes) (base : Base) :
    ∃ rest, encode data base = base.code :: rest ∧ Base.forCode base.code = some base ∧ (base.code, base) ∈ baseCodes := by
  exact ⟨_, rfl, forCode_code base, by cases base <;> decide⟩

/-- The characters that may appear in encoded text. -/
private def allowed (base : Base) (c : Char) : Prop := c ∈ (alphabet base).toList ∨ (padded base = true ∧ c = '=')

private theorem pick_mem {a inv n} (h : TableOK a inv n) (d : UInt8) (hd : d.toNat < n) : pick a d ∈ a := by
  have hl : d.toNat < a.length := by rw [h.1]; exact hd
  simp only [pick, List.getD_eq_getElem?_getD, List.getElem?_eq_getElem hl, Option.getD_some]
  exact List.getElem_mem hl

private theorem chars16 {a inv} (h : TableOK a inv 16) (data : Bytes) : ∀ c ∈ encodeBase16 data a, c ∈ a := by
  intro c hc
  simp only [encodeBase16, List.mem_flatMap, List.mem_cons, List.not_mem_nil, or_false] at hc
  obtain ⟨b, _, hc⟩ := hc
  have := u8_lt b
  rcases hc with rfl | rfl
  · exact pick_mem h _ (by rw [shr4]; omega)
  · exact pick_mem h _ (by rw [lowf]; omega)

private theorem chars_emit32 {a inv} (h : TableOK a inv 32) (pd : Bool) (b0 b1 b2 b3 b4 : UInt8) (n : Nat) :
    ∀ c ∈ emit32 a pd (group32 b0 b1 b2 b3 b4) n, c ∈ a ∨ (pd = true ∧ c = '=') := by
  intro c hc
  rcases List.mem_append.mp hc with h1 | h1
  · obtain ⟨d, hd, rfl⟩ := List.mem_map.mp h1
    exact .inl (pick_mem h d (group32_lt _ _ _ _ _ _ d hd))
  · cases pd
    · simp at h1
    · exact .inr ⟨rfl, List.eq_of_mem_replicate h1⟩

private theorem chars32 {a inv} (h : TableOK a inv 32) (pd : Bool) (data : Bytes) :
    ∀ c ∈ encodeBase32 a pd data, c ∈ a ∨ (pd = true ∧ c = '=') := by
  induction data using encodeBase32.induct with
  | case1 => simp [encodeBase32]
  | case2 | case3 | case4 | case5 => simp only [encodeBase32]; exact chars_emit32 h pd _ _ _ _ _ _
  | case6 b0 b1 b2 b3 b4 rest ih =>
    intro c hc
    rw [encodeBase32] at hc
    rcases List.mem_append.mp hc with h1 | h1
    · exact chars_emit32 h pd _ _ _ _ _ _ c h1
    · exact ih c h1

private theorem chars64 {a inv} (h : TableOK a inv 64) (pd : Bool) (data : Bytes) :
    ∀ c ∈ encodeBase64 a pd data, c ∈ a ∨ (pd = true ∧ c = '=') := by
  induction data using encodeBase64.induct with
  | case1 => simp [encodeBase64]
  | case2 a0 =>
    have h0 := u8_lt a0
    intro c hc
    rw [encodeBase64] at hc
    rcases List.mem_append.mp hc with h1 | h1
    · simp only [List.map_cons, List.map_nil, List.mem_cons, List.not_mem_nil, or_false] at h1
      left
      rcases h1 with rfl | rfl <;> apply pick_mem h <;> simp only [shr2, m64a] <;> omega
    · cases pd <;> simp at h1
      exact .inr ⟨rfl, h1⟩
  | case3 a0 a1 =>
    have h0 := u8_lt a0; have h1 := u8_lt a1
    intro c hc
    rw [encodeBase64] at hc
    rcases List.mem_append.mp hc with h1 | h1
    · simp only [List.map_cons, List.map_nil, List.mem_cons, List.not_mem_nil, or_false] at h1
      left
      rcases h1 with rfl | rfl | rfl <;> apply pick_mem h <;> simp only [shr2, d64_1, m64b] <;> omega
    · cases pd <;> simp at h1
      exact .inr ⟨rfl, h1⟩
  | case4 a0 a1 a2 rest ih =>
    have h0 := u8_lt a0; have h1 := u8_lt a1; have h2 := u8_lt a2
    intro c hc
    rw [encodeBase64] at hc
    rcases List.mem_append.mp hc with h1 | h1
    · simp only [List.map_cons, List.map_nil, List.mem_cons, List.not_mem_nil, or_false] at h1
      left
      rcases h1 with rfl | rfl | rfl | rfl <;> apply pick_mem h <;> simp only [shr2, d64_1, d64_2, low3f] <;> omega
    · exact ih c h1

private theorem chars58 {a inv} (h : TableOK a inv 58) (data : Bytes) : ∀ c ∈ encodeBase58 data a, c ∈ a := by
  intro c hc
  obtain ⟨ds, e1, _, e3, _⟩ := encodeBase58Loop_spec data []
  simp only [encodeBase58, e1, List.nil_append] at hc
  rcases List.mem_append.mp hc with h1 | h1
  · rw [List.eq_of_mem_replicate h1]; exact pick_mem h _ (by decide)
  · obtain ⟨d, hd, rfl⟩ := List.mem_map.mp h1
    exact pick_mem h d (e3 d (List.mem_reverse.mp hd))

/-- **C13**, the text consists of the base's own digits and, for padded bases, `=`. (In particular no alphabet is
indexed out of range.) -/
theorem C13_output_characters (data : Bytes) (base : Base) (c : Char) (h : c ∈ encodeNoprefix data base) :
    c ∈ (alphabet base).toList ∨ (padded base = true ∧ c = '=') := by
  cases base <;> simp only [encodeNoprefix] at h
  · rw [alpha16L]; exact .inl (chars16 table16L data c h)
  · rw [alpha16U]; exact .inl (chars16 table16U data c h)
  · rw [alpha32L]; exact chars32 table32L _ data c h
  · rw [alpha32U]; exact chars32 table32U _ data c h
  · rw [show alphabet .base32Pad = alphabet .base32 from rfl, alpha32L]; exact chars32 table32L _ data c h
  · rw [show alphabet .base32PadUpper = alphabet .base32Upper from rfl, alpha32U]; exact chars32 table32U _ data c h
  · rw [alpha58F]; exact .inl (chars58 table58F data c h)
  · rw [alpha58B]; exact .inl (chars58 table58B data c h)
  · rw [alpha64]; exact chars64 table64 _ data c h
  · rw [show alphabet .base64Pad = alphabet .base64 from rfl, alpha64]; exact chars64 table64 _ data c h
  · rw [alpha64U]; exact chars64 table64U _ data c h
  · rw [show alphabet .base64URLPad = alphabet .base64URL from rfl, alpha64U]; exact chars64 table64U _ data c h

example : encode [0x68, 0x69] .base64Pad = ['M', 'a', 'G', 'k', '='] := by decide +kernel
example : encode [0x68, 0x69] .base32 = ['b', 'n', 'b', 'u', 'q'] := by decide +kernel

theorem accepts_noprefix (base : Base) (text : List Char) :
    (∃ r, decodeNoprefix text base = .ok r) ↔ ∀ c ∈ digitsPart base text, c ∈ (alphabet base).toList := by
  have asc := alphabets_ascii
  simp only [List.mem_cons, List.not_mem_nil, or_false, forall_eq_or_imp, forall_eq] at asc
  obtain ⟨a1, a2, a3, a4, a5, a6, a7, a8⟩ := asc
  cases base <;> simp only [decodeNoprefix, decodeBasen]
  · rw [alpha16L]; exact decodeBasenLoop_accepts acc16L a1 _ _ _ _ _
  · rw [alpha16U]; exact decodeBasenLoop_accepts acc16U a2 _ _ _ _ _
  · rw [alpha32L]; exact decodeBasenLoop_accepts acc32L a3 _ _ _ _ _
  · rw [alpha32U]; exact decodeBasenLoop_accepts acc32U a4 _ _ _ _ _
  · rw [show alphabet .base32Pad = alphabet .base32 from rfl, alpha32L]; exact decodeBasenLoop_accepts acc32L a3 _ _ _ _ _
  · rw [show alphabet .base32PadUpper = alphabet .base32Upper from rfl, alpha32U]
    exact decodeBasenLoop_accepts acc32U a4 _ _ _ _ _
  · rw [alpha58F]; exact decodeBase58_accepts acc58F a6 _
  · rw [alpha58B]; exact decodeBase58_accepts acc58B a5 _
  · rw [alpha64]; exact decodeBasenLoop_accepts acc64 a7 _ _ _ _ _
  · rw [show alphabet .base64Pad = alphabet .base64 from rfl, alpha64]; exact decodeBasenLoop_accepts acc64 a7 _ _ _ _ _
  · rw [alpha64U]; exact decodeBasenLoop_accepts acc64U a8 _ _ _ _ _
  · rw [show alphabet .base64URLPad = alphabet .base64URL from rfl, alpha64U]
    exact decodeBasenLoop_accepts acc64U a8 _ _ _ _ _

private theorem forCode_iff (c : Char) (base : Base) : Base.forCode c = some base ↔ (c, base) ∈ baseCodes := by
  constructor
  · intro h
    unfold Base.forCode at h
    split at h <;> first | (cases h; decide) | cases h
  · intro h
    simp only [baseCodes, List.mem_cons, Prod.mk.injEq, List.not_mem_nil, or_false] at h
    rcases h with h | h | h | h | h | h | h | h | h | h | h | h <;> obtain ⟨rfl, rfl⟩ := h <;> rfl

/-- **C14**: decoding succeeds exactly on text whose first character is a base code of the multibase table and whose
remaining characters, up to the first `=` for the padded bases, are all digits of that base. All other text, including
the empty text, is refused with an error. -/
theorem C14_accepts_exactly (text : List Char) :
    (∃ data, decode text = .ok data) ↔
      ∃ c base rest, text = c :: rest ∧ (c, base) ∈ baseCodes ∧
        ∀ d ∈ digitsPart base rest, d ∈ (alphabet base).toList := by
  cases text with
  | nil => simp [decode]
  | cons c rest =>
    cases hb : Base.forCode c with
    | none =>
      constructor
      · rintro ⟨data, h⟩
        simp only [decode, hb] at h
        cases h
      · rintro ⟨c', base, rest', h, hc, _⟩
        cases h
        rw [← forCode_iff, hb] at hc
        cases hc
    | some base =>
      have hdec : (∃ data, decode (c :: rest) = .ok data) ↔ ∃ data, decodeNoprefix rest base = .ok data := by
        cases rest with
        | nil =>
          have : ∃ data, decodeNoprefix [] base = .ok data := by
            rw [accepts_noprefix]; simp [digitsPart]
          simp [decode, hb, this]
        | cons d ds => simp only [decode, hb]
      rw [hdec, accepts_noprefix]
      constructor
      · intro h; exact ⟨c, base, rest, rfl, (forCode_iff c base).mp hb, h⟩
      · rintro ⟨c', base', rest', h, hc, hall⟩
        cases h
        rw [← forCode_iff, hb] at hc
        cases hc
        exact hall

/-- **C14**, the two ways text is refused: no base code, or a character that is not a digit. -/
theorem C14_rejects (c : Char) (rest : List Char) :
    ((∀ base, (c, base) ∉ baseCodes) → decode (c :: rest) = .error (.unsupportedEncoding c)) ∧
    (∀ base x, (c, base) ∈ baseCodes → x ∈ digitsPart base rest → x ∉ (alphabet base).toList →
      ∃ e, decode (c :: rest) = .error e) := by
  constructor
  · intro h
    cases hb : Base.forCode c with
    | none => simp only [decode, hb]
    | some base => exact absurd ((forCode_iff c base).mp hb) (h base)
  · intro base x hb hx hn
    cases hd : decode (c :: rest) with
    | error e => exact ⟨e, rfl⟩
    | ok data =>
      obtain ⟨c', base', rest', h, hc, hall⟩ := (C14_accepts_exactly _).mp ⟨data, hd⟩
      cases h
      rw [← forCode_iff] at hb hc
      rw [hb] at hc; cases hc
      exact absurd (hall x hx) hn

example : decode "mAA*A".toList = .error (.invalidChar 2 0x2a) := by decide +kernel
example : decode "xyz".toList = .error (.unsupportedEncoding 'x') := by decide +kernel
example : decode "MaGk=".toList = .ok [0x68, 0x69] := by decide +kernel

/-! ### C67 -/

/-- **C67**: the text is the one of the standard of the base. -/
theorem C67_standard_text (data : Bytes) (base : Base) :
    StandardText base data (encodeNoprefix data base) ∧ encode data base = base.code :: encodeNoprefix data base ∧
      (base.code, base) ∈ baseCodes := by
  refine ⟨?_, rfl, by cases base <;> decide⟩
  cases base <;> simp only [StandardText, bitsPerDigit, encodeNoprefix]
  · exact rep_rfc alpha16L (g := 2) rfl (rep16 _ _)
  · exact rep_rfc alpha16U (g := 2) rfl (rep16 _ _)
  · exact rep_rfc alpha32L (g := 8) rfl (rep32 _ _ _)
  · exact rep_rfc alpha32U (g := 8) rfl (rep32 _ _ _)
  · exact rep_rfc (base := .base32Pad) alpha32L (g := 8) rfl (rep32 _ _ _)
  · exact rep_rfc (base := .base32PadUpper) alpha32U (g := 8) rfl (rep32 _ _ _)
  · exact base58_text alpha58F data
  · exact base58_text alpha58B data
  · exact rep_rfc alpha64 (g := 4) rfl (rep64 _ _ _)
  · exact rep_rfc (base := .base64Pad) alpha64 (g := 4) rfl (rep64 _ _ _)
  · exact rep_rfc alpha64U (g := 4) rfl (rep64 _ _ _)
  · exact rep_rfc (base := .base64URLPad) alpha64U (g := 4) rfl (rep64 _ _ _)

/-- **C67**: the standard leaves one text, so nothing is left open. -/
theorem C67_standard_unique (data : Bytes) (base : Base) (s t : List Char) (hs : StandardText base data s)
    (ht : StandardText base data t) : s = t := by
  unfold StandardText at hs ht
  cases h : bitsPerDigit base with
  | some k => rw [h] at hs ht; exact rfc_unique hs ht
  | none => rw [h] at hs ht; exact base58_unique hs ht

/-- The test vector of RFC 4648 with the longest padding. -/
example : StandardText .base32PadUpper (utf8Encode "f") "MY======".toList := by
  have := (C67_standard_text (utf8Encode "f") .base32PadUpper).1
  rwa [show encodeNoprefix (utf8Encode "f") .base32PadUpper = "MY======".toList by decide +kernel] at this

end Ngfs.Multibase
