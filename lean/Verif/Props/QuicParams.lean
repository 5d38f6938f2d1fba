import Verif.Lemmas.QuicParams

/-! Claims C46 and C82: QUIC transport parameters. -/
namespace Ngfs.Quic
open Binary Spec Spec.Quic

/-- C46: parameters with numbers below 2^62 and connection identifiers of at most 20 bytes are read back as they were written. -/
def C46_statement : Prop :=
  ∀ ps : List Param, (∀ p ∈ ps, WellFormed p ∨ ∃ id : Bytes, id.length ≤ 20 ∧ p = .originalDst id) →
    (encodeList ps).length < 2 ^ 64 → decodeList (encodeList ps) = .ok ps

/-- C46 is false: the original destination connection identifier is read back as an unknown parameter. -/
theorem C46_false : ¬ C46_statement := by
  intro h
  have := h [.originalDst [1]] (by
    intro p hp
    exact .inr ⟨[1], by simp, by simpa using hp⟩) (by decide)
  revert this
  decide

/-- C46, except for the original destination connection identifier: what is written is read back, parameters that are unknown or
whose value is malformed included. -/
theorem C46_round_trip_partial (ps : List Param) (h : ∀ p ∈ ps, WellFormed p) (hl : (encodeList ps).length < 2 ^ 64) :
    decodeList (encodeList ps) = .ok ps := by
  have := decodeLoop_complete (encodeList_paramsOf h) ((encodeList ps).length + 1) [] (by omega) (by simpa using hl)
  simp only [List.nil_append, List.length_nil, Nat.zero_add] at this
  rw [decodeList, Reader.new, this]

/-- C46: what is accepted, and as what: exactly the sequences of identifier, length and value, each read by the table of the
standard, nothing left over. -/
theorem C46_language (data : Bytes) (ps : List Param) (hl : data.length < 2 ^ 64) :
    decodeList data = .ok ps ↔ ParamsOf data ps := by
  constructor
  · intro h
    rcases hr : decodeLoop (data.length + 1) (.new data) with ⟨res, r'⟩
    rw [decodeList, hr] at h
    simp only at h
    subst h
    exact decodeLoop_sound _ _ _ _ (by simp [InBounds, Reader.new]) hr
  · intro h
    have := decodeLoop_complete h (data.length + 1) [] (by omega) (by simpa using hl)
    simp only [List.nil_append, List.length_nil, Nat.zero_add] at this
    rw [decodeList, Reader.new, this]

/-- C46: no bytes make the decoder panic, read out of bounds or go on for ever. -/
theorem C46_total (data : Bytes) : decodeList data ≠ .error .panic ∧ decodeList data ≠ .error .fuel :=
  let h := decodeLoop_safe (data.length + 1) (.new data) (by simp [InBounds, Reader.new]) (by simp [Reader.new, Reader.remaining])
  ⟨h.1, h.2.1⟩

/-- C46: a list with a numeric, a connection identifier, an unknown and a malformed parameter meets the conditions. -/
example : ∀ p ∈ ([.maxIdleTimeout 30000, .initialSource [1, 2, 3], .unknown 0x7777 [9, 9], .invalid 0x04 [0xc0, 1]] : List Param),
    WellFormed p := by
  intro p hp
  simp only [List.mem_cons, List.not_mem_nil, or_false] at hp
  rcases hp with rfl | rfl | rfl | rfl
  · simp [WellFormed]
  · simp [WellFormed]
  · exact ⟨by norm_num, by simp, .other (by decide) (by decide)⟩
  · refine ⟨by norm_num, by simp, .notNumeric (mk := .initialMaxData) (by simp [numericParams]) ?_⟩
    rintro ⟨v, b, rest, h, hl, -⟩
    simp only [List.cons.injEq] at h
    obtain ⟨rfl, rfl⟩ := h
    revert hl
    decide

/-- C82: writing received parameters again gives the bytes received. -/
def C82_statement : Prop := ∀ (data : Bytes) (ps : List Param), data.length < 2 ^ 64 → decodeList data = .ok ps → encodeList ps = data

/-- C82 is false: a number may be received in a longer form than the one written. -/
theorem C82_false : ¬ C82_statement := by
  intro h
  have := h [0x01, 0x02, 0x40, 0x05] [.maxIdleTimeout 5] (by decide) (by decide)
  revert this
  decide

/-- C82, for parameters received with every number in its shortest form. -/
theorem C82_shortest_partial (data : Bytes) (ps : List Param) (hl : data.length < 2 ^ 64) (hs : ShortParams data)
    (h : decodeList data = .ok ps) : encodeList ps = data := by
  have hp := (C46_language data ps hl).mp h
  have hfun : ∀ {ps'}, ParamsOf data ps' → ps' = ps := by
    intro ps' hp'
    have := (C46_language data ps' hl).mpr hp'
    rw [h] at this
    simpa using this.symm
  -- the parameters read by the shortest forms
  have key : ∀ d, ShortParams d → ∃ ps', ParamsOf d ps' ∧ encodeList ps' = d := by
    intro d hd
    induction hd with
    | nil => exact ⟨[], .nil, by simp [encodeList_eq]⟩
    | @cons ide le raw rest id hid sid hl sl hv hr ih =>
      obtain ⟨ps', h1, h2⟩ := ih
      have hpo : ParamOf id raw (decodeOr id raw) := decodeOr_of id (by have := isVarint_lt hl; omega)
      refine ⟨decodeOr id raw :: ps', .cons hid hl hpo h1, ?_⟩
      rw [encodeList_cons, wire_of hpo hv, h2]
      simp only
      rw [← eq_quic_of_shortest hid sid, ← eq_quic_of_shortest hl sl]
  obtain ⟨ps', h1, h2⟩ := key data hs
  rw [← hfun h1, h2]

/-- C82: in any case, writing received parameters again takes no more bytes than were received, and these are read as the same
parameters. -/
theorem C82_same_meaning (data : Bytes) (ps : List Param) (hl : data.length < 2 ^ 64) (h : decodeList data = .ok ps) :
    (encodeList ps).length ≤ data.length ∧ decodeList (encodeList ps) = .ok ps := by
  have hp := (C46_language data ps hl).mp h
  have hs := encode_shorter hp
  refine ⟨hs, C46_round_trip_partial ps ?_ (by omega)⟩
  clear h hl hs
  induction hp with
  | nil => simp
  | cons hid hl hp hr ih =>
    intro q hq
    rcases List.mem_cons.mp hq with rfl | hq
    · exact wellFormed_of (isVarint_lt hid) (isVarint_lt hl) hp
    · exact ih q hq

/-- C82: parameters in their shortest form. -/
example : ShortParams [0x01, 0x01, 0x05] ∧ decodeList [0x01, 0x01, 0x05] = .ok [.maxIdleTimeout 5] := by
  refine ⟨?_, by decide⟩
  have h1 : ∀ (b : UInt8) v e, IsVarint e v → ([b] : Bytes).length ≤ e.length := fun b v e he => isVarint_length he
  have hq1 : IsVarint [1] 1 := ⟨1, [], rfl, by decide, by decide⟩
  exact .cons (ide := [1]) (le := [1]) (raw := [5]) (rest := []) hq1 (h1 1 _) hq1 (h1 1 _) (fun _ v _ => h1 5 v) .nil

end Ngfs.Quic
