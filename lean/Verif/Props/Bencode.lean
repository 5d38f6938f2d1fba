import Verif.Lemmas.BencodePlain

/-! Property theorems for the bencode parser. -/
namespace Ngfs.Bencode
open Ngfs.Spec

/-! ### C33 -/

/-- The standard encoding of a value, followed by anything, parses to the value, and every part of the result carries the
positions of the bytes that encode it. -/
theorem C33_parses_encoding (p : Plain) (rest : Bytes) (hp : p.Ok) (hl : (encode p ++ rest).length < 2 ^ 64) :
    ∃ v, parse (encode p ++ rest) = .ok v ∧ plain v = p ∧
      ∀ c, Within c v → slice (encode p ++ rest) c.loc.start c.loc.stop = encode (plain c) := by
  have hl' := hl
  rw [List.length_append] at hl'
  obtain ⟨v, he, hv⟩ := encode_enc p 0 "" hp (by omega)
  have hat : At (encode p ++ rest) 0 (encode p) := ⟨Nat.zero_le _, by simp⟩
  have hc := parseValueN_complete true ((encode p ++ rest).length + 1) "" _ 0 v _ he (by simp) hat hl
  refine ⟨v, by rw [parse, hc]; rfl, hv, fun c hw => ?_⟩
  obtain ⟨cs, h1, h2, h3, -, -⟩ := enc_within he hat c hw
  rw [h3, (at_eq_slice h2).1, enc_encode h1]

/-- The root value spans its whole encoding and nothing more. -/
theorem C33_root_span (p : Plain) (rest : Bytes) (v : Value) (hp : p.Ok) (hl : (encode p ++ rest).length < 2 ^ 64)
    (h : parse (encode p ++ rest) = .ok v) : v.loc = ⟨0, (encode p).length, ""⟩ := by
  have hl' := hl
  rw [List.length_append] at hl'
  obtain ⟨w, he, hv⟩ := encode_enc p 0 "" hp (by omega)
  have hat : At (encode p ++ rest) 0 (encode p) := ⟨Nat.zero_le _, by simp⟩
  have hc := parseValueN_complete true ((encode p ++ rest).length + 1) "" _ 0 w _ he (by simp) hat hl
  rw [parse, hc] at h
  cases h
  rw [enc_loc he, Nat.zero_add]

/-- Different values have different encodings, neither of which begins with the other. -/
theorem C33_prefix_free (p q : Plain) (rest : Bytes) (hp : p.Ok) (hq : q.Ok) (hl : (encode p ++ rest).length < 2 ^ 64)
    (h : encode q = encode p ++ rest) : p = q ∧ rest = [] := by
  obtain ⟨v, h1, h2, -⟩ := C33_parses_encoding p rest hp hl
  have hs := C33_root_span p rest v hp hl h1
  have hlq : (encode q ++ []).length < 2 ^ 64 := by rw [List.append_nil, h]; exact hl
  obtain ⟨w, h3, h4, -⟩ := C33_parses_encoding q [] hq hlq
  have hs' := C33_root_span q [] w hq hlq h3
  rw [List.append_nil, h, h1] at h3
  cases h3
  rw [hs] at hs'
  have := congrArg Loc.stop hs'
  rw [h] at this
  simp at this
  exact ⟨h2.symm.trans h4, this⟩

/-- The hypotheses hold of a dictionary that holds a list. -/
example : (Plain.dict [("info", .list [.integer 0, .bytes [1, 2]]), ("name", .bytes [])]).Ok := by
  have h : ("info" : String) < "name" := String.lt_iff_toList_lt.mpr (by decide)
  simp only [Plain.Ok, okEntries, okItems, List.pairwise_cons, List.mem_singleton, forall_eq, List.not_mem_nil, false_implies,
    implies_true, List.Pairwise.nil, and_true]
  exact ⟨h, by decide⟩

example : encode (.dict [("info", .list [.integer 10, .bytes [0x78]])]) = utf8Encode "d4:infoli10e1:xee" := by
  decide +kernel

/-! ### C65 -/

/-- The parser accepts exactly the inputs that begin with an encoding by the lenient grammar: leading zeros are skipped, the
keys of a dictionary come in any order, and of equal keys the last one counts. -/
theorem C65_accepts_exactly (data : Bytes) (v : Value) (hl : data.length < 2 ^ 64) :
    parse data = .ok v ↔ ∃ bs rest, data = bs ++ rest ∧ Enc false 0 "" v bs := by
  constructor
  · intro h
    obtain ⟨⟨w, o⟩, h1, h2⟩ := map_inv h
    obtain ⟨bs, e, a, -⟩ := parseValueN_sound _ _ _ _ _ _ h1
    simp only at h2
    subst h2
    obtain ⟨t, ht⟩ := a.2
    exact ⟨bs, t, by simpa using ht.symm, e⟩
  · rintro ⟨bs, rest, rfl, e⟩
    have hat : At (bs ++ rest) 0 bs := ⟨Nat.zero_le _, by simp⟩
    rw [parse, parseValueN_complete false _ "" _ 0 v bs e (by simp) hat hl]
    rfl

/-- Every part of a parsed value is encoded exactly at the positions it carries, inside the input. -/
theorem C65_parts (data : Bytes) (v c : Value) (h : parse data = .ok v) (hc : Within c v) :
    c.loc.start < c.loc.stop ∧ c.loc.stop ≤ v.loc.stop ∧ v.loc.stop ≤ data.length ∧
      Enc false c.loc.start c.loc.path c (slice data c.loc.start c.loc.stop) := by
  obtain ⟨⟨w, o⟩, h1, h2⟩ := map_inv h
  obtain ⟨bs, e, a, -⟩ := parseValueN_sound _ _ _ _ _ _ h1
  simp only at h2
  subst h2
  obtain ⟨cs, c1, c2, c3, c4, c5⟩ := enc_within e a c hc
  have hpos := enc_pos c1
  have hle := (at_eq_slice a).2
  refine ⟨by omega, by rw [enc_loc e]; exact c5, by rw [enc_loc e]; exact hle, ?_⟩
  rw [c3, (at_eq_slice c2).1]
  exact c1

/-- Every input is answered: none makes the parser run on. -/
theorem C65_total (data : Bytes) : parse data ≠ .error .fuel :=
  map_nofuel (parseValueN_nofuel data _ _ _ (by omega))

/-- A dictionary with its keys in the wrong order, a repeated key and a leading zero is accepted. -/
example : parse (utf8Encode "d1:bi1e1:ai02e1:bi3ee") = .ok (.dict ⟨0, 21, ""⟩
    [("a", .integer ⟨10, 14, "/a"⟩ 2), ("b", .integer ⟨17, 20, "/b"⟩ 3)]) := by
  rfl

/-- An input cut short is refused. -/
example : parse (utf8Encode "l1:a") = .error (.parse 4 "" "Premature end of file") := by rfl

end Ngfs.Bencode
