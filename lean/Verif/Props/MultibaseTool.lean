import Verif.Model.MultibaseTool
import Verif.Props.Multibase

/-! C143: the multibase tool. -/
namespace Ngfs.Multibase
open Spec

theorem forName_name (base : Base) : Base.forName base.name = some base := by cases base <;> decide

theorem name_of_forName {name : String} {base : Base} (h : Base.forName name = some base) : base.name = name := by
  obtain ⟨arm, h1, rfl⟩ := Option.map_eq_some_iff.1 h
  have h2 : ∀ arm ∈ nameTable, arm.2.name = arm.1 := by decide
  rw [h2 arm (List.mem_of_find?_eq_some h1)]
  simpa using List.find?_some h1

theorem forCode_code' (base : Base) : Base.forCode base.code = some base := by cases base <;> rfl

theorem convert_ok {to_ : String} {value out : List Char} (h : convertCmd to_ value = .ok out) :
    ∃ base data, base.name = to_ ∧ decode value = .ok data ∧ out = encode data base := by
  unfold convertCmd at h
  split at h
  · cases h
  · rename_i base hb
    split at h
    · cases h
    · rename_i data hd
      cases h
      exact ⟨base, data, name_of_forName hb, hd, rfl⟩

/-- **C143**: converting a text changes nothing but the base. If `convert` prints a text, then that text has the same
bytes behind it, `decode` prints the same hexadecimal for both, `detect` names the requested base, the text carries
this base's code, and converting it further gives what converting the original would have given. -/
theorem C143_convert (to_ : String) (value out : List Char) (h : convertCmd to_ value = .ok out) :
    (∃ data, decode value = .ok data ∧ decode out = .ok data) ∧ decodeCmd out = decodeCmd value ∧
    detectCmd out = .ok to_.toList ∧ (∃ c base rest, out = c :: rest ∧ (c, base) ∈ baseCodes ∧ base.name = to_) ∧
    ∀ next, convertCmd next out = convertCmd next value := by
  obtain ⟨base, data, h1, h2, rfl⟩ := convert_ok h
  have h3 := (C13_multibase_round_trip data base).1
  refine ⟨⟨data, h2, h3⟩, by simp only [decodeCmd, h2, h3], ?_, ?_, ?_⟩
  · simp only [detectCmd, encode, forCode_code', h1]
  · obtain ⟨rest, h4, _, h5⟩ := C13_base_recovered data base
    exact ⟨_, _, _, h4, h5, h1⟩
  · intro next
    simp only [convertCmd, h2, h3]

/-- **C143**: `convert` prints a text exactly when the base is one of those `list` names and `decode` prints something
for the value; so whether it succeeds does not depend on the bytes. -/
theorem C143_accepts (to_ : String) (value : List Char) :
    (∃ out, convertCmd to_ value = .ok out) ↔
      (∃ c, [c, ' '] ++ to_.toList ∈ listCmd) ∧ ∃ hex, decodeCmd value = .ok hex := by
  have hname : (∃ c, [c, ' '] ++ to_.toList ∈ listCmd) ↔ ∃ base, Base.forName to_ = some base := by
    constructor
    · rintro ⟨c, h⟩
      obtain ⟨base, _, hb⟩ := List.mem_map.1 h
      simp only [List.cons_append, List.nil_append, List.cons.injEq, true_and] at hb
      exact ⟨base, by rw [← String.toList_inj.1 hb.2, forName_name]⟩
    · rintro ⟨base, h⟩
      refine ⟨base.code, ?_⟩
      rw [← name_of_forName h]
      exact List.mem_map.2 ⟨base, by cases base <;> decide, rfl⟩
  rw [hname]
  constructor
  · rintro ⟨out, h⟩
    obtain ⟨base, data, h1, h2, -⟩ := convert_ok h
    exact ⟨⟨base, by rw [← h1, forName_name]⟩, encodeNoprefix data .base16, by simp only [decodeCmd, h2]⟩
  · rintro ⟨⟨base, h1⟩, hex, h2⟩
    unfold decodeCmd at h2
    split at h2
    · cases h2
    · rename_i data hd
      exact ⟨encode data base, by simp only [convertCmd, h1, hd]⟩

/-- **C143**: `list` shows every base once, with the code of the multibase table; a text that starts with a listed code
is detected as the base listed with it, and no other text is detected. -/
theorem C143_list (value name : List Char) :
    detectCmd value = .ok name ↔ ∃ c rest, value = c :: rest ∧ [c, ' '] ++ name ∈ listCmd := by
  constructor
  · intro h
    unfold detectCmd at h
    split at h
    · cases h
    · rename_i c rest
      split at h
      · cases h
      · rename_i base hb
        cases h
        refine ⟨c, rest, rfl, List.mem_map.2 ⟨base, by cases base <;> decide, ?_⟩⟩
        have : base.code = c := by
          unfold Base.forCode at hb
          split at hb <;> first | (cases hb; rfl) | cases hb
        rw [this]
  · rintro ⟨c, rest, rfl, h⟩
    obtain ⟨base, _, hb⟩ := List.mem_map.1 h
    simp only [List.cons_append, List.nil_append, List.cons.injEq, true_and] at hb
    simp only [detectCmd, ← hb.1, forCode_code', hb.2]

/-- The lines of the list are those of the multibase table, in its spelling. -/
theorem C143_table : listCmd.map String.ofList = ["f base16", "F base16upper", "b base32", "B base32upper", "c base32pad",
    "C base32padupper", "Z base58flickr", "z base58btc", "m base64", "M base64pad", "u base64url", "U base64urlpad"] := by
  decide +kernel

example : (convertCmd "base32" "f68656c6c6f".toList).toOption = some "bnbswy3dp".toList := by decide +kernel
example : (convertCmd "base64pad" "bnbswy3dp".toList).toOption = some "MaGVsbG8=".toList := by decide +kernel

end Ngfs.Multibase
