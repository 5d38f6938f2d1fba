import Verif.Lemmas.Pem
import Verif.Props.Multibase

/-! Property theorems for PEM. -/
namespace Ngfs.Pem
open Ngfs.Spec Ngfs.Multibase

private theorem digit_bytes {c : Char} (h : c ∈ (alphabet .base64Pad).toList ∨ (padded .base64Pad = true ∧ c = '=')) :
    ∀ b ∈ String.utf8EncodeChar c,
      b ∈ utf8Encode "ABCDEFGHIJKLMNOPQRSTUVWXYZabcdefghijklmnopqrstuvwxyz0123456789+/=" := by
  have h1 : ∀ c ∈ (alphabet .base64Pad).toList, ∀ b ∈ String.utf8EncodeChar c,
      b ∈ utf8Encode "ABCDEFGHIJKLMNOPQRSTUVWXYZabcdefghijklmnopqrstuvwxyz0123456789+/=" := by decide +kernel
  have h2 : ∀ b ∈ String.utf8EncodeChar '=',
      b ∈ utf8Encode "ABCDEFGHIJKLMNOPQRSTUVWXYZabcdefghijklmnopqrstuvwxyz0123456789+/=" := by decide +kernel
  rcases h with h | ⟨-, rfl⟩
  · exact h1 c h
  · exact h2

private theorem base64_text (data : Bytes) : Base64Text (asBytes (encodeNoprefix data .base64Pad)) := by
  intro b hb
  simp only [asBytes, List.mem_flatMap] at hb
  obtain ⟨c, hc, hb⟩ := hb
  exact digit_bytes (C13_output_characters data .base64Pad c hc) b hb

private theorem body_data {body : Bytes} (hb : BodyText body) {cs : List Char} {data : Bytes} (h : strip body = asBytes cs)
    (hd : decodeNoprefix cs .base64Pad = .ok data) : bodyData body = some data := by
  have : decodeNoprefix ((strip body).map fun b => Char.ofNat b.toNat) .base64Pad = .ok data := by
    simp only [decodeNoprefix] at hd ⊢
    rw [asBytes_ascii (strip_ascii hb), h]
    exact hd
  unfold bodyData
  rw [show (body.filter fun b => b ≠ 10 ∧ b ≠ 13) = strip body from rfl, this]

/-- Every body can be decoded. -/
private theorem body_total {body : Bytes} (hb : BodyText body) : ∃ d, bodyData body = some d := by
  have h1 : ∀ n < 256, UInt8.ofNat n ∈ utf8Encode "ABCDEFGHIJKLMNOPQRSTUVWXYZabcdefghijklmnopqrstuvwxyz0123456789+/=" →
      Char.ofNat n ∈ (alphabet .base64Pad).toList ∨ Char.ofNat n = '=' := by decide +kernel
  have h2 : ∃ d, decodeNoprefix ((strip body).map fun b => Char.ofNat b.toNat) .base64Pad = .ok d := by
    rw [accepts_noprefix]
    intro d hd
    simp only [digitsPart, padded, if_true] at hd
    have hne := List.all_takeWhile (p := fun c : Char => decide (c ≠ '=')) (l := (strip body).map fun b => Char.ofNat b.toNat)
    rw [List.all_eq_true] at hne
    have hne := hne d hd
    rw [decide_eq_true_eq] at hne
    obtain ⟨b, hbm, rfl⟩ := List.mem_map.mp ((List.takeWhile_sublist _).subset hd)
    exact (h1 b.toNat (u8_lt b) (by simpa using hb b hbm)).resolve_right hne
  obtain ⟨d, hd⟩ := h2
  refine ⟨d, ?_⟩
  unfold bodyData
  rw [show (body.filter fun b => b ≠ 10 ∧ b ≠ 13) = strip body from rfl, hd]

/-! ### C47 -/

/-- Encoded and decoded again, any bytes under any label of upper-case letters and spaces are the same. The decoder ends:
the result does not depend on the number of iterations allowed from 6 on. -/
theorem C47_pem_round_trip (data : Bytes) (label : String) (hl : LabelText (utf8Encode label)) (n : Nat) (hn : 6 ≤ n) :
    decodePem n (encodePem data label) = .ok (label, data) ∧
    decodePemWithLabel n (encodePem data label) label = .ok data := by
  have key : decodePem n (encodePem data label) = .ok (label, data) := by
    obtain ⟨hb, hs⟩ := wrap_body _ _ (Nat.le_refl _) (base64_text data)
    have := decodePem_ok n hn (label := label) (body := wrap (asBytes (encodeNoprefix data .base64Pad)).length
        (asBytes (encodeNoprefix data .base64Pad))) (data := data)
      ⟨_, _, _, ⟨4, rfl⟩, ⟨4, rfl⟩, .inl rfl, hl, rfl⟩ hb ⟨_, _, _, ⟨4, rfl⟩, ⟨4, rfl⟩, .inl rfl, hl, rfl⟩
      (body_data hb hs (C13_multibase_round_trip data .base64Pad).2)
    rw [← this]
    congr 1
    rw [BEGIN_eq.1, BEGIN_eq.2.1, (by decide +kernel : utf8Encode "\n" = [0x0a])]
    simp [encodePem]
  refine ⟨key, ?_⟩
  rw [decodePemWithLabel, key]
  simp [bind, Except.bind]

/-- The lines of the encoding: full lines of 64 base64 digits, then one of 1 to 64 if there is any data. -/
theorem C47_lines (data : Bytes) (label : String) : ∃ full : List Bytes, ∃ last : Bytes,
    (∀ l ∈ full, l.length = 64) ∧ last.length ≤ 64 ∧ (last = [] → full = []) ∧
    full.flatten ++ last = asBytes (encodeNoprefix data .base64Pad) ∧
    encodePem data label = utf8Encode "-----BEGIN " ++ utf8Encode label ++ utf8Encode "-----\n" ++
      (full.flatMap (· ++ [0x0a]) ++ (if last = [] then [] else last ++ [0x0a])) ++
      utf8Encode "-----END " ++ utf8Encode label ++ utf8Encode "-----\n" := by
  have key : ∀ n (bs : Bytes), bs.length ≤ n → ∃ full : List Bytes, ∃ last : Bytes,
      (∀ l ∈ full, l.length = 64) ∧ last.length ≤ 64 ∧ (last = [] → full = []) ∧ full.flatten ++ last = bs ∧
      wrap n bs = full.flatMap (· ++ [0x0a]) ++ (if last = [] then [] else last ++ [0x0a]) := by
    intro n
    induction n with
    | zero =>
      intro bs h
      cases bs with
      | nil => exact ⟨[], [], by simp, by simp, by simp, rfl, rfl⟩
      | cons b bs => simp at h
    | succ n ih =>
      intro bs h
      by_cases h0 : bs = []
      · subst h0
        exact ⟨[], [], by simp, by simp, by simp, rfl, by simp [wrap]⟩
      by_cases h64 : bs.length ≤ 64
      · refine ⟨[], bs, by simp, h64, by simp [h0], rfl, ?_⟩
        have e : wrap n [] = [] := by cases n <;> simp [wrap]
        simp [wrap, h0, List.take_of_length_le h64, List.drop_eq_nil_of_le h64, e]
      · obtain ⟨full, last, h1, h2, h3, h4, h5⟩ := ih (bs.drop 64) (by rw [List.length_drop]; omega)
        refine ⟨bs.take 64 :: full, last, ?_, h2, ?_, ?_, ?_⟩
        · intro l hl
          rcases List.mem_cons.mp hl with rfl | hl
          · rw [List.length_take]; omega
          · exact h1 l hl
        · intro hlast
          exfalso
          rw [hlast, h3 hlast] at h4
          have := congrArg List.length h4
          simp at this
          omega
        · rw [List.flatten_cons, List.append_assoc, h4, List.take_append_drop]
        · simp [wrap, h0, h5]
  obtain ⟨full, last, h1, h2, h3, h4, h5⟩ := key _ (asBytes (encodeNoprefix data .base64Pad)) (Nat.le_refl _)
  refine ⟨full, last, h1, h2, h3, h4, ?_⟩
  rw [← h5, (by decide +kernel : utf8Encode "-----BEGIN " = List.replicate 5 0x2d ++ BEGIN ++ [0x20]),
    (by decide +kernel : utf8Encode "-----END " = List.replicate 5 0x2d ++ END ++ [0x20]),
    (by decide +kernel : utf8Encode "-----\n" = List.replicate 5 0x2d ++ [0x0a])]
  simp [encodePem]

/-- A label that meets the hypothesis. -/
example : LabelText (utf8Encode "PRIVATE KEY") := by
  have : utf8Encode "PRIVATE KEY" = [80, 82, 73, 86, 65, 84, 69, 32, 75, 69, 89] := by decide +kernel
  rw [this]
  unfold LabelText
  decide

/-! ### C48 -/

/-- Decoding any text ends. -/
def C48_statement : Prop := ∀ input : Bytes, ∃ n, decodePem n input ≠ .error .loop

/-- It does not: on `-----BEG`, and on every text cut inside the word BEGIN or END, the decoder runs forever. -/
theorem C48_false : ¬ C48_statement := by
  intro h
  obtain ⟨n, hn⟩ := h (utf8Encode "-----BEG")
  apply hn
  apply decodePem_loops
  refine .inl ⟨List.replicate 5 0x2d, [0x42, 0x45, 0x47], ⟨4, rfl⟩, ?_, ?_, by decide +kernel⟩
  · rw [BEGIN_eq.2.2.1]; decide
  · rw [BEGIN_eq.2.2.1]; decide

/-- Exactly the texts cut inside the word BEGIN or END make the decoder run forever; on all others it has an answer, which
does not depend on the number of iterations allowed from 6 on. -/
theorem C48_terminates_partial (input : Bytes) :
    (CutInKeyword input → ∀ n, decodePem n input = .error .loop) ∧
    (¬ CutInKeyword input → ∀ n, 6 ≤ n → decodePem n input ≠ .error .loop) :=
  ⟨fun h n => decodePem_loops n h, fun h _ hn he => h (decodePem_loop_inv hn he)⟩

/-- Complete text is not cut. -/
theorem C48_complete_partial (input : Bytes) (label : Bytes) (body f : Bytes) (h : Header label input) (hb : BodyText body)
    (hf : Footer label f) : ¬ CutInKeyword (input ++ body ++ f) := by
  intro hc
  have hla : ∀ b ∈ label, b.toNat < 128 := by
    intro b hb
    obtain ⟨_, _, _, _, _, _, hl, _⟩ := h
    have := hl b hb
    omega
  have hls : label = utf8Encode (String.ofList (label.map fun b => Char.ofNat b.toNat)) := by
    rw [utf8Encode_ofList, asBytes_ascii hla]
  rw [hls] at h hf
  obtain ⟨d, hd⟩ := body_total hb
  have := decodePem_ok 6 (by omega) h hb hf hd
  rw [decodePem_loops 6 hc] at this
  cases this

/-! ### C66 -/

/-- The accepted texts: a BEGIN line and an END line with the same label, and between them base64 text broken into lines
anywhere. Each number of dashes is at least one. Nothing may follow the END line. -/
theorem C66_accepts_exactly (input : Bytes) (label : String) (data : Bytes) (n : Nat) (hn : 6 ≤ n) :
    decodePem n input = .ok (label, data) ↔ ∃ h body f, Header (utf8Encode label) h ∧ BodyText body ∧
      Footer (utf8Encode label) f ∧ input = h ++ body ++ f ∧ bodyData body = some data := by
  constructor
  · exact decodePem_inv
  · rintro ⟨h, body, f, hh, hb, hf, rfl, hd⟩
    exact decodePem_ok n hn hh hb hf hd

/-- No text of that form is refused. -/
theorem C66_no_refusal (label : String) (h body f : Bytes) (hh : Header (utf8Encode label) h) (hb : BodyText body)
    (hf : Footer (utf8Encode label) f) (n : Nat) (hn : 6 ≤ n) : ∃ data, decodePem n (h ++ body ++ f) = .ok (label, data) := by
  obtain ⟨d, hd⟩ := body_total hb
  exact ⟨d, decodePem_ok n hn hh hb hf hd⟩

/-- With an expected label, only text under that label is accepted. -/
theorem C66_label_checked (input : Bytes) (label : String) (data : Bytes) (n : Nat) :
    decodePemWithLabel n input label = .ok data ↔ decodePem n input = .ok (label, data) := by
  unfold decodePemWithLabel
  cases h : decodePem n input with
  | error e => simp [bind, Except.bind]
  | ok p =>
    obtain ⟨l, d⟩ := p
    simp only [bind, Except.bind]
    by_cases hl : l = label
    · subst hl; simp
    · simp [hl]

/-- Text with short lines, carriage returns and one dash is accepted. -/
example : decodePem 6 (utf8Encode "-BEGIN A-\r\nAQ\r\nID\r\n--END A---\n") = .ok ("A", [1, 2, 3]) := by
  decide +kernel

end Ngfs.Pem
