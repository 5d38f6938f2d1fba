import Verif.Lemmas.BencodePlain
import Verif.Lemmas.Pem
import Mathlib.Data.List.Basic
import Mathlib.Data.Nat.Digits.Defs
import Mathlib.Tactic.Linarith

/-! Property theorems on the memory a parsed bencode file takes. -/
namespace Ngfs.Bencode
open Ngfs.Spec

mutual
/-- The bytes of all the paths recorded in a value: its own and those of the values in it. -/
def pathBytes : Value → Nat
  | .bytes loc _ | .integer loc _ => (utf8Encode loc.path).length
  | .list loc items => (utf8Encode loc.path).length + pathBytesItems items
  | .dict loc entries => (utf8Encode loc.path).length + pathBytesEntries entries
def pathBytesItems : List Value → Nat
  | [] => 0
  | v :: vs => pathBytes v + pathBytesItems vs
def pathBytesEntries : List (String × Value) → Nat
  | [] => 0
  | (_, v) :: es => pathBytes v + pathBytesEntries es
end

theorem encoded_append (a b : String) : (utf8Encode (a ++ b)).length = (utf8Encode a).length + (utf8Encode b).length := by
  simp [utf8Encode]

/-- Every value in a list has a path no shorter than that of the list. -/
theorem pathBytes_ge (n o : Nat) (path : String) (h : n ≤ (utf8Encode path).length) : ∀ (i : Nat) (vs : List Value) (bs : Bytes),
    EncItems true o path i vs bs → n * vs.length ≤ pathBytesItems vs := by
  intro i vs
  induction vs generalizing i o with
  | nil => intro bs _; simp
  | cons v vs ih =>
    intro bs he
    cases he with
    | cons h1 h2 =>
      have e := ih _ _ _ h2
      have hv : n ≤ pathBytes v := by
        have hl := enc_loc h1
        have : (utf8Encode v.loc.path).length ≤ pathBytes v := by cases v <;> simp [pathBytes, Value.loc]
        rw [hl] at this
        simp only [encoded_append] at this
        omega
      simp only [pathBytesItems, List.length_cons, Nat.mul_add]
      omega

/-- A key of `k` letters. -/
def longKey (k : Nat) : String := String.ofList (List.replicate k 'a')

/-- A dictionary with one key of `k` letters, and there a list of `k` times the number 0. -/
def spread (k : Nat) : Plain := .dict [(longKey k, .list (List.replicate k (.integer 0)))]

theorem longKey_length (k : Nat) : (utf8Encode (longKey k)).length = k := by
  rw [longKey, Pem.utf8Encode_ofList, Multibase.asBytes, List.length_flatMap, List.map_replicate, List.sum_replicate]
  simp [show (String.utf8EncodeChar 'a').length = 1 from rfl]

theorem zeros_ok (k : Nat) : okItems (List.replicate k (.integer 0)) := by
  induction k with
  | zero => simp [okItems]
  | succ k ih => simp [List.replicate_succ, okItems, Plain.Ok, ih]

theorem spread_ok (k : Nat) : (spread k).Ok := by
  simp [spread, Plain.Ok, okEntries, zeros_ok]

theorem zeros_length (k : Nat) : (encodeItems (List.replicate k (.integer 0))).length = 3 * k := by
  induction k with
  | zero => rfl
  | succ k ih =>
    simp only [List.replicate_succ, encodeItems, List.length_append, ih, encode, decimal, if_true, List.length_cons,
      List.length_nil]
    omega

theorem decimal_length {k : Nat} (hk : k < 2 ^ 64) : (decimal k).length ≤ 20 := by
  unfold decimal
  split
  · simp
  · rw [List.length_map, List.length_reverse]
    exact (Nat.digits_length_le_iff (by omega) k).mpr (by omega)

theorem spread_length {k : Nat} (hk : k < 2 ^ 64) : (encode (spread k)).length ≤ 4 * k + 25 := by
  have := decimal_length hk
  simp only [spread, encode, encodeEntries, List.length_append, List.length_cons, List.length_nil, longKey_length, zeros_length]
  omega

theorem spread_pathBytes {k : Nat} (hk : k < 2 ^ 60) : ∃ v, parse (encode (spread k)) = .ok v ∧ k * k ≤ pathBytes v := by
  have hl := spread_length (k := k) (by omega)
  have hle : (encodeItems (List.replicate k (.integer 0))).length < 2 ^ 64 := by rw [zeros_length]; omega
  obtain ⟨vs, h1, h2⟩ := encodeItems_enc (List.replicate k (.integer 0))
    (0 + 1 + (decimal (utf8Encode (longKey k)).length ++ 0x3a :: utf8Encode (longKey k)).length + 1) ("" ++ "/" ++ longKey k) 0
    (zeros_ok k) hle
  have hv : vs.length = k := by
    have := congrArg List.length h2
    simpa [plainItems_eq] using this
  have hn := pathBytes_ge k _ _ (by simp only [encoded_append, longKey_length]; omega) _ _ _ h1
  have he := Enc.dict (EncEntries.cons (decimal_digits (n := (utf8Encode (longKey k)).length) (by rw [longKey_length]; omega)) rfl (.list h1)
    .nil) (isMap_self (List.pairwise_singleton _ _)) (fun _ => List.pairwise_singleton _ _)
  have key : ∃ v, Enc true 0 "" v (encode (spread k)) ∧ k * k ≤ pathBytes v := by
    refine ⟨_, by simpa only [spread, encode, encodeEntries] using he, ?_⟩
    simp only [pathBytes, pathBytesEntries]
    rw [hv] at hn
    omega
  obtain ⟨v, he, hp⟩ := key
  have hc := parseValueN_complete true ((encode (spread k)).length + 1) "" (encode (spread k)) 0 _ _ he (by omega)
    ⟨Nat.zero_le _, by simp⟩ (by omega)
  exact ⟨v, by rw [parse, hc]; rfl, hp⟩

/-! ### No more than the square -/

theorem toString_length (i : Nat) : (utf8Encode (toString i)).length ≤ i + 1 := by
  have h1 : (utf8Encode (toString i)).length = (Nat.toDigits 10 i).length := by
    show (utf8Encode (String.ofList (Nat.toDigits 10 i))).length = _
    rw [Pem.utf8Encode_ofList, Multibase.asBytes]
    have h : ∀ c ∈ Nat.toDigits 10 i, (String.utf8EncodeChar c).length = 1 := by
      intro c hc
      have := Nat.isDigit_of_mem_toDigits (by decide) (by decide) hc
      rw [String.length_utf8EncodeChar, Char.utf8Size_eq_one_iff]
      simp only [Char.isDigit, Bool.and_eq_true, decide_eq_true_eq] at this
      have h2 := this.2
      exact UInt32.le_trans h2 (by decide)
    generalize Nat.toDigits 10 i = l at h
    induction l with
    | nil => rfl
    | cons c l ih =>
      simp only [List.flatMap_cons, List.length_append, List.length_cons]
      rw [h c (by simp), ih fun c hc => h c (by simp [hc])]
      omega
  rw [h1]
  exact Nat.toDigits_length 10 i (i + 1) (by omega) (Nat.lt_trans (Nat.lt_succ_self i) (Nat.lt_pow_self (by decide)))

theorem entries_mono : ∀ {m es : List (String × Value)}, Ascending m → (∀ p ∈ m, p ∈ es) →
    pathBytesEntries m ≤ pathBytesEntries es := by
  have happ : ∀ a b : List (String × Value), pathBytesEntries (a ++ b) = pathBytesEntries a + pathBytesEntries b := by
    intro a b
    induction a with
    | nil => simp [pathBytesEntries]
    | cons p a ih => obtain ⟨k, v⟩ := p; simp only [List.cons_append, pathBytesEntries, ih]; omega
  intro m
  induction m with
  | nil => intro es _ _; simp [pathBytesEntries]
  | cons p m ih =>
    intro es ha hs
    obtain ⟨a, b, rfl⟩ := List.append_of_mem (hs p (by simp))
    obtain ⟨h1, h2⟩ := List.pairwise_cons.mp ha
    have := ih (es := a ++ b) h2 fun q hq => by
      have hq' := hs q (by simp [hq])
      simp only [List.mem_append, List.mem_cons] at hq' ⊢
      rcases hq' with h | rfl | h
      · exact .inl h
      · exact absurd (h1 q hq) (String.lt_irrefl _)
      · exact .inr h
    obtain ⟨k, v⟩ := p
    rw [happ] at this ⊢
    simp only [pathBytesEntries]
    omega

theorem pathBytes_le {s : Bool} {o : Nat} {path : String} {v : Value} {bs : Bytes} (h : Enc s o path v bs) :
    (utf8Encode path).length ≤ 2 * o → ∀ n, o + bs.length ≤ n → pathBytes v ≤ 2 * n * bs.length := by
  refine Enc.rec
    (motive_1 := fun o path v bs _ => (utf8Encode path).length ≤ 2 * o → ∀ n, o + bs.length ≤ n → pathBytes v ≤ 2 * n * bs.length)
    (motive_2 := fun o path i vs bs _ => (utf8Encode path).length + 2 + i ≤ 2 * o → ∀ n, o + bs.length ≤ n →
      pathBytesItems vs ≤ 2 * n * bs.length)
    (motive_3 := fun o path es bs _ => (utf8Encode path).length + 2 ≤ 2 * o → ∀ n, o + bs.length ≤ n →
      pathBytesEntries es ≤ 2 * n * bs.length)
    ?_ ?_ ?_ ?_ ?_ ?_ ?_ ?_ h
  · intro o path data ds _ hp n hn
    simp only [pathBytes, List.length_append, List.length_cons] at hn ⊢
    nlinarith
  · intro o path data ds _ hp n hn
    simp only [pathBytes, List.length_append, List.length_cons] at hn ⊢
    nlinarith
  · intro o path items bs _ ih hp n hn
    simp only [pathBytes, List.length_append, List.length_cons, List.length_nil] at hn ⊢
    have := ih (by omega) n (by omega)
    nlinarith
  · intro o path es m bs _ hm _ ih hp n hn
    simp only [pathBytes, List.length_append, List.length_cons, List.length_nil] at hn ⊢
    have := ih (by omega) n (by omega)
    have := entries_mono hm.1 fun p hp => isMap_mem hm hp
    nlinarith
  · intro _ _ _ _ _ _; simp [pathBytesItems]
  · intro o path i v vs b bs h1 h2 ih1 ih2 hp n hn
    have hpos := enc_pos h1
    have hi := toString_length i
    simp only [pathBytesItems, List.length_append] at hn ⊢
    have e1 := ih1 (by rw [encoded_append, encoded_append]; have : (utf8Encode "/").length = 1 := rfl; omega) n (by omega)
    have e2 := ih2 (by omega) n (by omega)
    nlinarith
  · intro _ _ _ _ _; simp [pathBytesEntries]
  · intro o path k v es ds kb b bs hd hk h1 h2 ih1 ih2 hp n hn
    simp only [pathBytesEntries, List.length_append] at hn ⊢
    have hkb : kb.length = ds.length + 1 + (utf8Encode k).length := by rw [hk]; simp; omega
    have e1 := ih1 (by rw [encoded_append, encoded_append]; have : (utf8Encode "/").length = 1 := rfl; omega) n (by omega)
    have e2 := ih2 (by omega) n (by omega)
    nlinarith

/-! ### C183 -/

/-- The claim: the paths recorded in a parsed file take no more than a fixed number of bytes for each byte of the file, a
million or fewer. -/
def C183_statement : Prop := ∃ c ≤ 1000000, ∀ (data : Bytes) (v : Value), parse data = .ok v → pathBytes v ≤ c * data.length

/-- A file of about four times `k` bytes is accepted whose paths take the square of `k`. -/
theorem C183_square (k : Nat) (hk : k < 2 ^ 60) : ∃ (data : Bytes) (v : Value), data.length ≤ 4 * k + 25 ∧
    parse data = .ok v ∧ k * k ≤ pathBytes v := by
  obtain ⟨v, h1, h2⟩ := spread_pathBytes hk
  exact ⟨_, v, spread_length (by omega), h1, h2⟩

theorem C183_false : ¬ C183_statement := by
  intro ⟨c, hc, h⟩
  obtain ⟨data, v, h1, h2, h3⟩ := C183_square (5 * c + 100) (by omega)
  have h4 := h data v h2
  have h5 : c * data.length ≤ c * (4 * (5 * c + 100) + 25) := Nat.mul_le_mul_left _ h1
  nlinarith

/-- What holds: the paths take no more than twice the square of the file. -/
theorem C183_square_partial (data : Bytes) (v : Value) (h : parse data = .ok v) :
    pathBytes v ≤ 2 * data.length * data.length := by
  rw [parse] at h
  rcases hp : parseValueN (data.length + 1) "" data 0 with e | ⟨w, o'⟩
  · rw [hp] at h; simp [Except.map] at h
  · rw [hp] at h
    simp only [Except.map, Except.ok.injEq] at h
    subst h
    obtain ⟨bs, he, hat, -⟩ := parseValueN_sound _ _ _ _ _ _ hp
    have hle := (at_eq_slice hat).2
    have := pathBytes_le he (by decide) data.length (by omega)
    exact this.trans (Nat.mul_le_mul_left _ (by omega))

/-- Such a file with ten letters and ten numbers: 141 bytes of paths in a file of 47. -/
example : ((parse (encode (spread 10))).toOption.map pathBytes) = some 141 := by decide +kernel

end Ngfs.Bencode
