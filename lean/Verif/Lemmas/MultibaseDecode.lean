import Verif.Lemmas.MultibaseGroups
import Verif.Lemmas.Base58
import Verif.Spec.Multibase

/-! Round trips and acceptance for each family of bases. No claims here. -/
namespace Ngfs.Multibase
open Spec

/-! #### Round trips -/

theorem finish_pad (inv : List UInt8) (k off m : Nat) (pd : Bool) (s : BitState) :
    decodeBasenLoop k inv pd off (asBytes (if pd then List.replicate m '=' else [])) s = .ok s.out := by
  cases pd
  · rfl
  · exact decodeBasenLoop_pad inv k off m s

theorem rt16 {a inv} (h : TableOK a inv 16) (data : Bytes) (off : Nat) (out : Bytes) :
    decodeBasenLoop 4 inv false off (asBytes (encodeBase16 data a)) (mk out 0 0) = .ok (out ++ data) := by
  induction data generalizing off out with
  | nil => simp [encodeBase16, asBytes, decodeBasenLoop, mk]
  | cons b bs ih =>
    have hb := u8_lt b
    have e : encodeBase16 (b :: bs) a = [b >>> (4 : UInt8), b &&& (0xf : UInt8)].map (pick a) ++ encodeBase16 bs a := rfl
    rw [e, asBytes_append, decodeBasenLoop_digits h, group16, ih]
    · simp
    · intro d hd
      simp only [List.mem_cons, List.not_mem_nil, or_false] at hd
      rcases hd with h | h <;> subst h <;> simp only [shr4, lowf] <;> omega

theorem rt32_part {a inv} (h : TableOK a inv 32) (pd : Bool) (b0 b1 b2 b3 b4 : UInt8) (n : Nat)
    (off : Nat) (out : Bytes) :
    decodeBasenLoop 5 inv pd off (asBytes (emit32 a pd (group32 b0 b1 b2 b3 b4) n)) (mk out 0 0) =
      .ok ((((group32 b0 b1 b2 b3 b4).take n).foldl (pushDigit 5) (mk out 0 0)).out) := by
  rw [emit32, asBytes_append, decodeBasenLoop_digits h _ _ _ (group32_lt _ _ _ _ _ n)]
  cases pd
  · rfl
  · exact decodeBasenLoop_pad _ _ _ _ _

theorem rt32 {a inv} (h : TableOK a inv 32) (pd : Bool) (data : Bytes) (off : Nat) (out : Bytes) :
    decodeBasenLoop 5 inv pd off (asBytes (encodeBase32 a pd data)) (mk out 0 0) = .ok (out ++ data) := by
  induction data using encodeBase32.induct generalizing off out with
  | case1 => simp [encodeBase32, asBytes, decodeBasenLoop, mk]
  | case2 b0 => rw [encodeBase32, rt32_part h, group32_2]; rfl
  | case3 b0 b1 => rw [encodeBase32, rt32_part h, group32_4]; rfl
  | case4 b0 b1 b2 => rw [encodeBase32, rt32_part h, group32_5]; rfl
  | case5 b0 b1 b2 b3 => rw [encodeBase32, rt32_part h, group32_7]; rfl
  | case6 b0 b1 b2 b3 b4 rest ih =>
    rw [encodeBase32, asBytes_append]
    have e : emit32 a pd (group32 b0 b1 b2 b3 b4) 8 = ((group32 b0 b1 b2 b3 b4).take 8).map (pick a) := by
      simp [emit32]
    rw [e, decodeBasenLoop_digits h _ _ _ (group32_lt _ _ _ _ _ 8), group32_8, ih]
    simp

theorem rt64 {a inv} (h : TableOK a inv 64) (pd : Bool) (data : Bytes) (off : Nat) (out : Bytes) :
    decodeBasenLoop 6 inv pd off (asBytes (encodeBase64 a pd data)) (mk out 0 0) = .ok (out ++ data) := by
  induction data using encodeBase64.induct generalizing off out with
  | case1 => simp [encodeBase64, asBytes, decodeBasenLoop, mk]
  | case2 a0 =>
    have h0 := u8_lt a0
    rw [encodeBase64, asBytes_append, decodeBasenLoop_digits h]
    · rw [show (if pd then ['=', '='] else []) = (if pd then List.replicate 2 '=' else []) from rfl, finish_pad, group64_1]
    · intro d hd
      simp only [List.mem_cons, List.not_mem_nil, or_false] at hd
      rcases hd with h | h <;> subst h <;> simp only [shr2, m64a] <;> omega
  | case3 a0 a1 =>
    have h0 := u8_lt a0; have h1 := u8_lt a1
    rw [encodeBase64, asBytes_append, decodeBasenLoop_digits h]
    · rw [show (if pd then ['='] else []) = (if pd then List.replicate 1 '=' else []) from rfl, finish_pad, group64_2]
    · intro d hd
      simp only [List.mem_cons, List.not_mem_nil, or_false] at hd
      rcases hd with h | h | h <;> subst h <;> simp only [shr2, d64_1, m64b] <;> omega
  | case4 a0 a1 a2 rest ih =>
    have h0 := u8_lt a0; have h1 := u8_lt a1; have h2 := u8_lt a2
    rw [encodeBase64, asBytes_append, decodeBasenLoop_digits h]
    · rw [group64_3, ih]; simp
    · intro d hd
      simp only [List.mem_cons, List.not_mem_nil, or_false] at hd
      rcases hd with h | h | h | h <;> subst h <;> simp only [shr2, d64_1, d64_2, low3f] <;> omega

theorem leadingZeros_split (data : Bytes) :
    ∃ rest, data = List.replicate (leadingZeros data) 0 ++ rest ∧ ∀ x, rest.head? = some x → x ≠ 0 := by
  refine ⟨data.dropWhile (· == 0), ?_, ?_⟩
  · have h : data.takeWhile (· == 0) = List.replicate (leadingZeros data) 0 := by
      rw [List.eq_replicate_iff]
      refine ⟨rfl, fun b hb => ?_⟩
      have := List.all_takeWhile (p := (· == 0)) (l := data)
      rw [List.all_eq_true] at this
      simpa using this b hb
    conv_lhs => rw [← List.takeWhile_append_dropWhile (p := (· == 0)) (l := data)]
    rw [h]
  · intro x hx
    have := List.head?_dropWhile_not (p := (· == 0)) (l := data)
    rw [hx] at this
    simpa using this

theorem leVal_zeros (B : Nat) (n : Nat) : leVal B (List.replicate n 0) = 0 := by
  induction n with
  | zero => rfl
  | succ n ih => simp [List.replicate_succ, leVal, ih]

theorem rt58 {a inv} (ht : TableOK a inv 58) (h1 : String.utf8EncodeChar (pick a 0) = [0x31])
    (data : Bytes) : decodeBase58 (asBytes (encodeBase58 data a)) inv = .ok data := by
  obtain ⟨ds, e1, e2, e3, e4⟩ := encodeBase58Loop_spec data []
  obtain ⟨rest, hr1, hr2⟩ := leadingZeros_split data
  generalize hz : leadingZeros data = z at *
  have enc : encodeBase58 data a = (List.replicate z 0 ++ ds.reverse).map (pick a) := by
    simp only [encodeBase58, e1, hz, List.nil_append, List.map_append, List.map_replicate]
  have hall : ∀ d ∈ List.replicate z (0 : UInt8) ++ ds.reverse, d.toNat < 58 := by
    intro d hd
    rcases List.mem_append.mp hd with h | h
    · rw [List.eq_of_mem_replicate h]; decide
    · exact e3 d (List.mem_reverse.mp h)
  obtain ⟨r, d1, d2, d3⟩ := decodeBase58Loop_spec ht _ hall 0 [] (by simp [Canon])
  have hcount : ((asBytes (encodeBase58 data a)).takeWhile (· == 0x31)).length = z := by
    rw [enc, List.map_append, asBytes_append, List.map_replicate]
    have hrep : asBytes (List.replicate z (pick a 0)) = List.replicate z 0x31 := by
      clear hz e1 e2 e3 e4 hr1 hr2 enc hall d1 d2 d3
      induction z with
      | zero => rfl
      | succ n ih => simp [asBytes, List.replicate_succ, h1] at ih ⊢; exact ih
    rw [hrep, List.takeWhile_append_of_pos (by simp)]
    have htail : (asBytes (ds.reverse.map (pick a))).takeWhile (· == 0x31) = [] := by
      cases hrev : ds.reverse with
      | nil => rfl
      | cons d t =>
        have hlast : ds.getLast? = some d := by rw [← List.head?_reverse, hrev]; rfl
        have hd0 := e4 d hlast
        have hmem : d ∈ ds := List.mem_of_getLast? hlast
        obtain ⟨b, hb, hl, _⟩ := ht.byte d (e3 d hmem)
        obtain ⟨b', hb', hl', _⟩ := ht.byte 0 (by decide)
        rw [h1] at hb'; cases hb'
        have : b ≠ 0x31 := by
          intro hc; rw [hc, hl'] at hl; exact hd0 (Option.some.inj hl).symm
        simp [asBytes, hb, this]
    rw [htail]; simp
  simp only [decodeBase58, hcount]
  rw [enc, d1]
  simp only [bind, Except.bind, Except.ok.injEq]
  have hv : leVal 256 r = leVal 256 rest.reverse := by
    rw [d3]
    simp only [List.reverse_append, List.reverse_reverse, List.reverse_replicate, leVal_append, leVal_zeros, leVal,
      Nat.mul_zero, Nat.add_zero, e2]
    conv_lhs => rw [hr1]
    rw [beVal_reverse, List.reverse_append, leVal_append, List.reverse_replicate, leVal_zeros, Nat.mul_zero, Nat.add_zero]
  have hcan : Canon rest.reverse := by
    intro x hx
    rw [List.getLast?_reverse] at hx
    exact hr2 x hx
  have := leVal_inj 256 (by decide) (all256 r) (all256 _) d2 hcan hv
  rw [this, List.reverse_append, List.reverse_reverse, List.reverse_replicate]
  exact hr1.symm

/-! #### Acceptance -/

/-- The table accepts exactly the ASCII characters of the alphabet. -/
def AcceptOK (a : List Char) (inv : List UInt8) : Prop :=
  inv.length = 128 ∧ ∀ b < 128, (lookup inv (UInt8.ofNat b)).isSome = decide (Char.ofNat b ∈ a)

instance (a inv) : Decidable (AcceptOK a inv) := by unfold AcceptOK; infer_instance

theorem alpha16L : (alphabet .base16).toList = BASE16_LOWER := by decide +kernel
theorem acc16L : AcceptOK BASE16_LOWER BASE16_LOWER_INV := by decide +kernel
theorem alpha16U : (alphabet .base16Upper).toList = BASE16_UPPER := by decide +kernel
theorem acc16U : AcceptOK BASE16_UPPER BASE16_UPPER_INV := by decide +kernel
theorem alpha32L : (alphabet .base32).toList = BASE32_LOWER := by decide +kernel
theorem acc32L : AcceptOK BASE32_LOWER BASE32_LOWER_INV := by decide +kernel
theorem alpha32U : (alphabet .base32Upper).toList = BASE32_UPPER := by decide +kernel
theorem acc32U : AcceptOK BASE32_UPPER BASE32_UPPER_INV := by decide +kernel
theorem alpha58B : (alphabet .base58BTC).toList = BASE58_BTC := by decide +kernel
theorem acc58B : AcceptOK BASE58_BTC BASE58_BTC_INV := by decide +kernel
theorem alpha58F : (alphabet .base58Flickr).toList = BASE58_FLICKR := by decide +kernel
theorem acc58F : AcceptOK BASE58_FLICKR BASE58_FLICKR_INV := by decide +kernel
theorem alpha64 : (alphabet .base64).toList = BASE64_ALPHABET := by decide +kernel
theorem acc64 : AcceptOK BASE64_ALPHABET BASE64_ALPHABET_INV := by decide +kernel
theorem alpha64U : (alphabet .base64URL).toList = BASE64_URL_ALPHABET := by decide +kernel
theorem acc64U : AcceptOK BASE64_URL_ALPHABET BASE64_URL_ALPHABET_INV := by decide +kernel
theorem alphabets_ascii : ∀ l ∈ [BASE16_LOWER, BASE16_UPPER, BASE32_LOWER, BASE32_UPPER, BASE58_BTC, BASE58_FLICKR,
    BASE64_ALPHABET, BASE64_URL_ALPHABET], ∀ c ∈ l, c.toNat < 128 := by decide +kernel

/-- A character is either ASCII and one byte, or its encoding starts with a byte of 128 or more. -/
theorem utf8_first (c : Char) :
    (c.toNat < 128 ∧ String.utf8EncodeChar c = [UInt8.ofNat c.toNat]) ∨
    (128 ≤ c.toNat ∧ ∃ b bs, String.utf8EncodeChar c = b :: bs ∧ 128 ≤ b.toNat) := by
  by_cases h : c.toNat < 128
  · left; refine ⟨h, ?_⟩
    have : c.val.toNat ≤ 0x7f := by have : c.toNat = c.val.toNat := rfl; omega
    simp only [String.utf8EncodeChar, this, if_true]; rfl
  · right
    refine ⟨by omega, ?_⟩
    have : ¬ c.val.toNat ≤ 0x7f := by have : c.toNat = c.val.toNat := rfl; omega
    simp only [String.utf8EncodeChar, this, if_false]
    split
    · exact ⟨_, _, rfl, by rw [toNat_ofNat_lt (by omega)]; omega⟩
    · split
      · exact ⟨_, _, rfl, by rw [toNat_ofNat_lt (by omega)]; omega⟩
      · exact ⟨_, _, rfl, by rw [toNat_ofNat_lt (by omega)]; omega⟩

theorem lookup_high {inv : List UInt8} (h : inv.length = 128) {b : UInt8} (hb : 128 ≤ b.toNat) : lookup inv b = none := by
  have : inv[b.toNat]? = none := by simp [h, hb]
  simp [lookup, this]

theorem lookup_mem {a inv} (h : AcceptOK a inv) (c : Char) (hc : c.toNat < 128) :
    (lookup inv (UInt8.ofNat c.toNat)).isSome ↔ c ∈ a := by
  rw [h.2 c.toNat hc]
  have : Char.ofNat c.toNat = c := by simp
  rw [this]; simp

theorem char_eq_pad (c : Char) (hc : c.toNat < 128) : UInt8.ofNat c.toNat = 0x3d ↔ c = '=' := by
  constructor
  · intro h
    have := congrArg UInt8.toNat h
    rw [toNat_ofNat_lt (by omega)] at this
    apply Char.ext; apply UInt32.toNat_inj.mp
    exact this
  · rintro rfl; rfl

theorem decodeBasenLoop_accepts {a inv} (h : AcceptOK a inv) (ha : ∀ c ∈ a, c.toNat < 128) (k : Nat) (pd : Bool)
    (text : List Char) (off : Nat) (s : BitState) :
    (∃ r, decodeBasenLoop k inv pd off (asBytes text) s = .ok r) ↔
      ∀ c ∈ (if pd then text.takeWhile (· ≠ '=') else text), c ∈ a := by
  induction text generalizing off s with
  | nil => simp [asBytes, decodeBasenLoop]
  | cons c cs ih =>
    rcases utf8_first c with ⟨hc, he⟩ | ⟨hc, b, bs, he, hb⟩
    · have e : asBytes (c :: cs) = UInt8.ofNat c.toNat :: asBytes cs := by simp [asBytes, he]
      rw [e, decodeBasenLoop]
      by_cases hp : pd = true ∧ c = '='
      · obtain ⟨rfl, rfl⟩ := hp
        simp
      · have hp' : (pd && UInt8.ofNat c.toNat == 0x3d) = false := by
          cases pd
          · rfl
          · simp only [true_and] at hp
            simp only [Bool.true_and, beq_eq_false_iff_ne, ne_eq, char_eq_pad c hc]; exact hp
        rw [hp']
        simp only [Bool.false_eq_true, if_false]
        have hset : (if pd then (c :: cs).takeWhile (· ≠ '=') else c :: cs) =
            c :: (if pd then cs.takeWhile (· ≠ '=') else cs) := by
          cases pd
          · rfl
          · have : c ≠ '=' := fun h => hp ⟨rfl, h⟩
            simp [this]
        rw [hset]
        have hl := lookup_mem h c hc
        cases hlk : lookup inv (UInt8.ofNat c.toNat) with
        | none =>
          rw [hlk] at hl
          simp at hl
          simp [hl]
        | some v =>
          rw [hlk] at hl
          simp at hl
          simp only [ih, List.mem_cons, forall_eq_or_imp, hl, true_and]
    · have e : asBytes (c :: cs) = b :: (bs ++ asBytes cs) := by simp [asBytes, he]
      have hb3 : b ≠ 0x3d := by rintro rfl; revert hb; decide
      have hc3 : c ≠ '=' := by rintro rfl; revert hc; decide
      rw [e, decodeBasenLoop, lookup_high h.1 hb]
      have hp' : (pd && b == 0x3d) = false := by simp [hb3]
      rw [hp']
      simp only [Bool.false_eq_true, if_false]
      constructor
      · rintro ⟨r, hr⟩; cases hr
      · intro hall
        have : c ∈ a := hall c (by cases pd <;> simp [hc3])
        have := ha c this
        omega

theorem decodeBase58Loop_accepts {a inv} (h : AcceptOK a inv) (ha : ∀ c ∈ a, c.toNat < 128)
    (text : List Char) (off : Nat) (s : Bytes) :
    (∃ r, decodeBase58Loop inv off (asBytes text) s = .ok r) ↔ ∀ c ∈ text, c ∈ a := by
  induction text generalizing off s with
  | nil => simp [asBytes, decodeBase58Loop]
  | cons c cs ih =>
    rcases utf8_first c with ⟨hc, he⟩ | ⟨hc, b, bs, he, hb⟩
    · have e : asBytes (c :: cs) = UInt8.ofNat c.toNat :: asBytes cs := by simp [asBytes, he]
      rw [e, decodeBase58Loop]
      have hl := lookup_mem h c hc
      cases hlk : lookup inv (UInt8.ofNat c.toNat) with
      | none =>
        rw [hlk] at hl
        simp at hl
        simp [hl]
      | some v =>
        rw [hlk] at hl
        simp at hl
        simp only [ih, List.mem_cons, forall_eq_or_imp, hl, true_and]
    · have e : asBytes (c :: cs) = b :: (bs ++ asBytes cs) := by simp [asBytes, he]
      rw [e, decodeBase58Loop, lookup_high h.1 hb]
      constructor
      · rintro ⟨r, hr⟩; cases hr
      · intro hall
        have : c ∈ a := hall c (by simp)
        have := ha c this
        omega

theorem decodeBase58_accepts {a inv} (h : AcceptOK a inv) (ha : ∀ c ∈ a, c.toNat < 128) (text : List Char) :
    (∃ r, decodeBase58 (asBytes text) inv = .ok r) ↔ ∀ c ∈ text, c ∈ a := by
  rw [← decodeBase58Loop_accepts h ha text 0 []]
  simp only [decodeBase58]
  cases decodeBase58Loop inv 0 (asBytes text) [] with
  | error e => simp [bind, Except.bind]
  | ok r => simp [bind, Except.bind]

end Ngfs.Multibase
