import Verif.Lemmas.MultibaseStandard
import Verif.Spec.MultibaseRead

/-! Helper lemmas: what the decoders make of any digits. No claims here. -/
namespace Ngfs.Multibase
open Spec

/-- After the digits `ds` of `k` bits each. -/
def BitsInv (k : Nat) (ds : Bytes) (s : BitState) : Prop :=
  ∃ out acc sh, s = mk out acc sh ∧ sh < 8 ∧ acc < 2 ^ sh ∧ 8 * out.length + sh = k * ds.length ∧
    number 256 (nums out) * 2 ^ sh + acc = number (2 ^ k) (nums ds)

/-- What the bit loop does with a digit of `k` bits. -/
def DigitOK (k : Nat) : Prop := k ≤ 8 ∧ ∀ (out : Bytes) (acc sh : Nat) (d : UInt8), sh < 8 → acc < 2 ^ sh → d.toNat < 2 ^ k →
  pushDigit k (mk out acc sh) d =
    { nstate (acc * 2 ^ k + d.toNat) (sh + k) with out := out ++ (nstate (acc * 2 ^ k + d.toNat) (sh + k)).out }

theorem digitOK4 : DigitOK 4 := ⟨by decide, fun out _ _ d hs ha hd => digit4 out d hs ha hd⟩
theorem digitOK5 : DigitOK 5 := ⟨by decide, fun out _ _ d hs ha hd => digit5 out d hs ha hd⟩
theorem digitOK6 : DigitOK 6 := ⟨by decide, fun out _ _ d hs ha hd => digit6 out d hs ha hd⟩

theorem bitsInv_step {k : Nat} (hk : DigitOK k) {ds : Bytes} {s : BitState} (h : BitsInv k ds s) (d : UInt8) (hd : d.toNat < 2 ^ k) :
    BitsInv k (ds ++ [d]) (pushDigit k s d) := by
  obtain ⟨out, acc, sh, rfl, hs, ha, hl, hn⟩ := h
  rw [hk.2 out acc sh d hs ha hd]
  have hnum : number (2 ^ k) (nums (ds ++ [d])) = number 256 (nums out) * 2 ^ (sh + k) + (acc * 2 ^ k + d.toNat) := by
    rw [nums, List.map_append, number_append, ← nums, ← hn, Nat.pow_add]
    simp only [List.map_cons, List.map_nil, List.length_cons, List.length_nil, number, List.foldl_cons, List.foldl_nil]
    ring
  have hv : acc * 2 ^ k + d.toNat < 2 ^ (sh + k) := by
    rw [Nat.pow_add]
    calc acc * 2 ^ k + d.toNat < acc * 2 ^ k + 2 ^ k := by omega
      _ = (acc + 1) * 2 ^ k := by ring
      _ ≤ 2 ^ sh * 2 ^ k := Nat.mul_le_mul_right _ ha
  have hlen : k * (ds ++ [d]).length = 8 * out.length + (sh + k) := by
    rw [List.length_append, Nat.mul_add, ← hl]; simp; omega
  generalize acc * 2 ^ k + d.toNat = v at *
  have hk8 := hk.1
  by_cases h8 : sh + k < 8
  · refine ⟨out, v, sh + k, ?_, h8, hv, hlen.symm, hnum.symm⟩
    simp only [nstate, if_pos h8, mk, List.append_nil]
  · obtain ⟨t, ht⟩ : ∃ t, sh + k = 8 + t := ⟨sh + k - 8, by omega⟩
    rw [ht] at hv hnum hlen ⊢
    have hq : v / 2 ^ t < 256 := by
      rw [Nat.div_lt_iff_lt_mul (by positivity)]
      rw [Nat.pow_add] at hv
      exact hv
    refine ⟨out ++ [UInt8.ofNat (v / 2 ^ t)], v % 2 ^ t, t, ?_, by omega, Nat.mod_lt _ (by positivity), ?_, ?_⟩
    · simp only [nstate, if_neg (by omega : ¬ 8 + t < 8), mk, Nat.add_sub_cancel_left]
    · rw [hlen, List.length_append]; simp; omega
    · rw [hnum, nums, List.map_append, number_append, ← nums]
      simp only [List.map_cons, List.map_nil, List.length_cons, List.length_nil, number, List.foldl_cons, List.foldl_nil]
      rw [show (UInt8.ofNat (v / 2 ^ t)).toNat = v / 2 ^ t from toNat_ofNat_lt hq, Nat.pow_add]
      have := Nat.div_add_mod v (2 ^ t)
      generalize v / 2 ^ t = q at *
      generalize v % 2 ^ t = r at *
      rw [← this]
      ring

theorem bitsInv_foldl {k : Nat} (hk : DigitOK k) (ds es : Bytes) (s : BitState) (h : BitsInv k es s) (hd : ∀ d ∈ ds, d.toNat < 2 ^ k) :
    BitsInv k (es ++ ds) (ds.foldl (pushDigit k) s) := by
  induction ds generalizing es s with
  | nil => simpa using h
  | cons d ds ih =>
    have := ih (es ++ [d]) _ (bitsInv_step hk h d (hd d (by simp))) (fun x hx => hd x (by simp [hx]))
    simpa using this

theorem pad_stops (inv : List UInt8) (k off : Nat) (s : BitState) (rest : List Char) :
    decodeBasenLoop k inv true off (asBytes ('=' :: rest)) s = .ok s.out := by
  have : asBytes ('=' :: rest) = 0x3d :: asBytes rest := by
    have h0 : String.utf8EncodeChar '=' = [0x3d] := by decide
    simp [asBytes, h0]
  rw [this, decodeBasenLoop]
  rfl

theorem takeWhile_split (text : List Char) :
    text = text.takeWhile (· ≠ '=') ∨ ∃ rest, text = text.takeWhile (· ≠ '=') ++ '=' :: rest := by
  have h := List.takeWhile_append_dropWhile (p := (· ≠ '=')) (l := text)
  cases hd : text.dropWhile (· ≠ '=') with
  | nil =>
    rw [hd, List.append_nil] at h
    exact .inl h.symm
  | cons c rest =>
    have := List.head?_dropWhile_not (p := (· ≠ '=')) (l := text)
    rw [hd] at this h
    simp at this
    subst this
    exact .inr ⟨rest, h.symm⟩

/-- The decoder on any digits of a base. -/
theorem basen_digits {base : Base} {a inv k} (hk : DigitOK k) (ht : TableOK a inv (2 ^ k)) (ds : Bytes)
    (hds : ∀ d ∈ ds, d.toNat < 2 ^ k) (text : List Char) (htext : digitsPart base text = ds.map (pick a)) :
    ∃ data, decodeBasen (asBytes text) k inv (padded base) = .ok data ∧ data.length = k * ds.length / 8 ∧
      number 256 (nums data) = number (2 ^ k) (nums ds) / 2 ^ (k * ds.length % 8) := by
  have h0 : BitsInv k [] ⟨[], 0, 0⟩ := ⟨[], 0, 0, rfl, by decide, by decide, rfl, rfl⟩
  obtain ⟨out, acc, sh, e, hs, ha, hl, hn⟩ := bitsInv_foldl hk ds [] _ h0 hds
  rw [List.nil_append] at hl hn
  refine ⟨out, ?_, by omega, ?_⟩
  · have hout : (ds.foldl (pushDigit k) ⟨[], 0, 0⟩).out = out := by rw [e]; rfl
    rw [decodeBasen]
    have key : ∀ tail : List Char, (tail = [] ∨ padded base = true ∧ ∃ rest, tail = '=' :: rest) → text = ds.map (pick a) ++ tail →
        decodeBasenLoop k inv (padded base) 0 (asBytes text) ⟨[], 0, 0⟩ = .ok out := by
      intro tail h1 h2
      rw [h2, asBytes_append, decodeBasenLoop_digits ht _ _ _ hds]
      rcases h1 with rfl | ⟨hp, rest, rfl⟩
      · simp only [asBytes, List.flatMap_nil, decodeBasenLoop, hout]
      · rw [hp, pad_stops, hout]
    cases hp : padded base with
    | false =>
      rw [← hp]
      rw [digitsPart, hp] at htext
      exact key [] (.inl rfl) (by simpa using htext)
    | true =>
      rw [← hp]
      rw [digitsPart, hp, if_pos rfl] at htext
      rcases takeWhile_split text with h | ⟨rest, h⟩
      · exact key [] (.inl rfl) (by rw [List.append_nil, ← htext]; exact h)
      · exact key ('=' :: rest) (.inr ⟨hp, rest, rfl⟩) (by rw [← htext]; exact h)
  · have hm : k * ds.length % 8 = sh := by omega
    rw [hm, ← hn, Nat.mul_comm, Nat.mul_add_div (by positivity), Nat.div_eq_of_lt ha]
    rfl

/-- Every text over an alphabet is a list of digits. -/
theorem digits_of {a inv n} (ht : TableOK a inv n) (hn : n ≤ 256) (text : List Char) (h : ∀ c ∈ text, c ∈ a) :
    ∃ ds : Bytes, (∀ d ∈ ds, d.toNat < n) ∧ text = ds.map (pick a) := by
  induction text with
  | nil => exact ⟨[], by simp, rfl⟩
  | cons c cs ih =>
    obtain ⟨ds, h1, h2⟩ := ih (fun x hx => h x (by simp [hx]))
    obtain ⟨i, hi, he⟩ := List.getElem_of_mem (h c (by simp))
    have hl := ht.1
    have hb : (UInt8.ofNat i).toNat = i := toNat_ofNat_lt (by omega)
    refine ⟨UInt8.ofNat i :: ds, ?_, ?_⟩
    · intro d hd
      rcases List.mem_cons.mp hd with rfl | hd
      · omega
      · exact h1 d hd
    · rw [List.map_cons, ← h2, pick, hb, List.getD_eq_getElem _ _ hi, he]

theorem bytes_of_nums {n : Nat} (hn : n ≤ 256) (ds : List Nat) (h : ∀ d ∈ ds, d < n) : ∃ bs : Bytes, nums bs = ds := by
  refine ⟨ds.map UInt8.ofNat, ?_⟩
  rw [nums, List.map_map]
  conv_rhs => rw [← List.map_id ds]
  refine List.map_congr_left fun d hd => ?_
  exact toNat_ofNat_lt (by have := h d hd; omega)

/-- The decoders of bases 16, 32 and 64. -/
theorem basen_iff {base : Base} {a inv k} (hk : DigitOK k) (ha : (alphabet base).toList = a) (ht : TableOK a inv (2 ^ k)) (hacc : AcceptOK a inv)
    (asc : ∀ c ∈ a, c.toNat < 128) (text : List Char) (data : Bytes) :
    decodeBasen (asBytes text) k inv (padded base) = .ok data ↔
      ∃ ds, (∀ d ∈ ds, d < 2 ^ k) ∧ digitsPart base text = written base ds ∧ data.length = k * ds.length / 8 ∧
        number 256 (nums data) = number (2 ^ k) ds / 2 ^ (k * ds.length % 8) := by
  have hp : 2 ^ k ≤ 256 := Nat.pow_le_pow_right (n := 2) (by decide) hk.1
  constructor
  · intro h
    have hin : ∀ c ∈ digitsPart base text, c ∈ a := (decodeBasenLoop_accepts hacc asc k (padded base) text 0 ⟨[], 0, 0⟩).mp ⟨data, h⟩
    obtain ⟨ds, h1, h2⟩ := digits_of ht hp _ hin
    obtain ⟨data', g1, g2, g3⟩ := basen_digits hk ht ds h1 text h2
    rw [h] at g1
    cases g1
    refine ⟨nums ds, ?_, ?_, ?_, ?_⟩
    · intro d hd
      obtain ⟨b, hb, rfl⟩ := List.mem_map.mp hd
      exact h1 b hb
    · rw [h2, written_pick ha]
    · rw [g2]; simp
    · rw [g3]; simp
  · rintro ⟨ds, h1, h2, h3, h4⟩
    obtain ⟨bs, rfl⟩ := bytes_of_nums hp ds h1
    have hb : ∀ d ∈ bs, d.toNat < 2 ^ k := fun d hd => h1 _ (List.mem_map_of_mem hd)
    rw [written_pick ha] at h2
    obtain ⟨data', g1, g2, g3⟩ := basen_digits hk ht bs hb text h2
    rw [g1]
    have hl : (nums data').length = (nums data).length := by
      simp only [List.length_map] at h3 ⊢
      rw [g2, h3]
    have : nums data' = nums data := by
      refine number_inj (B := 256) hl ?_ ?_ ?_
      · intro d hd
        obtain ⟨b, _, rfl⟩ := List.mem_map.mp hd
        exact u8_lt b
      · intro d hd
        obtain ⟨b, _, rfl⟩ := List.mem_map.mp hd
        exact u8_lt b
      · rw [g3, h4]; simp
    rw [List.map_inj_right (fun x y hxy => u8_ext hxy)] at this
    rw [this]

/-- The decoders of base 58. -/
theorem base58_iff {base : Base} {a inv} (ha : (alphabet base).toList = a) (ht : TableOK a inv 58) (hacc : AcceptOK a inv)
    (asc : ∀ c ∈ a, c.toNat < 128) (h1 : String.utf8EncodeChar (pick a 0) = [0x31]) (text : List Char) (data : Bytes) :
    decodeBase58 (asBytes text) inv = .ok data ↔ Base58Text base data text := by
  have back : ∀ data, Base58Text base data text → decodeBase58 (asBytes text) inv = .ok data := by
    intro data h
    rw [base58_unique h (base58_text ha data)]
    exact rt58 ht h1 data
  refine ⟨fun h => ?_, back data⟩
  have hin := (decodeBase58_accepts hacc asc text).mp ⟨data, h⟩
  obtain ⟨ds, d1, d2⟩ := digits_of ht (by decide) _ hin
  obtain ⟨rest, r1, r2⟩ := leadingZeros_split ds
  -- the bytes of the number
  have hex : ∃ bs : Bytes, nums bs = (Nat.digits 256 (number 58 (nums rest))).reverse := by
    refine bytes_of_nums (Nat.le_refl 256) _ fun d hd => ?_
    exact Nat.digits_lt_base (by decide) (List.mem_reverse.mp hd)
  obtain ⟨bs, hb⟩ := hex
  have hstd : Base58Text base (List.replicate (leadingZeros ds) 0 ++ bs) text := by
    refine ⟨leadingZeros ds, bs, nums rest, rfl, ?_, ?_, ?_, ?_, ?_⟩
    · intro h0
      have : (nums bs).head? = some 0 := by rw [nums, List.head?_map, h0]; rfl
      rw [hb, List.head?_reverse] at this
      by_cases hm : number 58 (nums rest) = 0
      · rw [hm] at this
        simp at this
      · have hlast := Nat.getLast_digit_ne_zero 256 hm
        rw [List.getLast?_eq_some_getLast (Nat.digits_ne_nil_iff_ne_zero.mpr hm)] at this
        exact hlast (Option.some.inj this)
    · intro d hd
      obtain ⟨b, hb', rfl⟩ := List.mem_map.mp hd
      exact d1 b (by rw [r1]; exact List.mem_append_right _ hb')
    · intro h0
      rw [nums, List.head?_map] at h0
      cases hr : rest.head? with
      | none => rw [hr] at h0; cases h0
      | some x =>
        rw [hr] at h0
        simp only [Option.map_some, Option.some.injEq] at h0
        exact r2 x hr (u8_ext h0)
    · rw [← nums, hb, number_ofDigits 256, List.reverse_reverse, Nat.ofDigits_digits]
    · rw [d2]
      have : nums ds = List.replicate (leadingZeros ds) 0 ++ nums rest := by
        conv_lhs => rw [r1]
        simp
      rw [← this, written_pick ha]
  have := back _ hstd
  rw [h] at this
  cases this
  exact hstd

end Ngfs.Multibase
