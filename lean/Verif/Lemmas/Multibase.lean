import Verif.Model.Multibase
import Verif.Lemmas.Basic
import Mathlib.Tactic.Positivity

/-! Helper lemmas about the multibase model. No claims here. -/
namespace Ngfs.Multibase

/-- `a` and `inv` are inverse tables of `n` ASCII characters, none of which is `=`. -/
def TableOK (a : List Char) (inv : List UInt8) (n : Nat) : Prop :=
  a.length = n ∧ inv.length = 128 ∧
  ∀ i < n, (String.utf8EncodeChar (pick a (UInt8.ofNat i))).map (lookup inv) = [some (UInt8.ofNat i)] ∧
    String.utf8EncodeChar (pick a (UInt8.ofNat i)) ≠ [0x3d]

instance (a inv n) : Decidable (TableOK a inv n) := by unfold TableOK; infer_instance

theorem table16L : TableOK BASE16_LOWER BASE16_LOWER_INV 16 := by decide +kernel
theorem table16U : TableOK BASE16_UPPER BASE16_UPPER_INV 16 := by decide +kernel
theorem table32L : TableOK BASE32_LOWER BASE32_LOWER_INV 32 := by decide +kernel
theorem table32U : TableOK BASE32_UPPER BASE32_UPPER_INV 32 := by decide +kernel
theorem table58B : TableOK BASE58_BTC BASE58_BTC_INV 58 := by decide +kernel
theorem table58F : TableOK BASE58_FLICKR BASE58_FLICKR_INV 58 := by decide +kernel
theorem table64 : TableOK BASE64_ALPHABET BASE64_ALPHABET_INV 64 := by decide +kernel
theorem table64U : TableOK BASE64_URL_ALPHABET BASE64_URL_ALPHABET_INV 64 := by decide +kernel

theorem TableOK.byte {a inv n} (h : TableOK a inv n) (d : UInt8) (hd : d.toNat < n) :
    ∃ b, String.utf8EncodeChar (pick a d) = [b] ∧ lookup inv b = some d ∧ b ≠ 0x3d := by
  have := h.2.2 d.toNat hd
  rw [u8_ofNat_toNat] at this
  obtain ⟨h1, h2⟩ := this
  generalize String.utf8EncodeChar (pick a d) = l at *
  cases l with
  | nil => simp at h1
  | cons b t =>
    simp at h1
    obtain ⟨h1, rfl⟩ := h1
    exact ⟨b, rfl, h1, by simpa using h2⟩

theorem asBytes_append (s t : List Char) : asBytes (s ++ t) = asBytes s ++ asBytes t := by simp [asBytes]

/-- The loop over a run of digits. -/
theorem decodeBasenLoop_digits {a inv n} (h : TableOK a inv n) (k : Nat) (pd : Bool) (ds : List UInt8)
    (hds : ∀ d ∈ ds, d.toNat < n) (tail : Bytes) (off : Nat) (s : BitState) :
    decodeBasenLoop k inv pd off (asBytes (ds.map (pick a)) ++ tail) s =
      decodeBasenLoop k inv pd (off + ds.length) tail (ds.foldl (pushDigit k) s) := by
  induction ds generalizing off s with
  | nil => simp [asBytes]
  | cons d ds ih =>
    obtain ⟨b, hb, hl, hne⟩ := h.byte d (hds d (by simp))
    have : asBytes ((d :: ds).map (pick a)) = b :: asBytes (ds.map (pick a)) := by simp [asBytes, hb]
    rw [this, List.cons_append, decodeBasenLoop]
    have h1 : (pd && b == 0x3d) = false := by simp [hne]
    rw [h1]
    simp only [Bool.false_eq_true, if_false, hl]
    rw [ih (fun e he => hds e (by simp [he]))]
    simp [Nat.add_assoc, Nat.add_comm 1]

theorem decodeBasenLoop_pad (inv : List UInt8) (k off m : Nat) (s : BitState) :
    decodeBasenLoop k inv true off (asBytes (List.replicate m '=')) s = .ok s.out := by
  cases m with
  | zero => rfl
  | succ m =>
    have : asBytes (List.replicate (m + 1) '=') = 0x3d :: asBytes (List.replicate m '=') := by
      have h0 : String.utf8EncodeChar '=' = [0x3d] := by decide
      simp [asBytes, List.replicate_succ, h0]
    rw [this, decodeBasenLoop]; rfl

/-- The decoder state that has output `out` and holds `sh` further bits of value `acc`. -/
def mk (out : Bytes) (acc sh : Nat) : BitState := ⟨out, UInt8.ofNat (acc * 2 ^ (8 - sh)), sh⟩

theorem pushBit_out (o : Bytes) (s : BitState) (b : UInt8) :
    pushBit { s with out := o ++ s.out } b = { pushBit s b with out := o ++ (pushBit s b).out } := by
  simp only [pushBit]
  split <;> simp

theorem pushDigit_out (k : Nat) (o : Bytes) (s : BitState) (d : UInt8) :
    pushDigit k { s with out := o ++ s.out } d = { pushDigit k s d with out := o ++ (pushDigit k s d).out } := by
  simp only [pushDigit]
  generalize List.range' (8 - k) k = l
  induction l generalizing s with
  | nil => rfl
  | cons i l ih => simp only [List.foldl_cons, pushBit_out]; exact ih (pushBit s _)

/-- The state holding `s` bits of value `v` in all: the first eight of them leave as a byte. -/
def nstate (v s : Nat) : BitState :=
  if s < 8 then mk [] v s else mk [UInt8.ofNat (v / 2 ^ (s - 8))] (v % 2 ^ (s - 8)) (s - 8)

theorem pushBit_mk : ∀ sh < 8, ∀ acc < 2 ^ sh, ∀ b < 2,
    pushBit (mk [] acc sh) (UInt8.ofNat b) = nstate (2 * acc + b) (sh + 1) := by decide +kernel

theorem pushBit_nstate (s v b : Nat) (hs : s < 15) (hv : v < 2 ^ s) (hb : b < 2) :
    pushBit (nstate v s) (UInt8.ofNat b) = nstate (2 * v + b) (s + 1) := by
  by_cases h8 : s < 8
  · have : nstate v s = mk [] v s := by simp [nstate, h8]
    rw [this]; exact pushBit_mk s h8 v hv b hb
  · obtain ⟨t, rfl⟩ : ∃ t, s = 8 + t := ⟨s - 8, by omega⟩
    have ht : t < 7 := by omega
    have e1 : nstate v (8 + t) = { mk [] (v % 2 ^ t) t with out := [UInt8.ofNat (v / 2 ^ t)] ++ (mk [] (v % 2 ^ t) t).out } := by
      simp [nstate, mk]
    rw [e1, pushBit_out, pushBit_mk t (by omega) _ (Nat.mod_lt _ (by positivity)) b hb]
    have e2 : nstate (2 * (v % 2 ^ t) + b) (t + 1) = mk [] (2 * (v % 2 ^ t) + b) (t + 1) := by
      simp [nstate]; omega
    have e3 : 8 + t + 1 - 8 = t + 1 := by omega
    have e4 : (2 * v + b) / 2 ^ (t + 1) = v / 2 ^ t := by
      rw [Nat.pow_succ', ← Nat.div_div_eq_div_mul]; congr 1; omega
    have e5 : (2 * v + b) % 2 ^ (t + 1) = 2 * (v % 2 ^ t) + b := by
      rw [Nat.pow_succ', Nat.mod_mul]
      have : (2 * v + b) / 2 = v := by omega
      rw [this]; omega
    rw [e2]
    simp only [nstate, mk, List.append_nil]
    rw [if_neg (by omega), e3, e4, e5]

theorem shift_bit : ∀ d < 256, ∀ i < 8,
    (UInt8.ofNat d >>> UInt8.ofNat i) &&& (1 : UInt8) = UInt8.ofNat (d / 2 ^ i % 2) := by
  decide +kernel

theorem nstate_mk {acc sh : Nat} (h : sh < 8) : mk [] acc sh = nstate acc sh := by simp [nstate, h]

theorem mk_out (out : Bytes) (acc sh : Nat) :
    mk out acc sh = { mk [] acc sh with out := out ++ (mk [] acc sh).out } := by simp [mk]

theorem digit4 {acc sh : Nat} (out : Bytes) (d : UInt8) (hs : sh < 8) (ha : acc < 2 ^ sh) (hd : d.toNat < 16) :
    pushDigit 4 (mk out acc sh) d =
      { nstate (acc * 16 + d.toNat) (sh + 4) with out := out ++ (nstate (acc * 16 + d.toNat) (sh + 4)).out } := by
  rw [mk_out, pushDigit_out]
  suffices h : pushDigit 4 (mk [] acc sh) d = nstate (acc * 16 + d.toNat) (sh + 4) by rw [h]
  rw [nstate_mk hs]
  have hb : ∀ i < 8, (d >>> UInt8.ofNat i) &&& (1 : UInt8) = UInt8.ofNat (d.toNat / 2 ^ i % 2) := by
    intro i hi
    have := shift_bit d.toNat (u8_lt d) i hi
    rwa [u8_ofNat_toNat] at this
  simp only [pushDigit, List.range', Nat.reduceSub, Nat.reduceAdd, List.foldl_cons, List.foldl_nil]
  rw [hb 3 (by decide), hb 2 (by decide), hb 1 (by decide), hb 0 (by decide)]
  generalize d.toNat = n at hd
  have h1 := ha
  rw [pushBit_nstate _ _ _ (by omega) h1 (by omega)]
  have h2 : 2 * acc + n / 2 ^ 3 % 2 < 2 ^ (sh + 1) := by rw [Nat.pow_succ]; omega
  rw [pushBit_nstate _ _ _ (by omega) h2 (by omega)]
  have h3 : 2 * (2 * acc + n / 2 ^ 3 % 2) + n / 2 ^ 2 % 2 < 2 ^ (sh + 1 + 1) := by rw [Nat.pow_succ]; omega
  rw [pushBit_nstate _ _ _ (by omega) h3 (by omega)]
  have h4 : 2 * (2 * (2 * acc + n / 2 ^ 3 % 2) + n / 2 ^ 2 % 2) + n / 2 ^ 1 % 2 < 2 ^ (sh + 1 + 1 + 1) := by
    rw [Nat.pow_succ]; omega
  rw [pushBit_nstate _ _ _ (by omega) h4 (by omega)]
  congr 1; omega

theorem digit5 {acc sh : Nat} (out : Bytes) (d : UInt8) (hs : sh < 8) (ha : acc < 2 ^ sh) (hd : d.toNat < 32) :
    pushDigit 5 (mk out acc sh) d =
      { nstate (acc * 32 + d.toNat) (sh + 5) with out := out ++ (nstate (acc * 32 + d.toNat) (sh + 5)).out } := by
  rw [mk_out, pushDigit_out]
  suffices h : pushDigit 5 (mk [] acc sh) d = nstate (acc * 32 + d.toNat) (sh + 5) by rw [h]
  rw [nstate_mk hs]
  have hb : ∀ i < 8, (d >>> UInt8.ofNat i) &&& (1 : UInt8) = UInt8.ofNat (d.toNat / 2 ^ i % 2) := by
    intro i hi
    have := shift_bit d.toNat (u8_lt d) i hi
    rwa [u8_ofNat_toNat] at this
  simp only [pushDigit, List.range', Nat.reduceSub, Nat.reduceAdd, List.foldl_cons, List.foldl_nil]
  rw [hb 4 (by decide), hb 3 (by decide), hb 2 (by decide), hb 1 (by decide), hb 0 (by decide)]
  generalize d.toNat = n at hd
  have h1 := ha
  rw [pushBit_nstate _ _ _ (by omega) h1 (by omega)]
  have h2 : 2 * acc + n / 2 ^ 4 % 2 < 2 ^ (sh + 1) := by rw [Nat.pow_succ]; omega
  rw [pushBit_nstate _ _ _ (by omega) h2 (by omega)]
  have h3 : 2 * (2 * acc + n / 2 ^ 4 % 2) + n / 2 ^ 3 % 2 < 2 ^ (sh + 1 + 1) := by rw [Nat.pow_succ]; omega
  rw [pushBit_nstate _ _ _ (by omega) h3 (by omega)]
  have h4 : 2 * (2 * (2 * acc + n / 2 ^ 4 % 2) + n / 2 ^ 3 % 2) + n / 2 ^ 2 % 2 < 2 ^ (sh + 1 + 1 + 1) := by
    rw [Nat.pow_succ]; omega
  rw [pushBit_nstate _ _ _ (by omega) h4 (by omega)]
  have h5 : 2 * (2 * (2 * (2 * acc + n / 2 ^ 4 % 2) + n / 2 ^ 3 % 2) + n / 2 ^ 2 % 2) + n / 2 ^ 1 % 2
      < 2 ^ (sh + 1 + 1 + 1 + 1) := by
    rw [Nat.pow_succ]; omega
  rw [pushBit_nstate _ _ _ (by omega) h5 (by omega)]
  congr 1; omega

theorem digit6 {acc sh : Nat} (out : Bytes) (d : UInt8) (hs : sh < 8) (ha : acc < 2 ^ sh) (hd : d.toNat < 64) :
    pushDigit 6 (mk out acc sh) d =
      { nstate (acc * 64 + d.toNat) (sh + 6) with out := out ++ (nstate (acc * 64 + d.toNat) (sh + 6)).out } := by
  rw [mk_out, pushDigit_out]
  suffices h : pushDigit 6 (mk [] acc sh) d = nstate (acc * 64 + d.toNat) (sh + 6) by rw [h]
  rw [nstate_mk hs]
  have hb : ∀ i < 8, (d >>> UInt8.ofNat i) &&& (1 : UInt8) = UInt8.ofNat (d.toNat / 2 ^ i % 2) := by
    intro i hi
    have := shift_bit d.toNat (u8_lt d) i hi
    rwa [u8_ofNat_toNat] at this
  simp only [pushDigit, List.range', Nat.reduceSub, Nat.reduceAdd, List.foldl_cons, List.foldl_nil]
  rw [hb 5 (by decide), hb 4 (by decide), hb 3 (by decide), hb 2 (by decide), hb 1 (by decide), hb 0 (by decide)]
  generalize d.toNat = n at hd
  have h1 := ha
  rw [pushBit_nstate _ _ _ (by omega) h1 (by omega)]
  have h2 : 2 * acc + n / 2 ^ 5 % 2 < 2 ^ (sh + 1) := by rw [Nat.pow_succ]; omega
  rw [pushBit_nstate _ _ _ (by omega) h2 (by omega)]
  have h3 : 2 * (2 * acc + n / 2 ^ 5 % 2) + n / 2 ^ 4 % 2 < 2 ^ (sh + 1 + 1) := by rw [Nat.pow_succ]; omega
  rw [pushBit_nstate _ _ _ (by omega) h3 (by omega)]
  have h4 : 2 * (2 * (2 * acc + n / 2 ^ 5 % 2) + n / 2 ^ 4 % 2) + n / 2 ^ 3 % 2 < 2 ^ (sh + 1 + 1 + 1) := by
    rw [Nat.pow_succ]; omega
  rw [pushBit_nstate _ _ _ (by omega) h4 (by omega)]
  have h5 : 2 * (2 * (2 * (2 * acc + n / 2 ^ 5 % 2) + n / 2 ^ 4 % 2) + n / 2 ^ 3 % 2) + n / 2 ^ 2 % 2
      < 2 ^ (sh + 1 + 1 + 1 + 1) := by
    rw [Nat.pow_succ]; omega
  rw [pushBit_nstate _ _ _ (by omega) h5 (by omega)]
  have h6 : 2 * (2 * (2 * (2 * (2 * acc + n / 2 ^ 5 % 2) + n / 2 ^ 4 % 2) + n / 2 ^ 3 % 2) + n / 2 ^ 2 % 2) + n / 2 ^ 1 % 2
      < 2 ^ (sh + 1 + 1 + 1 + 1 + 1) := by
    rw [Nat.pow_succ]; omega
  rw [pushBit_nstate _ _ _ (by omega) h6 (by omega)]
  congr 1; omega

end Ngfs.Multibase
