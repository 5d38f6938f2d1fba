import Verif.Lemmas.Multibase

/-! Decoding of the groups the base 16, 32 and 64 encoders emit. No claims here. -/
namespace Ngfs.Multibase

theorem mul_or_add {x y k : Nat} (h : y < 2 ^ k) : x * 2 ^ k ||| y = x * 2 ^ k + y := by
  rw [← Nat.shiftLeft_eq, shift_or_add h, Nat.shiftLeft_eq]

theorem or_toNat (a b : UInt8) (x k : Nat) (ha : a.toNat = x * 2 ^ k) (hb : b.toNat < 2 ^ k) :
    (a ||| b).toNat = x * 2 ^ k + b.toNat := by
  rw [UInt8.toNat_or, ha, mul_or_add hb]

macro "byte_cases" : tactic => `(tactic| (apply forall_u8; decide +kernel))

theorem shr1 : ∀ b : UInt8, (b >>> (1 : UInt8)).toNat = b.toNat / 2 := by byte_cases
theorem shr2 : ∀ b : UInt8, (b >>> (2 : UInt8)).toNat = b.toNat / 4 := by byte_cases
theorem shr3 : ∀ b : UInt8, (b >>> (3 : UInt8)).toNat = b.toNat / 8 := by byte_cases
theorem shr4 : ∀ b : UInt8, (b >>> (4 : UInt8)).toNat = b.toNat / 16 := by byte_cases
theorem shr5 : ∀ b : UInt8, (b >>> (5 : UInt8)).toNat = b.toNat / 32 := by byte_cases
theorem shr6 : ∀ b : UInt8, (b >>> (6 : UInt8)).toNat = b.toNat / 64 := by byte_cases
theorem shr7 : ∀ b : UInt8, (b >>> (7 : UInt8)).toNat = b.toNat / 128 := by byte_cases
theorem lowf : ∀ b : UInt8, (b &&& (0xf : UInt8)).toNat = b.toNat % 16 := by byte_cases
theorem low1f : ∀ b : UInt8, (b &&& (0x1f : UInt8)).toNat = b.toNat % 32 := by byte_cases
theorem low3f : ∀ b : UInt8, (b &&& (0x3f : UInt8)).toNat = b.toNat % 64 := by byte_cases
theorem m64a : ∀ b : UInt8, ((b <<< (4 : UInt8)) &&& (0x30 : UInt8)).toNat = b.toNat % 4 * 2 ^ 4 := by byte_cases
theorem m64b : ∀ b : UInt8, ((b <<< (2 : UInt8)) &&& (0x3c : UInt8)).toNat = b.toNat % 16 * 2 ^ 2 := by byte_cases
theorem m32a : ∀ b : UInt8, ((b <<< (2 : UInt8)) &&& (0x1f : UInt8)).toNat = b.toNat % 8 * 2 ^ 2 := by byte_cases
theorem m32b : ∀ b : UInt8, ((b >>> (1 : UInt8)) &&& (0x1f : UInt8)).toNat = b.toNat / 2 % 32 := by byte_cases
theorem m32c : ∀ b : UInt8, ((b <<< (4 : UInt8)) &&& (0x1f : UInt8)).toNat = b.toNat % 2 * 2 ^ 4 := by byte_cases
theorem m32d : ∀ b : UInt8, ((b <<< (1 : UInt8)) &&& (0x1f : UInt8)).toNat = b.toNat % 16 * 2 ^ 1 := by byte_cases
theorem m32e : ∀ b : UInt8, ((b >>> (2 : UInt8)) &&& (0x1f : UInt8)).toNat = b.toNat / 4 % 32 := by byte_cases
theorem m32f : ∀ b : UInt8, ((b <<< (3 : UInt8)) &&& (0x1f : UInt8)).toNat = b.toNat % 4 * 2 ^ 3 := by byte_cases

theorem d64_1 (a b : UInt8) :
    (((a <<< (4 : UInt8)) &&& (0x30 : UInt8)) ||| (b >>> (4 : UInt8))).toNat = a.toNat % 4 * 16 + b.toNat / 16 := by
  have := u8_lt b
  rw [or_toNat _ _ _ 4 (m64a a) (by rw [shr4]; omega), shr4]; omega
theorem d64_2 (a b : UInt8) :
    (((a <<< (2 : UInt8)) &&& (0x3c : UInt8)) ||| (b >>> (6 : UInt8))).toNat = a.toNat % 16 * 4 + b.toNat / 64 := by
  have := u8_lt b
  rw [or_toNat _ _ _ 2 (m64b a) (by rw [shr6]; omega), shr6]; omega
theorem d32_1 (a b : UInt8) :
    (((a <<< (2 : UInt8)) &&& (0x1f : UInt8)) ||| (b >>> (6 : UInt8))).toNat = a.toNat % 8 * 4 + b.toNat / 64 := by
  have := u8_lt b
  rw [or_toNat _ _ _ 2 (m32a a) (by rw [shr6]; omega), shr6]; omega
theorem d32_3 (a b : UInt8) :
    (((a <<< (4 : UInt8)) &&& (0x1f : UInt8)) ||| (b >>> (4 : UInt8))).toNat = a.toNat % 2 * 16 + b.toNat / 16 := by
  have := u8_lt b
  rw [or_toNat _ _ _ 4 (m32c a) (by rw [shr4]; omega), shr4]; omega
theorem d32_4 (a b : UInt8) :
    (((a <<< (1 : UInt8)) &&& (0x1f : UInt8)) ||| (b >>> (7 : UInt8))).toNat = a.toNat % 16 * 2 + b.toNat / 128 := by
  have := u8_lt b
  rw [or_toNat _ _ _ 1 (m32d a) (by rw [shr7]; omega), shr7]; omega
theorem d32_6 (a b : UInt8) :
    (((a <<< (3 : UInt8)) &&& (0x1f : UInt8)) ||| (b >>> (5 : UInt8))).toNat = a.toNat % 4 * 8 + b.toNat / 32 := by
  have := u8_lt b
  rw [or_toNat _ _ _ 3 (m32f a) (by rw [shr5]; omega), shr5]; omega

/-- A digit that completes a byte. -/
theorem emit4 (out : Bytes) (a : UInt8) (acc sh r : Nat) (d : UInt8) (hs : sh = r + 4) (hr : r < 4)
    (hd : d.toNat < 16) (hv : acc * 16 + d.toNat = a.toNat * 2 ^ r + (acc * 16 + d.toNat) % 2 ^ r) :
    pushDigit 4 (mk out acc sh) d = mk (out ++ [a]) ((acc * 16 + d.toNat) % 2 ^ r) r := by
  have ha := u8_lt a
  have hp : 0 < 2 ^ r := by positivity
  have hdiv : (acc * 16 + d.toNat) / 2 ^ r = a.toNat := by
    rw [hv, Nat.mul_comm]; exact (Nat.mul_add_div hp _ _).trans (by rw [Nat.div_eq_of_lt (Nat.mod_lt _ hp)]; rfl)
  have hacc : acc < 2 ^ sh := by
    have := Nat.mod_lt (acc * 16 + d.toNat) hp
    have h2 : a.toNat * 2 ^ r + 2 ^ r ≤ 256 * 2 ^ r := by
      rw [← Nat.succ_mul]; exact Nat.mul_le_mul_right _ ha
    rw [hs, Nat.pow_add]; omega
  rw [digit4 out d (by omega) hacc hd]
  have : ¬ (r + 4 + 4 < 8) := by omega
  have e : r + 4 + 4 - 8 = r := by omega
  subst hs
  simp only [nstate, if_neg this, e, hdiv, mk, u8_ofNat_toNat]

theorem emit5 (out : Bytes) (a : UInt8) (acc sh r : Nat) (d : UInt8) (hs : sh = r + 3) (hr : r < 5)
    (hd : d.toNat < 32) (hv : acc * 32 + d.toNat = a.toNat * 2 ^ r + (acc * 32 + d.toNat) % 2 ^ r) :
    pushDigit 5 (mk out acc sh) d = mk (out ++ [a]) ((acc * 32 + d.toNat) % 2 ^ r) r := by
  have ha := u8_lt a
  have hp : 0 < 2 ^ r := by positivity
  have hdiv : (acc * 32 + d.toNat) / 2 ^ r = a.toNat := by
    rw [hv, Nat.mul_comm]; exact (Nat.mul_add_div hp _ _).trans (by rw [Nat.div_eq_of_lt (Nat.mod_lt _ hp)]; rfl)
  have hacc : acc < 2 ^ sh := by
    have := Nat.mod_lt (acc * 32 + d.toNat) hp
    have h2 : a.toNat * 2 ^ r + 2 ^ r ≤ 256 * 2 ^ r := by
      rw [← Nat.succ_mul]; exact Nat.mul_le_mul_right _ ha
    rw [hs, Nat.pow_add]; omega
  rw [digit5 out d (by omega) hacc hd]
  have : ¬ (r + 3 + 5 < 8) := by omega
  have e : r + 3 + 5 - 8 = r := by omega
  subst hs
  simp only [nstate, if_neg this, e, hdiv, mk, u8_ofNat_toNat]

theorem emit6 (out : Bytes) (a : UInt8) (acc sh r : Nat) (d : UInt8) (hs : sh = r + 2) (hr : r < 6)
    (hd : d.toNat < 64) (hv : acc * 64 + d.toNat = a.toNat * 2 ^ r + (acc * 64 + d.toNat) % 2 ^ r) :
    pushDigit 6 (mk out acc sh) d = mk (out ++ [a]) ((acc * 64 + d.toNat) % 2 ^ r) r := by
  have ha := u8_lt a
  have hp : 0 < 2 ^ r := by positivity
  have hdiv : (acc * 64 + d.toNat) / 2 ^ r = a.toNat := by
    rw [hv, Nat.mul_comm]; exact (Nat.mul_add_div hp _ _).trans (by rw [Nat.div_eq_of_lt (Nat.mod_lt _ hp)]; rfl)
  have hacc : acc < 2 ^ sh := by
    have := Nat.mod_lt (acc * 64 + d.toNat) hp
    have h2 : a.toNat * 2 ^ r + 2 ^ r ≤ 256 * 2 ^ r := by
      rw [← Nat.succ_mul]; exact Nat.mul_le_mul_right _ ha
    rw [hs, Nat.pow_add]; omega
  rw [digit6 out d (by omega) hacc hd]
  have : ¬ (r + 2 + 6 < 8) := by omega
  have e : r + 2 + 6 - 8 = r := by omega
  subst hs
  simp only [nstate, if_neg this, e, hdiv, mk, u8_ofNat_toNat]

/-- A digit that does not complete a byte. -/
theorem hold4 (out : Bytes) (d : UInt8) (hd : d.toNat < 16) : pushDigit 4 (mk out 0 0) d = mk out d.toNat 4 := by
  rw [digit4 out d (by omega) (by decide) hd]; simp [nstate, mk]
theorem hold5 (out : Bytes) (acc sh : Nat) (d : UInt8) (hs : sh < 3) (ha : acc < 2 ^ sh) (hd : d.toNat < 32) :
    pushDigit 5 (mk out acc sh) d = mk out (acc * 32 + d.toNat) (sh + 5) := by
  rw [digit5 out d (by omega) ha hd]
  have : sh + 5 < 8 := by omega
  simp [nstate, mk, this]
theorem hold6 (out : Bytes) (d : UInt8) (hd : d.toNat < 64) : pushDigit 6 (mk out 0 0) d = mk out d.toNat 6 := by
  rw [digit6 out d (by omega) (by decide) hd]; simp [nstate, mk]

theorem group16 (out : Bytes) (a : UInt8) :
    [a >>> (4 : UInt8), a &&& (0xf : UInt8)].foldl (pushDigit 4) (mk out 0 0) = mk (out ++ [a]) 0 0 := by
  have ha := u8_lt a
  simp only [List.foldl_cons, List.foldl_nil]
  rw [hold4 _ _ (by rw [shr4]; omega), shr4, emit4 out a _ 4 0 _ rfl (by decide) (by rw [lowf]; omega) (by rw [lowf]; omega)]
  simp [Nat.mod_one]

theorem group64_3 (out : Bytes) (a b c : UInt8) :
    [a >>> (2 : UInt8), ((a <<< (4 : UInt8)) &&& (0x30 : UInt8)) ||| (b >>> (4 : UInt8)),
      ((b <<< (2 : UInt8)) &&& (0x3c : UInt8)) ||| (c >>> (6 : UInt8)), c &&& (0x3f : UInt8)].foldl (pushDigit 6) (mk out 0 0)
      = mk (out ++ [a, b, c]) 0 0 := by
  have ha := u8_lt a; have hb := u8_lt b; have hc := u8_lt c
  simp only [List.foldl_cons, List.foldl_nil]
  rw [hold6 _ _ (by rw [shr2]; omega), shr2,
    emit6 _ a _ 6 4 _ rfl (by decide) (by rw [d64_1]; omega) (by rw [d64_1]; omega), d64_1,
    emit6 _ b _ 4 2 _ rfl (by decide) (by rw [d64_2]; omega) (by rw [d64_2]; omega), d64_2,
    emit6 _ c _ 2 0 _ rfl (by decide) (by rw [low3f]; omega) (by rw [low3f]; omega)]
  simp [Nat.mod_one]

theorem group64_1 (out : Bytes) (a : UInt8) :
    ([a >>> (2 : UInt8), (a <<< (4 : UInt8)) &&& (0x30 : UInt8)].foldl (pushDigit 6) (mk out 0 0)).out
      = out ++ [a] := by
  have ha := u8_lt a
  simp only [List.foldl_cons, List.foldl_nil]
  rw [hold6 _ _ (by rw [shr2]; omega), shr2,
    emit6 _ a _ 6 4 _ rfl (by decide) (by rw [m64a]; omega) (by rw [m64a]; omega)]
  rfl

theorem group64_2 (out : Bytes) (a b : UInt8) :
    ([a >>> (2 : UInt8), ((a <<< (4 : UInt8)) &&& (0x30 : UInt8)) ||| (b >>> (4 : UInt8)),
      (b <<< (2 : UInt8)) &&& (0x3c : UInt8)].foldl (pushDigit 6) (mk out 0 0)).out
      = out ++ [a, b] := by
  have ha := u8_lt a; have hb := u8_lt b
  simp only [List.foldl_cons, List.foldl_nil]
  rw [hold6 _ _ (by rw [shr2]; omega), shr2,
    emit6 _ a _ 6 4 _ rfl (by decide) (by rw [d64_1]; omega) (by rw [d64_1]; omega), d64_1,
    emit6 _ b _ 4 2 _ rfl (by decide) (by rw [m64b]; omega) (by rw [m64b]; omega)]
  simp [mk]

/-- The states after 2, 4, 5, 7 and 8 digits of a base-32 group. -/
theorem group32_2 (out : Bytes) (a b c d e : UInt8) :
    ((group32 a b c d e).take 2).foldl (pushDigit 5) (mk out 0 0) = mk (out ++ [a]) (b.toNat / 64) 2 := by
  have ha := u8_lt a; have hb := u8_lt b
  simp only [group32, List.take, List.foldl_cons, List.foldl_nil]
  rw [hold5 _ _ _ _ (by decide) (by decide) (by rw [shr3]; omega), shr3,
    emit5 _ a _ _ 2 _ rfl (by decide) (by rw [d32_1]; omega) (by rw [d32_1]; omega), d32_1]
  congr 1; omega

theorem group32_4 (out : Bytes) (a b c d e : UInt8) :
    ((group32 a b c d e).take 4).foldl (pushDigit 5) (mk out 0 0) = mk (out ++ [a, b]) (c.toNat / 16) 4 := by
  have ha := u8_lt a; have hb := u8_lt b; have hc := u8_lt c
  have e1 : (group32 a b c d e).take 4 = (group32 a b c d e).take 2 ++
      [(b >>> (1 : UInt8)) &&& (0x1f : UInt8), ((b <<< (4 : UInt8)) &&& (0x1f : UInt8)) ||| (c >>> (4 : UInt8))] := rfl
  rw [e1, List.foldl_append, group32_2]
  simp only [List.foldl_cons, List.foldl_nil]
  rw [hold5 _ _ _ _ (by decide) (by omega) (by rw [m32b]; omega), m32b,
    emit5 _ b _ _ 4 _ rfl (by decide) (by rw [d32_3]; omega) (by rw [d32_3]; omega), d32_3]
  simp only [List.append_assoc, List.cons_append, List.nil_append]
  congr 1; omega

theorem group32_5 (out : Bytes) (a b c d e : UInt8) :
    ((group32 a b c d e).take 5).foldl (pushDigit 5) (mk out 0 0) = mk (out ++ [a, b, c]) (d.toNat / 128) 1 := by
  have hc := u8_lt c; have hd := u8_lt d
  have e1 : (group32 a b c d e).take 5 = (group32 a b c d e).take 4 ++
      [((c <<< (1 : UInt8)) &&& (0x1f : UInt8)) ||| (d >>> (7 : UInt8))] := rfl
  rw [e1, List.foldl_append, group32_4]
  simp only [List.foldl_cons, List.foldl_nil]
  rw [emit5 _ c _ _ 1 _ rfl (by decide) (by rw [d32_4]; omega) (by rw [d32_4]; omega), d32_4]
  simp only [List.append_assoc, List.cons_append, List.nil_append]
  congr 1; omega

theorem group32_7 (out : Bytes) (a b c d e : UInt8) :
    ((group32 a b c d e).take 7).foldl (pushDigit 5) (mk out 0 0) = mk (out ++ [a, b, c, d]) (e.toNat / 32) 3 := by
  have hd := u8_lt d; have he := u8_lt e
  have e1 : (group32 a b c d e).take 7 = (group32 a b c d e).take 5 ++
      [(d >>> (2 : UInt8)) &&& (0x1f : UInt8), ((d <<< (3 : UInt8)) &&& (0x1f : UInt8)) ||| (e >>> (5 : UInt8))] := rfl
  rw [e1, List.foldl_append, group32_5]
  simp only [List.foldl_cons, List.foldl_nil]
  rw [hold5 _ _ _ _ (by decide) (by omega) (by rw [m32e]; omega), m32e,
    emit5 _ d _ _ 3 _ rfl (by decide) (by rw [d32_6]; omega) (by rw [d32_6]; omega), d32_6]
  simp only [List.append_assoc, List.cons_append, List.nil_append]
  congr 1; omega

theorem group32_8 (out : Bytes) (a b c d e : UInt8) :
    ((group32 a b c d e).take 8).foldl (pushDigit 5) (mk out 0 0) = mk (out ++ [a, b, c, d, e]) 0 0 := by
  have he := u8_lt e
  have e1 : (group32 a b c d e).take 8 = (group32 a b c d e).take 7 ++ [e &&& (0x1f : UInt8)] := rfl
  rw [e1, List.foldl_append, group32_7]
  simp only [List.foldl_cons, List.foldl_nil]
  rw [emit5 _ e _ _ 0 _ rfl (by decide) (by rw [low1f]; omega) (by rw [low1f]; omega)]
  simp [Nat.mod_one]

theorem group32_lt (a b c d e : UInt8) (n : Nat) : ∀ x ∈ (group32 a b c d e).take n, x.toNat < 32 := by
  have ha := u8_lt a; have hb := u8_lt b; have hc := u8_lt c; have hd := u8_lt d; have he := u8_lt e
  intro x hx
  have := List.mem_of_mem_take hx
  simp only [group32, List.mem_cons, List.not_mem_nil, or_false] at this
  rcases this with h | h | h | h | h | h | h | h <;> subst h <;>
    simp only [shr3, d32_1, m32b, d32_3, d32_4, m32e, d32_6, low1f] <;> omega

end Ngfs.Multibase
