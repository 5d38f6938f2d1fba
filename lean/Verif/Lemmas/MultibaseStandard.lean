import Verif.Lemmas.MultibaseDecode
import Mathlib.Tactic.Ring
import Mathlib.Data.Nat.Digits.Lemmas
import Mathlib.Tactic.NormNum

/-! Helper lemmas: the digits of each base as a number. No claims here. -/
namespace Ngfs.Multibase
open Spec

theorem number_acc (B : Nat) (ds : List Nat) (a : Nat) :
    ds.foldl (fun n d => n * B + d) a = a * B ^ ds.length + number B ds := by
  induction ds generalizing a with
  | nil => simp [number]
  | cons d ds ih =>
    simp only [number, List.foldl_cons, List.length_cons]
    rw [ih, ih (0 * B + d), Nat.pow_succ]
    ring

theorem number_append (B : Nat) (xs ys : List Nat) : number B (xs ++ ys) = number B xs * B ^ ys.length + number B ys := by
  rw [number, List.foldl_append, number_acc]
  rfl

theorem number_cons (B d : Nat) (ds : List Nat) : number B (d :: ds) = d * B ^ ds.length + number B ds := by
  have := number_append B [d] ds
  simpa [number] using this

/-- The numbers of bytes. -/
abbrev nums (bs : Bytes) : List Nat := bs.map (·.toNat)

theorem number_leVal (B : Nat) (bs : Bytes) : leVal B bs = number B (nums bs.reverse) := by
  induction bs with
  | nil => rfl
  | cons b bs ih =>
    rw [leVal, List.reverse_cons, nums, List.map_append, number_append, ← nums, ← ih]
    simp [number]
    ring

theorem number_beVal (bs : Bytes) : beVal bs = number 256 (nums bs) := by
  induction bs with
  | nil => rfl
  | cons b bs ih => rw [beVal, ih]; simp only [nums, List.map_cons, number_cons, List.length_map]

/-- What the encoders do, with digits as bytes. -/
def Rep (a : List Char) (pd : Bool) (k g : Nat) (data : Bytes) (text : List Char) : Prop :=
  ∃ (ds : Bytes) (zeros pads : Nat), (∀ d ∈ ds, d.toNat < 2 ^ k) ∧ zeros < k ∧ k * ds.length = 8 * data.length + zeros ∧
    number (2 ^ k) (nums ds) = number 256 (nums data) * 2 ^ zeros ∧ pads < g ∧ g ∣ ds.length + pads ∧
    text = ds.map (pick a) ++ if pd then List.replicate pads '=' else []

/-- A whole group in front. -/
theorem rep_group {a : List Char} {pd : Bool} {k g : Nat} {ds data : Bytes} {rest : Bytes} {text : List Char}
    (h1 : ∀ d ∈ ds, d.toNat < 2 ^ k) (h2 : k * ds.length = 8 * data.length)
    (h3 : number (2 ^ k) (nums ds) = number 256 (nums data)) (h4 : ds.length = g) (h : Rep a pd k g rest text) :
    Rep a pd k g (data ++ rest) (ds.map (pick a) ++ text) := by
  obtain ⟨es, zeros, pads, e1, e2, e3, e4, e5, e6, rfl⟩ := h
  refine ⟨ds ++ es, zeros, pads, ?_, e2, ?_, ?_, e5, ?_, by simp⟩
  · intro d hd
    rcases List.mem_append.mp hd with hd | hd
    · exact h1 d hd
    · exact e1 d hd
  · rw [List.length_append, List.length_append, Nat.mul_add, h2, e3]; ring
  · simp only [nums, List.map_append] at *
    rw [number_append, number_append, h3, e4, Nat.add_mul, Nat.mul_assoc]
    congr 2
    simp only [List.length_map]
    rw [← Nat.pow_mul, e3, Nat.pow_add, Nat.pow_mul]
  · rw [List.length_append, h4, Nat.add_assoc]
    exact Nat.dvd_add (Nat.dvd_refl _) e6

theorem rep_nil (a : List Char) (pd : Bool) (k g : Nat) (hk : 0 < k) (hg : 0 < g) : Rep a pd k g [] [] :=
  ⟨[], 0, 0, by simp, hk, by simp, by simp [number], hg, by simp, by simp⟩

theorem rep64 (a : List Char) (pd : Bool) (data : Bytes) : Rep a pd 6 4 data (encodeBase64 a pd data) := by
  induction data using encodeBase64.induct with
  | case1 => exact rep_nil a pd 6 4 (by decide) (by decide)
  | case2 a0 =>
    have h0 := u8_lt a0
    rw [encodeBase64]
    refine ⟨[a0 >>> (2 : UInt8), (a0 <<< (4 : UInt8)) &&& (0x30 : UInt8)], 4, 2, ?_, by decide, rfl, ?_, by decide, by simp, rfl⟩
    · simp only [List.mem_cons, List.not_mem_nil, or_false]
      rintro d (rfl | rfl) <;> simp only [shr2, m64a] <;> omega
    · simp [number, -UInt8.toNat_or, -UInt8.toNat_and, -UInt8.toNat_shiftLeft, -UInt8.toNat_shiftRight, shr2, m64a]; omega
  | case3 a0 a1 =>
    have h0 := u8_lt a0; have h1 := u8_lt a1
    rw [encodeBase64]
    refine ⟨_, 2, 1, ?_, by decide, by simp, ?_, by decide, by simp, rfl⟩
    · simp only [List.mem_cons, List.not_mem_nil, or_false]
      rintro d (rfl | rfl | rfl) <;> simp only [shr2, d64_1, m64b] <;> omega
    · simp [number, -UInt8.toNat_or, -UInt8.toNat_and, -UInt8.toNat_shiftLeft, -UInt8.toNat_shiftRight, shr2, d64_1, m64b]; omega
  | case4 a0 a1 a2 rest ih =>
    have h0 := u8_lt a0; have h1 := u8_lt a1; have h2 := u8_lt a2
    rw [encodeBase64]
    refine rep_group (data := [a0, a1, a2]) ?_ (by simp) ?_ (by simp) ih
    · simp only [List.mem_cons, List.not_mem_nil, or_false]
      rintro d (rfl | rfl | rfl | rfl) <;> simp only [shr2, d64_1, d64_2, low3f] <;> omega
    · simp [number, -UInt8.toNat_or, -UInt8.toNat_and, -UInt8.toNat_shiftLeft, -UInt8.toNat_shiftRight, shr2, d64_1, d64_2, low3f]; omega

theorem group32_nums (b0 b1 b2 b3 b4 : UInt8) : nums (group32 b0 b1 b2 b3 b4) =
    [b0.toNat / 8, b0.toNat % 8 * 4 + b1.toNat / 64, b1.toNat / 2 % 32, b1.toNat % 2 * 16 + b2.toNat / 16,
      b2.toNat % 16 * 2 + b3.toNat / 128, b3.toNat / 4 % 32, b3.toNat % 4 * 8 + b4.toNat / 32, b4.toNat % 32] := by
  simp only [nums, group32, List.map_cons, List.map_nil, shr3, d32_1, d32_3, d32_4, d32_6, low1f, shr1, shr2]

theorem rep32_part (a : List Char) (pd : Bool) (b0 b1 b2 b3 b4 : UInt8) (data : Bytes) (n zeros : Nat) (hz : zeros < 5) (hn : 0 < n)
    (hn8 : n ≤ 8) (hl : 5 * n = 8 * data.length + zeros)
    (h : number 32 ((nums (group32 b0 b1 b2 b3 b4)).take n) = number 256 (nums data) * 2 ^ zeros) :
    Rep a pd 5 8 data (emit32 a pd (group32 b0 b1 b2 b3 b4) n) := by
  refine ⟨(group32 b0 b1 b2 b3 b4).take n, zeros, 8 - n, group32_lt _ _ _ _ _ n, hz, ?_, ?_, by omega, ?_, rfl⟩
  · rw [List.length_take]
    simp only [group32, List.length_cons, List.length_nil]
    omega
  · rw [nums, List.map_take]; exact h
  · rw [List.length_take]
    simp only [group32, List.length_cons, List.length_nil]
    exact ⟨1, by omega⟩

theorem rep32 (a : List Char) (pd : Bool) (data : Bytes) : Rep a pd 5 8 data (encodeBase32 a pd data) := by
  induction data using encodeBase32.induct with
  | case1 => exact rep_nil a pd 5 8 (by decide) (by decide)
  | case2 b0 =>
    have h0 := u8_lt b0
    rw [encodeBase32]
    refine rep32_part a pd _ _ _ _ _ _ 2 2 (by decide) (by decide) (by decide) rfl ?_
    rw [group32_nums]; simp [number]; omega
  | case3 b0 b1 =>
    have h0 := u8_lt b0; have h1 := u8_lt b1
    rw [encodeBase32]
    refine rep32_part a pd _ _ _ _ _ _ 4 4 (by decide) (by decide) (by decide) rfl ?_
    rw [group32_nums]; simp [number]; omega
  | case4 b0 b1 b2 =>
    have h0 := u8_lt b0; have h1 := u8_lt b1; have h2 := u8_lt b2
    rw [encodeBase32]
    refine rep32_part a pd _ _ _ _ _ _ 5 1 (by decide) (by decide) (by decide) rfl ?_
    rw [group32_nums]; simp [number]; omega
  | case5 b0 b1 b2 b3 =>
    have h0 := u8_lt b0; have h1 := u8_lt b1; have h2 := u8_lt b2; have h3 := u8_lt b3
    rw [encodeBase32]
    refine rep32_part a pd _ _ _ _ _ _ 7 3 (by decide) (by decide) (by decide) rfl ?_
    rw [group32_nums]; simp [number]; omega
  | case6 b0 b1 b2 b3 b4 rest ih =>
    have h0 := u8_lt b0; have h1 := u8_lt b1; have h2 := u8_lt b2; have h3 := u8_lt b3; have h4 := u8_lt b4
    have e : emit32 a pd (group32 b0 b1 b2 b3 b4) 8 = (group32 b0 b1 b2 b3 b4).map (pick a) := by
      simp [emit32, group32]
    rw [encodeBase32, e]
    refine rep_group (data := [b0, b1, b2, b3, b4]) ?_ (by simp [group32]) ?_ (by simp [group32]) ih
    · intro d hd
      exact group32_lt b0 b1 b2 b3 b4 8 d (by simpa [group32] using hd)
    · rw [group32_nums]; simp [number]; omega

theorem rep16 (a : List Char) (data : Bytes) : Rep a false 4 2 data (encodeBase16 data a) := by
  induction data with
  | nil => exact rep_nil a false 4 2 (by decide) (by decide)
  | cons b bs ih =>
    have hb := u8_lt b
    refine rep_group (data := [b]) (ds := [b >>> (4 : UInt8), b &&& (0xf : UInt8)]) ?_ (by simp) ?_ (by simp) ih
    · simp only [List.mem_cons, List.not_mem_nil, or_false]
      rintro d (rfl | rfl) <;> simp only [shr4, lowf] <;> omega
    · simp [number, -UInt8.toNat_and, -UInt8.toNat_shiftRight, shr4, lowf]; omega

theorem written_pick {base : Base} {a : List Char} (h : (alphabet base).toList = a) (ds : Bytes) :
    written base (nums ds) = ds.map (pick a) := by
  simp only [written, nums, List.map_map, h]
  rfl

theorem rep_rfc {base : Base} {a : List Char} {k g : Nat} {data : Bytes} {text : List Char} (ha : (alphabet base).toList = a)
    (hg : Nat.lcm 8 k = k * g) (h : Rep a (padded base) k g data text) : Rfc4648 base k data text := by
  obtain ⟨ds, zeros, pads, h1, h2, h3, h4, h5, h6, rfl⟩ := h
  have hk : 0 < k := by omega
  refine ⟨nums ds, zeros, if padded base then pads else 0, ?_, h2, by simpa using h3, h4, ?_, ?_, ?_, ?_⟩
  · intro d hd
    obtain ⟨b, hb, rfl⟩ := List.mem_map.mp hd
    exact h1 b hb
  · rw [hg]
    split
    · exact Nat.mul_lt_mul_of_pos_left h5 hk
    · exact Nat.mul_pos hk (by omega)
  · intro hp
    rw [hg, if_pos hp]
    exact Nat.mul_dvd_mul_left k (by simpa using h6)
  · intro hp; simp [hp]
  · rw [written_pick ha]
    cases padded base <;> simp

theorem base58_text {base : Base} {a : List Char} (ha : (alphabet base).toList = a) (data : Bytes) :
    Base58Text base data (encodeBase58 data a) := by
  obtain ⟨ds, e1, e2, e3, e4⟩ := encodeBase58Loop_spec data []
  obtain ⟨rest, hr1, hr2⟩ := leadingZeros_split data
  refine ⟨leadingZeros data, rest, nums ds.reverse, hr1, ?_, ?_, ?_, ?_, ?_⟩
  · intro h; exact hr2 0 h rfl
  · intro d hd
    obtain ⟨b, hb, rfl⟩ := List.mem_map.mp hd
    exact e3 b (List.mem_reverse.mp hb)
  · intro h
    rw [nums, List.head?_map, List.head?_reverse] at h
    cases hl : ds.getLast? with
    | none => rw [hl] at h; cases h
    | some d =>
      rw [hl] at h
      simp only [Option.map_some, Option.some.injEq] at h
      exact e4 d hl (u8_ext h)
  · rw [← number_leVal, e2, number_beVal]
    conv_lhs => rw [hr1]
    rw [nums, List.map_append, number_append]
    have : ∀ z, number 256 ((List.replicate z (0 : UInt8)).map (·.toNat)) = 0 := by
      intro z
      induction z with
      | zero => rfl
      | succ z ih => rw [List.replicate_succ, List.map_cons, number_cons, ih]; simp
    rw [this]
    simp
  · have : nums (List.replicate (leadingZeros data) (0 : UInt8) ++ ds.reverse) =
        List.replicate (leadingZeros data) 0 ++ nums ds.reverse := by simp
    rw [← this, written_pick ha]
    simp only [encodeBase58, e1, List.nil_append, List.map_append, List.map_replicate]

/-! ### Uniqueness -/

theorem number_lt {B : Nat} {ds : List Nat} (h : ∀ d ∈ ds, d < B) : number B ds < B ^ ds.length := by
  induction ds with
  | nil => simp [number]
  | cons d ds ih =>
    rw [number_cons, List.length_cons, Nat.pow_succ]
    have h1 := h d List.mem_cons_self
    have h2 := ih fun x hx => h x (List.mem_cons_of_mem _ hx)
    calc d * B ^ ds.length + number B ds < d * B ^ ds.length + B ^ ds.length := by omega
      _ = (d + 1) * B ^ ds.length := by ring
      _ ≤ B * B ^ ds.length := Nat.mul_le_mul_right _ h1
      _ = _ := Nat.mul_comm _ _

theorem number_inj {B : Nat} {xs ys : List Nat} (hl : xs.length = ys.length) (hx : ∀ d ∈ xs, d < B) (hy : ∀ d ∈ ys, d < B)
    (h : number B xs = number B ys) : xs = ys := by
  induction xs generalizing ys with
  | nil => cases ys with
    | nil => rfl
    | cons y ys => simp at hl
  | cons x xs ih => cases ys with
    | nil => simp at hl
    | cons y ys =>
      simp only [List.length_cons, Nat.add_right_cancel_iff] at hl
      have a1 := number_lt (fun d hd => hx d (List.mem_cons_of_mem _ hd))
      have a2 := number_lt (fun d hd => hy d (List.mem_cons_of_mem _ hd))
      rw [number_cons, number_cons, hl] at h
      rw [hl] at a1
      have hp : 0 < B ^ ys.length := by omega
      have hd : x = y := by
        have e1 : (x * B ^ ys.length + number B xs) / B ^ ys.length = x := by
          rw [Nat.mul_comm, Nat.mul_add_div hp, Nat.div_eq_of_lt a1]; rfl
        have e2 : (y * B ^ ys.length + number B ys) / B ^ ys.length = y := by
          rw [Nat.mul_comm, Nat.mul_add_div hp, Nat.div_eq_of_lt a2]; rfl
        rw [← e1, h, e2]
      subst hd
      rw [ih hl (fun d hd => hx d (List.mem_cons_of_mem _ hd)) (fun d hd => hy d (List.mem_cons_of_mem _ hd)) (by omega)]

theorem rfc_unique {base : Base} {k : Nat} {data : Bytes} {s t : List Char} (hs : Rfc4648 base k data s)
    (ht : Rfc4648 base k data t) : s = t := by
  obtain ⟨ds, z, p, a1, a2, a3, a4, a5, a6, a7, rfl⟩ := hs
  obtain ⟨es, y, q, b1, b2, b3, b4, b5, b6, b7, rfl⟩ := ht
  have hl : ds.length = es.length := by
    rcases Nat.lt_trichotomy ds.length es.length with h | h | h
    · have : k * (ds.length + 1) ≤ k * es.length := Nat.mul_le_mul_left k h
      rw [Nat.mul_add, Nat.mul_one] at this
      omega
    · exact h
    · have : k * (es.length + 1) ≤ k * ds.length := Nat.mul_le_mul_left k h
      rw [Nat.mul_add, Nat.mul_one] at this
      omega
  have hz : z = y := by rw [hl] at a3; omega
  subst hz
  have hd := number_inj hl a1 b1 (a4.trans b4.symm)
  subst hd
  have hp : p = q := by
    cases hpd : padded base with
    | false => rw [a7 hpd, b7 hpd]
    | true =>
      have h1 := a6 hpd
      have h2 := b6 hpd
      rw [Nat.mul_add] at h1 h2
      have hk : 0 < k := by omega
      have : k * p = k * q := by
        rcases Nat.le_total (k * p) (k * q) with h | h
        · have h3 := Nat.dvd_sub h2 h1
          rw [Nat.add_sub_add_left] at h3
          have := Nat.eq_zero_of_dvd_of_lt h3 (by omega)
          omega
        · have h3 := Nat.dvd_sub h1 h2
          rw [Nat.add_sub_add_left] at h3
          have := Nat.eq_zero_of_dvd_of_lt h3 (by omega)
          omega
      exact Nat.eq_of_mul_eq_mul_left hk this
  rw [hp]

theorem number_ofDigits (B : Nat) (ds : List Nat) : number B ds = Nat.ofDigits B ds.reverse := by
  induction ds with
  | nil => rfl
  | cons d ds ih =>
    rw [number_cons, List.reverse_cons, Nat.ofDigits_append, ih, List.length_reverse, Nat.ofDigits_singleton]
    ring

theorem base58_unique {base : Base} {data : Bytes} {s t : List Char} (hs : Base58Text base data s)
    (ht : Base58Text base data t) : s = t := by
  obtain ⟨z, r, ds, a1, a2, a3, a4, a5, rfl⟩ := hs
  obtain ⟨y, q, es, b1, b2, b3, b4, b5, rfl⟩ := ht
  have hz : ∀ (z : Nat) (r : Bytes), r.head? ≠ some 0 → (List.replicate z (0 : UInt8) ++ r).takeWhile (· == 0) = List.replicate z 0 := by
    intro z r hr
    rw [List.takeWhile_append_of_pos (by intro x hx; rw [List.eq_of_mem_replicate hx]; rfl)]
    cases r with
    | nil => simp
    | cons b r =>
      have hb : (b == 0) = false := by
        rw [beq_eq_false_iff_ne]
        rintro rfl
        exact hr rfl
      simp [hb]
  have hzy : z = y := by
    have e1 := hz z r a2
    rw [← a1, b1, hz y q b2] at e1
    have := congrArg List.length e1
    simpa using this.symm
  subst hzy
  have hrq : r = q := List.append_cancel_left (a1.symm.trans b1)
  subst hrq
  have key : ∀ ds : List Nat, (∀ d ∈ ds, d < 58) → ds.head? ≠ some 0 → Nat.digits 58 (number 58 ds) = ds.reverse := by
    intro ds h1 h2
    rw [number_ofDigits]
    refine Nat.digits_ofDigits 58 (by decide) _ (fun d hd => h1 d (List.mem_reverse.mp hd)) ?_
    intro hne h0
    rw [List.getLast_reverse] at h0
    apply h2
    rw [List.head?_eq_some_head (by simpa using hne), h0]
  have := (key ds a3 a4).symm.trans ((congrArg _ (a5.trans b5.symm)).trans (key es b3 b4))
  rw [List.reverse_inj] at this
  rw [this]

end Ngfs.Multibase
