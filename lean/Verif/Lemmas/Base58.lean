import Verif.Lemmas.Multibase

/-! Base 58: positional value of the digits and bytes. No claims here. -/
namespace Ngfs.Multibase

/-- Little-endian value in base `B`. -/
def leVal (B : Nat) : Bytes → Nat
  | [] => 0
  | b :: bs => b.toNat + B * leVal B bs

theorem leVal_append (B : Nat) (xs ys : Bytes) : leVal B (xs ++ ys) = leVal B xs + B ^ xs.length * leVal B ys := by
  induction xs with
  | nil => simp [leVal]
  | cons x xs ih => simp only [List.cons_append, leVal, ih, List.length_cons, Nat.pow_succ', Nat.mul_add, Nat.mul_assoc, Nat.add_assoc]

theorem beVal_reverse (bs : Bytes) : beVal bs = leVal 256 bs.reverse := by
  induction bs with
  | nil => rfl
  | cons b bs ih =>
    simp only [beVal, List.reverse_cons, leVal_append, leVal, ih, List.length_reverse, Nat.mul_zero, Nat.add_zero]
    rw [Nat.mul_comm (256 ^ bs.length), Nat.add_comm]

theorem leVal_lt (B : Nat) (hB : 0 < B) (xs : Bytes) (h : ∀ x ∈ xs, x.toNat < B) : leVal B xs < B ^ xs.length := by
  induction xs with
  | nil => simp [leVal]
  | cons x xs ih =>
    have h1 := ih (fun y hy => h y (by simp [hy]))
    have h2 := h x (by simp)
    have h3 : B * (leVal B xs + 1) ≤ B * B ^ xs.length := Nat.mul_le_mul_left _ h1
    simp only [leVal, List.length_cons, Nat.pow_succ']
    rw [Nat.mul_add, Nat.mul_one] at h3
    omega

/-- No superfluous most significant zero (the last element of a little-endian list is not zero). -/
def Canon (xs : Bytes) : Prop := ∀ x, xs.getLast? = some x → x ≠ 0

theorem canon_tail {x : UInt8} {xs : Bytes} (h : Canon (x :: xs)) : Canon xs := by
  intro y hy
  cases xs with
  | nil => simp at hy
  | cons z zs => exact h y (by simpa [List.getLast?_cons_cons] using hy)

theorem canon_pos {xs : Bytes} (B : Nat) (hB : 0 < B) (h : Canon xs) (hne : xs ≠ []) : 0 < leVal B xs := by
  induction xs with
  | nil => exact absurd rfl hne
  | cons x xs ih =>
    cases xs with
    | nil =>
      have := h x rfl
      simp only [leVal]
      rcases Nat.eq_zero_or_pos x.toNat with h0 | h0
      · exact absurd (u8_ext (by simpa using h0)) this
      · omega
    | cons z zs =>
      have := ih (canon_tail h) (by simp)
      have h3 : 0 < B * leVal B (z :: zs) := Nat.mul_pos hB this
      simp only [leVal] at h3 ⊢
      omega

/-- Two canonical digit strings with the same value are equal. -/
theorem leVal_inj (B : Nat) (hB : 1 < B) {xs ys : Bytes} (hx : ∀ x ∈ xs, x.toNat < B) (hy : ∀ y ∈ ys, y.toNat < B)
    (cx : Canon xs) (cy : Canon ys) (h : leVal B xs = leVal B ys) : xs = ys := by
  induction xs generalizing ys with
  | nil =>
    cases ys with
    | nil => rfl
    | cons y ys => have := canon_pos B (by omega) cy (by simp); simp only [leVal] at h this; omega
  | cons x xs ih =>
    cases ys with
    | nil => have := canon_pos B (by omega) cx (by simp); simp only [leVal] at h this; omega
    | cons y ys =>
      simp only [leVal] at h
      have h1 := hx x (by simp)
      have h2 := hy y (by simp)
      have hm : x.toNat = y.toNat := by
        have := congrArg (· % B) h
        simpa [Nat.add_mul_mod_self_left, Nat.mod_eq_of_lt h1, Nat.mod_eq_of_lt h2] using this
      have hd : leVal B xs = leVal B ys := by
        have : B * leVal B xs = B * leVal B ys := by omega
        exact Nat.eq_of_mul_eq_mul_left (by omega) this
      rw [u8_ext hm, ih (fun a ha => hx a (by simp [ha])) (fun a ha => hy a (by simp [ha])) (canon_tail cx) (canon_tail cy) hd]

theorem all256 (xs : Bytes) : ∀ x ∈ xs, x.toNat < 256 := fun x _ => u8_lt x

/-! #### Encoder -/

theorem beVal_zero_iff (bs : Bytes) : beVal bs = 0 ↔ leadingZeros bs = bs.length := by
  constructor
  · intro h
    by_contra hc
    have := beVal_pos_of_leadingZeros hc
    omega
  · intro h
    induction bs with
    | nil => rfl
    | cons b bs ih =>
      by_cases hb : b = 0
      · subst hb
        simp only [leadingZeros, List.takeWhile_cons, beq_self_eq_true, if_true, List.length_cons] at h
        simp only [beVal]
        rw [ih (by simpa [leadingZeros] using h)]
        simp
      · simp [leadingZeros, hb] at h

theorem encodeBase58Loop_spec (bytes digits : Bytes) :
    ∃ ds, encodeBase58Loop bytes digits = digits ++ ds ∧ leVal 58 ds = beVal bytes ∧ (∀ d ∈ ds, d.toNat < 58) ∧
      Canon ds := by
  induction bytes, digits using encodeBase58Loop.induct with
  | case1 bytes digits h =>
    refine ⟨[], by rw [encodeBase58Loop, if_pos h]; simp, ?_, by simp, by simp [Canon]⟩
    rw [(beVal_zero_iff bytes).mpr h]; rfl
  | case2 bytes digits h r ih =>
    obtain ⟨ds, h1, h2, h3, h4⟩ := ih
    have hv := divPass_value 0 bytes (by decide)
    have hr : (UInt8.ofNat r.2).toNat = r.2 := toNat_ofNat_lt (by have := hv.2; simp only [r]; omega)
    refine ⟨UInt8.ofNat r.2 :: ds, ?_, ?_, ?_, ?_⟩
    · rw [encodeBase58Loop, if_neg h]
      simp only [r] at h1 ⊢
      rw [h1]; simp
    · simp only [leVal, h2, hr]
      have := hv.1
      simp only [r]; omega
    · intro d hd
      rcases List.mem_cons.mp hd with rfl | hd
      · rw [hr]; exact hv.2
      · exact h3 d hd
    · intro x hx
      cases ds with
      | nil =>
        simp at hx; subst hx
        have hpos := beVal_pos_of_leadingZeros h
        have h0 : beVal r.1 = 0 := by rw [← h2]; rfl
        intro hc
        have : r.2 = 0 := by rw [← hr, hc]; rfl
        have := hv.1
        simp only [r] at *
        omega
      | cons z zs => exact h4 x (by simpa [List.getLast?_cons_cons] using hx)

/-! #### Decoder -/

theorem mulAdd_spec (c : Nat) (bs : Bytes) (hc : c < 58) :
    leVal 256 (mulAdd c bs).1 + 256 ^ bs.length * (mulAdd c bs).2 = c + 58 * leVal 256 bs ∧
      (mulAdd c bs).1.length = bs.length ∧ (mulAdd c bs).2 < 58 := by
  induction bs generalizing c with
  | nil => simp [mulAdd, leVal, hc]
  | cons b bs ih =>
    have hb := u8_lt b
    have ih := ih ((c + b.toNat * 58) >>> 8) (by rw [Nat.shiftRight_eq_div_pow]; omega)
    simp only [mulAdd, leVal, List.length_cons]
    refine ⟨?_, by rw [ih.2.1], ih.2.2⟩
    have h1 := ih.1
    rw [Nat.shiftRight_eq_div_pow] at h1 ⊢
    rw [and_ff, toNat_ofNat_lt (Nat.mod_lt _ (by decide)), show 256 ^ (bs.length + 1) = 256 * 256 ^ bs.length from Nat.pow_succ']
    generalize leVal 256 (mulAdd ((c + b.toNat * 58) / 2 ^ 8) bs).1 = A at *
    generalize (mulAdd ((c + b.toNat * 58) / 2 ^ 8) bs).2 = r at *
    have h2 : 256 * (A + 256 ^ bs.length * r) = 256 * ((c + b.toNat * 58) / 2 ^ 8 + 58 * leVal 256 bs) := by rw [h1]
    rw [Nat.mul_add, ← Nat.mul_assoc] at h2
    generalize 256 * 256 ^ bs.length * r = X at *
    omega

theorem pushCarry_spec (c : Nat) : leVal 256 (pushCarry c) = c ∧ Canon (pushCarry c) ∧ (0 < c → pushCarry c ≠ []) := by
  induction c using pushCarry.induct with
  | case1 c h ih =>
    rw [pushCarry, if_pos h]
    refine ⟨?_, ?_, by simp⟩
    · rw [leVal, ih.1, and_ff, toNat_ofNat_lt (Nat.mod_lt _ (show 256 > 0 by decide)), Nat.shiftRight_eq_div_pow]
      omega
    · intro x hx
      by_cases h0 : 0 < c >>> 8
      · have hne := ih.2.2 h0
        apply ih.2.1 x
        cases hp : pushCarry (c >>> 8) with
        | nil => exact absurd hp hne
        | cons z zs => rw [hp] at hx; simpa [List.getLast?_cons_cons] using hx
      · have : pushCarry (c >>> 8) = [] := by rw [pushCarry, if_neg h0]
        rw [this] at hx; simp only [List.getLast?_singleton, Option.some.injEq] at hx; subst hx
        rw [Nat.shiftRight_eq_div_pow] at h0
        intro hc
        have := congrArg UInt8.toNat hc
        rw [and_ff, toNat_ofNat_lt (Nat.mod_lt _ (by decide))] at this
        simp at this; omega
  | case2 c h =>
    rw [pushCarry, if_neg h]
    exact ⟨by simp [leVal]; omega, by simp [Canon], fun h' => absurd h' h⟩

/-- One step of the decoder: multiply by 58 and add the digit. -/
theorem step58 (decoded : Bytes) (d : Nat) (hd : d < 58) (hc : Canon decoded) :
    leVal 256 ((mulAdd d decoded).1 ++ pushCarry (mulAdd d decoded).2) = d + 58 * leVal 256 decoded ∧
    Canon ((mulAdd d decoded).1 ++ pushCarry (mulAdd d decoded).2) := by
  obtain ⟨h1, h2, h3⟩ := mulAdd_spec d decoded hd
  obtain ⟨p1, p2, p3⟩ := pushCarry_spec (mulAdd d decoded).2
  have hv : leVal 256 ((mulAdd d decoded).1 ++ pushCarry (mulAdd d decoded).2) = d + 58 * leVal 256 decoded := by
    rw [leVal_append, p1, h2, h1]
  refine ⟨hv, ?_⟩
  by_cases h0 : 0 < (mulAdd d decoded).2
  · intro x hx
    have hne := p3 h0
    rw [List.getLast?_append] at hx
    cases hl : (pushCarry (mulAdd d decoded).2).getLast? with
    | none => simp at hl; exact absurd hl hne
    | some y => rw [hl] at hx; simp at hx; subst hx; exact p2 _ hl
  · have hp : pushCarry (mulAdd d decoded).2 = [] := by rw [pushCarry, if_neg h0]
    rw [hp] at hv ⊢
    simp only [List.append_nil] at hv ⊢
    -- the result has the same length as before, so its top byte is at least the old top byte
    intro x hx
    cases hdec : decoded with
    | nil => rw [hdec] at hx; simp [mulAdd] at hx
    | cons b bs =>
      have hlen : 0 < decoded.length := by rw [hdec]; simp
      -- lower bound of the old value
      have low : 256 ^ (decoded.length - 1) ≤ leVal 256 decoded := by
        obtain ⟨init, t, ht⟩ : ∃ init t, decoded = init ++ [t] :=
          ⟨decoded.dropLast, decoded.getLast (by rw [hdec]; simp), (List.dropLast_append_getLast _).symm⟩
        have hte : t ≠ 0 := hc t (by rw [ht]; simp)
        have htp : 0 < t.toNat := by
          rcases Nat.eq_zero_or_pos t.toNat with h | h
          · exact absurd (u8_ext (by simpa using h)) hte
          · exact h
        rw [ht, leVal_append]
        simp only [List.length_append, List.length_singleton, Nat.add_sub_cancel, leVal, Nat.mul_zero, Nat.add_zero]
        have := Nat.mul_le_mul_left (256 ^ init.length) htp
        omega
      -- upper bound of the new value if its top byte were zero
      intro hx0
      obtain ⟨init, t, ht⟩ : ∃ init t, (mulAdd d decoded).1 = init ++ [t] := by
        have hne : (mulAdd d decoded).1 ≠ [] := by
          intro hc0; rw [hc0] at h2; simp at h2; omega
        exact ⟨_, _, (List.dropLast_append_getLast hne).symm⟩
      rw [ht] at hx hv h2
      simp at hx; subst hx
      rw [hx0, leVal_append] at hv
      simp only [leVal] at hv
      simp at h2
      have := leVal_lt 256 (by decide) init (all256 init)
      have he : init.length = decoded.length - 1 := by omega
      rw [he] at this
      have hz : (0 : UInt8).toNat = 0 := rfl
      rw [hz] at hv
      omega

theorem decodeBase58Loop_spec {a inv} (ht : TableOK a inv 58) (ds : Bytes) (hds : ∀ d ∈ ds, d.toNat < 58)
    (off : Nat) (decoded : Bytes) (hc : Canon decoded) :
    ∃ r, decodeBase58Loop inv off (asBytes (ds.map (pick a))) decoded = .ok r ∧ Canon r ∧
      leVal 256 r = leVal 58 ds.reverse + 58 ^ ds.length * leVal 256 decoded := by
  induction ds generalizing off decoded with
  | nil => exact ⟨decoded, rfl, hc, by simp [leVal]⟩
  | cons d ds ih =>
    obtain ⟨b, hb, hl, _⟩ := ht.byte d (hds d (by simp))
    have hd := hds d (by simp)
    have e : asBytes ((d :: ds).map (pick a)) = b :: asBytes (ds.map (pick a)) := by simp [asBytes, hb]
    obtain ⟨s1, s2⟩ := step58 decoded d.toNat hd hc
    obtain ⟨r, h1, h2, h3⟩ := ih (fun x hx => hds x (by simp [hx])) (off + 1) _ s2
    refine ⟨r, ?_, h2, ?_⟩
    · rw [e, decodeBase58Loop, hl]; exact h1
    · rw [h3, s1]
      simp only [List.reverse_cons, leVal_append, leVal, List.length_reverse, List.length_cons, Nat.pow_succ,
        Nat.mul_add, Nat.mul_zero, Nat.add_zero, Nat.mul_assoc, Nat.add_assoc]

end Ngfs.Multibase
