import Verif.Model.Quic
import Verif.Lemmas.Basic
import Verif.Lemmas.Binary
import Verif.Spec.Quic

/-! Helper lemmas about the QUIC model. No claims here. -/
namespace Ngfs.Quic
open Binary Spec Spec.Quic

theorem u8_xor_and_and (b m k t : UInt8) (h : k &&& t = 0) : (b ^^^ (m &&& k)) &&& t = b &&& t := by
  have h' : ∀ i, (k.toNat.testBit i && t.toNat.testBit i) = false := by
    intro i
    rw [← Nat.testBit_and, ← UInt8.toNat_and, h]; simp
  apply UInt8.toNat_inj.mp
  simp only [UInt8.toNat_and, UInt8.toNat_xor]
  apply Nat.eq_of_testBit_eq
  intro i
  have := h' i
  simp only [Nat.testBit_and, Nat.testBit_xor]
  revert this
  cases b.toNat.testBit i <;> cases m.toNat.testBit i <;> cases k.toNat.testBit i <;> cases t.toNat.testBit i <;> decide

theorem u8_xor_cancel (a b : UInt8) : a ^^^ b ^^^ b = a := by
  rw [UInt8.xor_assoc, UInt8.xor_self, UInt8.xor_zero]

theorem maskFirst_top (mask : Bytes) (b : UInt8) : maskFirst mask b &&& 0x80 = b &&& 0x80 := by
  unfold maskFirst
  split <;> apply u8_xor_and_and <;> decide

theorem maskFirst_twice (mask : Bytes) (b : UInt8) : maskFirst mask (maskFirst mask b) = b := by
  have h := maskFirst_top mask b
  rw [maskFirst, h]
  unfold maskFirst
  split <;> exact u8_xor_cancel _ _

theorem pnLength_le (b : UInt8) : 1 ≤ pnLength b ∧ pnLength b ≤ 4 := by
  revert b; apply forall_u8; decide +kernel

theorem maskLoop_length (mask : Bytes) (off n : Nat) (p : Bytes) : (maskLoop mask off n p).length = p.length := by
  induction n with
  | zero => rfl
  | succ n ih => simp [maskLoop, ih]

theorem maskLoop_get (mask : Bytes) (off n : Nat) (p : Bytes) (j : Nat) :
    (maskLoop mask off n p)[j]? =
      p[j]?.map (fun b => b ^^^ (if off ≤ j ∧ j < off + n then mask.getD (j - off + 1) 0 else 0)) := by
  induction n with
  | zero =>
    have : ¬ (off ≤ j ∧ j < off + 0) := by omega
    simp only [maskLoop, if_neg this, UInt8.xor_zero]
    simp
  | succ n ih =>
    rw [maskLoop, List.getElem?_modify, ih]
    by_cases h : off + n = j
    · subst h
      have h1 : ¬ (off ≤ off + n ∧ off + n < off + n) := by omega
      have h2 : off ≤ off + n ∧ off + n < off + (n + 1) := by omega
      have h3 : off + n - off + 1 = n + 1 := by omega
      simp only [h1, h2, h3, if_true, if_false]
      cases p[off + n]? <;> simp
    · simp only [h, if_false]
      by_cases h1 : off ≤ j ∧ j < off + n
      · have h2 : off ≤ j ∧ j < off + (n + 1) := by omega
        simp only [h1, h2]
        simp
      · have h2 : ¬ (off ≤ j ∧ j < off + (n + 1)) := by omega
        simp only [h1, h2]
        simp

theorem slice_congr {p q : Bytes} {a b : Nat} (h : ∀ j, a ≤ j → p[j]? = q[j]?) : slice p a b = slice q a b := by
  have : p.drop a = q.drop a := by
    apply List.ext_getElem?
    intro i
    rw [List.getElem?_drop, List.getElem?_drop]
    exact h _ (by omega)
  unfold slice
  rw [this]

/-- What protecting does once the sample is there. -/
def protectWith (mask : Bytes) (off : Nat) (p : Bytes) : Bytes :=
  match p with
  | [] => []
  | b0 :: rest => maskLoop mask off (pnLength b0) (maskFirst mask b0 :: rest)

/-- What unprotecting does once the sample is there. -/
def unprotectWith (mask : Bytes) (off : Nat) (p : Bytes) : Bytes :=
  match p with
  | [] => []
  | b0 :: rest => maskLoop mask off (pnLength (maskFirst mask b0)) (maskFirst mask b0 :: rest)

/-- The bytes the mask is computed from. -/
def sampleOf (off : Nat) (p : Bytes) : Bytes := slice p (off + 4) (off + 4 + 16)

theorem getSample_ok {p : Bytes} {off : Nat} (h : off + 20 ≤ p.length) : getSample p off = .ok (sampleOf off p) := by
  have : ¬ off + 4 + 16 > p.length := by omega
  simp only [getSample, this, if_false, sampleOf]

theorem getSample_err {p : Bytes} {off : Nat} (h : p.length < off + 20) : getSample p off = .error .text := by
  have : off + 4 + 16 > p.length := by omega
  simp only [getSample, this, if_true]

theorem add_ok (c : Crypto) (s : Secrets) {p : Bytes} {off : Nat} (h : off + 20 ≤ p.length) :
    addHeaderProtection c p off s = (.ok (), protectWith (c.aes s.hp (sampleOf off p)) off p) := by
  unfold addHeaderProtection
  rw [getSample_ok h]
  cases p with
  | nil => simp at h
  | cons b0 rest =>
    have := pnLength_le b0
    have h2 : ¬ off + pnLength b0 > (b0 :: rest).length := by omega
    simp only [List.length_cons] at h2 ⊢
    simp only [h2, if_false, protectWith]

theorem remove_ok (c : Crypto) (s : Secrets) {p : Bytes} {off : Nat} (h : off + 20 ≤ p.length) :
    removeHeaderProtection c p off s = (.ok (), unprotectWith (c.aes s.hp (sampleOf off p)) off p) := by
  unfold removeHeaderProtection
  rw [getSample_ok h]
  cases p with
  | nil => simp at h
  | cons b0 rest =>
    have := pnLength_le (maskFirst (c.aes s.hp (sampleOf off (b0 :: rest))) b0)
    have h2 : ¬ off + pnLength (maskFirst (c.aes s.hp (sampleOf off (b0 :: rest))) b0) > (b0 :: rest).length := by omega
    simp only [List.length_cons] at h2 ⊢
    simp only [h2, if_false, unprotectWith]

theorem add_err (c : Crypto) (s : Secrets) {p : Bytes} {off : Nat} (h : p.length < off + 20) :
    addHeaderProtection c p off s = (.error .text, p) := by
  unfold addHeaderProtection
  rw [getSample_err h]

theorem remove_err (c : Crypto) (s : Secrets) {p : Bytes} {off : Nat} (h : p.length < off + 20) :
    removeHeaderProtection c p off s = (.error .text, p) := by
  unfold removeHeaderProtection
  rw [getSample_err h]

theorem protect_length (mask : Bytes) (off : Nat) (p : Bytes) : (protectWith mask off p).length = p.length := by
  cases p <;> simp [protectWith, maskLoop_length]

theorem unprotect_length (mask : Bytes) (off : Nat) (p : Bytes) : (unprotectWith mask off p).length = p.length := by
  cases p <;> simp [unprotectWith, maskLoop_length]

theorem maskLoop_get_far {mask : Bytes} {off n : Nat} {p : Bytes} {j : Nat} (h : ¬ (off ≤ j ∧ j < off + n)) :
    (maskLoop mask off n p)[j]? = p[j]? := by
  rw [maskLoop_get, if_neg h]
  simp

theorem maskLoop_twice (mask : Bytes) (off n : Nat) (p : Bytes) : maskLoop mask off n (maskLoop mask off n p) = p := by
  apply List.ext_getElem?
  intro j
  rw [maskLoop_get, maskLoop_get]
  cases p[j]? <;> simp [u8_xor_cancel]

theorem maskLoop_cons {mask : Bytes} {off n : Nat} {b : UInt8} {p : Bytes} (h : 1 ≤ off) :
    maskLoop mask off n (b :: p) = b :: maskLoop mask (off - 1) n p := by
  apply List.ext_getElem?
  intro j
  cases j with
  | zero =>
    rw [maskLoop_get_far (by omega)]; simp
  | succ j =>
    rw [maskLoop_get, List.getElem?_cons_succ, List.getElem?_cons_succ, maskLoop_get]
    by_cases hj : off ≤ j + 1 ∧ j + 1 < off + n
    · have h1 : off - 1 ≤ j ∧ j < off - 1 + n := by omega
      have h2 : j + 1 - off = j - (off - 1) := by omega
      rw [if_pos hj, if_pos h1, h2]
    · have h1 : ¬ (off - 1 ≤ j ∧ j < off - 1 + n) := by omega
      rw [if_neg hj, if_neg h1]

theorem unprotect_protect (mask : Bytes) {off : Nat} (h : 1 ≤ off) (p : Bytes) :
    unprotectWith mask off (protectWith mask off p) = p := by
  cases p with
  | nil => rfl
  | cons b0 rest =>
    rw [protectWith, maskLoop_cons h, unprotectWith, maskFirst_twice, maskLoop_cons h, maskLoop_twice]

theorem protect_unprotect (mask : Bytes) {off : Nat} (h : 1 ≤ off) (p : Bytes) :
    protectWith mask off (unprotectWith mask off p) = p := by
  cases p with
  | nil => rfl
  | cons b0 rest =>
    rw [unprotectWith, maskLoop_cons h, protectWith, maskFirst_twice, maskLoop_cons h, maskLoop_twice]

theorem sample_protect (mask : Bytes) {off : Nat} (h : 1 ≤ off) (p : Bytes) :
    sampleOf off (protectWith mask off p) = sampleOf off p := by
  apply slice_congr
  intro j hj
  cases p with
  | nil => rfl
  | cons b0 rest =>
    have := pnLength_le b0
    rw [protectWith, maskLoop_get_far (by omega)]
    cases j with
    | zero => omega
    | succ j => rfl

theorem sample_unprotect (mask : Bytes) {off : Nat} (h : 1 ≤ off) (p : Bytes) :
    sampleOf off (unprotectWith mask off p) = sampleOf off p := by
  apply slice_congr
  intro j hj
  cases p with
  | nil => rfl
  | cons b0 rest =>
    have := pnLength_le (maskFirst mask b0)
    rw [unprotectWith, maskLoop_get_far (by omega)]
    cases j with
    | zero => omega
    | succ j => rfl

theorem maskLoop_append {mask : Bytes} {off n : Nat} {p q : Bytes} (h : off + n ≤ p.length) :
    maskLoop mask off n (p ++ q) = maskLoop mask off n p ++ q := by
  apply List.ext_getElem?
  intro j
  rw [maskLoop_get, List.getElem?_append, List.getElem?_append, maskLoop_length]
  by_cases hj : j < p.length
  · rw [if_pos hj, if_pos hj, maskLoop_get]
  · rw [if_neg hj, if_neg hj, if_neg (by omega)]
    simp

theorem unprotect_append {mask : Bytes} {off : Nat} {p q : Bytes} (h : off + 4 ≤ p.length) :
    unprotectWith mask off (p ++ q) = unprotectWith mask off p ++ q := by
  cases p with
  | nil => simp at h
  | cons b0 rest =>
    have := pnLength_le (maskFirst mask b0)
    simp only [unprotectWith, List.cons_append]
    rw [← List.cons_append, maskLoop_append]
    simp only [List.length_cons] at h ⊢
    omega

theorem sample_append {off : Nat} {p q : Bytes} (h : off + 20 ≤ p.length) : sampleOf off (p ++ q) = sampleOf off p := by
  unfold sampleOf slice
  rw [List.drop_append_of_le_length (by omega), List.take_append_of_le_length (by rw [List.length_drop]; omega)]

/-! ### Packet protection -/

theorem encrypt_inv {c : Crypto} {pn off len : Nat} {header payload packet : Bytes} {s : Secrets}
    (h : encryptPayload c pn header off payload len s = .ok packet) :
    ∃ sealed, c.encrypt s.key (makeNonce s pn) header payload = some sealed ∧ payload.length + 16 = len ∧
      sealed.length = len ∧ off + 20 ≤ (header ++ sealed).length ∧
      packet = protectWith (c.aes s.hp (sampleOf off (header ++ sealed))) off (header ++ sealed) := by
  unfold encryptPayload at h
  by_cases h1 : payload.length + tagLen = len
  · simp only [h1, if_true] at h
    rcases he : c.encrypt s.key (makeNonce s pn) header payload with _ | sealed
    · simp [he] at h
    · simp only [he] at h
      by_cases h2 : sealed.length = len
      · simp only [h2, if_true] at h
        by_cases h3 : off + 20 ≤ (header ++ sealed).length
        · rw [add_ok c s h3] at h
          exact ⟨sealed, rfl, h1, h2, h3, by simpa using h.symm⟩
        · rw [add_err c s (by omega)] at h
          simp at h
      · simp [h2] at h
  · simp [h1] at h

theorem encrypt_ok {c : Crypto} {pn off : Nat} {header payload sealed : Bytes} {s : Secrets}
    (he : c.encrypt s.key (makeNonce s pn) header payload = some sealed) (hl : sealed.length = payload.length + 16)
    (h : off + 20 ≤ (header ++ sealed).length) :
    encryptPayload c pn header off payload (payload.length + 16) s =
      .ok (protectWith (c.aes s.hp (sampleOf off (header ++ sealed))) off (header ++ sealed)) := by
  unfold encryptPayload
  simp only [tagLen, if_true, he, hl, add_ok c s h]

theorem u8_and_3 (b : UInt8) : (b &&& 3).toNat = b.toNat % 4 := by
  revert b; apply forall_u8; decide +kernel

theorem u8_long (b : UInt8) : (b &&& 0x80 == 0x80) = !decide (b.toNat < 128) := by
  revert b; apply forall_u8; decide +kernel

theorem pnLength_eq (b : UInt8) : pnLength b = b.toNat % 4 + 1 := by
  rw [pnLength]; exact congrArg (· + 1) (u8_and_3 b)

theorem slice_append_mid (a b d : Bytes) : slice (a ++ b ++ d) a.length (a.length + b.length) = b := by
  unfold slice
  rw [List.append_assoc, List.drop_left, Nat.add_sub_cancel_left, List.take_left]

theorem decrypt_encrypt {c : Crypto} (hc : Correct c) {s : Secrets} {front pnb payload packet : Bytes} {b0 : UInt8}
    (hf : front.head? = some b0) (hn : pnb.length = b0.toNat % 4 + 1)
    (h : encryptPayload c (bigEndian pnb) (front ++ pnb) front.length payload (payload.length + 16) s = .ok packet) (rest : Bytes) :
    decryptPayload c (packet ++ rest) front.length (pnb.length + payload.length + 16) s = .ok (bigEndian pnb, payload) := by
  obtain ⟨sealed, he, -, hl, h20, rfl⟩ := encrypt_inv h
  have hoff : 1 ≤ front.length := by cases front <;> simp at hf ⊢
  obtain ⟨hd, -⟩ := hc _ _ _ _ _ he
  have hlen : front.length + 20 ≤ (protectWith (c.aes s.hp (sampleOf front.length (front ++ pnb ++ sealed))) front.length
      (front ++ pnb ++ sealed)).length := by rw [protect_length]; exact h20
  unfold decryptPayload
  rw [remove_ok c s (by rw [List.length_append]; omega), sample_append hlen, sample_protect _ hoff,
    unprotect_append (by omega), unprotect_protect _ hoff]
  have hg : (front ++ pnb ++ sealed ++ rest).getD 0 0 = b0 := by
    cases front with
    | nil => simp at hf
    | cons x xs => simpa using hf
  simp only [hg, pnLength_eq, ← hn]
  have hle : front.length + pnb.length ≤ front.length + (pnb.length + payload.length + 16) ∧
      front.length + (pnb.length + payload.length + 16) ≤ (front ++ pnb ++ sealed ++ rest).length := by
    simp only [List.length_append]; omega
  rw [if_pos hle]
  have e1 : slice (front ++ pnb ++ sealed ++ rest) front.length (front.length + pnb.length) = pnb := by
    rw [List.append_assoc (front ++ pnb)]
    exact slice_append_mid _ _ _
  have e2 : (front ++ pnb ++ sealed ++ rest).take (front.length + pnb.length) = front ++ pnb := by
    rw [List.append_assoc (front ++ pnb), ← List.length_append, List.take_left]
  have e3 : slice (front ++ pnb ++ sealed ++ rest) (front.length + pnb.length)
      (front.length + (pnb.length + payload.length + 16)) = sealed := by
    have := slice_append_mid (front ++ pnb) sealed rest
    rw [List.length_append, hl] at this
    rw [show front.length + (pnb.length + payload.length + 16) = front.length + pnb.length + (payload.length + 16) by omega]
    exact this
  rw [e1, e2, e3, u64FromSlice, beNat_eq, hd]

/-- What is known of an accepted packet. -/
theorem decrypt_inv {c : Crypto} {p : Bytes} {off len : Nat} {s : Secrets} {pn : Nat} {payload : Bytes}
    (h : decryptPayload c p off len s = .ok (pn, payload)) :
    ∃ n, n = ((unprotectWith (c.aes s.hp (sampleOf off p)) off p).getD 0 0).toNat % 4 + 1 ∧ off + 20 ≤ p.length ∧ n ≤ len ∧
      off + len ≤ p.length ∧
      pn = bigEndian (slice (unprotectWith (c.aes s.hp (sampleOf off p)) off p) off (off + n)) ∧
      c.decrypt s.key (makeNonce s pn) ((unprotectWith (c.aes s.hp (sampleOf off p)) off p).take (off + n))
        (slice (unprotectWith (c.aes s.hp (sampleOf off p)) off p) (off + n) (off + len)) = some payload := by
  unfold decryptPayload at h
  by_cases h20 : off + 20 ≤ p.length
  · rw [remove_ok c s h20] at h
    simp only [pnLength_eq] at h
    split at h
    · rename_i hle
      rw [unprotect_length] at hle
      rw [u64FromSlice, beNat_eq] at h
      refine ⟨_, rfl, h20, by omega, by omega, ?_⟩
      split at h
      · simp at h
      · rename_i pl hd
        simp only [Except.ok.injEq, Prod.mk.injEq] at h
        rw [← h.1, ← h.2]
        exact ⟨rfl, hd⟩
    · simp at h
  · rw [remove_err c s (by omega)] at h
    simp at h

theorem nonce_isNonce (s : Secrets) (hiv : s.iv.length = 12) (pn : Nat) (hp : pn < 2 ^ 64) : IsNonce s.iv pn (makeNonce s pn) := by
  refine ⟨List.replicate 4 0 ++ beBytes 8 pn, by simp, ?_, ?_⟩
  · have : bigEndian (List.replicate 4 0 ++ beBytes 8 pn) = bigEndian (beBytes 8 pn) := by
      simp [List.replicate, bigEndian_cons]
    rw [this, bigEndian_beBytes]; omega
  · unfold makeNonce
    conv_rhs => rw [← List.take_append_drop 4 s.iv]
    rw [List.zipWith_append (by simp [hiv])]
    congr 1
    have h4 : (s.iv.take 4).length = 4 := by simp [hiv]
    revert h4
    generalize s.iv.take 4 = l
    intro h4
    match l, h4 with
    | [a, b, d, e], _ => simp [List.replicate]

theorem isNonce_inj {iv : Bytes} (hiv : iv.length = 12) {n m : Nat} {x : Bytes} (hn : IsNonce iv n x) (hm : IsNonce iv m x) :
    n = m := by
  obtain ⟨a, ha, rfl, rfl⟩ := hn
  obtain ⟨b, hb, rfl, h⟩ := hm
  congr 1
  apply List.ext_getElem?
  intro i
  have := congrArg (·[i]?) h
  simp only [List.getElem?_zipWith] at this
  by_cases hi : i < 12
  · rw [List.getElem?_eq_getElem (by omega), List.getElem?_eq_getElem (by omega), List.getElem?_eq_getElem (by omega)] at this
    simp only [Option.some.injEq] at this
    rw [List.getElem?_eq_getElem (by omega), List.getElem?_eq_getElem (by omega)]
    exact congrArg some ((UInt8.xor_right_inj _).mp this)
  · rw [List.getElem?_eq_none (by omega), List.getElem?_eq_none (by omega)]

end Ngfs.Quic
