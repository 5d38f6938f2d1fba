import Verif.Lemmas.Quic

/-! Claims C44, C77, C83 and C84: QUIC packet protection and stream identifiers. -/
namespace Ngfs.Quic
open Binary Spec Spec.Quic

/-- A cipher for the examples: the tag is fixed, the mask depends on the sample. -/
def toyCrypto : Crypto where
  aes k b := List.zipWith (· + ·) (k ++ k) (b.map (· * 7 + 3))
  encrypt _ _ _ p := some (p ++ List.replicate 16 0x5a)
  decrypt _ _ _ ct :=
    if 16 ≤ ct.length ∧ ct.drop (ct.length - 16) = List.replicate 16 0x5a then some (ct.take (ct.length - 16)) else none

/-- The example cipher is a correct one. -/
theorem toy_correct : Correct toyCrypto := by
  intro k n a p ct h
  simp only [toyCrypto, Option.some.injEq] at h ⊢
  subst h
  simp

/-- The example cipher accepts only what it makes. -/
theorem toy_authentic : Authentic toyCrypto := by
  intro k n a p ct h
  simp only [toyCrypto] at h ⊢
  split at h
  · rename_i hc
    simp only [Option.some.injEq] at h
    rw [← h, ← hc.2, List.take_append_drop]
  · simp at h

/-- Secrets for the examples. -/
def toySecrets : Secrets := ⟨[1, 2, 3], [1, 2, 3, 4, 5, 6, 7, 8, 9, 10, 11, 12], [9, 8, 7, 6, 5, 4, 3, 2, 1]⟩

/-- C44: header protection is what RFC 9001 says, and it is applied exactly when the packet is long enough for the sample. -/
theorem C44_standard (c : Crypto) (s : Secrets) (p p' : Bytes) (off : Nat) (h : 1 ≤ off) :
    addHeaderProtection c p off s = (.ok (), p') ↔ off + 20 ≤ p.length ∧ Protected c.aes s.hp off p p' := by
  by_cases h20 : off + 20 ≤ p.length
  · rw [add_ok c s h20]
    have hs : (p.drop (off + 4)).take 16 = sampleOf off p := by
      rw [sampleOf, slice, Nat.add_sub_cancel_left]
    simp only [Prod.mk.injEq, true_and, h20, Protected, hs]
    generalize c.aes s.hp (sampleOf off p) = mask
    cases p with
    | nil => simp at h20
    | cons b0 rest =>
      have key : ∀ j, (protectWith mask off (b0 :: rest))[j]? =
          (b0 :: rest)[j]?.map (fun b => b ^^^ headerMask mask b0 off j) := by
        intro j
        rw [protectWith, maskLoop_get]
        cases j with
        | zero =>
          have hb : (b0 &&& 0x80 == 0x80) = !decide (b0.toNat < 128) := u8_long b0
          rw [if_neg (by omega)]
          simp only [List.getElem?_cons_zero, Option.map_some, headerMask, if_true, maskFirst, hb, UInt8.xor_zero]
          by_cases hlt : b0.toNat < 128 <;> simp [hlt]
        | succ j =>
          simp only [List.getElem?_cons_succ, headerMask, Nat.succ_ne_zero, if_false, pnLength_eq]
      constructor
      · rintro rfl
        exact ⟨b0, rfl, key⟩
      · rintro ⟨first, hf, hp⟩
        obtain rfl : b0 = first := by simpa using hf
        apply List.ext_getElem?
        intro j
        rw [key, hp]
  · rw [add_err c s (by omega)]
    simp [h20]

/-- C44: protecting a packet and unprotecting it restores it. -/
theorem C44_round_trip (c : Crypto) (s : Secrets) (p p' : Bytes) (off : Nat) (h : 1 ≤ off)
    (hp : addHeaderProtection c p off s = (.ok (), p')) : removeHeaderProtection c p' off s = (.ok (), p) := by
  by_cases h20 : off + 20 ≤ p.length
  · rw [add_ok c s h20] at hp
    obtain rfl : _ = p' := by simpa using hp
    rw [remove_ok c s (by rw [protect_length]; exact h20), sample_protect _ h, unprotect_protect _ h]
  · rw [add_err c s (by omega)] at hp
    simp at hp

/-- C44: unprotecting a packet and protecting it restores it, so no two packets are unprotected to the same packet. -/
theorem C44_inverse_round_trip (c : Crypto) (s : Secrets) (p p' : Bytes) (off : Nat) (h : 1 ≤ off)
    (hp : removeHeaderProtection c p off s = (.ok (), p')) : addHeaderProtection c p' off s = (.ok (), p) := by
  by_cases h20 : off + 20 ≤ p.length
  · rw [remove_ok c s h20] at hp
    obtain rfl : _ = p' := by simpa using hp
    rw [add_ok c s (by rw [unprotect_length]; exact h20), sample_unprotect _ h, protect_unprotect _ h]
  · rw [remove_err c s (by omega)] at hp
    simp at hp

/-- C44: unprotecting changes nothing but the low bits of the first byte and the bytes of the packet number, as many as the restored
first byte says. -/
theorem C44_nothing_else_changes (c : Crypto) (s : Secrets) (p p' : Bytes) (off : Nat) (h : 1 ≤ off)
    (hp : removeHeaderProtection c p off s = (.ok (), p')) :
    p'.length = p.length ∧
      ∃ b b', p[0]? = some b ∧ p'[0]? = some b' ∧ b.toNat / 32 = b'.toNat / 32 ∧
        (128 ≤ b.toNat → b.toNat / 16 = b'.toNat / 16) ∧
        ∀ j, 1 ≤ j → ¬ (off ≤ j ∧ j < off + (b'.toNat % 4 + 1)) → p'[j]? = p[j]? := by
  by_cases h20 : off + 20 ≤ p.length
  · rw [remove_ok c s h20] at hp
    obtain rfl : _ = p' := by simpa using hp
    refine ⟨unprotect_length _ _ _, ?_⟩
    generalize c.aes s.hp (sampleOf off p) = mask
    cases p with
    | nil => simp at h20
    | cons b0 rest =>
      have hdiv : ∀ k : UInt8, (b0 ^^^ (k &&& 0x1f)) &&& 0xe0 = b0 &&& 0xe0 := fun k => u8_xor_and_and _ _ _ _ (by decide)
      have hdiv' : ∀ k : UInt8, (b0 ^^^ (k &&& 0x0f)) &&& 0xf0 = b0 &&& 0xf0 := fun k => u8_xor_and_and _ _ _ _ (by decide)
      have d32 : ∀ b : UInt8, (b &&& 0xe0).toNat = b.toNat / 32 * 32 := by apply forall_u8; decide +kernel
      have d16 : ∀ b : UInt8, (b &&& 0xf0).toNat = b.toNat / 16 * 16 := by apply forall_u8; decide +kernel
      have hb : (b0 &&& 0x80 == 0x80) = !decide (b0.toNat < 128) := u8_long b0
      refine ⟨b0, maskFirst mask b0, rfl, ?_, ?_, ?_, ?_⟩
      · rw [unprotectWith, maskLoop_cons h]; rfl
      · by_cases hlt : b0.toNat < 128
        · have h1 := congrArg UInt8.toNat (hdiv (mask.getD 0 0))
          rw [d32, d32] at h1
          have : maskFirst mask b0 = b0 ^^^ (mask.getD 0 0 &&& 0x1f) := by simp [maskFirst, hb, hlt]
          rw [this]; omega
        · have h1 := congrArg UInt8.toNat (hdiv' (mask.getD 0 0))
          rw [d16, d16] at h1
          have : maskFirst mask b0 = b0 ^^^ (mask.getD 0 0 &&& 0x0f) := by simp [maskFirst, hb, hlt]
          rw [this]; omega
      · intro hge
        have hlt : ¬ b0.toNat < 128 := by omega
        have h1 := congrArg UInt8.toNat (hdiv' (mask.getD 0 0))
        rw [d16, d16] at h1
        have : maskFirst mask b0 = b0 ^^^ (mask.getD 0 0 &&& 0x0f) := by simp [maskFirst, hb, hlt]
        rw [this]; omega
      · intro j hj hn
        rw [unprotectWith, maskLoop_get_far (by rw [pnLength_eq]; exact hn)]
        cases j with
        | zero => omega
        | succ j => rfl
  · rw [remove_err c s (by omega)] at hp
    simp at hp

/-- C44: packets too short for the sample are refused and left as they are. -/
theorem C44_too_short (c : Crypto) (s : Secrets) (p : Bytes) (off : Nat) (h : p.length < off + 20) :
    addHeaderProtection c p off s = (.error .text, p) ∧ removeHeaderProtection c p off s = (.error .text, p) :=
  ⟨add_err c s h, remove_err c s h⟩

/-- C44: long and short headers with packet numbers of one to four bytes are protected, and their first bytes change. -/
example : ∀ b0 ∈ ([0xc0, 0xc1, 0xc2, 0xc3, 0x40, 0x41, 0x42, 0x43] : List UInt8),
    ((addHeaderProtection toyCrypto (b0 :: List.replicate 24 7) 3 toySecrets).1 = .ok () ∧
      (addHeaderProtection toyCrypto (b0 :: List.replicate 24 7) 3 toySecrets).2 ≠ b0 :: List.replicate 24 7) := by
  decide +kernel

/-- C77: a packet made from a header, a packet number and a payload is received as that packet number and that payload, whatever
follows it in the datagram. `front` is the header up to the packet number. -/
theorem C77_round_trip (c : Crypto) (hc : Correct c) (s : Secrets) (front pnb payload packet : Bytes) (b0 : UInt8)
    (hf : front.head? = some b0) (hn : pnb.length = b0.toNat % 4 + 1)
    (h : encryptPayload c (bigEndian pnb) (front ++ pnb) front.length payload (payload.length + 16) s = .ok packet) (rest : Bytes) :
    decryptPayload c (packet ++ rest) front.length (pnb.length + payload.length + 16) s = .ok (bigEndian pnb, payload) :=
  decrypt_encrypt hc hf hn h rest

/-- C77: making a packet succeeds whenever the cipher does and packet number and payload have at least four bytes together. -/
theorem C77_encrypts (c : Crypto) (hc : Correct c) (s : Secrets) (pn : Nat) (front pnb payload sealed : Bytes)
    (hl : 4 ≤ pnb.length + payload.length) (he : c.encrypt s.key (makeNonce s pn) (front ++ pnb) payload = some sealed) :
    ∃ packet, encryptPayload c pn (front ++ pnb) front.length payload (payload.length + 16) s = .ok packet ∧
      packet.length = front.length + pnb.length + payload.length + 16 := by
  obtain ⟨_, h2⟩ := hc _ _ _ _ _ he
  refine ⟨_, encrypt_ok he h2 ?_, ?_⟩
  · simp only [List.length_append]; omega
  · rw [protect_length]; simp only [List.length_append]; omega

/-- C77: with a cipher that accepts only what it makes, a received packet is accepted only if it is exactly the packet the holder of
the same secrets makes from the header, packet number and payload reported. -/
theorem C77_accepts_only_sealed (c : Crypto) (hc : Correct c) (ha : Authentic c) (s : Secrets) (p : Bytes) (off len pn : Nat)
    (payload : Bytes) (h : 1 ≤ off) (hlen : 20 ≤ len) (hd : decryptPayload c p off len s = .ok (pn, payload)) :
    ∃ (front pnb : Bytes) (b0 : UInt8), front.length = off ∧ front.head? = some b0 ∧ pnb.length = b0.toNat % 4 + 1 ∧
      bigEndian pnb = pn ∧ pnb.length + payload.length + 16 = len ∧
      encryptPayload c pn (front ++ pnb) off payload (payload.length + 16) s = .ok (p.take (off + len)) := by
  obtain ⟨n, hn, h20, hnl, hle, hpn, hdec⟩ := decrypt_inv hd
  set u := unprotectWith (c.aes s.hp (sampleOf off p)) off p with hu
  have hul : u.length = p.length := unprotect_length _ _ _
  have henc := ha _ _ _ _ _ hdec
  obtain ⟨_, hsl⟩ := hc _ _ _ _ _ henc
  have hsl' : (slice u (off + n) (off + len)).length = len - n := by
    simp only [slice, List.length_take, List.length_drop, hul]; omega
  have htake : u.take off ++ slice u off (off + n) = u.take (off + n) := by
    rw [slice, Nat.add_sub_cancel_left, List.take_add]
  have hall : u.take (off + n) ++ slice u (off + n) (off + len) = u.take (off + len) := by
    rw [slice, show off + len = off + n + (len - n) by omega, Nat.add_sub_cancel_left, ← List.take_add]
  have hn5 : n ≤ 4 ∧ 1 ≤ n := by omega
  have hpl : (slice u off (off + n)).length = n := by
    simp only [slice, List.length_take, List.length_drop, hul]; omega
  refine ⟨u.take off, slice u off (off + n), u.getD 0 0, ?_, ?_, by rw [hpl, hn], hpn.symm, by rw [hpl]; omega, ?_⟩
  · rw [List.length_take]; omega
  · cases hcu : u with
    | nil => rw [hcu] at hul; simp at hul; omega
    | cons x xs =>
      obtain ⟨o, rfl⟩ : ∃ o, off = o + 1 := ⟨off - 1, by omega⟩
      simp
  · rw [htake]
    have hlen' : (u.take (off + n) ++ slice u (off + n) (off + len)).length = off + len := by
      rw [hall, List.length_take]; omega
    rw [encrypt_ok henc hsl (by rw [hlen']; omega), hall]
    congr 1
    -- protecting the first part of the unprotected packet gives the first part of the packet
    have hp2 : p = p.take (off + len) ++ p.drop (off + len) := (List.take_append_drop _ _).symm
    have hl1 : (p.take (off + len)).length = off + len := by rw [List.length_take]; omega
    have hs1 : sampleOf off p = sampleOf off (p.take (off + len)) := by
      conv_lhs => rw [hp2]
      exact sample_append (by omega)
    have hu1 : u = unprotectWith (c.aes s.hp (sampleOf off (p.take (off + len)))) off (p.take (off + len)) ++ p.drop (off + len) := by
      rw [hu, hs1]
      conv_lhs => rw [hp2]
      rw [List.take_append_of_le_length (by omega), List.take_take, Nat.min_self]
      exact unprotect_append (by omega)
    have hu2 : u.take (off + len) = unprotectWith (c.aes s.hp (sampleOf off (p.take (off + len)))) off (p.take (off + len)) := by
      rw [hu1]
      exact List.take_left' (by rw [unprotect_length, hl1])
    rw [hu2, sample_unprotect _ h, protect_unprotect _ h]

/-- C77: a packet with a two byte packet number, followed by other bytes. -/
example : ∃ packet, encryptPayload toyCrypto 0x1234 ([0x41, 9, 9] ++ [0x12, 0x34]) 3 [1, 2, 3, 4, 5] 21 toySecrets = .ok packet ∧
    decryptPayload toyCrypto (packet ++ [1, 1, 1]) 3 23 toySecrets = .ok (0x1234, [1, 2, 3, 4, 5]) :=
  ⟨_, rfl, C77_round_trip toyCrypto toy_correct toySecrets [0x41, 9, 9] [0x12, 0x34] [1, 2, 3, 4, 5] _ 0x41 rfl rfl rfl _⟩

/-- C83: the nonce of a packet is the one of RFC 9001. -/
theorem C83_standard (s : Secrets) (hiv : s.iv.length = 12) (pn : Nat) (hp : pn < 2 ^ 64) : IsNonce s.iv pn (makeNonce s pn) :=
  nonce_isNonce s hiv pn hp

/-- C83: different packet numbers have different nonces. -/
theorem C83_injective (s : Secrets) (hiv : s.iv.length = 12) (n m : Nat) (hn : n < 2 ^ 64) (hm : m < 2 ^ 64)
    (h : makeNonce s n = makeNonce s m) : n = m := by
  have h1 := nonce_isNonce s hiv n hn
  rw [h] at h1
  exact isNonce_inj hiv h1 (nonce_isNonce s hiv m hm)

/-- C83: RFC 9001 appendix A.5: packet number 654360564 (the initialisation vector and nonce given there). -/
example : makeNonce ⟨[], [0xe0, 0x45, 0x9b, 0x34, 0x74, 0xbd, 0xd0, 0xe4, 0x4a, 0x41, 0xc1, 0x44], []⟩ 654360564 =
    [0xe0, 0x45, 0x9b, 0x34, 0x74, 0xbd, 0xd0, 0xe4, 0x6d, 0x41, 0x7e, 0xb0] := by decide

end Ngfs.Quic
