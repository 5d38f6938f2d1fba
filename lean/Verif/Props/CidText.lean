import Verif.Props.MultibaseRead
import Verif.Spec.CidText
import Mathlib.Tactic.Linarith
import Mathlib.Tactic.NormNum

/-!
C200: which texts are content identifiers.
-/
namespace Ngfs.Cid
open Spec Multibase

/-- Nothing becomes longer by reading it. -/
theorem standsFor_length {base : Base} {text : List Char} {data : Bytes} (h : StandsFor base text data) : data.length ≤ text.length := by
  unfold StandsFor at h
  cases hk : bitsPerDigit base with
  | some k =>
    rw [hk] at h
    obtain ⟨ds, -, h2, h3, -⟩ := h
    have hk8 : k ≤ 8 := by cases base <;> simp [bitsPerDigit] at hk <;> omega
    have h4 : ds.length ≤ text.length := by
      have : (digitsPart base text).length = ds.length := by rw [h2, written, List.length_map]
      rw [← this, digitsPart]
      split
      · exact (List.takeWhile_prefix _).length_le
      · exact Nat.le_refl _
    have : k * ds.length ≤ 8 * ds.length := Nat.mul_le_mul_right _ hk8
    omega
  | none =>
    rw [hk] at h
    obtain ⟨zeros, rest, ds, rfl, h2, h3, h4, h5, rfl⟩ := h
    simp only [List.length_append, List.length_replicate, written, List.length_map]
    have := number_lt h3
    rw [h5] at this
    cases rest with
    | nil => simp
    | cons b bs =>
      have hb : 1 ≤ b.toNat := by
        rcases Nat.eq_zero_or_pos b.toNat with h0 | h0
        · exact absurd (UInt8.toNat_inj.mp (by simpa using h0) : b = 0) (by simpa using h2)
        · exact h0
      rw [List.map_cons, number_cons, List.length_map] at this
      have h6 : 256 ^ bs.length < 58 ^ ds.length := by nlinarith [Nat.pow_pos (n := bs.length) (show 0 < 256 by decide)]
      have h7 : bs.length < ds.length := by
        by_contra hc
        have h8 : 58 ^ ds.length ≤ 58 ^ bs.length := Nat.pow_le_pow_right (by decide) (by omega)
        have h9 : 58 ^ bs.length ≤ 256 ^ bs.length := Nat.pow_le_pow_left (by decide) _
        omega
      simp only [List.length_cons]
      omega

/-- 46 characters that begin with `Qm` are no identifier of version 1 in base 58. -/
theorem qm_not_v1 {text : List Char} {data : Bytes} {c : CID} (hl : text.length = 46) (hq : ['Q', 'm'] <+: text)
    (hs : StandsFor .base58BTC text data) : ¬ BytesV1 data c := by
  rintro ⟨-, -, -, codec, hash, len, hd, -⟩
  simp only [StandsFor, bitsPerDigit] at hs
  obtain ⟨zeros, rest, ds, e1, e2, e3, e4, e5, e6⟩ := hs
  obtain ⟨tail, ht⟩ := hq
  have hA : ∀ d < 58, (alphabet .base58BTC).toList.getD d '\x00' = 'Q' → d = 23 := by decide +kernel
  have hB : ∀ d < 58, (alphabet .base58BTC).toList.getD d '\x00' = 'm' → d = 44 := by decide +kernel
  have hz : zeros = 0 := by
    cases zeros with
    | zero => rfl
    | succ z =>
      simp only [← ht, List.replicate_succ, List.cons_append, written, List.map_cons] at e6
      have := (List.cons.inj e6).1
      exact absurd this (by decide +kernel)
  subst hz
  simp only [List.replicate_zero, List.nil_append] at e1 e6
  subst e1
  rw [← ht] at e6 hl
  match ds, e3, e4, e5, e6 with
  | [], _, _, _, e6 => simp [written] at e6
  | [_], _, _, _, e6 => simp [written] at e6
  | a :: b :: ds, e3, _, e5, e6 =>
    simp only [written, List.map_cons, List.cons_append, List.nil_append, List.cons.injEq] at e6
    obtain ⟨e7, e8, e9⟩ := e6
    obtain rfl := hA a (e3 a (by simp)) e7.symm
    obtain rfl := hB b (e3 b (by simp)) e8.symm
    have hlen : ds.length = 44 := by
      rw [e9] at hl
      simpa using hl
    have hlt := number_lt (fun d hd => e3 d (by simp [hd]) : ∀ d ∈ ds, d < 58)
    rw [number_cons, number_cons, List.length_cons, hlen] at e5
    rw [hlen] at hlt
    rw [hd] at e5
    simp only [List.cons_append, List.nil_append, List.map_cons, number_cons] at e5
    generalize hr : List.map (fun x : UInt8 => x.toNat) (codec ++ hash ++ len ++ c.hash) = r at e5
    have hr' : ∀ d ∈ r, d < 256 := by
      intro d hdd
      rw [← hr] at hdd
      obtain ⟨x, -, rfl⟩ := List.mem_map.mp hdd
      exact UInt8.toNat_lt x
    have hrl := number_lt hr'
    rw [show (1 : UInt8).toNat = 1 from rfl, Nat.one_mul] at e5
    rcases Nat.lt_or_ge r.length 34 with h | h
    · have : 256 ^ r.length ≤ 256 ^ 33 := Nat.pow_le_pow_right (by decide) (by omega)
      norm_num at *
      omega
    · have : 256 ^ 34 ≤ 256 ^ r.length := Nat.pow_le_pow_right (by decide) h
      norm_num at *
      omega

theorem fromBytes_iff (data : Bytes) (c : CID) (h : data.length < 2 ^ 64) : fromBytes data = .ok c ↔ BytesV0 data c ∨ BytesV1 data c := by
  rw [C15_accepts_exactly data c h]
  obtain ⟨version, codec, hashType, hash⟩ := c
  cases version with
  | v0 =>
    simp only [BytesV0, BytesV1, ValidCid]
    constructor
    · rintro ⟨⟨rfl, rfl, h3⟩, h4 | h4⟩
      · exact .inl ⟨hash, h3, h4.2, rfl⟩
      · exact absurd h4.1 (by decide)
    · rintro (⟨hash', h1, h2, h3⟩ | h3)
      · cases h3
        exact ⟨⟨rfl, rfl, h1⟩, .inl ⟨trivial, h2⟩⟩
      · exact absurd h3.1 (by decide)
  | v1 =>
    simp only [BytesV0, BytesV1, ValidCid]
    constructor
    · rintro ⟨⟨h1, h2⟩, h4 | h4⟩
      · exact absurd h4.1 (by decide)
      · exact .inr ⟨trivial, h1, h2, h4.2⟩
    · rintro (⟨hash', h1, h2, h3⟩ | ⟨-, h1, h2, h3⟩)
      · cases h3
      · exact ⟨⟨h1, h2⟩, .inr ⟨trivial, h3⟩⟩

/-- **C200**: a text is accepted exactly if the specification says so, as the identifier that the specification says. -/
theorem C200_read (text : List Char) (c : CID) (hl : text.length < 2 ^ 64) : fromText text = .ok c ↔ CidText text c := by
  have hbind : ∀ {α β} (r : Except DecodeError α) (f : α → Except ParseError β) (b : β),
      (do let a ← liftDecode r; f a) = .ok b ↔ ∃ a, r = .ok a ∧ f a = .ok b := by
    intro α β r f b
    cases r <;> simp [liftDecode, bind, Except.bind]
  have hQ : ∀ data, ['Q', 'm'] <+: text → ¬ MultibaseText text data := by
    rintro data ⟨tail, ht⟩ ⟨ch, base, rest, h1, h2, -⟩
    rw [← ht] at h1
    cases h1
    exact absurd h2 (by simp [baseCodes])
  have hasc : ∀ data, StandsFor .base58BTC text data → (asBytes text).length = text.length := by
    intro data hs
    obtain ⟨zeros, rest, ds, -, -, h3, -, -, h6⟩ := hs
    have hA : ∀ d < 58, (String.utf8EncodeChar ((alphabet .base58BTC).toList.getD d '\x00')).length = 1 := by decide +kernel
    have hlen : ∀ ds : List Nat, (∀ d ∈ ds, d < 58) → (asBytes (written .base58BTC ds)).length = (written .base58BTC ds).length := by
      intro ds hds
      induction ds with
      | nil => rfl
      | cons d ds ih =>
        have := ih fun x hx => hds x (by simp [hx])
        simp only [asBytes, written, List.map_cons, List.flatMap_cons, List.length_append, List.length_cons] at this ⊢
        rw [hA d (hds d (by simp)), this]
        omega
    rw [h6]
    refine hlen _ fun d hd => ?_
    rcases List.mem_append.mp hd with hd | hd
    · rw [List.eq_of_mem_replicate hd]; decide
    · exact h3 d hd
  unfold fromText
  split
  · rename_i h46
    rw [hbind]
    constructor
    · rintro ⟨data, h1, h2⟩
      rw [noprefix_iff] at h1
      have hl46 : text.length = 46 := by rw [← hasc data h1]; exact h46.1
      rw [fromBytes_iff data c (Nat.lt_of_le_of_lt (standsFor_length h1) hl)] at h2
      rcases h2 with h2 | h2
      · rw [CidText, if_pos ⟨hl46, h46.2⟩]
        exact ⟨data, h1, h2⟩
      · exact absurd h2 (qm_not_v1 hl46 h46.2 h1)
    · intro h
      unfold CidText at h
      split at h
      · obtain ⟨data, h1, h2⟩ := h
        exact ⟨data, (noprefix_iff _ _ _).mpr h1, (fromBytes_iff data c (Nat.lt_of_le_of_lt (standsFor_length h1) hl)).mpr (.inl h2)⟩
      · obtain ⟨data, h1, -⟩ := h
        exact absurd h1 (hQ data h46.2)
  · rename_i h46
    rw [hbind]
    have hread : ∀ data, decode text = .ok data ↔ MultibaseText text data := C199_read text
    have hlen : ∀ data, MultibaseText text data → data.length < 2 ^ 64 := by
      rintro data ⟨ch, base, rest, rfl, -, h3⟩
      have := standsFor_length h3
      simp only [List.length_cons] at hl
      omega
    simp only [hread]
    constructor
    · rintro ⟨data, h1, h2⟩
      rw [CidText, if_neg fun h => hQ data h.2 h1]
      exact ⟨data, h1, (fromBytesV1_iff data c (hlen data h1)).mp h2⟩
    · intro h
      unfold CidText at h
      split at h
      · rename_i h47
        obtain ⟨data, h1, -⟩ := h
        exact absurd ⟨by rw [hasc data h1]; exact h47.1, h47.2⟩ h46
      · obtain ⟨data, h1, h2⟩ := h
        exact ⟨data, h1, (fromBytesV1_iff data c (hlen data h1)).mpr h2⟩

/-- **C200**: version 0 in multibase is refused, whatever the base. -/
theorem C200_no_multibase_v0 (text : List Char) (data : Bytes) (h : MultibaseText text data) (hd : data.head? = some 0x12)
    (hl : text.length < 2 ^ 64) : ∀ c, fromText text ≠ .ok c := by
  intro c hc
  have := (C200_read text c hl).mp hc
  obtain ⟨ch, base, rest, rfl, h2, h3⟩ := h
  have hn : ¬ (['Q', 'm'] <+: ch :: rest) := by
    rintro ⟨tail, ht⟩
    cases ht
    exact absurd h2 (by simp [baseCodes])
  rw [CidText, if_neg fun h => hn h.2] at this
  obtain ⟨data', h4, -, -, -, _, _, _, h5, -⟩ := this
  have e1 := (C199_read _ _).mpr h4
  have e2 := (C199_read (ch :: rest) data).mpr ⟨ch, base, rest, rfl, h2, h3⟩
  rw [e1] at e2
  cases e2
  rw [h5] at hd
  simp at hd

/-- Both forms, and version 0 in hexadecimal. -/
example : CidText "QmdfTbBqBPQ7VNxZEYEj14VmRuZBkqFbiwReogJgS1zR1n".toList ⟨.v0, .dagPB, .sha2256,
    [0xe3, 0xb0, 0xc4, 0x42, 0x98, 0xfc, 0x1c, 0x14, 0x9a, 0xfb, 0xf4, 0xc8, 0x99, 0x6f, 0xb9, 0x24,
     0x27, 0xae, 0x41, 0xe4, 0x64, 0x9b, 0x93, 0x4c, 0xa4, 0x95, 0x99, 0x1b, 0x78, 0x52, 0xb8, 0x55]⟩ :=
  (C200_read _ _ (by decide +kernel)).mp (by decide +kernel)
example : CidText "f01551200".toList ⟨.v1, .raw, .sha2256, []⟩ := (C200_read _ _ (by decide +kernel)).mp (by decide +kernel)
example : fromText ("f1220".toList ++ List.replicate 64 '0') = .error .unsupportedVersion := by decide +kernel

end Ngfs.Cid
