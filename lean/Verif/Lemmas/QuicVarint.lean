import Verif.Lemmas.BinarySafe
import Verif.Lemmas.BinaryWrite
import Verif.Spec.Quic

/-! Helper lemmas: what a successful read tells about the bytes read. No claims here. -/
namespace Ngfs.Quic
open Binary Spec Spec.Quic

/-- From `r` to `r'` exactly the bytes `enc` were read. -/
def Took (r r' : Reader) (enc : Bytes) : Prop :=
  r'.buf = r.buf ∧ r.buf.drop r.offset = enc ++ r'.buf.drop r'.offset ∧ r'.offset = r.offset + enc.length

theorem took_nil (r : Reader) : Took r r [] := by simp [Took]

theorem took_trans {r r' r'' : Reader} {e e' : Bytes} (h : Took r r' e) (h' : Took r' r'' e') : Took r r'' (e ++ e') := by
  obtain ⟨a1, a2, a3⟩ := h
  obtain ⟨b1, b2, b3⟩ := h'
  refine ⟨b1.trans a1, ?_, ?_⟩
  · rw [a2, b2, List.append_assoc]
  · rw [b3, a3, List.length_append]; omega

theorem check_inv {n e : Nat} {r r' : Reader} (h : checkAvailable n r = (.ok e, r')) :
    r' = r ∧ e = r.offset + n ∧ r.offset + n ≤ r.buf.length := by
  unfold checkAvailable at h
  split at h
  · split at h
    · simp only [Prod.mk.injEq, Except.ok.injEq] at h
      rename_i hl
      exact ⟨h.2.symm, h.1.symm, hl⟩
    · simp at h
  · simp at h

theorem fixed_inv {n : Nat} {r r' : Reader} {d : Bytes} (h : readFixed n r = (.ok d, r')) : d.length = n ∧ Took r r' d := by
  obtain ⟨e, r1, h1, h2⟩ := bind_ok_inv h
  obtain ⟨rfl, rfl, hl⟩ := check_inv h1
  simp only [act_apply, Prod.mk.injEq, Except.ok.injEq] at h2
  obtain ⟨rfl, rfl⟩ := h2
  have hlen : (slice r1.buf r1.offset (r1.offset + n)).length = n := by
    simp only [slice, List.length_take, List.length_drop]; omega
  refine ⟨hlen, rfl, ?_, ?_⟩
  · simp only [slice, Nat.add_sub_cancel_left]
    rw [← List.drop_drop, List.take_append_drop]
  · simp only [hlen]

theorem u8_inv {r r' : Reader} {b : UInt8} (h : readU8 r = (.ok b, r')) : Took r r' [b] := by
  obtain ⟨e, r1, h1, h2⟩ := bind_ok_inv h
  obtain ⟨rfl, rfl, hl⟩ := check_inv h1
  simp only [act_apply] at h2
  rw [List.getElem?_eq_getElem (by omega)] at h2
  simp only [Prod.mk.injEq, Except.ok.injEq] at h2
  obtain ⟨rfl, rfl⟩ := h2
  refine ⟨rfl, ?_, rfl⟩
  simp only [List.singleton_append]
  rw [← List.drop_eq_getElem_cons]

theorem varintLoop_inv {n v w : Nat} {r r' : Reader} (h : varintLoop n v r = (.ok w, r')) :
    ∃ enc, enc.length = n ∧ Took r r' enc ∧ w = v * 256 ^ n + bigEndian enc := by
  induction n generalizing v r with
  | zero =>
    simp only [varintLoop, pure_def, Prod.mk.injEq, Except.ok.injEq] at h
    obtain ⟨rfl, rfl⟩ := h
    exact ⟨[], rfl, took_nil _, by simp [bigEndian, Nat.ofDigits]⟩
  | succ n ih =>
    obtain ⟨b, r1, h1, h2⟩ := bind_ok_inv h
    obtain ⟨enc, hl, ht, hw⟩ := ih h2
    refine ⟨b :: enc, by simp [hl], took_trans (u8_inv h1) ht, ?_⟩
    rw [hw, bigEndian_cons, hl, Nat.shiftLeft_eq, pow_succ]
    ring

theorem quic_inv {v : Nat} {r r' : Reader} (h : readQuicVarint r = (.ok v, r')) : ∃ enc, IsVarint enc v ∧ Took r r' enc := by
  obtain ⟨b, r1, h1, h2⟩ := bind_ok_inv h
  obtain ⟨enc, hl, ht, hw⟩ := varintLoop_inv h2
  refine ⟨b :: enc, ⟨b, enc, rfl, ?_, ?_⟩, took_trans (u8_inv h1) ht⟩
  · rw [hl, u8_shift6, Nat.one_shiftLeft]
    have := Nat.one_le_two_pow (n := b.toNat / 64)
    omega
  · rw [hw, and_3f, hl]

theorem readsAs_varint {enc : Bytes} {v : Nat} (h : IsVarint enc v) : ReadsAs readQuicVarint enc v := by
  obtain ⟨b, rest, rfl, hl, rfl⟩ := h
  exact readsAs_quic (k := b.toNat / 64) (u8_shift6 b) (by omega)

theorem isVarint_length {enc : Bytes} {v : Nat} (h : IsVarint enc v) : 1 ≤ enc.length := by
  obtain ⟨b, rest, rfl, -, -⟩ := h
  simp

theorem isVarint_lt {enc : Bytes} {v : Nat} (h : IsVarint enc v) : v < 2 ^ 62 := by
  obtain ⟨b, rest, rfl, hl, rfl⟩ := h
  have h1 : b.toNat % 64 ≤ 63 := by omega
  have h2 := bigEndian_lt rest
  have hk : rest.length ≤ 7 := by
    have : b.toNat / 64 ≤ 3 := by have := u8_lt b; omega
    have : 2 ^ (b.toNat / 64) ≤ 2 ^ 3 := Nat.pow_le_pow_right (by norm_num) this
    omega
  have h3 : 256 ^ rest.length ≤ 256 ^ 7 := Nat.pow_le_pow_right (by norm_num) hk
  calc _ < 63 * 256 ^ rest.length + 256 ^ rest.length := by
        have := Nat.mul_le_mul_right (256 ^ rest.length) h1; omega
    _ ≤ 64 * 256 ^ 7 := by omega
    _ = 2 ^ 62 := by norm_num

/-- An encoding is told by its length and its number. -/
theorem isVarint_inj {e e' : Bytes} {v : Nat} (h : IsVarint e v) (h' : IsVarint e' v) (hl : e.length = e'.length) : e = e' := by
  obtain ⟨b, rest, rfl, hb, rfl⟩ := h
  obtain ⟨b', rest', rfl, hb', hv⟩ := h'
  simp only [List.length_cons, Nat.add_right_cancel_iff] at hl
  have hpow : 2 ^ (b.toNat / 64) = 2 ^ (b'.toNat / 64) := by rw [← hb, ← hb', hl]
  have hdiv := Nat.pow_right_injective (le_refl 2) hpow
  have h2 := bigEndian_lt rest
  have h3 := bigEndian_lt rest'
  rw [← hl] at h3 hv
  have hmod : b.toNat % 64 = b'.toNat % 64 := by
    have := congrArg (· / 256 ^ rest.length) hv
    rw [Nat.mul_comm, Nat.mul_comm (b'.toNat % 64), Nat.mul_add_div (by positivity), Nat.mul_add_div (by positivity),
      Nat.div_eq_of_lt h2, Nat.div_eq_of_lt h3] at this
    simpa using this
  have hbe : bigEndian rest = bigEndian rest' := by rw [hmod] at hv; omega
  have : b = b' := u8_ext (by omega)
  rw [this, bigEndian_inj hl hbe]

/-- What the writer makes is the shortest encoding. -/
theorem isVarint_quic {v : Nat} (h : v < 2 ^ 62) : IsVarint (quicVarintBytes v) v := by
  by_cases h1 : v ≤ 63
  · rw [quic1 h1]
    have hb : (UInt8.ofNat (v >>> 0)).toNat = v := by rw [ofNat_shift_toNat]; norm_num; omega
    refine ⟨UInt8.ofNat (v >>> 0), [], rfl, ?_, ?_⟩
    · rw [hb, show v / 64 = 0 by omega]; simp
    · rw [hb]; simp [bigEndian, Nat.ofDigits]; omega
  by_cases h2 : v ≤ 16383
  · rw [quic2 h1 h2]
    have hb := ofNat_shift_toNat v 8
    have hlt : (UInt8.ofNat (v >>> 8)).toNat < 64 := by rw [hb]; norm_num; omega
    have ho := u8_or40 _ hlt
    refine ⟨_, _, rfl, ?_, ?_⟩
    · rw [ho, beBytes_length, show ((UInt8.ofNat (v >>> 8)).toNat + 64) / 64 = 1 by omega]; norm_num
    · rw [ho, bigEndian_beBytes, beBytes_length, hb]; norm_num; omega
  by_cases h3 : v ≤ 1073741823
  · rw [quic4 h1 h2 h3]
    have hb := ofNat_shift_toNat v 24
    have hlt : (UInt8.ofNat (v >>> 24)).toNat < 64 := by rw [hb]; norm_num; omega
    have ho := u8_or80 _ hlt
    refine ⟨_, _, rfl, ?_, ?_⟩
    · rw [ho, beBytes_length, show ((UInt8.ofNat (v >>> 24)).toNat + 128) / 64 = 2 by omega]; norm_num
    · rw [ho, bigEndian_beBytes, beBytes_length, hb]; norm_num; omega
  · rw [quic8 h3]
    have hb := ofNat_shift_toNat v 56
    have ho := u8_orc0 (UInt8.ofNat (v >>> 56))
    refine ⟨_, _, rfl, ?_, ?_⟩
    · rw [ho, beBytes_length, show ((UInt8.ofNat (v >>> 56)).toNat % 64 + 192) / 64 = 3 by omega]; norm_num
    · rw [ho, bigEndian_beBytes, beBytes_length, hb]; norm_num; omega

theorem quic_shortest {e : Bytes} {v : Nat} (h : IsVarint e v) : (quicVarintBytes v).length ≤ e.length := by
  obtain ⟨b, rest, rfl, hb, hv⟩ := h
  have h1 : b.toNat % 64 ≤ 63 := by omega
  have h2 := bigEndian_lt rest
  have h4 : b.toNat / 64 = 0 ∨ b.toNat / 64 = 1 ∨ b.toNat / 64 = 2 ∨ b.toNat / 64 = 3 := by have := u8_lt b; omega
  rw [quicVarintBytes_length, List.length_cons]
  rcases h4 with h4 | h4 | h4 | h4 <;> rw [h4] at hb
  · obtain hr : rest.length = 0 := by omega
    rw [hr] at h2 hv ⊢
    have : v < 2 ^ 6 := by norm_num at *; omega
    rw [if_pos this]
  · obtain hr : rest.length = 1 := by omega
    rw [hr] at h2 hv ⊢
    have : v < 2 ^ 14 := by norm_num at *; omega
    rw [if_pos this]; split <;> omega
  · obtain hr : rest.length = 3 := by omega
    rw [hr] at h2 hv ⊢
    have : v < 2 ^ 30 := by norm_num at *; omega
    rw [if_pos this]; split <;> [omega; split <;> omega]
  · obtain hr : rest.length = 7 := by omega
    rw [hr]
    split <;> [omega; split <;> [omega; split <;> omega]]

theorem eq_quic_of_shortest {e : Bytes} {v : Nat} (h : IsVarint e v) (hs : ∀ e', IsVarint e' v → e.length ≤ e'.length) :
    e = quicVarintBytes v := by
  have hv := isVarint_quic (isVarint_lt h)
  exact isVarint_inj h hv (le_antisymm (hs _ hv) (quic_shortest h))

theorem varintFromBytes_iff {raw : Bytes} (hl : raw.length < 2 ^ 64) (v : Nat) :
    varintFromBytes raw = .ok v ↔ IsVarint raw v := by
  constructor
  · intro h
    unfold varintFromBytes at h
    set m : RM Nat := (do
      let v ← readQuicVarint
      expectEof
      pure v : RM Nat) with hm
    rcases hr : m (.new raw) with ⟨res, r'⟩
    rw [hr] at h
    simp only at h
    subst h
    rw [hm] at hr
    obtain ⟨w, r1, h1, h2⟩ := bind_ok_inv hr
    obtain ⟨_, r2, h3, h4⟩ := bind_ok_inv h2
    simp only [pure_def, Prod.mk.injEq, Except.ok.injEq] at h4
    obtain ⟨enc, he, ht⟩ := quic_inv h1
    obtain ⟨t1, t2, t3⟩ := ht
    unfold expectEof at h3
    split at h3
    · simp at h3
    · rename_i hrem
      have hd : r1.buf.drop r1.offset = [] := by
        apply List.drop_eq_nil_iff.mpr
        simp only [Reader.remaining] at hrem; omega
      rw [hd] at t2
      simp only [Reader.new, List.drop_zero, List.append_nil] at t2
      rw [t2, ← h4.1]; exact he
  · intro h
    have h1 := readsAs_varint h [] [] (by simpa using hl)
    simp only [List.nil_append, List.append_nil, List.length_nil, Nat.zero_add] at h1
    unfold varintFromBytes
    rw [Reader.new, bind_ok h1]
    have : expectEof ⟨raw, raw.length⟩ = (.ok (), ⟨raw, raw.length⟩) := by simp [expectEof, Reader.remaining]
    rw [bind_ok this, pure_def]

end Ngfs.Quic
