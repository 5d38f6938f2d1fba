import Verif.Lemmas.Varint

/-! Properties C01, C02, C03: protobuf variable-length integers. -/
namespace Ngfs.Varint
open Spec

/-- **C01**, round trip: decoding the encoding of any 64-bit number gives the number back. -/
theorem C01_varint_round_trip (v : Nat) (hv : v < 2 ^ 64) : decodeU64 (encodeU64 v) = .ok v :=
  decode_encode hv

/-- **C01**, canonical form: the encoding is a well-formed base-128 string denoting the number, of 1 to 10
bytes, and no string that decodes to the number is shorter. -/
theorem C01_varint_canonical (v : Nat) (hv : v < 2 ^ 64) :
    IsVarint (encodeU64 v) ∧ base128 (encodeU64 v) = v ∧
    1 ≤ (encodeU64 v).length ∧ (encodeU64 v).length ≤ 10 ∧
    ∀ bs, decodeU64 bs = .ok v → (encodeU64 v).length ≤ bs.length := by
  refine ⟨isVarint_encode v, base128_encode v, ?_, ?_, ?_⟩
  · exact List.length_pos_iff.mpr (encode_ne_nil v)
  · exact encode_length_le (Nat.lt_trans hv (by decide)) (by decide)
  · intro bs h
    rw [decodeU64_ok_iff] at h
    apply encode_length_min _ _ h.2.2.1.symm
    rintro rfl
    exact not_isVarint_nil h.1

example : encodeU64 300 = [0xac, 0x02] ∧ (300 : Nat) < 2 ^ 64 := by decide +kernel
example : decodeU64 [0xac, 0x82, 0x00] = .ok 300 := by decide +kernel  -- accepted, but longer

/-- **C02**: the slice decoder accepts exactly the well-formed varints of at most ten bytes whose value fits
64 bits, and returns exactly that value. -/
theorem C02_decode_ok_iff (bs : Bytes) (v : Nat) :
    decodeU64 bs = .ok v ↔ IsVarint bs ∧ bs.length ≤ 10 ∧ base128 bs = v ∧ v < 2 ^ 64 := by
  rw [decodeU64_ok_iff]
  constructor
  · rintro ⟨a, b, c, d⟩; exact ⟨a, b, c.symm, d⟩
  · rintro ⟨a, b, c, d⟩; exact ⟨a, b, c.symm, d⟩

/-- **C02**, refusals, first kind: "missing final byte" means that the string is at most nine bytes long and
every byte announces another one. -/
theorem C02_decode_missing_iff (bs : Bytes) :
    decodeU64 bs = .error .missingFinalByte ↔ (∀ b ∈ bs, 128 ≤ b.toNat) ∧ bs.length ≤ 9 := by
  have := decodeLoop_missing_iff bs 0 0 (by decide)
  simpa [decodeU64] using this

/-- **C02**, refusals, second kind: "misplaced final byte" means that an acceptable varint is followed by
something else. -/
theorem C02_decode_misplaced_iff (bs : Bytes) :
    decodeU64 bs = .error .misplacedFinalByte ↔
      ∃ p s, bs = p ++ s ∧ s ≠ [] ∧ ∃ v, decodeU64 p = .ok v := by
  have := decodeLoop_misplaced_iff bs 0 0 (by decide)
  simpa [decodeU64] using this

/-- **C02**, refusals, third kind: "overflow" means that nine continuation bytes are followed by a tenth byte
greater than 1, that is by bits beyond the 64th or by an eleventh byte. -/
theorem C02_decode_overflow_iff (bs : Bytes) :
    decodeU64 bs = .error .overflow ↔
      ∃ p b s, bs = p ++ b :: s ∧ p.length = 9 ∧ (∀ c ∈ p, 128 ≤ c.toNat) ∧ 1 < b.toNat :=
  decodeU64_overflow_iff bs

example : IsVarint [0xe3, 0xe7, 0xdb, 0x01] ∧ base128 [0xe3, 0xe7, 0xdb, 0x01] = 0x36f3e3 :=
  ⟨⟨[0xe3, 0xe7, 0xdb], 0x01, by decide +kernel⟩, by decide +kernel⟩
example : decodeU64 [0xff, 0xff, 0xff, 0xff, 0xff, 0xff, 0xff, 0xff, 0xff, 0x02] = .error .overflow := by
  decide +kernel
example : decodeU64 [0x05, 0x00] = .error .misplacedFinalByte := by decide +kernel
example : decodeU64 [0x85, 0x80] = .error .missingFinalByte := by decide +kernel

/-- The full statement of **C03**: the incremental decoder finishes with value `v`, leaving `rest`, exactly
when the bytes it took are a string the slice decoder decodes to `v`. -/
def C03_statement : Prop :=
  ∀ (bs : Bytes) (v : Nat) (rest : Bytes),
    Decoder.new.feed bs = (.finished v, rest) ↔ ∃ p, bs = p ++ rest ∧ decodeU64 p = .ok v

/-- **C03** is false of the code: on a tenth byte greater than 1 the slice decoder reports an overflow, but the
incremental decoder returns a truncated value (here 0 for an encoding of 2^64). -/
theorem C03_incremental_agrees_false : ¬ C03_statement := by
  intro h
  have h1 := (h [0x80, 0x80, 0x80, 0x80, 0x80, 0x80, 0x80, 0x80, 0x80, 0x02] 0 []).mp (by decide +kernel)
  obtain ⟨p, hp, hd⟩ := h1
  rw [List.append_nil] at hp
  subst hp
  exact absurd hd (by decide +kernel)

/-- What the incremental decoder does on every input: it takes the first varint of at most ten bytes and returns
its value *modulo 2^64*. -/
theorem C03_incremental_exact (bs : Bytes) (v : Nat) (rest : Bytes) :
    Decoder.new.feed bs = (.finished v, rest) ↔
      ∃ p, bs = p ++ rest ∧ IsVarint p ∧ p.length ≤ 10 ∧ v = base128 p % 2 ^ 64 := by
  have := feed_finished_iff bs 0 0 (by decide) (by decide) (by decide) v rest
  simpa [Decoder.new] using this

/-- **C03**, partial: the two decoders agree on every input whose tenth byte, if there is one, is 0 or 1.
Missing: inputs with a larger tenth byte, where they disagree (`C03_incremental_agrees_false`). -/
theorem C03_incremental_agrees_partial (bs : Bytes) (h10 : ∀ b, bs[9]? = some b → b.toNat ≤ 1)
    (v : Nat) (rest : Bytes) :
    Decoder.new.feed bs = (.finished v, rest) ↔ ∃ p, bs = p ++ rest ∧ decodeU64 p = .ok v := by
  rw [C03_incremental_exact]
  constructor
  · rintro ⟨p, rfl, hp, hl, rfl⟩
    refine ⟨p, rfl, ?_⟩
    have hlt := base128_lt_of_tenth p hl (fun b hb => h10 b (by
      rw [List.getElem?_append_left]
      · exact hb
      · exact (List.getElem?_eq_some_iff.mp hb).1))
    rw [decodeU64_ok_iff]
    exact ⟨hp, hl, Nat.mod_eq_of_lt hlt, Nat.mod_lt _ (by decide)⟩
  · rintro ⟨p, rfl, hd⟩
    rw [decodeU64_ok_iff] at hd
    obtain ⟨hp, hl, hv, hlt⟩ := hd
    exact ⟨p, rfl, hp, hl, by rw [← hv, Nat.mod_eq_of_lt hlt]⟩

/-- **C03**, the direction callers rely on, without any restriction: what the slice decoder accepts, the
incremental decoder accepts with the same value, stopping at the same byte. -/
theorem C03_incremental_accepts_partial (p rest : Bytes) (v : Nat) (h : decodeU64 p = .ok v) :
    Decoder.new.feed (p ++ rest) = (.finished v, rest) := by
  rw [C03_incremental_exact]
  rw [decodeU64_ok_iff] at h
  obtain ⟨hp, hl, hv, hlt⟩ := h
  exact ⟨p, rfl, hp, hl, by rw [← hv, Nat.mod_eq_of_lt hlt]⟩

/-- **C03**: the incremental decoder asks for more input exactly on at most ten continuation bytes. -/
theorem C03_incremental_pending_iff (bs : Bytes) :
    (Decoder.new.feed bs).1 = .pending ↔ (∀ b ∈ bs, 128 ≤ b.toNat) ∧ bs.length ≤ 10 := by
  have := feed_pending_iff bs 0 0 (by decide)
  constructor
  · intro h
    have := (this (Decoder.new.feed bs).2).mp (Prod.ext h rfl)
    exact ⟨this.2.1, by omega⟩
  · intro h
    have := (this []).mpr ⟨rfl, h.1, by omega⟩
    simp only [Decoder.new]
    rw [this]

example : Decoder.new.feed [0xac, 0x02, 0x07] = (.finished 300, [0x07]) := by decide +kernel
example : ∀ b, ([0xac, 0x02, 0x07] : Bytes)[9]? = some b → b.toNat ≤ 1 := by simp

end Ngfs.Varint
