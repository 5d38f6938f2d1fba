import Verif.Model.Util
import Verif.Spec.Util
import Verif.Lemmas.MultibaseDecode

/-! Property theorems for hex text and bit fields. -/
namespace Ngfs.Util
open Ngfs.Spec Ngfs.Multibase

/-! ### C34 -/

private theorem nib_iff : ∀ n < 128, ∀ v : Nat, v < 16 → (hexFromByte (UInt8.ofNat n) = some (UInt8.ofNat v) ↔
    ("0123456789abcdef".toList[v]? = some (Char.ofNat n) ∨ "0123456789ABCDEF".toList[v]? = some (Char.ofNat n))) := by
  decide +kernel

private theorem nib_lt : ∀ n < 256, ∀ v, hexFromByte (UInt8.ofNat n) = some v → v.toNat < 16 := by
  have : ∀ n < 256, (hexFromByte (UInt8.ofNat n)).all (·.toNat < 16) = true := by decide +kernel
  intro n hn v h
  have := this n hn
  rw [h] at this
  simpa using this

private theorem nib_high : ∀ n < 256, 128 ≤ n → hexFromByte (UInt8.ofNat n) = none := by decide +kernel

private theorem digit_ascii : ∀ v < 16, ∀ c, ("0123456789abcdef".toList[v]? = some c ∨ "0123456789ABCDEF".toList[v]? = some c) →
    c.toNat < 128 := by
  have h1 : ∀ v < 16, ∀ c ∈ "0123456789abcdef".toList[v]?, c.toNat < 128 := by decide +kernel
  have h2 : ∀ v < 16, ∀ c ∈ "0123456789ABCDEF".toList[v]?, c.toNat < 128 := by decide +kernel
  rintro v hv c (h | h)
  · exact h1 v hv c h
  · exact h2 v hv c h

private theorem combine : ∀ h < 16, ∀ l < 16, UInt8.ofNat h <<< 4 ||| UInt8.ofNat l = UInt8.ofNat (16 * h + l) := by
  decide +kernel

private theorem u8_of (b : UInt8) : UInt8.ofNat b.toNat = b := by simp

private theorem digit_byte {c : Char} {n : Nat} (h : HexDigit c n) :
    asBytes [c] = [UInt8.ofNat c.toNat] ∧ hexFromByte (UInt8.ofNat c.toNat) = some (UInt8.ofNat n) := by
  have ha := digit_ascii n h.1 c h.2
  rcases utf8_first c with ⟨_, he⟩ | ⟨hge, _⟩
  · refine ⟨by simp [asBytes, he], ?_⟩
    rw [nib_iff c.toNat ha n h.1]
    simpa using h.2
  · omega

private theorem asBytes_cons (c : Char) (cs : List Char) : asBytes (c :: cs) = asBytes [c] ++ asBytes cs := by
  simp [asBytes]

private theorem byte_digit {c : Char} {b : UInt8} {bs : Bytes} {cs : List Char} {v : UInt8}
    (he : asBytes (c :: cs) = b :: bs) (h : hexFromByte b = some v) : HexDigit c v.toNat ∧ bs = asBytes cs := by
  rw [asBytes_cons] at he
  rcases utf8_first c with ⟨ha, hc⟩ | ⟨_, b', bs', hc, hb'⟩
  · simp only [asBytes, List.flatMap_cons, List.flatMap_nil, List.append_nil, hc, List.cons_append, List.nil_append,
      List.cons.injEq] at he
    obtain ⟨rfl, rfl⟩ := he
    have hlt := nib_lt c.toNat (by omega) v h
    refine ⟨⟨hlt, ?_⟩, rfl⟩
    have := (nib_iff c.toNat ha v.toNat hlt).mp (by rw [u8_of]; exact h)
    simpa using this
  · simp only [asBytes, List.flatMap_cons, List.flatMap_nil, List.append_nil, hc, List.cons_append, List.cons.injEq] at he
    obtain ⟨rfl, -⟩ := he
    have := nib_high b'.toNat (by have := b'.toNat_lt; omega) hb'
    rw [u8_of] at this
    rw [this] at h
    cases h

private theorem fromHex_of {s : List Char} {bs : Bytes} (h : HexText s bs) :
    (asBytes s).length % 2 = 0 ∧ fromHexLoop (asBytes s) = some bs := by
  induction h with
  | nil => exact ⟨rfl, rfl⟩
  | @cons c d x y cs bs hc hd _ ih =>
    obtain ⟨e1, n1⟩ := digit_byte hc
    obtain ⟨e2, n2⟩ := digit_byte hd
    rw [asBytes_cons, asBytes_cons d, e1, e2]
    simp only [List.cons_append, List.nil_append, List.length_cons, fromHexLoop, n1, n2, ih.2, Option.map_some,
      combine x hc.1 y hd.1, and_true]
    omega

private theorem of_fromHex (n : Nat) : ∀ (s : List Char) (bs : Bytes), s.length ≤ n → (asBytes s).length % 2 = 0 →
    fromHexLoop (asBytes s) = some bs → HexText s bs := by
  induction n with
  | zero =>
    intro s bs hs _ h
    have : s = [] := List.eq_nil_of_length_eq_zero (by omega)
    subst this
    simp [asBytes, fromHexLoop] at h
    subst h
    exact .nil
  | succ n ih =>
    intro s bs hs hev h
    cases s with
    | nil => simp [asBytes, fromHexLoop] at h; subst h; exact .nil
    | cons c cs =>
      rcases he : asBytes (c :: cs) with _ | ⟨b1, _ | ⟨b2, rest⟩⟩
      · rcases utf8_first c with ⟨_, hc⟩ | ⟨_, b', bs', hc, _⟩ <;> simp [asBytes, hc] at he
      · rw [he] at hev; simp at hev
      · rw [he] at h hev
        simp only [fromHexLoop] at h
        split at h
        · rename_i v1 v2 h1 h2
          obtain ⟨d1, e1⟩ := byte_digit he h1
          cases cs with
          | nil => simp [asBytes] at e1
          | cons d ds =>
            obtain ⟨d2, e2⟩ := byte_digit e1.symm h2
            rcases hr : fromHexLoop rest with _ | bs'
            · rw [hr] at h; simp at h
            · rw [hr] at h
              simp only [Option.map_some, Option.some.injEq] at h
              subst h
              have := HexText.cons d1 d2 (ih ds bs' (by simp at hs; omega)
                (by rw [← e2]; simp at hev; omega) (by rw [← e2]; exact hr))
              rw [← combine _ d1.1 _ d2.1, u8_of, u8_of] at this
              exact this
        · cases h

/-- **C34**: what the parser returns, for every text: exactly the bytes the text denotes. -/
theorem C34_parses_exactly (s : List Char) (bs : Bytes) : fromHex s = some bs ↔ HexText s bs := by
  unfold fromHex
  constructor
  · intro h
    split at h
    · cases h
    · exact of_fromHex s.length s bs (Nat.le_refl _) (by omega) h
  · intro h
    obtain ⟨h1, h2⟩ := fromHex_of h
    rw [if_neg (by omega)]
    exact h2

/-- **C34**: the texts accepted are exactly those of an even number of hex digits of either case. -/
theorem C34_accepts_exactly (s : List Char) :
    (fromHex s).isSome ↔ s.length % 2 = 0 ∧ ∀ c ∈ s, ∃ n, HexDigit c n := by
  rw [Option.isSome_iff_exists]
  constructor
  · rintro ⟨bs, h⟩
    rw [C34_parses_exactly] at h
    induction h with
    | nil => simp
    | @cons c d x y cs bs hc hd _ ih =>
      refine ⟨by simp only [List.length_cons]; omega, ?_⟩
      intro e he
      simp only [List.mem_cons] at he
      rcases he with rfl | rfl | he
      · exact ⟨x, hc⟩
      · exact ⟨y, hd⟩
      · exact ih.2 e he
  · intro h
    have : ∀ n (s : List Char), s.length ≤ n → s.length % 2 = 0 → (∀ c ∈ s, ∃ n, HexDigit c n) → ∃ bs, HexText s bs := by
      intro n
      induction n with
      | zero => intro s hs _ _; rw [List.eq_nil_of_length_eq_zero (by omega : s.length = 0)]; exact ⟨[], .nil⟩
      | succ n ih =>
        intro s hs hev hd
        match s with
        | [] => exact ⟨[], .nil⟩
        | [_] => simp at hev
        | c :: d :: cs =>
          obtain ⟨x, hx⟩ := hd c (by simp)
          obtain ⟨y, hy⟩ := hd d (by simp)
          obtain ⟨bs, hb⟩ := ih cs (by simp at hs; omega) (by simp at hev; omega) (fun e he => hd e (by simp [he]))
          exact ⟨_, .cons hx hy hb⟩
    obtain ⟨bs, hb⟩ := this s.length s (Nat.le_refl _) h.1 h.2
    exact ⟨bs, (C34_parses_exactly s bs).mpr hb⟩

private theorem lower_digit : ∀ n < 16, "0123456789abcdef".toList[n]? = some (lowerHex n) := by decide +kernel

/-- **C34**: the text printed for a byte string is parsed to it. -/
theorem C34_round_trip (bs : Bytes) : fromHex (toHex bs) = some bs := by
  rw [C34_parses_exactly]
  induction bs with
  | nil => exact .nil
  | cons b bs ih =>
    have hb := b.toNat_lt
    have := HexText.cons (c := lowerHex (b.toNat / 16)) (d := lowerHex (b.toNat % 16)) (h := b.toNat / 16) (l := b.toNat % 16)
      ⟨by omega, .inl (lower_digit _ (by omega))⟩ ⟨by omega, .inl (lower_digit _ (by omega))⟩ ih
    have e : 16 * (b.toNat / 16) + b.toNat % 16 = b.toNat := by omega
    rw [e, u8_of] at this
    exact this

example : HexText "0aFf".toList [0x0a, 0xff] :=
  .cons (h := 0) (l := 10) ⟨by decide, by decide⟩ ⟨by decide, by decide⟩
    (.cons (h := 15) (l := 15) ⟨by decide, by decide⟩ ⟨by decide, by decide⟩ .nil)
example : fromHex "0aFf".toList = some [0x0a, 0xff] ∧ fromHex "0g".toList = none ∧ fromHex "é".toList = none := by decide

/-! ### C35 -/

private theorem test_bit : ∀ n < 256, ∀ k < 8,
    (UInt8.ofNat n &&& (1 <<< (7 - UInt8.ofNat k)) != 0) = n.testBit (7 - k) := by decide +kernel

private theorem updateLoop_get (bytes : Bytes) (i j : Nat) (es : List Bool) :
    (updateLoop bytes i es)[j]? = es[j]?.map fun e => (messageBit bytes (i + j)).getD e := by
  induction es generalizing i j with
  | nil => simp [updateLoop]
  | cons e es ih =>
    rcases hb : bytes[i / 8]? with _ | byte
    · have hnone : ∀ j, messageBit bytes (i + j) = none := by
        intro j
        have h1 : bytes.length ≤ i / 8 := by simpa using hb
        have h2 : bytes[(i + j) / 8]? = none := by
          rw [List.getElem?_eq_none_iff]
          exact Nat.le_trans h1 (Nat.div_le_div_right (by omega))
        simp [messageBit, h2]
      simp [updateLoop, hb, hnone]
    · simp only [updateLoop, hb]
      cases j with
      | zero =>
        have := test_bit byte.toNat byte.toNat_lt (i % 8) (by omega)
        rw [u8_of] at this
        simp [messageBit, hb, this]
      | succ j =>
        simp only [List.getElem?_cons_succ, ih]
        rw [show i + 1 + j = i + (j + 1) by omega]

/-- **C35**: after any bit field messages the field has its size, and piece `i` is there exactly if the last message
that covers it says so. -/
theorem C35_pieces (size : Nat) (messages : List Bytes) :
    let f := messages.foldl BitField.updateFromBytes (BitField.new size)
    f.entries.length = size ∧ ∀ i < size, f.entries[i]? = some (pieceAfter messages i) := by
  have key : ∀ (ms : List Bytes), ∀ i, (ms.foldl BitField.updateFromBytes (BitField.new size)).entries[i]? =
      if i < size then some (pieceAfter ms i) else none := by
    intro ms
    induction ms using List.reverseRecOn with
    | nil => intro i; simp [BitField.new, pieceAfter, List.getElem?_replicate]
    | append_singleton ms m ih =>
      intro i
      simp only [List.foldl_append, List.foldl_cons, List.foldl_nil, BitField.updateFromBytes, updateLoop_get, ih, Nat.zero_add]
      split
      · simp only [Option.map_some, pieceAfter, List.reverse_append, List.reverse_cons, List.reverse_nil, List.nil_append,
          List.cons_append, List.findSome?_cons]
        cases messageBit m i <;> rfl
      · rfl
  refine ⟨?_, fun i hi => by rw [key, if_pos hi]⟩
  have h1 : ∀ i, size ≤ i ↔ (messages.foldl BitField.updateFromBytes (BitField.new size)).entries[i]? = none := by
    intro i
    rw [key]
    split <;> simp <;> omega
  have h2 := (h1 size).mp (Nat.le_refl _)
  rw [List.getElem?_eq_none_iff] at h2
  by_contra hne
  have h3 := (h1 (messages.foldl BitField.updateFromBytes (BitField.new size)).entries.length).mpr (by simp)
  omega

private theorem count_foldl (es : List Bool) (k : Nat) (b : Bool) :
    es.foldl (fun count e => if e = b then count + 1 else count) k = k + es.countP (· = b) := by
  induction es generalizing k with
  | nil => simp
  | cons e es ih =>
    simp only [List.foldl_cons, ih, List.countP_cons]
    split <;> simp_all <;> omega

/-- **C35**: `num_set` and `num_clear` count the pieces that are there and that are missing. -/
theorem C35_counts (f : BitField) : f.numSet = f.entries.countP (· = true) ∧ f.numClear = f.entries.countP (· = false) ∧
    f.numSet + f.numClear = f.entries.length := by
  have h1 : f.numSet = f.entries.countP (· = true) := by
    have := count_foldl f.entries 0 true
    simpa [BitField.numSet] using this
  have h2 : f.numClear = f.entries.countP (· = false) := by
    have := count_foldl f.entries 0 false
    simpa [BitField.numClear] using this
  refine ⟨h1, h2, ?_⟩
  rw [h1, h2]
  induction f.entries with
  | nil => rfl
  | cons e es ih => cases e <;> simp_all <;> omega

example : ([[0x5a], [0xff, 0x80]].foldl BitField.updateFromBytes (BitField.new 10)).entries =
    [true, true, true, true, true, true, true, true, true, false] ∧
    ([[0xff, 0xff], [0x5a]].foldl BitField.updateFromBytes (BitField.new 10)).entries =
    [false, true, false, true, true, false, true, false, true, true] := by decide

end Ngfs.Util
