import Verif.Lemmas.Binary

/-! Helper lemmas about the binary writer and the QUIC integers. No claims here. -/
namespace Ngfs.Binary

open Ngfs.Spec

/-- A writer that, whether it succeeds or fails, only ever adds bytes at the end. -/
def Grows (w : WM Unit) : Prop := ∀ s : Bytes, ∃ t, (w s).2 = s ++ t

theorem Grows.of_appends {w : WM Unit} {e : Bytes} (h : Appends w e) : Grows w := by
  intro s; exact ⟨e, by rw [h s]⟩

theorem grows_bind {α : Type} {m : WM Unit} {f : Unit → WM α}
    (h1 : Grows m) (h2 : ∀ u s, ∃ t, (f u s).2 = s ++ t) (s : Bytes) :
    ∃ t, ((m >>= f) s).2 = s ++ t := by
  obtain ⟨t1, ht1⟩ := h1 s
  rw [bind_def]
  rcases hm : m s with ⟨r, s'⟩
  rw [hm] at ht1
  cases r with
  | error e => exact ⟨t1, ht1⟩
  | ok u =>
    obtain ⟨t2, ht2⟩ := h2 u s'
    simp only at ht1
    exact ⟨t1 ++ t2, by simp only; rw [ht2, ht1, List.append_assoc]⟩

theorem grows_items {α : Type} {item : α → WM Unit} {items : List α}
    (h : ∀ a ∈ items, Grows (item a)) : Grows (writeItems item items) := by
  induction items with
  | nil => intro s; exact ⟨[], by simp [writeItems, pure_def]⟩
  | cons a as ih =>
    intro s
    exact grows_bind (h a (by simp)) (fun _ => ih (fun b hb => h b (by simp [hb]))) s

theorem appends_items {α : Type} {item : α → WM Unit} {enc : α → Bytes} {items : List α}
    (h : ∀ a ∈ items, Appends (item a) (enc a)) : Appends (writeItems item items) (items.flatMap enc) := by
  induction items with
  | nil => intro s; simp [writeItems, pure_def]
  | cons a as ih =>
    intro s
    rw [writeItems, bind_ok (h a (by simp) s), ih (fun b hb => h b (by simp [hb]))]
    simp

theorem beBytes_two (n : Nat) : beBytes 2 n = [(beBytes 2 n).getD 0 0, (beBytes 2 n).getD 1 0] := by
  simp [beBytes]

theorem beBytes_three (n : Nat) :
    beBytes 3 n = [(beBytes 4 n).getD 1 0, (beBytes 4 n).getD 2 0, (beBytes 4 n).getD 3 0] := by
  simp [beBytes]

theorem patch1 (s c : Bytes) (z a : UInt8) : (s ++ [z] ++ c).set s.length a = s ++ [a] ++ c := by
  simp [List.set_append]

theorem patch2 (s c : Bytes) (z w a b : UInt8) :
    ((s ++ [z, w] ++ c).set s.length a).set (s.length + 1) b = s ++ [a, b] ++ c := by
  simp [List.set_append]

theorem patch3 (s c : Bytes) (z w x a b d : UInt8) :
    (((s ++ [z, w, x] ++ c).set s.length a).set (s.length + 1) b).set (s.length + 2) d
      = s ++ [a, b, d] ++ c := by
  simp [List.set_append]

/-- How the three list writers behave, given what the items do behind the reserved prefix. -/
theorem len8List_eq {α : Type} (item : α → WM Unit) (items : List α)
    (h : ∀ a ∈ items, Grows (item a)) (s : Bytes) :
    writeLen8List item items s = match writeItems item items (s ++ [0]) with
      | (.error e, _) => (.error e, s)
      | (.ok (), s') =>
        let c := s'.drop (s.length + 1)
        if c.length ≤ 255 then (.ok (), s ++ ([UInt8.ofNat c.length] ++ c))
        else (.error .valueTooLarge, s) := by
  obtain ⟨t, ht⟩ := grows_items h (s ++ [0])
  rcases hw : writeItems item items (s ++ [0]) with ⟨r, s'⟩
  rw [hw] at ht
  simp only at ht
  subst ht
  cases r with
  | error e => simp [writeLen8List, writeListInner, hw]
  | ok u =>
    have hd : (s ++ [0] ++ t).drop (s.length + 1) = t := by
      have : s.length + 1 = (s ++ [(0 : UInt8)]).length := by simp
      rw [this, List.drop_left]
    have hlen : (s ++ [0] ++ t).length - (s ++ [(0 : UInt8)]).length = t.length := by simp only [List.length_append]; omega
    simp only [writeLen8List, writeListInner, hw, hd, hlen]
    by_cases hc : t.length ≤ 255
    · rw [if_neg (by omega), if_pos hc, patch1]; simp
    · rw [if_pos (by omega), if_neg hc]; simp

theorem len16List_eq {α : Type} (item : α → WM Unit) (items : List α)
    (h : ∀ a ∈ items, Grows (item a)) (s : Bytes) :
    writeLen16List item items s = match writeItems item items (s ++ [0, 0]) with
      | (.error e, _) => (.error e, s)
      | (.ok (), s') =>
        let c := s'.drop (s.length + 2)
        if c.length ≤ 65535 then (.ok (), s ++ (beBytes 2 c.length ++ c))
        else (.error .valueTooLarge, s) := by
  obtain ⟨t, ht⟩ := grows_items h (s ++ [0, 0])
  rcases hw : writeItems item items (s ++ [0, 0]) with ⟨r, s'⟩
  rw [hw] at ht
  simp only at ht
  subst ht
  cases r with
  | error e => simp [writeLen16List, writeListInner, hw]
  | ok u =>
    have hd : (s ++ [0, 0] ++ t).drop (s.length + 2) = t := by
      have : s.length + 2 = (s ++ [(0 : UInt8), 0]).length := by simp
      rw [this, List.drop_left]
    have hlen : (s ++ [0, 0] ++ t).length - (s ++ [(0 : UInt8), 0]).length = t.length := by simp only [List.length_append]; omega
    simp only [writeLen16List, writeListInner, hw, hd, hlen]
    by_cases hc : t.length ≤ 65535
    · rw [if_neg (by omega), if_pos hc, patch2, ← beBytes_two]; simp
    · rw [if_pos (by omega), if_neg hc]; simp

theorem len24List_eq {α : Type} (item : α → WM Unit) (items : List α)
    (h : ∀ a ∈ items, Grows (item a)) (s : Bytes) :
    writeLen24List item items s = match writeItems item items (s ++ [0, 0, 0]) with
      | (.error e, _) => (.error e, s)
      | (.ok (), s') =>
        let c := s'.drop (s.length + 3)
        if c.length < 2 ^ 24 then (.ok (), s ++ (beBytes 3 c.length ++ c))
        else (.error .valueTooLarge, s) := by
  obtain ⟨t, ht⟩ := grows_items h (s ++ [0, 0, 0])
  rcases hw : writeItems item items (s ++ [0, 0, 0]) with ⟨r, s'⟩
  rw [hw] at ht
  simp only at ht
  subst ht
  cases r with
  | error e => simp [writeLen24List, writeListInner, hw]
  | ok u =>
    have hd : (s ++ [0, 0, 0] ++ t).drop (s.length + 3) = t := by
      have : s.length + 3 = (s ++ [(0 : UInt8), 0, 0]).length := by simp
      rw [this, List.drop_left]
    have hlen : (s ++ [0, 0, 0] ++ t).length - (s ++ [(0 : UInt8), 0, 0]).length = t.length := by simp only [List.length_append]; omega
    simp only [writeLen24List, writeListInner, hw, hd, hlen]
    have hs : (1 <<< 24 : Nat) = 2 ^ 24 := by rw [Nat.shiftLeft_eq, Nat.one_mul]
    by_cases hc : t.length < 2 ^ 24
    · rw [if_neg (by omega), if_pos hc, patch3, ← beBytes_three]; simp
    · rw [if_pos (by omega), if_neg hc]; simp

theorem u16Nested_eq (f : WM Unit) (h : Grows f) (s : Bytes) :
    writeU16Nested f s = match f (s ++ [0, 0]) with
      | (.error e, _) => (.error e, s)
      | (.ok (), s') =>
        let c := s'.drop (s.length + 2)
        (.ok (), s ++ (beBytes 2 c.length ++ c)) := by
  obtain ⟨t, ht⟩ := h (s ++ [0, 0])
  rcases hw : f (s ++ [0, 0]) with ⟨r, s'⟩
  rw [hw] at ht
  simp only at ht
  subst ht
  cases r with
  | error e => simp [writeU16Nested, hw]
  | ok u =>
    have hd : (s ++ [0, 0] ++ t).drop (s.length + 2) = t := by
      have : s.length + 2 = (s ++ [(0 : UInt8), 0]).length := by simp
      rw [this, List.drop_left]
    have hlen : (s ++ [0, 0] ++ t).length - (s ++ [(0 : UInt8), 0]).length = t.length := by simp only [List.length_append]; omega
    simp only [writeU16Nested, hw, hd, hlen]
    rw [patch2, ← beBytes_two]; simp

theorem grows_len8List {α : Type} {item : α → WM Unit} {items : List α}
    (h : ∀ a ∈ items, Grows (item a)) : Grows (writeLen8List item items) := by
  intro s
  rw [len8List_eq item items h]
  rcases writeItems item items (s ++ [0]) with ⟨r, s'⟩
  cases r with
  | error e => exact ⟨[], by simp⟩
  | ok u =>
    simp only
    split
    · exact ⟨_, rfl⟩
    · exact ⟨[], by simp⟩

theorem grows_len16List {α : Type} {item : α → WM Unit} {items : List α}
    (h : ∀ a ∈ items, Grows (item a)) : Grows (writeLen16List item items) := by
  intro s
  rw [len16List_eq item items h]
  rcases writeItems item items (s ++ [0, 0]) with ⟨r, s'⟩
  cases r with
  | error e => exact ⟨[], by simp⟩
  | ok u =>
    simp only
    split
    · exact ⟨_, rfl⟩
    · exact ⟨[], by simp⟩

theorem grows_len24List {α : Type} {item : α → WM Unit} {items : List α}
    (h : ∀ a ∈ items, Grows (item a)) : Grows (writeLen24List item items) := by
  intro s
  rw [len24List_eq item items h]
  rcases writeItems item items (s ++ [0, 0, 0]) with ⟨r, s'⟩
  cases r with
  | error e => exact ⟨[], by simp⟩
  | ok u =>
    simp only
    split
    · exact ⟨_, rfl⟩
    · exact ⟨[], by simp⟩

theorem grows_u16Nested {f : WM Unit} (h : Grows f) : Grows (writeU16Nested f) := by
  intro s
  rw [u16Nested_eq f h]
  rcases f (s ++ [0, 0]) with ⟨r, s'⟩
  cases r with
  | error e => exact ⟨[], by simp⟩
  | ok u => exact ⟨_, rfl⟩

theorem grows_throw (e : BinErr) : Grows (throw e) := fun s => ⟨[], by simp [throw]⟩
theorem grows_pure : Grows (pure ()) := fun s => ⟨[], by simp [pure_def]⟩
theorem grows_raw (d : Bytes) : Grows (writeRaw d) := fun _ => ⟨d, rfl⟩
theorem grows_u8 (b : UInt8) : Grows (writeU8 b) := fun _ => ⟨[b], rfl⟩
theorem grows_u16 (n : Nat) : Grows (writeU16 n) := fun _ => ⟨_, rfl⟩
theorem grows_u24 (n : Nat) : Grows (writeU24 n) := fun _ => ⟨_, rfl⟩
theorem grows_u32 (n : Nat) : Grows (writeU32 n) := fun _ => ⟨_, rfl⟩

theorem grows_seq {m n : WM Unit} (h1 : Grows m) (h2 : Grows n) : Grows (m >>= fun _ => n) :=
  fun s => grows_bind h1 (fun _ => h2) s

theorem len8Bytes_eq (d s : Bytes) : writeLen8Bytes d s =
    if d.length ≤ 255 then (.ok (), s ++ ([UInt8.ofNat d.length] ++ d)) else (.error .valueTooLarge, s) := by
  unfold writeLen8Bytes
  by_cases h : d.length ≤ 255
  · rw [if_neg (by omega), if_pos h]; simp [bind_def, writeU8, writeRaw]
  · rw [if_pos (by omega), if_neg h]; rfl

theorem len16Bytes_eq (d s : Bytes) : writeLen16Bytes d s =
    if d.length ≤ 65535 then (.ok (), s ++ (beBytes 2 d.length ++ d)) else (.error .valueTooLarge, s) := by
  unfold writeLen16Bytes
  by_cases h : d.length ≤ 65535
  · rw [if_neg (by omega), if_pos h]; simp [bind_def, writeU16, writeRaw]
  · rw [if_pos (by omega), if_neg h]; rfl

theorem len24Bytes_eq (d s : Bytes) : writeLen24Bytes d s =
    if d.length < 2 ^ 24 then (.ok (), s ++ (beBytes 3 d.length ++ d)) else (.error .valueTooLarge, s) := by
  unfold writeLen24Bytes
  have hs : (1 <<< 24 : Nat) = 2 ^ 24 := by rw [Nat.shiftLeft_eq, Nat.one_mul]
  by_cases h : d.length < 2 ^ 24
  · rw [if_neg (by omega), if_pos h]; simp [bind_def, writeU24, writeRaw]
  · rw [if_pos (by omega), if_neg h]; rfl

theorem grows_len8Bytes (d : Bytes) : Grows (writeLen8Bytes d) := by
  intro s; rw [len8Bytes_eq]; split
  · exact ⟨_, rfl⟩
  · exact ⟨[], by simp⟩
theorem grows_len16Bytes (d : Bytes) : Grows (writeLen16Bytes d) := by
  intro s; rw [len16Bytes_eq]; split
  · exact ⟨_, rfl⟩
  · exact ⟨[], by simp⟩
theorem grows_len24Bytes (d : Bytes) : Grows (writeLen24Bytes d) := by
  intro s; rw [len24Bytes_eq]; split
  · exact ⟨_, rfl⟩
  · exact ⟨[], by simp⟩

/-! ### QUIC integers -/

theorem readsAs_varintLoop (bs : Bytes) (v : Nat) :
    ReadsAs (varintLoop bs.length v) bs (v * 256 ^ bs.length + bigEndian bs) := by
  induction bs generalizing v with
  | nil => simpa [varintLoop, bigEndian, Nat.ofDigits] using readsAs_pure v
  | cons b bs ih =>
    have h := readsAs_bind (f := fun b => varintLoop bs.length ((v <<< 8) + b.toNat))
      (readsAs_u8 b) (ih ((v <<< 8) + b.toNat))
    have e : ((v <<< 8) + b.toNat) * 256 ^ bs.length + bigEndian bs
        = v * 256 ^ (b :: bs).length + bigEndian (b :: bs) := by
      rw [bigEndian_cons, List.length_cons, Nat.shiftLeft_eq, pow_succ]; ring
    rw [e] at h
    exact h

/-- Reading an integer whose first byte carries the length class `k`. -/
theorem readsAs_quic {b : UInt8} {rest : Bytes} {k : Nat} (hk : (b >>> (6 : UInt8)).toNat = k)
    (hr : rest.length = 2 ^ k - 1) :
    ReadsAs readQuicVarint (b :: rest)
      (b.toNat % 64 * 256 ^ rest.length + bigEndian rest) := by
  have h := readsAs_bind (f := fun v : UInt8 =>
      varintLoop (1 <<< (v >>> (6 : UInt8)).toNat - 1) (v.toNat &&& 0x3f))
    (readsAs_u8 b) (e2 := rest) (b := b.toNat % 64 * 256 ^ rest.length + bigEndian rest)
    (by
      have e : 1 <<< (b >>> (6 : UInt8)).toNat - 1 = rest.length := by
        rw [hk, hr, Nat.shiftLeft_eq, Nat.one_mul]
      rw [e, and_3f]
      exact readsAs_varintLoop rest _)
  exact h

theorem u8_shift6 (b : UInt8) : (b >>> (6 : UInt8)).toNat = b.toNat / 64 := by
  revert b; apply forall_u8; decide +kernel

theorem u8_or40 (b : UInt8) (h : b.toNat < 64) : (b ||| 0x40).toNat = b.toNat + 64 := by
  revert h; revert b; apply forall_u8; decide +kernel

theorem u8_or80 (b : UInt8) (h : b.toNat < 64) : (b ||| 0x80).toNat = b.toNat + 128 := by
  revert h; revert b; apply forall_u8; decide +kernel

theorem u8_orc0 (b : UInt8) : (b ||| 0xc0).toNat = b.toNat % 64 + 192 := by
  revert b; apply forall_u8; decide +kernel

theorem ofNat_shift_toNat (v k : Nat) : (UInt8.ofNat (v >>> k)).toNat = v / 2 ^ k % 256 := by
  simp [Nat.shiftRight_eq_div_pow]

theorem quic1 {v : Nat} (h : v ≤ 63) : quicVarintBytes v = beBytes 1 v := by
  unfold quicVarintBytes
  rw [if_pos h]
  rfl

theorem quic2 {v : Nat} (h1 : ¬ v ≤ 63) (h2 : v ≤ 16383) :
    quicVarintBytes v = (UInt8.ofNat (v >>> 8) ||| 0x40) :: beBytes 1 v := by
  unfold quicVarintBytes
  rw [if_neg h1, if_pos h2]
  rfl

theorem quic4 {v : Nat} (h1 : ¬ v ≤ 63) (h2 : ¬ v ≤ 16383) (h3 : v ≤ 1073741823) :
    quicVarintBytes v = (UInt8.ofNat (v >>> 24) ||| 0x80) :: beBytes 3 v := by
  unfold quicVarintBytes
  rw [if_neg h1, if_neg h2, if_pos h3]
  rfl

theorem quic8 {v : Nat} (h3 : ¬ v ≤ 1073741823) :
    quicVarintBytes v = (UInt8.ofNat (v >>> 56) ||| 0xc0) :: beBytes 7 v := by
  unfold quicVarintBytes
  rw [if_neg (by omega), if_neg (by omega), if_neg h3]
  rfl

theorem readsAs_quicVarint (v : Nat) :
    ReadsAs readQuicVarint (quicVarintBytes v) (v % 2 ^ 62) := by
  by_cases h1 : v ≤ 63
  · rw [quic1 h1]
    have hb : (UInt8.ofNat (v >>> 0)).toNat = v := by rw [ofNat_shift_toNat]; norm_num; omega
    have := readsAs_quic (b := UInt8.ofNat (v >>> 0)) (rest := []) (k := 0)
      (by rw [u8_shift6, hb]; omega) rfl
    rw [hb] at this
    have e : v % 64 * 256 ^ ([] : Bytes).length + bigEndian [] = v % 2 ^ 62 := by
      simp [bigEndian, Nat.ofDigits]; omega
    rw [e] at this
    exact this
  by_cases h2 : v ≤ 16383
  · rw [quic2 h1 h2]
    have hb := ofNat_shift_toNat v 8
    have hlt : (UInt8.ofNat (v >>> 8)).toNat < 64 := by rw [hb]; norm_num; omega
    have ho := u8_or40 _ hlt
    have := readsAs_quic (b := UInt8.ofNat (v >>> 8) ||| 0x40) (rest := beBytes 1 v) (k := 1)
      (by rw [u8_shift6, ho]; omega) (by simp)
    rw [ho, bigEndian_beBytes, beBytes_length, hb] at this
    have e : (v / 2 ^ 8 % 256 + 64) % 64 * 256 ^ 1 + v % 256 ^ 1 = v % 2 ^ 62 := by
      norm_num; omega
    rw [e] at this
    exact this
  by_cases h3 : v ≤ 1073741823
  · rw [quic4 h1 h2 h3]
    have hb := ofNat_shift_toNat v 24
    have hlt : (UInt8.ofNat (v >>> 24)).toNat < 64 := by rw [hb]; norm_num; omega
    have ho := u8_or80 _ hlt
    have := readsAs_quic (b := UInt8.ofNat (v >>> 24) ||| 0x80) (rest := beBytes 3 v) (k := 2)
      (by rw [u8_shift6, ho]; omega) (by simp)
    rw [ho, bigEndian_beBytes, beBytes_length, hb] at this
    have e : (v / 2 ^ 24 % 256 + 128) % 64 * 256 ^ 3 + v % 256 ^ 3 = v % 2 ^ 62 := by
      norm_num; omega
    rw [e] at this
    exact this
  · rw [quic8 h3]
    have hb := ofNat_shift_toNat v 56
    have ho := u8_orc0 (UInt8.ofNat (v >>> 56))
    have := readsAs_quic (b := UInt8.ofNat (v >>> 56) ||| 0xc0) (rest := beBytes 7 v) (k := 3)
      (by rw [u8_shift6, ho]; omega) (by simp)
    rw [ho, bigEndian_beBytes, beBytes_length, hb] at this
    have e : (v / 2 ^ 56 % 256 % 64 + 192) % 64 * 256 ^ 7 + v % 256 ^ 7 = v % 2 ^ 62 := by
      norm_num; omega
    rw [e] at this
    exact this

theorem quicVarintBytes_length (v : Nat) : (quicVarintBytes v).length =
    if v < 2 ^ 6 then 1 else if v < 2 ^ 14 then 2 else if v < 2 ^ 30 then 4 else 8 := by
  by_cases h1 : v ≤ 63
  · rw [quic1 h1, if_pos (by norm_num; omega)]; simp
  by_cases h2 : v ≤ 16383
  · rw [quic2 h1 h2, if_neg (by norm_num; omega), if_pos (by norm_num; omega)]; simp
  by_cases h3 : v ≤ 1073741823
  · rw [quic4 h1 h2 h3, if_neg (by norm_num; omega), if_neg (by norm_num; omega), if_pos (by norm_num; omega)]; simp
  · rw [quic8 h3, if_neg (by norm_num; omega), if_neg (by norm_num; omega), if_neg (by norm_num; omega)]; simp

end Ngfs.Binary
