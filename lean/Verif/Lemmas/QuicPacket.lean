import Verif.Lemmas.Quic
import Verif.Lemmas.QuicVarint

/-! Helper lemmas about QUIC frames and packets. No claims here. -/
namespace Ngfs.Quic
open Binary Spec Spec.Quic

/-! ### Frames -/

theorem framesOf_append {pg : UInt8} {a b : Bytes} {fs gs : List Frame} (ha : FramesOf pg a fs) (hb : FramesOf pg b gs) :
    FramesOf pg (a ++ b) (fs ++ gs) := by
  induction ha with
  | nil => exact hb
  | padding _ ih => exact .padding ih
  | ping _ ih => exact .ping ih
  | crypto ho hl _ ih =>
    rw [List.append_assoc]
    exact .crypto ho hl ih
  | close he ht hl _ ih =>
    rw [List.append_assoc]
    exact .close he ht hl ih

theorem framesOf_zeros (pg : UInt8) (n : Nat) : FramesOf pg (List.replicate n 0) [] := by
  induction n with
  | zero => exact .nil
  | succ n ih => exact .padding ih

theorem safe_frame : Safe Frame.read := by
  unfold Frame.read
  refine safe_bind safe_u8 fun t => ?_
  split
  · exact safe_pure _
  split
  · exact safe_pure _
  split
  · exact safe_bind safe_quicVarint fun _ => safe_bind safe_quicVarint fun _ => safe_bind (safe_fixed _) fun _ => safe_pure _
  split
  · exact safe_bind safe_quicVarint fun _ => safe_bind safe_quicVarint fun _ => safe_bind safe_quicVarint fun _ =>
      safe_bind (safe_fixed _) fun _ => safe_pure _
  · exact safe_throw (by simp) (by simp)

theorem frame_inv {r r' : Reader} {f : Option Frame} (h : Frame.read r = (.ok f, r')) :
    ∃ enc, 1 ≤ enc.length ∧ Took r r' enc ∧ ∀ rest fs, FramesOf 0x02 rest fs → FramesOf 0x02 (enc ++ rest) (f.toList ++ fs) := by
  unfold Frame.read at h
  obtain ⟨t, r1, h1, h⟩ := bind_ok_inv h
  have t1 := u8_inv h1
  split at h
  · rename_i ht
    simp only [pure_def, Prod.mk.injEq, Except.ok.injEq] at h
    obtain ⟨rfl, rfl⟩ := h
    subst ht
    exact ⟨_, by simp, t1, fun rest fs hr => .padding hr⟩
  split at h
  · rename_i ht
    simp only [pure_def, Prod.mk.injEq, Except.ok.injEq] at h
    obtain ⟨rfl, rfl⟩ := h
    subst ht
    exact ⟨_, by simp, t1, fun rest fs hr => .ping hr⟩
  split at h
  · rename_i ht
    obtain ⟨offset, r2, h2, h⟩ := bind_ok_inv h
    obtain ⟨len, r3, h3, h⟩ := bind_ok_inv h
    obtain ⟨data, r4, h4, h⟩ := bind_ok_inv h
    simp only [pure_def, Prod.mk.injEq, Except.ok.injEq] at h
    obtain ⟨rfl, rfl⟩ := h
    obtain ⟨oe, ho, t2⟩ := quic_inv h2
    obtain ⟨le, hl, t3⟩ := quic_inv h3
    obtain ⟨hlen, t4⟩ := fixed_inv h4
    subst hlen ht
    exact ⟨_, by simp, took_trans t1 (took_trans (took_trans t2 t3) t4), fun rest fs hr => .crypto ho hl hr⟩
  split at h
  · rename_i ht
    obtain ⟨code, r2, h2, h⟩ := bind_ok_inv h
    obtain ⟨ty, r3, h3, h⟩ := bind_ok_inv h
    obtain ⟨len, r4, h4, h⟩ := bind_ok_inv h
    obtain ⟨reason, r5, h5, h⟩ := bind_ok_inv h
    simp only [pure_def, Prod.mk.injEq, Except.ok.injEq] at h
    obtain ⟨rfl, rfl⟩ := h
    obtain ⟨ee, he, t2⟩ := quic_inv h2
    obtain ⟨te, ht', t3⟩ := quic_inv h3
    obtain ⟨le, hl, t4⟩ := quic_inv h4
    obtain ⟨hlen, t5⟩ := fixed_inv h5
    subst hlen ht
    exact ⟨_, by simp, took_trans t1 (took_trans (took_trans (took_trans t2 t3) t4) t5), fun rest fs hr => .close he ht' hl hr⟩
  · simp [Binary.throw] at h

theorem readsAs_padding : ReadsAs Frame.read [0x00] none := by
  unfold Frame.read
  exact readsAs_bind_pure (readsAs_u8 0x00) (readsAs_pure _)

theorem readsAs_ping : ReadsAs Frame.read [0x02] (some .ping) := by
  unfold Frame.read
  exact readsAs_bind_pure (readsAs_u8 0x02) (readsAs_pure _)

theorem readsAs_crypto {oe le data : Bytes} {offset : Nat} (ho : IsVarint oe offset) (hl : IsVarint le data.length) :
    ReadsAs Frame.read (0x06 :: (oe ++ le ++ data)) (some (.crypto offset data)) := by
  unfold Frame.read
  rw [List.append_assoc]
  refine readsAs_bind (e1 := [0x06]) (readsAs_u8 0x06) ?_
  refine readsAs_bind (readsAs_varint ho) (readsAs_bind (readsAs_varint hl) ?_)
  exact readsAs_bind_pure (readsAs_fixed data) (readsAs_pure _)

theorem readsAs_close {ee te le reason : Bytes} {code ty : Nat} (he : IsVarint ee code) (ht : IsVarint te ty)
    (hl : IsVarint le reason.length) :
    ReadsAs Frame.read (0x1c :: (ee ++ te ++ le ++ reason)) (some (.connectionClose code ty reason)) := by
  unfold Frame.read
  rw [List.append_assoc, List.append_assoc]
  refine readsAs_bind (e1 := [0x1c]) (readsAs_u8 0x1c) ?_
  refine readsAs_bind (readsAs_varint he) (readsAs_bind (readsAs_varint ht) (readsAs_bind (readsAs_varint hl) ?_))
  exact readsAs_bind_pure (readsAs_fixed reason) (readsAs_pure _)

theorem framesLoop_step {enc rest : Bytes} {f : Option Frame} {fs : List Frame} (hpos : 1 ≤ enc.length) (hf : ReadsAs Frame.read enc f)
    (ih : ∀ (n : Nat) (pre : Bytes), rest.length < n → (pre ++ rest).length < 2 ^ 64 →
      framesLoop n ⟨pre ++ rest, pre.length⟩ = (.ok fs, ⟨pre ++ rest, pre.length + rest.length⟩)) :
    ∀ (n : Nat) (pre : Bytes), (enc ++ rest).length < n → (pre ++ (enc ++ rest)).length < 2 ^ 64 →
      framesLoop n ⟨pre ++ (enc ++ rest), pre.length⟩ =
        (.ok (f.toList ++ fs), ⟨pre ++ (enc ++ rest), pre.length + (enc ++ rest).length⟩) := by
  intro n pre hn hlen
  obtain ⟨n, rfl⟩ : ∃ m, n = m + 1 := ⟨n - 1, by omega⟩
  rw [← List.append_assoc] at hlen ⊢
  have h1 := hf pre rest hlen
  have h2 := ih n (pre ++ enc) (by rw [List.length_append] at hn; omega) hlen
  have hrem : (⟨pre ++ enc ++ rest, pre.length⟩ : Reader).remaining > 0 := by
    simp only [Reader.remaining, List.length_append] at hpos ⊢; omega
  unfold framesLoop
  simp only [if_pos hrem, h1]
  rw [List.length_append] at h2
  rw [h2]
  simp only [Prod.mk.injEq, Reader.mk.injEq, true_and, List.length_append]
  omega

theorem framesLoop_complete {data : Bytes} {fs : List Frame} (h : FramesOf 0x02 data fs) :
    ∀ (n : Nat) (pre : Bytes), data.length < n → (pre ++ data).length < 2 ^ 64 →
      framesLoop n ⟨pre ++ data, pre.length⟩ = (.ok fs, ⟨pre ++ data, pre.length + data.length⟩) := by
  induction h with
  | nil =>
    intro n pre hn _
    obtain ⟨n, rfl⟩ : ∃ m, n = m + 1 := ⟨n - 1, by simp at hn; omega⟩
    simp [framesLoop, Reader.remaining]
  | padding _ ih => exact framesLoop_step (enc := [0x00]) (by simp) readsAs_padding ih
  | ping _ ih => exact framesLoop_step (enc := [0x02]) (by simp) readsAs_ping ih
  | crypto ho hl _ ih => exact framesLoop_step (by simp) (readsAs_crypto ho hl) ih
  | close he ht hl _ ih => exact framesLoop_step (by simp) (readsAs_close he ht hl) ih

theorem framesLoop_sound (n : Nat) (r r' : Reader) (fs : List Frame) (h : framesLoop n r = (.ok fs, r')) :
    FramesOf 0x02 (r.buf.drop r.offset) fs := by
  induction n generalizing r fs with
  | zero => simp [framesLoop, Binary.throw] at h
  | succ n ih =>
    unfold framesLoop at h
    by_cases hrem : r.remaining > 0
    · rw [if_pos hrem] at h
      rcases hp : Frame.read r with ⟨res, r1⟩
      rw [hp] at h
      rcases res with e | f
      · simp at h
      · simp only at h
        rcases hl : framesLoop n r1 with ⟨res2, r2⟩
        rw [hl] at h
        rcases res2 with e | gs
        · simp at h
        · simp only [Prod.mk.injEq, Except.ok.injEq] at h
          obtain ⟨rfl, rfl⟩ := h
          obtain ⟨enc, -, ht, hk⟩ := frame_inv hp
          rw [ht.2.1]
          exact hk _ _ (ih r1 gs hl)
    · rw [if_neg hrem] at h
      simp only [Prod.mk.injEq, Except.ok.injEq] at h
      obtain ⟨rfl, rfl⟩ := h
      have : r.buf.drop r.offset = [] := List.drop_eq_nil_iff.mpr (by simp only [Reader.remaining] at hrem; omega)
      rw [this]
      exact .nil

theorem framesLoop_safe (n : Nat) (r : Reader) (hb : InBounds r) (hn : r.remaining < n) :
    (framesLoop n r).1 ≠ .error .panic ∧ (framesLoop n r).1 ≠ .error .fuel := by
  induction n generalizing r with
  | zero => omega
  | succ n ih =>
    unfold framesLoop
    by_cases hrem : r.remaining > 0
    · rw [if_pos hrem]
      have hs := safe_frame r hb
      rcases hp : Frame.read r with ⟨res, r1⟩
      rw [hp] at hs
      obtain ⟨s1, s2, s3, s4, s5⟩ := hs
      rcases res with e | p
      · simp only at s4 s5 ⊢
        exact ⟨by simpa using s4, by simpa using s5⟩
      · simp only at s1 s2 s3 ⊢
        obtain ⟨enc, hpos, ht, -⟩ := frame_inv hp
        have hlt : r1.remaining < n := by
          have h2 := ht.2.2
          simp only [Reader.remaining] at *
          rw [s1]
          omega
        obtain ⟨i1, i2⟩ := ih r1 s3 hlt
        rcases hl : framesLoop n r1 with ⟨res2, r2⟩
        rw [hl] at i1 i2
        rcases res2 with e | qs
        · exact ⟨by simpa using i1, by simpa using i2⟩
        · exact ⟨by simp, by simp⟩
    · rw [if_neg hrem]
      exact ⟨by simp, by simp⟩

theorem parseFrames_iff {data : Bytes} (hl : data.length < 2 ^ 64) (fs : List Frame) :
    parseFrames data = .ok fs ↔ FramesOf 0x02 data fs := by
  constructor
  · intro h
    rcases hr : framesLoop (data.length + 1) (.new data) with ⟨res, r'⟩
    rw [parseFrames, hr] at h
    simp only at h
    subst h
    exact framesLoop_sound _ _ _ _ hr
  · intro h
    have := framesLoop_complete h (data.length + 1) [] (by omega) (by simpa using hl)
    simp only [List.nil_append, List.length_nil, Nat.zero_add] at this
    rw [parseFrames, Reader.new, this]

theorem parseFrames_safe (data : Bytes) : parseFrames data ≠ .error .panic ∧ parseFrames data ≠ .error .fuel :=
  framesLoop_safe (data.length + 1) (.new data) (by simp [InBounds, Reader.new]) (by simp [Reader.new, Reader.remaining])

/-! ### Headers -/

theorem first_byte (b : UInt8) :
    b.toNat / 16 = 0xc ↔ (b &&& 0x40 == 0) = false ∧ (b &&& 0x80 == 0x80) = true ∧ (b &&& 0x30) >>> (4 : UInt8) = 0 := by
  revert b; apply forall_u8; decide +kernel

theorem short_byte (b : UInt8) : ((b &&& 0x40 == 0) = false ∧ (b &&& 0x80 == 0x80) = false) ↔ b.toNat / 64 = 1 := by
  revert b; apply forall_u8; decide +kernel

/-- The connection identifiers on the wire. -/
def longBytes (b0 : UInt8) (dcid scid : Bytes) : Bytes :=
  b0 :: ([0, 0, 0, 1] ++ (UInt8.ofNat dcid.length :: dcid) ++ (UInt8.ofNat scid.length :: scid))

theorem readsAs_long (b0 : UInt8) {dcid scid : Bytes} (hd : dcid.length ≤ 20) (hs : scid.length ≤ 20) :
    ReadsAs readLongHeader (longBytes b0 dcid scid) (b0, dcid, scid) := by
  unfold readLongHeader longBytes
  rw [List.append_assoc]
  refine readsAs_bind (e1 := [b0]) (readsAs_u8 b0) ?_
  refine readsAs_bind (a := 1) (readsAs_u32 (n := 1) (by norm_num)) ?_
  simp only [ne_eq, not_true_eq_false, if_false]
  have hd' : (UInt8.ofNat dcid.length).toNat = dcid.length := toNat_ofNat_lt (by omega)
  have hs' : (UInt8.ofNat scid.length).toNat = scid.length := toNat_ofNat_lt (by omega)
  refine readsAs_bind (e1 := [UInt8.ofNat dcid.length]) (readsAs_u8 _) ?_
  have h1 : ¬ (UInt8.ofNat dcid.length).toNat > 20 := by omega
  rw [if_neg h1]
  refine readsAs_bind (readsAs_fixed' dcid hd') ?_
  refine readsAs_bind (e1 := [UInt8.ofNat scid.length]) (readsAs_u8 _) ?_
  have h2 : ¬ (UInt8.ofNat scid.length).toNat > 20 := by omega
  rw [if_neg h2]
  exact readsAs_bind_pure (readsAs_fixed' scid hs') (readsAs_pure _)

theorem uint_inv {n v : Nat} {r r' : Reader} (h : readUint n r = (.ok v, r')) :
    ∃ d : Bytes, d.length = n ∧ v = beNat d ∧ Took r r' d := by
  obtain ⟨e, r1, h1, h2⟩ := bind_ok_inv h
  obtain ⟨rfl, rfl, hl⟩ := check_inv h1
  simp only [act_apply, Prod.mk.injEq, Except.ok.injEq] at h2
  obtain ⟨rfl, rfl⟩ := h2
  have hlen : (slice r1.buf r1.offset (r1.offset + n)).length = n := by
    simp only [slice, List.length_take, List.length_drop]; omega
  refine ⟨_, hlen, rfl, rfl, ?_, ?_⟩
  · simp only [slice, Nat.add_sub_cancel_left]
    rw [← List.drop_drop, List.take_append_drop]
  · simp only [hlen]

theorem long_inv {r r' : Reader} {b0 : UInt8} {dcid scid : Bytes} (h : readLongHeader r = (.ok (b0, dcid, scid), r')) :
    dcid.length ≤ 20 ∧ scid.length ≤ 20 ∧ Took r r' (longBytes b0 dcid scid) := by
  unfold readLongHeader at h
  obtain ⟨b, r1, h1, h⟩ := bind_ok_inv h
  obtain ⟨v, r2, h2, h⟩ := bind_ok_inv h
  split at h
  · simp [Binary.throw] at h
  rename_i hv
  obtain ⟨dl, r3, h3, h⟩ := bind_ok_inv h
  split at h
  · simp [Binary.throw] at h
  rename_i hdl
  obtain ⟨d, r4, h4, h⟩ := bind_ok_inv h
  obtain ⟨sl, r5, h5, h⟩ := bind_ok_inv h
  split at h
  · simp [Binary.throw] at h
  rename_i hsl
  obtain ⟨sc, r6, h6, h⟩ := bind_ok_inv h
  simp only [pure_def, Prod.mk.injEq, Except.ok.injEq] at h
  obtain ⟨⟨rfl, rfl, rfl⟩, rfl⟩ := h
  obtain ⟨ve, hvl, hve, t2⟩ := uint_inv h2
  obtain ⟨hd, t4⟩ := fixed_inv h4
  obtain ⟨hs, t6⟩ := fixed_inv h6
  refine ⟨by omega, by omega, ?_⟩
  have hve' : ve = [0, 0, 0, 1] := by
    apply bigEndian_inj (by simpa using hvl)
    rw [← beNat_eq, ← hve]
    have : v = 1 := by simpa using hv
    rw [this]; decide
  subst hve'
  have ed : UInt8.ofNat d.length = dl := by rw [hd]; exact u8_ofNat_toNat dl
  have es : UInt8.ofNat sc.length = sl := by rw [hs]; exact u8_ofNat_toNat sl
  have t := took_trans (u8_inv h1) (took_trans t2 (took_trans (u8_inv h3) (took_trans t4 (took_trans (u8_inv h5) t6))))
  unfold longBytes
  rw [ed, es, List.append_assoc]
  exact t

theorem safe_long : Safe readLongHeader := by
  unfold readLongHeader
  refine safe_bind safe_u8 fun _ => safe_bind (safe_uint 4) fun _ => ?_
  split
  · exact safe_throw (by simp) (by simp)
  refine safe_bind safe_u8 fun _ => ?_
  split
  · exact safe_throw (by simp) (by simp)
  refine safe_bind (safe_fixed _) fun _ => safe_bind safe_u8 fun _ => ?_
  split
  · exact safe_throw (by simp) (by simp)
  exact safe_bind (safe_fixed _) fun _ => safe_pure _

/-- The part of the header `parse_initial` reads. -/
def initialReader : RM (Bytes × Nat) := do
  let tokenLen ← readQuicVarint
  let token ← readFixed tokenLen
  let length ← readQuicVarint
  pure (token, length)

theorem safe_initial : Safe initialReader :=
  safe_bind safe_quicVarint fun _ => safe_bind (safe_fixed _) fun _ => safe_bind safe_quicVarint fun _ => safe_pure _

theorem readsAs_initial {tle token le : Bytes} {length : Nat} (ht : IsVarint tle token.length) (hl : IsVarint le length) :
    ReadsAs initialReader (tle ++ token ++ le) (token, length) := by
  rw [List.append_assoc]
  exact readsAs_bind (readsAs_varint ht) (readsAs_bind (readsAs_fixed token) (readsAs_bind_pure (readsAs_varint hl) (readsAs_pure _)))

theorem initial_inv {r r' : Reader} {token : Bytes} {length : Nat} (h : initialReader r = (.ok (token, length), r')) :
    ∃ tle le, IsVarint tle token.length ∧ IsVarint le length ∧ Took r r' (tle ++ token ++ le) := by
  obtain ⟨tl, r1, h1, h⟩ := bind_ok_inv h
  obtain ⟨t, r2, h2, h⟩ := bind_ok_inv h
  obtain ⟨l, r3, h3, h⟩ := bind_ok_inv h
  simp only [pure_def, Prod.mk.injEq, Except.ok.injEq] at h
  obtain ⟨⟨rfl, rfl⟩, rfl⟩ := h
  obtain ⟨tle, ht, t1⟩ := quic_inv h1
  obtain ⟨hlen, t2⟩ := fixed_inv h2
  obtain ⟨le, hl, t3⟩ := quic_inv h3
  subst hlen
  exact ⟨tle, le, ht, hl, took_trans (took_trans t1 t2) t3⟩

/-- What is done with a packet with this header. -/
def parseBody (c : Crypto) (secretsFor : Bytes → Option Secrets) (dcid scid token packet : Bytes) (length off : Nat) :
    Except Err Initial :=
  match secretsFor dcid with
  | none => .error .crypt
  | some s =>
    match decryptPayload c packet off length s with
    | .error e => .error e
    | .ok (packetNo, payload) =>
      match parseFrames payload with
      | .error e => .error (.bin e)
      | .ok frames => .ok ⟨dcid, scid, token, packetNo, frames⟩

theorem parseInitial_eq (c : Crypto) (secretsFor : Bytes → Option Secrets) (dcid scid packet : Bytes) (off : Nat) :
    parseInitial c secretsFor dcid scid off packet =
      match initialReader ⟨packet, off⟩ with
      | (.error e, _) => .error (.bin e)
      | (.ok (token, length), r) => parseBody c secretsFor dcid scid token packet length r.offset := by
  unfold parseInitial
  change (match initialReader ⟨packet, off⟩ with
    | (Except.error e, _) => Except.error (Err.bin e)
    | (Except.ok (token, length), r) => _) = _
  rcases initialReader ⟨packet, off⟩ with ⟨res, r⟩
  rcases res with e | ⟨token, length⟩ <;> rfl

theorem parsePacket_header (c : Crypto) (secretsFor : Bytes → Option Secrets) {packet dcid scid token : Bytes} {length off : Nat}
    (h : InitialHeader packet dcid scid token length off) (hl : packet.length < 2 ^ 64) :
    parsePacket c secretsFor packet = parseBody c secretsFor dcid scid token packet length off := by
  obtain ⟨b0, tle, le, rest, he, hb, hd, hs, ht, hle, hoff⟩ := h
  have he' : packet = longBytes b0 dcid scid ++ (tle ++ token ++ le) ++ rest := he
  obtain ⟨f1, f2, f3⟩ := (first_byte b0).mp hb
  have h1 := readsAs_long b0 hd hs [] ((tle ++ token ++ le) ++ rest) (by
    rw [List.nil_append, ← List.append_assoc, ← he']; exact hl)
  rw [List.nil_append, ← List.append_assoc, ← he', List.length_nil, Nat.zero_add] at h1
  have h2 := readsAs_initial ht hle (longBytes b0 dcid scid) rest (by rw [← he']; exact hl)
  rw [← he'] at h2
  have hoff' : (longBytes b0 dcid scid).length + (tle ++ token ++ le).length = off := by
    have := congrArg List.length he'
    simp only [List.length_append] at this ⊢; omega
  rw [hoff'] at h2
  have hp : parsePacket c secretsFor packet = parseLongHeader c secretsFor packet := by
    rw [he]
    simp only [List.cons_append, parsePacket, f1, f2, if_true]
    simp
  rw [hp, parseLongHeader, Reader.new, h1]
  simp only [f3, if_true]
  rw [parseInitial_eq, h2]

/-- What is received is either refused on account of its header, or has an Initial header, or has a short header. -/
theorem parsePacket_cases (c : Crypto) (secretsFor : Bytes → Option Secrets) (packet : Bytes) (hl : packet.length < 2 ^ 64) :
    (parsePacket c secretsFor packet = .error .text) ∨
    (∃ e, parsePacket c secretsFor packet = .error (.bin e) ∧ e ≠ .panic ∧ e ≠ .fuel ∧
      ¬ ∃ dcid scid token length off, InitialHeader packet dcid scid token length off) ∨
    (∃ dcid scid token length off, InitialHeader packet dcid scid token length off) ∨
    (parsePacket c secretsFor packet = .error .panic ∧ ∃ b0 rest, packet = b0 :: rest ∧ b0.toNat / 64 = 1) := by
  by_cases hex : ∃ dcid scid token length off, InitialHeader packet dcid scid token length off
  · exact .inr (.inr (.inl hex))
  cases hpk : packet with
  | nil => exact .inl rfl
  | cons b0 rest =>
    by_cases f1 : (b0 &&& 0x40 == 0) = true
    · left; simp only [parsePacket, f1, if_true]
    have f1' : (b0 &&& 0x40 == 0) = false := by simpa using f1
    by_cases f2 : (b0 &&& 0x80 == 0x80) = true
    · have hp : parsePacket c secretsFor (b0 :: rest) = parseLongHeader c secretsFor (b0 :: rest) := by
        simp only [parsePacket, f1', f2, if_true]
        simp
      rw [hp, ← hpk, parseLongHeader]
      have hb : InBounds (.new packet) := by simp [InBounds, Reader.new]
      have hs := safe_long (.new packet) hb
      rcases h1 : readLongHeader (.new packet) with ⟨res, r1⟩
      rw [h1] at hs
      rcases res with e | ⟨b, dcid, scid⟩
      · exact .inr (.inl ⟨e, rfl, by simpa using hs.2.2.2.1, by simpa using hs.2.2.2.2, hex⟩)
      simp only
      obtain ⟨hd, hsl, ht⟩ := long_inv h1
      by_cases f3 : (b &&& 0x30) >>> (4 : UInt8) = 0
      · rw [if_pos f3, parseInitial_eq]
        have hs2 := safe_initial r1 hs.2.2.1
        have hr1 : (⟨packet, r1.offset⟩ : Reader) = r1 := by
          have h' : r1.buf = packet := ht.1
          rw [← h']
        rw [hr1]
        rcases h2 : initialReader r1 with ⟨res, r2⟩
        rw [h2] at hs2
        rcases res with e | ⟨token, length⟩
        · exact .inr (.inl ⟨e, rfl, by simpa using hs2.2.2.2.1, by simpa using hs2.2.2.2.2, hex⟩)
        exfalso
        obtain ⟨tle, le, htl, hle, ht2⟩ := initial_inv h2
        have ht3 := took_trans ht ht2
        have hbuf := ht3.2.1
        simp only [Reader.new, List.drop_zero] at hbuf
        refine hex ⟨dcid, scid, token, length, r2.offset, b, tle, le, r2.buf.drop r2.offset, hbuf, ?_, hd, hsl, htl, hle, ?_⟩
        · refine (first_byte b).mpr ?_
          have hbb : b = b0 := by
            rw [hpk] at hbuf
            simp only [longBytes, List.cons_append, List.cons.injEq] at hbuf
            exact hbuf.1.symm
          rw [hbb] at f3 ⊢
          exact ⟨f1', f2, f3⟩
        · have := congrArg List.length hbuf
          have h3 := ht3.2.2
          simp only [Reader.new, List.length_append] at this h3 ⊢
          omega
      · left; rw [if_neg f3]
    · have f2' : (b0 &&& 0x80 == 0x80) = false := by simpa using f2
      refine .inr (.inr (.inr ⟨?_, b0, rest, rfl, (short_byte b0).mp ⟨f1', f2'⟩⟩))
      simp only [parsePacket, f1', f2']
      simp

theorem decrypt_panics {c : Crypto} {p : Bytes} {off len : Nat} {s : Secrets} (h : decryptPayload c p off len s = .error .panic) :
    off + 20 ≤ p.length ∧ (len < 4 ∨ p.length < off + len) := by
  unfold decryptPayload at h
  by_cases h20 : off + 20 ≤ p.length
  · refine ⟨h20, ?_⟩
    rw [remove_ok c s h20] at h
    simp only at h
    split at h
    · split at h <;> simp at h
    · rename_i hn
      rw [unprotect_length] at hn
      have := pnLength_le ((unprotectWith (c.aes s.hp (sampleOf off p)) off p).getD 0 0)
      omega
  · rw [remove_err c s (by omega)] at h
    simp at h

theorem decrypt_error {c : Crypto} {p : Bytes} {off len : Nat} {s : Secrets} {e : BinErr} : decryptPayload c p off len s ≠ .error (.bin e) := by
  unfold decryptPayload
  by_cases h20 : off + 20 ≤ p.length
  · rw [remove_ok c s h20]
    simp only
    split
    · split <;> simp
    · simp
  · rw [remove_err c s (by omega)]
    simp

/-! ### Encoding -/

theorem maskLoop_front {mask front t : Bytes} {n : Nat} : maskLoop mask front.length n (front ++ t) = front ++ maskLoop mask 0 n t := by
  induction front with
  | nil => rfl
  | cons x xs ih =>
    rw [List.cons_append, maskLoop_cons (by simp), List.cons_append]
    simp only [List.length_cons, Nat.add_sub_cancel]
    rw [ih]

theorem protect_front (mask : Bytes) (b0 : UInt8) (ft t : Bytes) :
    protectWith mask (b0 :: ft).length (b0 :: ft ++ t) = maskFirst mask b0 :: ft ++ maskLoop mask 0 (pnLength b0) t := by
  have := maskLoop_front (mask := mask) (front := maskFirst mask b0 :: ft) (t := t) (n := pnLength b0)
  simpa [protectWith] using this

theorem u8_and_f0 (b : UInt8) : (b &&& 0xf0).toNat = b.toNat / 16 * 16 := by
  revert b; apply forall_u8; decide +kernel

theorem maskFirst_long (mask : Bytes) {b : UInt8} (h : 128 ≤ b.toNat) : (maskFirst mask b).toNat / 16 = b.toNat / 16 := by
  have h1 : (b ^^^ (mask.getD 0 0 &&& 0x0f)) &&& 0xf0 = b &&& 0xf0 := u8_xor_and_and _ _ _ _ (by decide)
  have h2 := congrArg UInt8.toNat h1
  rw [u8_and_f0, u8_and_f0] at h2
  have hb := u8_long b
  have : maskFirst mask b = b ^^^ (mask.getD 0 0 &&& 0x0f) := by
    have hlt : ¬ b.toNat < 128 := by omega
    simp [maskFirst, hb, hlt]
  rw [this]; omega

/-- The two byte form of a length. -/
theorem isVarint_two {n : Nat} (h : n < 2 ^ 14) : IsVarint [UInt8.ofNat (n >>> 8) ||| 0x40, UInt8.ofNat n] n := by
  have hb := ofNat_shift_toNat n 8
  have hlt : (UInt8.ofNat (n >>> 8)).toNat < 64 := by rw [hb]; norm_num; omega
  have ho := u8_or40 _ hlt
  refine ⟨_, _, rfl, ?_, ?_⟩
  · rw [ho, show ((UInt8.ofNat (n >>> 8)).toNat + 64) / 64 = 1 by omega]; rfl
  · rw [ho, bigEndian_cons]
    simp only [hb, List.length_nil, List.length_singleton]
    have : bigEndian [] = 0 := rfl
    rw [this]
    simp
    omega

/-- The header up to the packet number, the padding and the length that `encode_initial_packet` writes. -/
def encFront (dcid scid token : Bytes) (length : Nat) : Bytes :=
  longBytes 0xc3 dcid scid ++ (quicVarintBytes token.length ++ token ++ [UInt8.ofNat (length >>> 8) ||| 0x40, UInt8.ofNat length])

/-- How many bytes of padding are added. -/
def encPad (dcid scid token payload : Bytes) : Nat :=
  1200 - (7 + dcid.length + scid.length + (quicVarintBytes token.length).length + token.length + 6 + payload.length + 16)

/-- The length written. -/
def encLength (dcid scid token payload : Bytes) : Nat := 20 + payload.length + encPad dcid scid token payload

theorem encode_eq (c : Crypto) (dcid scid : Bytes) (pn : Nat) (token payload : Bytes) (s : Secrets) :
    encodeInitialPacket c dcid scid pn token payload s =
      encryptPayload c pn (encFront dcid scid token (encLength dcid scid token payload) ++ beBytes 4 pn)
        (encFront dcid scid token (encLength dcid scid token payload)).length
        (payload ++ List.replicate (encPad dcid scid token payload) 0)
        ((payload ++ List.replicate (encPad dcid scid token payload) 0).length + 16) s := by
  have hlen : (([0xc3] ++ [0x00, 0x00, 0x00, 0x01] ++ [UInt8.ofNat dcid.length] ++ dcid ++ [UInt8.ofNat scid.length] ++ scid ++
    quicVarintBytes token.length ++ token : Bytes)).length =
      7 + dcid.length + scid.length + (quicVarintBytes token.length).length + token.length := by
    simp only [List.length_append, List.length_cons, List.length_nil]; omega
  unfold encodeInitialPacket
  simp only
  rw [hlen]
  have hp : 1200 - (7 + dcid.length + scid.length + (quicVarintBytes token.length).length + token.length + 2 + 4 + payload.length + tagLen)
      = encPad dcid scid token payload := by
    simp only [encPad, tagLen]
  rw [hp]
  have hL : 4 + payload.length + tagLen + encPad dcid scid token payload = encLength dcid scid token payload := by
    simp only [encLength, tagLen]; omega
  rw [hL]
  congr 1
  · simp [encFront, longBytes]
  · simp only [encFront, longBytes, List.length_append, List.length_cons, List.length_nil]; omega
  · simp only [List.length_append, List.length_replicate, encLength]; omega

theorem encoded_header {c : Crypto} {dcid scid token payload : Bytes} {pn : Nat} {s : Secrets} {packet : Bytes} (hd : dcid.length ≤ 20)
    (hs : scid.length ≤ 20) (ht : token.length < 2 ^ 62) (hl : encLength dcid scid token payload < 2 ^ 14)
    (h : encodeInitialPacket c dcid scid pn token payload s = .ok packet) (rest : Bytes) :
    InitialHeader (packet ++ rest) dcid scid token (encLength dcid scid token payload)
      (encFront dcid scid token (encLength dcid scid token payload)).length := by
  rw [encode_eq] at h
  obtain ⟨sealed, -, -, -, -, rfl⟩ := encrypt_inv h
  set L := encLength dcid scid token payload
  have hf : encFront dcid scid token L = 0xc3 :: (encFront dcid scid token L).tail := rfl
  generalize c.aes s.hp _ = mask
  have hp : protectWith mask (encFront dcid scid token L).length (encFront dcid scid token L ++ beBytes 4 pn ++ sealed) =
      maskFirst mask 0xc3 :: (encFront dcid scid token L).tail ++ maskLoop mask 0 (pnLength 0xc3) (beBytes 4 pn ++ sealed) := by
    rw [List.append_assoc]
    exact protect_front mask 0xc3 (encFront dcid scid token L).tail (beBytes 4 pn ++ sealed)
  rw [hp]
  refine ⟨maskFirst mask 0xc3, quicVarintBytes token.length, [UInt8.ofNat (L >>> 8) ||| 0x40, UInt8.ofNat L],
    maskLoop mask 0 (pnLength 0xc3) (beBytes 4 pn ++ sealed) ++ rest, ?_, ?_, hd, hs, isVarint_quic ht, isVarint_two hl, ?_⟩
  · simp [encFront, longBytes]
  · rw [maskFirst_long mask (by decide)]; decide
  · simp only [encFront, longBytes, List.length_append, List.length_cons, List.length_tail]; omega

end Ngfs.Quic
