import Verif.Spec.Mplex
import Verif.Lemmas.Varint
import Mathlib.Data.List.TakeWhile

/-! Lemmas about the multiplexer: extracting varints and frames, and the read loop. -/
namespace Ngfs.Mplex
open Varint Spec Spec.Mplex

theorem high_iff (b : UInt8) : (b &&& 0x80 != 0) = true ↔ 128 ≤ b.toNat := by
  revert b; apply forall_u8; decide +kernel

theorem takeWhile_high {init : Bytes} {last : UInt8} {rest : Bytes}
    (hi : ∀ b ∈ init, 128 ≤ b.toNat) (hl : last.toNat < 128) :
    (init ++ last :: rest).takeWhile (fun b => b &&& 0x80 != 0) = init := by
  rw [List.takeWhile_append_of_pos (fun b hb => (high_iff b).mpr (hi b hb))]
  rw [List.takeWhile_cons_of_neg (fun h => by have := (high_iff last).mp h; omega), List.append_nil]

/-- How far a varint reaches does not depend on what follows. -/
theorem extract_split (init : Bytes) (last : UInt8) (rest : Bytes)
    (hi : ∀ b ∈ init, 128 ≤ b.toNat) (hl : last.toNat < 128) :
    extractVarint (init ++ last :: rest) =
      match decodeU64 (init ++ [last]) with
      | .error _ => .error (.io .invalidData)
      | .ok v => .ok (some (v, rest)) := by
  simp only [extractVarint, takeWhile_high hi hl, List.drop_left]
  cases decodeU64 (init ++ [last]) <;> rfl

theorem extract_all_high (bs : Bytes) (h : ∀ b ∈ bs, 128 ≤ b.toNat) : extractVarint bs = .ok none := by
  have : bs.takeWhile (fun b => b &&& 0x80 != 0) = bs :=
    List.takeWhile_eq_self_iff.mpr (fun b hb => (high_iff b).mpr (h b hb))
  simp only [extractVarint, this, List.drop_length]

/-- A string is all continuation bytes, or has a first final byte. -/
theorem high_or_split (bs : Bytes) : (∀ b ∈ bs, 128 ≤ b.toNat) ∨
    ∃ init last rest, bs = init ++ last :: rest ∧ (∀ b ∈ init, 128 ≤ b.toNat) ∧ last.toNat < 128 := by
  induction bs with
  | nil => left; simp
  | cons b bs ih =>
    by_cases hb : b.toNat < 128
    · right; exact ⟨[], b, bs, rfl, by simp, hb⟩
    · rcases ih with h | ⟨i, l, r, rfl, hi, hl⟩
      · left; intro c hc; rcases List.mem_cons.mp hc with rfl | hc
        · omega
        · exact h c hc
      · right; refine ⟨b :: i, l, r, rfl, ?_, hl⟩
        intro c hc; rcases List.mem_cons.mp hc with rfl | hc
        · omega
        · exact hi c hc

theorem extract_none_iff (bs : Bytes) : extractVarint bs = .ok none ↔ ∀ b ∈ bs, 128 ≤ b.toNat := by
  constructor
  · intro h
    rcases high_or_split bs with hh | ⟨i, l, r, rfl, hi, hl⟩
    · exact hh
    · rw [extract_split i l r hi hl] at h
      cases hd : decodeU64 (i ++ [l]) <;> simp [hd] at h
  · exact extract_all_high bs

theorem extract_some_iff (bs : Bytes) (v : Nat) (rest : Bytes) :
    extractVarint bs = .ok (some (v, rest)) ↔
      ∃ p, bs = p ++ rest ∧ IsVarint p ∧ p.length ≤ 10 ∧ base128 p = v ∧ v < 2 ^ 64 := by
  constructor
  · intro h
    rcases high_or_split bs with hh | ⟨i, l, r, rfl, hi, hl⟩
    · rw [extract_all_high bs hh] at h; cases h
    · rw [extract_split i l r hi hl] at h
      cases hd : decodeU64 (i ++ [l]) with
      | error e => simp [hd] at h
      | ok w =>
        simp only [hd, Except.ok.injEq, Option.some.injEq, Prod.mk.injEq] at h
        obtain ⟨rfl, rfl⟩ := h
        have := (decodeU64_ok_iff _ _).mp hd
        exact ⟨i ++ [l], by simp, this.1, this.2.1, this.2.2.1.symm, this.2.2.2⟩
  · rintro ⟨p, rfl, ⟨i, l, rfl, hi, hl⟩, hlen, hv, hlt⟩
    rw [List.append_assoc, List.singleton_append, extract_split i l rest hi hl]
    have : decodeU64 (i ++ [l]) = .ok v := (decodeU64_ok_iff _ _).mpr ⟨⟨i, l, rfl, hi, hl⟩, hlen, hv.symm, hlt⟩
    rw [this]

theorem extract_error {bs : Bytes} {e : Fault} (h : extractVarint bs = .error e) :
    e = .io .invalidData ∧ ∃ p rest, bs = p ++ rest ∧ IsVarint p ∧ (10 < p.length ∨ 2 ^ 64 ≤ base128 p) := by
  rcases high_or_split bs with hh | ⟨i, l, r, rfl, hi, hl⟩
  · rw [extract_all_high bs hh] at h; cases h
  · rw [extract_split i l r hi hl] at h
    cases hd : decodeU64 (i ++ [l]) with
    | ok w => simp [hd] at h
    | error e' =>
      simp only [hd, Except.error.injEq] at h
      refine ⟨h.symm, i ++ [l], r, by simp, ⟨i, l, rfl, hi, hl⟩, ?_⟩
      by_contra hc
      rw [not_or, Nat.not_lt, Nat.not_le] at hc
      have := (decodeU64_ok_iff _ _).mpr ⟨⟨i, l, rfl, hi, hl⟩, hc.1, rfl, hc.2⟩
      rw [this] at hd; cases hd

theorem extract_error_append {bs : Bytes} {e : Fault} (h : extractVarint bs = .error e) (x : Bytes) :
    extractVarint (bs ++ x) = .error e := by
  rcases high_or_split bs with hh | ⟨i, l, r, rfl, hi, hl⟩
  · rw [extract_all_high bs hh] at h; cases h
  · rw [extract_split i l r hi hl] at h
    rw [List.append_assoc, List.cons_append, extract_split i l (r ++ x) hi hl]
    cases hd : decodeU64 (i ++ [l]) <;> simp_all

theorem isVarint_length_pos {p : Bytes} (h : IsVarint p) : 0 < p.length := by
  obtain ⟨i, l, rfl, -, -⟩ := h; simp

/-- Two varints that begin the same string are the same. -/
theorem isVarint_unique {p q r s : Bytes} (hp : IsVarint p) (hq : IsVarint q) (h : p ++ r = q ++ s) :
    p = q ∧ r = s := by
  obtain ⟨i, l, rfl, hi, hl⟩ := hp
  obtain ⟨j, m, rfl, hj, hm⟩ := hq
  have e1 := takeWhile_high (rest := r) hi hl
  have e2 := takeWhile_high (rest := s) hj hm
  simp only [List.append_assoc, List.singleton_append] at h
  rw [h] at e1
  have hij : i = j := e1.symm.trans e2
  subst hij
  have h' := List.append_cancel_left h
  injection h' with h1 h2
  subst h1
  exact ⟨rfl, h2⟩

/-- The frame reader's table of flags and frames is that of the specification. -/
theorem parts_eq (num flag : Nat) (payload : Bytes) (f : Flag) (h : Flag.fromRaw flag = .ok f) :
    flag < 7 ∧ Frame.fromMessageParts num f payload =
      ⟨if flag % 2 = 1 then .receiver num else .initiator num, opOf ((flag + 1) / 2),
         if flag = 0 then [] else payload⟩ := by
  match flag, h with
  | 0, h => cases h; exact ⟨by decide, rfl⟩
  | 1, h => cases h; exact ⟨by decide, rfl⟩
  | 2, h => cases h; exact ⟨by decide, rfl⟩
  | 3, h => cases h; exact ⟨by decide, rfl⟩
  | 4, h => cases h; exact ⟨by decide, rfl⟩
  | 5, h => cases h; exact ⟨by decide, rfl⟩
  | 6, h => cases h; exact ⟨by decide, rfl⟩
  | n + 7, h => cases h

theorem fromRaw_ok {flag : Nat} (h : flag < 7) : ∃ f, Flag.fromRaw flag = .ok f := by
  match flag, h with
  | 0, _ => exact ⟨_, rfl⟩
  | 1, _ => exact ⟨_, rfl⟩
  | 2, _ => exact ⟨_, rfl⟩
  | 3, _ => exact ⟨_, rfl⟩
  | 4, _ => exact ⟨_, rfl⟩
  | 5, _ => exact ⟨_, rfl⟩
  | 6, _ => exact ⟨_, rfl⟩
  | n + 7, h => omega

theorem fromRaw_error {flag : Nat} {e : Fault} (h : Flag.fromRaw flag = .error e) :
    e = .io .invalidData ∧ 7 ≤ flag := by
  by_cases hf : flag < 7
  · obtain ⟨f, hf⟩ := fromRaw_ok hf
    rw [hf] at h; cases h
  · match flag, hf, h with
    | n + 7, _, h => cases h; exact ⟨rfl, by omega⟩

/-- **The buffer begins with a frame exactly when the reader finds one.** -/
theorem nextFrame_some_iff (bs : Bytes) (f : Frame) (rest : Bytes) :
    nextFrame bs = .ok (some (f, rest)) ↔ ∃ b, bs = b ++ rest ∧ IsFrame b f := by
  constructor
  · intro h
    unfold nextFrame at h
    cases h1 : extractVarint bs with
    | error e => simp [h1] at h
    | ok o =>
      cases o with
      | none => simp [h1] at h
      | some hv =>
        obtain ⟨hd, r1⟩ := hv
        simp only [h1] at h
        cases h2 : Flag.fromRaw (hd % 256 % 8) with
        | error e => simp only [h2] at h; cases h
        | ok fl =>
          simp only [h2] at h
          cases h3 : extractVarint r1 with
          | error e => simp [h3] at h
          | ok o =>
            cases o with
            | none => simp [h3] at h
            | some lv =>
              obtain ⟨len, body⟩ := lv
              simp only [h3] at h
              obtain ⟨p, rfl, hp, hpl, hpv, hplt⟩ := (extract_some_iff _ _ _).mp h1
              obtain ⟨q, rfl, hq, hql, hqv, hqlt⟩ := (extract_some_iff _ _ _).mp h3
              split at h
              · cases h
              · rename_i hno
                split at h
                · rename_i hfit
                  simp only [Except.ok.injEq, Option.some.injEq, Prod.mk.injEq] at h
                  obtain ⟨rfl, rfl⟩ := h
                  simp only [List.length_append] at hno hfit
                  have hlen : (body.take len).length = len := by
                    rw [List.length_take]; omega
                  refine ⟨p ++ q ++ body.take len, by simp, hd / 8, hd % 256 % 8, body.take len,
                    ⟨p, q, rfl, hp, hpl, by omega, by omega, (parts_eq 0 _ [] fl h2).1, hq, hql,
                      by omega, by simp only [List.length_append, hlen]; omega⟩, ?_⟩
                  rw [Nat.shiftRight_eq_div_pow]
                  exact (parts_eq _ _ _ fl h2).2
                · cases h
  · rintro ⟨b, rfl, num, flag, payload, ⟨p, q, rfl, hp, hpl, hpv, hplt, hf, hq, hql, hqv, htot⟩, rfl⟩
    have h1 : extractVarint (p ++ q ++ payload ++ rest) = .ok (some (num * 8 + flag, q ++ payload ++ rest)) :=
      (extract_some_iff _ _ _).mpr ⟨p, by simp, hp, hpl, hpv, hplt⟩
    have hlt : payload.length < 2 ^ 64 := by simp only [List.length_append] at htot; omega
    have h3 : extractVarint (q ++ payload ++ rest) = .ok (some (payload.length, payload ++ rest)) :=
      (extract_some_iff _ _ _).mpr ⟨q, by simp, hq, hql, hqv, hlt⟩
    have hflag : (num * 8 + flag) % 256 % 8 = flag := by omega
    obtain ⟨fl, hfl⟩ := fromRaw_ok hf
    unfold nextFrame
    simp only [h1, hflag, hfl, h3]
    simp only [List.length_append] at htot ⊢
    rw [if_neg (by omega), if_pos (by omega), Nat.shiftRight_eq_div_pow, (parts_eq _ _ _ fl hfl).2]
    have : (num * 8 + flag) / 2 ^ 3 = num := by omega
    rw [this]; simp

theorem nextFrame_append {bs : Bytes} {f : Frame} {rest : Bytes}
    (h : nextFrame bs = .ok (some (f, rest))) (x : Bytes) :
    nextFrame (bs ++ x) = .ok (some (f, rest ++ x)) := by
  rw [nextFrame_some_iff] at h ⊢
  obtain ⟨b, rfl, hb⟩ := h
  exact ⟨b, by simp, hb⟩

theorem nextFrame_error_append {bs : Bytes} {e : Fault}
    (h : nextFrame bs = .error e) (x : Bytes) : nextFrame (bs ++ x) = .error e := by
  unfold nextFrame at h ⊢
  cases h1 : extractVarint bs with
  | error e' =>
    simp only [h1] at h
    simp only [extract_error_append h1 x]; exact h
  | ok o =>
    cases o with
    | none => simp [h1] at h
    | some hv =>
      obtain ⟨hd, r1⟩ := hv
      simp only [h1] at h
      obtain ⟨p, rfl, hp⟩ := (extract_some_iff _ _ _).mp h1
      have h1' : extractVarint (p ++ r1 ++ x) = .ok (some (hd, r1 ++ x)) :=
        (extract_some_iff _ _ _).mpr ⟨p, by simp, hp⟩
      simp only [h1']
      cases h2 : Flag.fromRaw (hd % 256 % 8) with
      | error e' => simp only [h2] at h ⊢; exact h
      | ok fl =>
        simp only [h2] at h ⊢
        cases h3 : extractVarint r1 with
        | error e' =>
          simp only [h3] at h
          simp only [extract_error_append h3 x]; exact h
        | ok o =>
          cases o with
          | none => simp [h3] at h
          | some lv =>
            obtain ⟨len, body⟩ := lv
            simp only [h3] at h
            obtain ⟨q, rfl, hq⟩ := (extract_some_iff _ _ _).mp h3
            have h3' : extractVarint (q ++ body ++ x) = .ok (some (len, body ++ x)) :=
              (extract_some_iff _ _ _).mpr ⟨q, by simp, hq⟩
            simp only [h3']
            simp only [List.length_append] at h ⊢
            split at h
            · rename_i hbig
              rw [if_pos (by omega)]; exact h
            · split at h <;> cases h

theorem nextFrame_nil : nextFrame [] = .ok none := rfl

/-- A frame takes at least two bytes. -/
theorem isFrame_length {b : Bytes} {f : Frame} (h : IsFrame b f) : 2 ≤ b.length := by
  obtain ⟨num, flag, payload, ⟨p, q, rfl, hp, -, -, -, -, hq, -⟩, -⟩ := h
  have := isVarint_length_pos hp
  have := isVarint_length_pos hq
  simp only [List.length_append]; omega

/-- Only one frame can begin a string of bytes. -/
theorem isFrame_unique {b c r s : Bytes} {f g : Frame} (hb : IsFrame b f) (hc : IsFrame c g)
    (h : b ++ r = c ++ s) : f = g ∧ r = s := by
  have h1 := (nextFrame_some_iff (b ++ r) f r).mpr ⟨b, rfl, hb⟩
  have h2 := (nextFrame_some_iff (b ++ r) g s).mpr ⟨c, h, hc⟩
  rw [h1] at h2
  simpa using h2

theorem readBytes_append (a b : List ReadEvent) : readBytes (a ++ b) = readBytes a ++ readBytes b := by
  induction a with
  | nil => rfl
  | cons e es ih => cases e <;> simp [readBytes, ih]

/-- What one run of the read loop does to the buffer. -/
structure ReadStep (reads : List ReadEvent) (inc : Bytes)
    (r : Poll (Except Fault (Option Frame))) (reads' : List ReadEvent) (inc' : Bytes) (eof' : Bool) : Prop where
  used : ∃ used, reads = used ++ reads' ∧
    match r with
    | .ready (.ok (some f)) => ∃ b, inc ++ readBytes used = b ++ inc' ∧ IsFrame b f
    | _ => inc' = inc ++ readBytes used
  pending : r = .pending → nextFrame inc' = .ok none
  ended : r = .ready (.ok none) → inc' = [] ∧ eof' = true
  nofuel : r ≠ .ready (.error .fuel)

theorem nextFrame_nofuel {bs : Bytes} : nextFrame bs ≠ .error .fuel := by
  intro h
  unfold nextFrame at h
  cases h1 : extractVarint bs with
  | error e => simp only [h1] at h; have := (extract_error h1).1; cases h; cases this
  | ok o =>
    cases o with
    | none => simp [h1] at h
    | some hv =>
      obtain ⟨hd, r1⟩ := hv
      simp only [h1] at h
      cases h2 : Flag.fromRaw (hd % 256 % 8) with
      | error e => simp only [h2] at h; have := (fromRaw_error h2).1; cases h; cases this
      | ok fl =>
        simp only [h2] at h
        cases h3 : extractVarint r1 with
        | error e => simp only [h3] at h; have := (extract_error h3).1; cases h; cases this
        | ok o =>
          cases o with
          | none => simp [h3] at h
          | some lv =>
            obtain ⟨len, body⟩ := lv
            simp only [h3] at h
            split at h
            · cases h
            · split at h <;> cases h

/-- An answer without reading. -/
theorem readyFrame_step {inc inc' : Bytes} {eof : Bool} {r : Except Fault (Option Frame)}
    (h : readyFrame inc eof = some (r, inc')) (reads : List ReadEvent) :
    ReadStep reads inc (.ready r) reads inc' eof := by
  unfold readyFrame at h
  cases hn : nextFrame inc with
  | error e =>
    simp only [hn, Option.some.injEq, Prod.mk.injEq] at h
    obtain ⟨rfl, rfl⟩ := h
    exact ⟨⟨[], rfl, by simp [readBytes]⟩, nofun, nofun, fun hc => nextFrame_nofuel (by cases hc; exact hn)⟩
  | ok o =>
    cases o with
    | some fr =>
      obtain ⟨f, rest⟩ := fr
      simp only [hn, Option.some.injEq, Prod.mk.injEq] at h
      obtain ⟨rfl, rfl⟩ := h
      obtain ⟨b, hb, hf⟩ := (nextFrame_some_iff _ _ _).mp hn
      exact ⟨⟨[], rfl, b, by simpa [readBytes] using hb, hf⟩, nofun, nofun, nofun⟩
    | none =>
      simp only [hn] at h
      cases eof with
      | false => simp at h
      | true =>
        by_cases hi : inc.isEmpty
        · simp only [hi, if_true, Option.some.injEq, Prod.mk.injEq] at h
          obtain ⟨rfl, rfl⟩ := h
          exact ⟨⟨[], rfl, by simp [readBytes]⟩, nofun, fun _ => ⟨List.isEmpty_iff.mp hi, rfl⟩, nofun⟩
        · simp only [hi, if_true, Bool.false_eq_true, if_false, Option.some.injEq, Prod.mk.injEq] at h
          obtain ⟨rfl, rfl⟩ := h
          exact ⟨⟨[], rfl, by simp [readBytes]⟩, nofun, nofun, nofun⟩

theorem readyFrame_none {inc : Bytes} {eof : Bool} (h : readyFrame inc eof = none) :
    nextFrame inc = .ok none ∧ eof = false := by
  unfold readyFrame at h
  cases hn : nextFrame inc with
  | error e => simp [hn] at h
  | ok o =>
    cases o with
    | some fr => simp [hn] at h
    | none =>
      cases eof with
      | false => exact ⟨rfl, rfl⟩
      | true => by_cases hi : inc.isEmpty <;> simp [hn, hi] at h

theorem readFrameLoop_cons (e : ReadEvent) (es : List ReadEvent) (inc : Bytes) (eof : Bool) :
    readFrameLoop (e :: es) inc eof =
      match readyFrame inc eof with
      | some (r, inc') => (.ready r, e :: es, inc', eof)
      | none =>
        match e with
        | .pending => (.pending, es, inc, eof)
        | .error k => (.ready (.error (.io k)), es, inc, eof)
        | .ready d => if d.isEmpty then readFrameLoop es inc true else readFrameLoop es (inc ++ d) eof := by
  cases e <;> rfl

theorem readFrameLoop_step (reads : List ReadEvent) : ∀ (inc : Bytes) (eof : Bool),
    ReadStep reads inc (readFrameLoop reads inc eof).1 (readFrameLoop reads inc eof).2.1
      (readFrameLoop reads inc eof).2.2.1 (readFrameLoop reads inc eof).2.2.2 := by
  induction reads with
  | nil =>
    intro inc eof
    rw [readFrameLoop]
    cases h : readyFrame inc eof with
    | some r => exact readyFrame_step h _
    | none => exact ⟨⟨[], rfl, by simp [readBytes]⟩, fun _ => (readyFrame_none h).1, nofun, nofun⟩
  | cons e es ih =>
    intro inc eof
    rw [readFrameLoop_cons]
    cases h : readyFrame inc eof with
    | some r => exact readyFrame_step h _
    | none =>
      cases e with
      | pending => exact ⟨⟨[.pending], rfl, by simp [readBytes]⟩, fun _ => (readyFrame_none h).1, nofun, nofun⟩
      | error k => exact ⟨⟨[.error k], rfl, by simp [readBytes]⟩, nofun, nofun, nofun⟩
      | ready d =>
        simp only
        by_cases hd : d.isEmpty
        · simp only [hd, if_true]
          have := ih inc true
          obtain ⟨⟨used, hu, hr⟩, hp, hn, hf⟩ := this
          refine ⟨⟨.ready d :: used, by rw [List.cons_append, ← hu], ?_⟩, hp, hn, hf⟩
          rw [List.isEmpty_iff] at hd
          subst hd
          exact hr
        · simp only [hd, Bool.false_eq_true, if_false]
          have := ih (inc ++ d) eof
          obtain ⟨⟨used, hu, hr⟩, hp, hn, hf⟩ := this
          refine ⟨⟨.ready d :: used, by rw [List.cons_append, ← hu], ?_⟩, hp, hn, hf⟩
          simpa only [readBytes, List.append_assoc] using hr

theorem frames_append {a b : Bytes} {fs gs : List Frame} (ha : Frames a fs) (hb : Frames b gs) :
    Frames (a ++ b) (fs ++ gs) := by
  induction hb with
  | nil => simpa using ha
  | snoc _ hf ih =>
    rw [← List.append_assoc, ← List.append_assoc]
    exact ih.snoc hf

theorem frames_one {b : Bytes} {f : Frame} (h : IsFrame b f) : Frames b [f] := by
  simpa using Frames.nil.snoc h

/-- `poll_read_frame` as a whole. -/
theorem pollReadFrame_eq (s : FrameStream) :
    ∃ reads' inc' eof', s.pollReadFrame =
        ((readFrameLoop s.transport.reads s.incoming s.readEof).1,
          { s with transport := { s.transport with reads := reads' }, incoming := inc', readEof := eof' }) ∧
      ReadStep s.transport.reads s.incoming (readFrameLoop s.transport.reads s.incoming s.readEof).1 reads' inc' eof' :=
  ⟨_, _, _, rfl, readFrameLoop_step _ _ _⟩

/-! ### An orderly peer -/

theorem frames_nil_inv {bs : Bytes} (h : Frames bs []) : bs = [] := by
  generalize hf : ([] : List Frame) = fs at h
  cases h with
  | nil => rfl
  | snoc _ _ => simp at hf

theorem frames_cons_inv {bs : Bytes} {f : Frame} {fs : List Frame} (h : Frames bs (f :: fs)) :
    ∃ b r, bs = b ++ r ∧ IsFrame b f ∧ Frames r fs := by
  generalize hf : f :: fs = gs at h
  induction h generalizing f fs with
  | nil => cases hf
  | snoc h1 h2 ih =>
    rename_i bs gs b g
    cases gs with
    | nil =>
      simp only [List.nil_append, List.cons.injEq] at hf
      obtain ⟨rfl, rfl⟩ := hf
      have := frames_nil_inv h1
      subst this
      exact ⟨b, [], by simp, h2, .nil⟩
    | cons g' gs' =>
      simp only [List.cons_append, List.cons.injEq] at hf
      obtain ⟨rfl, rfl⟩ := hf
      obtain ⟨b', r', rfl, hb', hr'⟩ := ih rfl
      exact ⟨b', r' ++ b, by simp, hb', hr'.snoc h2⟩

/-- The rest of the stream, buffered and still to come, is a sequence of frames. -/
def Good (reads : List ReadEvent) (inc : Bytes) (eof : Bool) (fs : List Frame) : Prop :=
  ∃ rem, Frames (inc ++ rem) fs ∧ ((eof = true ∧ rem = []) ∨ (eof = false ∧ Delivers reads rem))

theorem nextFrame_good {inc rem : Bytes} {fs : List Frame} (h : Frames (inc ++ rem) fs) :
    (nextFrame inc = .ok none ∧ (rem = [] → inc = [] ∧ fs = [])) ∨
    ∃ f fs' r, nextFrame inc = .ok (some (f, r)) ∧ fs = f :: fs' ∧ Frames (r ++ rem) fs' := by
  cases fs with
  | nil =>
    have := frames_nil_inv h
    rw [List.append_eq_nil_iff] at this
    obtain ⟨rfl, rfl⟩ := this
    exact .inl ⟨nextFrame_nil, fun _ => ⟨rfl, rfl⟩⟩
  | cons f fs =>
    obtain ⟨b, r, hb, hf, hr⟩ := frames_cons_inv h
    have hfull := (nextFrame_some_iff (inc ++ rem) f r).mpr ⟨b, hb, hf⟩
    cases hn : nextFrame inc with
    | error e => rw [nextFrame_error_append hn] at hfull; cases hfull
    | ok o =>
      cases o with
      | none =>
        refine .inl ⟨rfl, fun h0 => ?_⟩
        subst h0
        rw [List.append_nil, hn] at hfull; cases hfull
      | some gr =>
        obtain ⟨g, r'⟩ := gr
        rw [nextFrame_append hn] at hfull
        simp only [Except.ok.injEq, Option.some.injEq, Prod.mk.injEq] at hfull
        obtain ⟨rfl, rfl⟩ := hfull
        exact .inr ⟨g, fs, r', rfl, rfl, hr⟩

/-- One poll of an orderly stream. -/
theorem readFrameLoop_good (reads : List ReadEvent) : ∀ (inc : Bytes) (eof : Bool) (fs : List Frame),
    Good reads inc eof fs →
    match readFrameLoop reads inc eof with
    | (.pending, reads', inc', eof') => reads'.length < reads.length ∧ Good reads' inc' eof' fs
    | (.ready (.ok (some f)), reads', inc', eof') =>
      reads'.length ≤ reads.length ∧ ∃ fs', fs = f :: fs' ∧ Good reads' inc' eof' fs'
    | (.ready (.ok none), reads', inc', eof') => reads'.length ≤ reads.length ∧ fs = [] ∧ Good reads' inc' eof' []
    | _ => False := by
  induction reads with
  | nil =>
    rintro inc eof fs ⟨rem, hfr, ⟨rfl, rfl⟩ | ⟨rfl, hd⟩⟩
    · rcases nextFrame_good hfr with ⟨hn, h0⟩ | ⟨f, fs', r, hn, rfl, hr⟩
      · obtain ⟨rfl, rfl⟩ := h0 rfl
        simp only [readFrameLoop, readyFrame, nextFrame_nil]
        exact ⟨Nat.le_refl _, trivial, [], hfr, .inl ⟨rfl, rfl⟩⟩
      · simp only [readFrameLoop, readyFrame, hn]
        exact ⟨Nat.le_refl _, fs', rfl, [], hr, .inl ⟨rfl, rfl⟩⟩
    · cases hd
  | cons e es ih =>
    rintro inc eof fs ⟨rem, hfr, hcase⟩
    rw [readFrameLoop_cons]
    rcases nextFrame_good hfr with ⟨hn, h0⟩ | ⟨f, fs', r, hn, rfl, hr⟩
    · rcases hcase with ⟨rfl, rfl⟩ | ⟨rfl, hd⟩
      · obtain ⟨rfl, rfl⟩ := h0 rfl
        simp only [readyFrame, nextFrame_nil]
        exact ⟨Nat.le_refl _, trivial, [], hfr, .inl ⟨rfl, rfl⟩⟩
      · simp only [readyFrame, hn]
        cases hd with
        | eof =>
          simp only [List.isEmpty_nil, if_true]
          have := ih inc true fs ⟨[], hfr, .inl ⟨rfl, rfl⟩⟩
          split at this <;> simp_all <;> omega
        | pause hd => exact ⟨by simp, rem, hfr, .inr ⟨rfl, hd⟩⟩
        | piece d hne hd =>
          have he : d.isEmpty = false := by cases d <;> simp_all
          rename_i rem'
          have := ih (inc ++ d) false fs ⟨rem', by simpa using hfr, .inr ⟨rfl, hd⟩⟩
          simp only [he]
          simp only [Bool.false_eq_true, if_false]
          split at this <;> simp_all <;> omega
    · simp only [readyFrame, hn]
      exact ⟨Nat.le_refl _, fs', rfl, rem, hr, hcase⟩

/-- Once the end is reported it is reported for ever. -/
theorem pollTimes_ended (n : Nat) : ∀ (s : FrameStream), s.incoming = [] → s.readEof = true →
    (pollTimes n s).1 = List.replicate n (.ready (.ok none)) := by
  induction n with
  | zero => intro s _ _; rfl
  | succ n ih =>
    intro s h1 h2
    have : s.pollReadFrame = (.ready (.ok none), s) := by
      obtain ⟨⟨reads, ws, fl, sh, se⟩, inc, out, eof⟩ := s
      simp only at h1 h2
      subst h1 h2
      cases reads <;> rfl
    simp only [pollTimes, this, ih s h1 h2]
    rfl

theorem pollTimes_good (n : Nat) : ∀ (s : FrameStream) (fs : List Frame),
    Good s.transport.reads s.incoming s.readEof fs →
    (∀ r ∈ (pollTimes n s).1, r = .pending ∨ ∃ o, r = .ready (.ok o)) ∧
    framesIn (pollTimes n s).1 <+: fs ∧
    (s.transport.reads.length + fs.length < n →
      framesIn (pollTimes n s).1 = fs ∧ (pollTimes n s).1.getLast? = some (.ready (.ok none))) := by
  induction n with
  | zero => intro s fs _; exact ⟨by simp [pollTimes], by simp [pollTimes, framesIn], by omega⟩
  | succ n ih =>
    intro s fs hg
    have hstep := readFrameLoop_good _ _ _ _ hg
    unfold pollTimes FrameStream.pollReadFrame
    generalize hR : readFrameLoop s.transport.reads s.incoming s.readEof = R at hstep
    obtain ⟨r, reads', inc', eof'⟩ := R
    simp only
    set s' : FrameStream := { s with transport := { s.transport with reads := reads' }, incoming := inc', readEof := eof' }
      with hs'
    split at hstep
    · rename_i h; cases h
      obtain ⟨hl, hg'⟩ := hstep
      obtain ⟨h1, h2, h3⟩ := ih s' fs hg'
      refine ⟨by simpa using h1, by simpa [framesIn] using h2, fun hn => ?_⟩
      obtain ⟨h4, h5⟩ := h3 (by simp only [hs']; omega)
      refine ⟨by simpa [framesIn] using h4, ?_⟩
      rw [List.getLast?_cons, h5]; rfl
    · rename_i f _ _ _ h; cases h
      obtain ⟨hl, fs', rfl, hg'⟩ := hstep
      obtain ⟨h1, h2, h3⟩ := ih s' fs' hg'
      refine ⟨by simpa using h1, by simpa [framesIn] using h2, fun hn => ?_⟩
      simp only [List.length_cons] at hn
      obtain ⟨h4, h5⟩ := h3 (by simp only [hs']; omega)
      refine ⟨by simpa [framesIn] using h4, ?_⟩
      rw [List.getLast?_cons, h5]; rfl
    · rename_i h; cases h
      obtain ⟨hl, rfl, hg'⟩ := hstep
      obtain ⟨h1, h2, h3⟩ := ih s' [] hg'
      refine ⟨by simpa using h1, by simpa [framesIn] using h2, fun hn => ?_⟩
      refine ⟨by simpa [framesIn] using h2, ?_⟩
      have he := (readFrameLoop_step s.transport.reads s.incoming s.readEof).ended (by rw [hR])
      rw [hR] at he
      simp only at he
      rw [pollTimes_ended n s' he.1 he.2]
      rw [show (Poll.ready (Except.ok none) : Poll (Except Fault (Option Frame))) :: List.replicate n (.ready (.ok none))
        = List.replicate n (.ready (.ok none)) ++ [.ready (.ok none)] from by
          rw [← List.replicate_succ, List.replicate_succ']]
      simp
    · exact hstep.elim

/-! ### Sending -/

theorem header_eq {num : Nat} (h : num < 2 ^ 61) (fl : Flag) : header num fl = num * 8 + fl.toRaw := by
  have hr : fl.toRaw < 2 ^ 3 := by cases fl <;> decide
  unfold header
  rw [Nat.shiftLeft_eq, Nat.mod_eq_of_lt (by omega)]
  have := Nat.two_pow_add_eq_or_of_lt hr num
  rw [Nat.mul_comm num, ← this, Nat.mul_comm]

/-- What `append_frame` appends is the frame. -/
theorem appendFrame_bytes {num : Nat} (hn : num < 2 ^ 61) (fl : Flag) {data : Bytes}
    (hd : data.length + 20 < 2 ^ 64) :
    FrameBytes (encodeU64 (header num fl) ++ encodeU64 data.length ++ data) num fl.toRaw data := by
  have hr : fl.toRaw < 7 := by cases fl <;> decide
  have hlt : num * 8 + fl.toRaw < 2 ^ 64 := by omega
  have l1 : (encodeU64 (header num fl)).length ≤ 10 := by
    rw [header_eq hn]; exact encode_length_le (Nat.lt_trans hlt (by decide)) (by decide)
  have l2 : (encodeU64 data.length).length ≤ 10 :=
    encode_length_le (Nat.lt_trans (by omega : data.length < 2 ^ 64) (by decide)) (by decide)
  exact ⟨_, _, rfl, isVarint_encode _, l1, by rw [base128_encode, header_eq hn], hlt, hr, isVarint_encode _, l2,
    base128_encode _, by simp only [List.length_append]; omega⟩

theorem sendAll_bytes (outs : List OutFrame) : ∀ s : FrameStream, (∀ o ∈ outs, o.Fits) →
    ∃ bs, sendAll s outs = { s with outgoing := s.outgoing ++ bs } ∧ Frames bs (outs.map OutFrame.seen) := by
  induction outs with
  | nil => intro s _; exact ⟨[], by simp [sendAll], .nil⟩
  | cons o os ih =>
    intro s h
    have ho : o.Fits := h o (by simp)
    have hos : ∀ o ∈ os, o.Fits := fun x hx => h x (by simp [hx])
    have key : ∀ (num : Nat) (fl : Flag) (data : Bytes), num < 2 ^ 61 → data.length + 20 < 2 ^ 64 →
        (IsFrame (encodeU64 (header num fl) ++ encodeU64 data.length ++ data) o.seen) →
        ∃ bs, sendAll (s.appendFrame (header num fl) data) os = { s with outgoing := s.outgoing ++ bs } ∧
          Frames bs (o.seen :: os.map OutFrame.seen) := by
      intro num fl data hn hd hf
      obtain ⟨bs, hb, hfr⟩ := ih (s.appendFrame (header num fl) data) hos
      refine ⟨encodeU64 (header num fl) ++ encodeU64 data.length ++ data ++ bs, ?_, ?_⟩
      · rw [hb]; simp [FrameStream.appendFrame]
      · have := frames_append (frames_one hf) hfr
        simpa using this
    cases o with
    | new num name =>
      obtain ⟨h1, h2⟩ := ho
      cases name with
      | some nm => exact key num .newStream nm h1 h2 ⟨num, 0, nm, appendFrame_bytes h1 .newStream h2, rfl⟩
      | none => exact key num .newStream [] h1 (by decide) ⟨num, 0, [], appendFrame_bytes h1 .newStream (by decide), rfl⟩
    | message id data =>
      obtain ⟨h1, h2⟩ := ho
      cases id with
      | receiver num =>
        exact key num .messageReceiver data h1 h2 ⟨num, 1, data, appendFrame_bytes h1 .messageReceiver h2, rfl⟩
      | initiator num =>
        exact key num .messageInitiator data h1 h2 ⟨num, 2, data, appendFrame_bytes h1 .messageInitiator h2, rfl⟩
    | close id =>
      cases id with
      | receiver num =>
        exact key num .closeReceiver [] ho (by decide) ⟨num, 3, [], appendFrame_bytes ho .closeReceiver (by decide), rfl⟩
      | initiator num =>
        exact key num .closeInitiator [] ho (by decide) ⟨num, 4, [], appendFrame_bytes ho .closeInitiator (by decide), rfl⟩

end Ngfs.Mplex
