import Verif.Lemmas.Binary

/-! Helper lemmas: reading stays in bounds. No claims here. -/
namespace Ngfs.Binary

open Ngfs.Spec

theorem safe_pure {α : Type} (v : α) : Safe (pure v : RM α) := by
  intro r h; simp [pure_def, h]

theorem safe_throw {α : Type} {e : BinErr} (h1 : e ≠ .panic) (h2 : e ≠ .fuel) :
    Safe (throw e : RM α) := by
  intro r h; simp [throw, h, h1, h2]

theorem safe_bind {α β : Type} {p : RM α} {f : α → RM β} (h1 : Safe p) (h2 : ∀ a, Safe (f a)) :
    Safe (p >>= f) := by
  intro r h
  obtain ⟨a1, a2, a3, a4, a5⟩ := h1 r h
  rw [bind_def]
  rcases hp : p r with ⟨res, r'⟩
  rw [hp] at a1 a2 a3 a4 a5
  cases res with
  | error e => exact ⟨a1, a2, a3, by simpa using a4, by simpa using a5⟩
  | ok a =>
    obtain ⟨b1, b2, b3, b4, b5⟩ := h2 a r' a3
    simp only at a1 a2 ⊢
    exact ⟨b1.trans a1, le_trans a2 b2, b3, b4, b5⟩

/-- The reading primitives: `check_available` followed by moving to the checked position. -/
theorem safe_check {α : Type} {n : Nat} {g : Nat → Reader → Except BinErr α × Reader}
    (hg : ∀ r : Reader, r.offset + n ≤ r.buf.length →
      (g (r.offset + n) r).2 = ⟨r.buf, r.offset + n⟩ ∧ (g (r.offset + n) r).1 ≠ .error .panic
        ∧ (g (r.offset + n) r).1 ≠ .error .fuel) :
    Safe (checkAvailable n >>= fun e => act (g e)) := by
  intro r h
  rw [bind_def]
  by_cases hu : r.offset + n < usizeLimit
  · by_cases hl : r.offset + n ≤ r.buf.length
    · have : checkAvailable n r = (.ok (r.offset + n), r) := by simp [checkAvailable, hu, hl]
      rw [this]
      obtain ⟨g1, g2, g3⟩ := hg r hl
      simp only [act_apply, g1]
      exact ⟨trivial, Nat.le_add_right _ _, hl, g2, g3⟩
    · have : checkAvailable n r = (.error (.unexpectedEof r.offset n), r) := by
        simp [checkAvailable, hu, hl]
      rw [this]; simp [h]
  · have : checkAvailable n r = (.error (.sizeOverflow r.offset n), r) := by
      simp [checkAvailable, hu]
    rw [this]; simp [h]

theorem safe_fixed (n : Nat) : Safe (readFixed n) :=
  safe_check (g := fun e r => (.ok (slice r.buf r.offset e), { r with offset := e }))
    (fun r _ => by simp)

theorem safe_uint (n : Nat) : Safe (readUint n) :=
  safe_check (g := fun e r => (.ok (beNat (slice r.buf r.offset e)), { r with offset := e }))
    (fun r _ => by simp)

theorem safe_u8 : Safe readU8 :=
  safe_check (g := fun e r => match r.buf[r.offset]? with
      | some b => (.ok b, { r with offset := e })
      | none => (.error .panic, r))
    (fun r hl => by
      have : r.buf[r.offset]? = some (r.buf[r.offset]'(by omega)) := List.getElem?_eq_getElem _
      simp [this])

theorem safe_remainingData : Safe remainingData := by
  intro r h
  have : r.offset ≤ r.buf.length := h
  simp [remainingData, this, h]

theorem safe_expectEof : Safe expectEof := by
  intro r h
  unfold expectEof
  split <;> simp [h]

theorem safe_varintLoop (n v : Nat) : Safe (varintLoop n v) := by
  induction n generalizing v with
  | zero => exact safe_pure v
  | succ n ih => exact safe_bind safe_u8 (fun b => ih _)

theorem safe_quicVarint : Safe readQuicVarint := safe_bind safe_u8 (fun _ => safe_varintLoop _ _)

theorem safe_len8Bytes : Safe readLen8Bytes := safe_bind safe_u8 (fun _ => safe_fixed _)
theorem safe_len16Bytes : Safe readLen16Bytes := safe_bind (safe_uint 2) (fun _ => safe_fixed _)
theorem safe_len24Bytes : Safe readLen24Bytes := safe_bind (safe_uint 3) (fun _ => safe_fixed _)

/-- A nested reader starts in bounds, and what happens in it does not move its parent. -/
theorem safe_nested {α : Type} (n : Nat) {p : Reader → RM α}
    (h : ∀ inner, InBounds inner → (p inner inner).1 ≠ .error .panic ∧ (p inner inner).1 ≠ .error .fuel) :
    Safe (readNested n >>= fun inner => onReader inner (p inner)) := by
  intro r hr
  rw [bind_def]
  have hs : Safe (readNested n) :=
    safe_check (α := Reader) (g := fun e r => (.ok ⟨r.buf.take e, r.offset⟩, { r with offset := e }))
      (fun r _ => by simp)
  obtain ⟨a1, a2, a3, a4, a5⟩ := hs r hr
  rcases hp : readNested n r with ⟨res, r'⟩
  rw [hp] at a1 a2 a3 a4 a5
  cases res with
  | error e => exact ⟨a1, a2, a3, by simpa using a4, by simpa using a5⟩
  | ok inner =>
    have hi : InBounds inner := by
      by_cases hu : r.offset + n < usizeLimit
      · by_cases hl : r.offset + n ≤ r.buf.length
        · have : checkAvailable n r = (.ok (r.offset + n), r) := by simp [checkAvailable, hu, hl]
          rw [readNested, bind_ok this] at hp
          simp only [act_apply, Prod.mk.injEq, Except.ok.injEq] at hp
          rw [← hp.1]
          simp only [InBounds, List.length_take]
          omega
        · have : checkAvailable n r = (.error (.unexpectedEof r.offset n), r) := by
            simp [checkAvailable, hu, hl]
          rw [readNested, bind_error this] at hp
          simp at hp
      · have : checkAvailable n r = (.error (.sizeOverflow r.offset n), r) := by
          simp [checkAvailable, hu]
        rw [readNested, bind_error this] at hp
        simp at hp
    obtain ⟨b1, b2⟩ := h inner hi
    simp only [onReader]
    exact ⟨a1, a2, a3, b1, b2⟩

theorem safe_listLoop {α : Type} {item : RM α} (h : Safe item) (n : Nat) (r : Reader)
    (hr : InBounds r) (hn : r.remaining < n) :
    (listLoop item n r).1 ≠ .error .panic ∧ (listLoop item n r).1 ≠ .error .fuel := by
  induction n generalizing r with
  | zero => omega
  | succ n ih =>
    simp only [listLoop]
    split
    · rename_i hpos
      obtain ⟨a1, a2, a3, a4, a5⟩ := h r hr
      rcases hi : item r with ⟨res, r'⟩
      rw [hi] at a1 a2 a3 a4 a5
      cases res with
      | error e => exact ⟨by simpa using a4, by simpa using a5⟩
      | ok a =>
        simp only
        split
        · simp
        · rename_i hne
          simp only at a1 a2
          have hd : r'.remaining < r.remaining := by
            simp only [Reader.remaining, a1] at hpos ⊢
            have : r'.offset ≤ r'.buf.length := a3
            rw [a1] at this
            omega
          obtain ⟨b1, b2⟩ := ih r' a3 (by omega)
          rcases hl : listLoop item n r' with ⟨res2, r2⟩
          rw [hl] at b1 b2
          cases res2 with
          | error e => exact ⟨by simpa using b1, by simpa using b2⟩
          | ok as => simp
    · simp

theorem safe_fixedList {α : Type} {item : RM α} (h : Safe item) (n : Nat) :
    Safe (readFixedList item n) :=
  safe_nested n (p := fun inner => listLoop item (inner.remaining + 1))
    (fun inner hi => safe_listLoop h _ inner hi (Nat.lt_succ_self _))

theorem safe_len8List {α : Type} {item : RM α} (h : Safe item) : Safe (readLen8List item) :=
  safe_bind safe_u8 (fun _ => safe_fixedList h _)
theorem safe_len16List {α : Type} {item : RM α} (h : Safe item) : Safe (readLen16List item) :=
  safe_bind (safe_uint 2) (fun _ => safe_fixedList h _)
theorem safe_len24List {α : Type} {item : RM α} (h : Safe item) : Safe (readLen24List item) :=
  safe_bind (safe_uint 3) (fun _ => safe_fixedList h _)

/-! ### Only the consumed bytes matter -/

/-- A successful read is determined by the bytes before the position where it stopped. -/
def NoPeek {α : Type} (p : RM α) : Prop :=
  ∀ (buf buf' : Bytes) (o : Nat) (v : α) (r' : Reader), o ≤ buf.length →
    p ⟨buf, o⟩ = (.ok v, r') → buf'.take r'.offset = buf.take r'.offset → r'.offset ≤ buf'.length →
    p ⟨buf', o⟩ = (.ok v, ⟨buf', r'.offset⟩)

theorem noPeek_pure {α : Type} (v : α) : NoPeek (pure v : RM α) := by
  intro buf buf' o w r' _ h _ _
  simp only [pure_def, Prod.mk.injEq, Except.ok.injEq] at h ⊢
  obtain ⟨rfl, rfl⟩ := h
  simp

theorem noPeek_throw {α : Type} (e : BinErr) : NoPeek (throw e : RM α) := by
  intro buf buf' o w r' _ h
  simp [throw] at h

theorem take_mono {b b' : Bytes} {i j : Nat} (hij : i ≤ j) (h : b'.take j = b.take j) :
    b'.take i = b.take i := by
  have := congrArg (List.take i) h
  rwa [List.take_take, List.take_take, Nat.min_eq_left hij] at this

theorem noPeek_bind {α β : Type} {p : RM α} {f : α → RM β} (hs : Safe p) (hsf : ∀ a, Safe (f a))
    (h1 : NoPeek p) (h2 : ∀ a, NoPeek (f a)) : NoPeek (p >>= f) := by
  intro buf buf' o v r2 ho h ht hl
  obtain ⟨a, r1, hp, hf⟩ := bind_ok_inv h
  obtain ⟨a1, a2, a3, _, _⟩ := hs ⟨buf, o⟩ ho
  rw [hp] at a1 a2 a3
  obtain ⟨b1, b2, b3, _, _⟩ := hsf a r1 a3
  rw [hf] at b1 b2 b3
  simp only at a1 a2 b1 b2
  have e1 := h1 buf buf' o a r1 ho hp (take_mono b2 ht) (by omega)
  rw [bind_ok e1]
  have hr1 : r1 = ⟨buf, r1.offset⟩ := by cases r1; simp_all
  rw [hr1] at hf
  exact h2 a buf buf' r1.offset v r2 (by have : r1.offset ≤ r1.buf.length := a3; rwa [a1] at this) hf ht hl

theorem noPeek_check {α : Type} {n : Nat} {g : Nat → Reader → Except BinErr α × Reader}
    (hg : ∀ (buf buf' : Bytes) (o : Nat), o + n ≤ buf.length → o + n ≤ buf'.length →
      buf'.take (o + n) = buf.take (o + n) →
      (g (o + n) ⟨buf, o⟩).2 = ⟨buf, o + n⟩ ∧
      g (o + n) ⟨buf', o⟩ = ((g (o + n) ⟨buf, o⟩).1, ⟨buf', o + n⟩)) :
    NoPeek (checkAvailable n >>= fun e => act (g e)) := by
  intro buf buf' o v r' ho h ht hl
  by_cases hu : o + n < usizeLimit
  · by_cases hlen : o + n ≤ buf.length
    · have hc : checkAvailable n ⟨buf, o⟩ = (.ok (o + n), ⟨buf, o⟩) := by
        simp [checkAvailable, hu, hlen]
      rw [bind_ok hc, act_apply] at h
      have g1 := hg buf buf o hlen hlen rfl
      rw [h] at g1
      have hr : r' = ⟨buf, o + n⟩ := g1.1
      subst hr
      simp only at ht hl
      have g2 := hg buf buf' o hlen hl ht
      have hc' : checkAvailable n ⟨buf', o⟩ = (.ok (o + n), ⟨buf', o⟩) := by
        simp [checkAvailable, hu, hl]
      rw [bind_ok hc', act_apply, g2.2, h]
    · have : checkAvailable n ⟨buf, o⟩ = (.error (.unexpectedEof o n), ⟨buf, o⟩) := by
        simp [checkAvailable, hu, hlen]
      rw [bind_error this] at h; simp at h
  · have : checkAvailable n ⟨buf, o⟩ = (.error (.sizeOverflow o n), ⟨buf, o⟩) := by
      simp [checkAvailable, hu]
    rw [bind_error this] at h; simp at h

theorem slice_congr {b b' : Bytes} {i j : Nat} (h : b'.take j = b.take j) :
    slice b' i j = slice b i j := by
  have := congrArg (List.drop i) h
  rwa [List.drop_take, List.drop_take] at this

theorem noPeek_fixed (n : Nat) : NoPeek (readFixed n) :=
  noPeek_check (g := fun e r => (.ok (slice r.buf r.offset e), { r with offset := e }))
    (fun buf buf' o _ _ ht => ⟨rfl, by simp [slice_congr ht]⟩)

theorem noPeek_uint (n : Nat) : NoPeek (readUint n) :=
  noPeek_check (g := fun e r => (.ok (beNat (slice r.buf r.offset e)), { r with offset := e }))
    (fun buf buf' o _ _ ht => ⟨rfl, by simp [slice_congr ht]⟩)

theorem noPeek_u8 : NoPeek readU8 :=
  noPeek_check (g := fun e r => match r.buf[r.offset]? with
      | some b => (.ok b, { r with offset := e })
      | none => (.error .panic, r))
    (fun buf buf' o h1 h2 ht => by
      have e1 : buf[o]? = some (buf[o]'(by omega)) := List.getElem?_eq_getElem _
      have e2 : buf'[o]? = buf[o]? := by
        have := congrArg (fun l => l[o]?) ht
        simpa [List.getElem?_take] using this
      rw [e1] at e2
      simp [e1, e2])

theorem noPeek_nested {α : Type} (n : Nat) (p : Reader → RM α) :
    NoPeek (readNested n >>= fun inner => onReader inner (p inner)) := by
  intro buf buf' o v r' ho h ht hl
  have key : NoPeek (checkAvailable n >>= fun e => act fun r : Reader =>
      (((p ⟨r.buf.take e, r.offset⟩) ⟨r.buf.take e, r.offset⟩).1, ({ r with offset := e } : Reader))) :=
    noPeek_check (g := fun e r =>
      (((p ⟨r.buf.take e, r.offset⟩) ⟨r.buf.take e, r.offset⟩).1, ({ r with offset := e } : Reader)))
      (fun b b' o' _ _ ht' => ⟨rfl, by simp [ht']⟩)
  have heq : ∀ r, (readNested n >>= fun inner => onReader inner (p inner)) r
      = (checkAvailable n >>= fun e => act fun r : Reader =>
      (((p ⟨r.buf.take e, r.offset⟩) ⟨r.buf.take e, r.offset⟩).1, ({ r with offset := e } : Reader))) r := by
    intro r
    simp only [bind_def, readNested, act_apply]
    rcases checkAvailable n r with ⟨res, s⟩
    cases res <;> rfl
  rw [heq] at h
  rw [heq]
  exact key buf buf' o v r' ho h ht hl

end Ngfs.Binary
