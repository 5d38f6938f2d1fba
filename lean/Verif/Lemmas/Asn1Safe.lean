import Verif.Lemmas.Asn1

/-! Helper lemmas about the ASN.1 reader on arbitrary bytes. No claims here. -/
namespace Ngfs.Asn1
open Ngfs.Binary Ngfs.Spec

/-- A successful step moves forward. -/
def Moves {α : Type} (p : RM α) : Prop := ∀ r a r', InBounds r → p r = (.ok a, r') → r.offset < r'.offset

theorem moves_u8 : Moves readU8 := by
  intro r a r' _ h
  obtain ⟨n, s, h1, h2⟩ := bind_ok_inv h
  have hc : s = r ∧ n = r.offset + 1 := by
    simp only [checkAvailable] at h1
    split at h1
    · split at h1
      · simp at h1; exact ⟨h1.2.symm, h1.1.symm⟩
      · simp at h1
    · simp at h1
  obtain ⟨rfl, rfl⟩ := hc
  simp only [act_apply] at h2
  split at h2
  · simp at h2; rw [← h2.2]; simp
  · simp at h2

theorem safe_ok {α : Type} {p : RM α} {r r' : Reader} {res : Except BinErr α} (hs : Safe p) (hb : InBounds r)
    (h : p r = (res, r')) : r'.buf = r.buf ∧ r.offset ≤ r'.offset ∧ InBounds r' := by
  obtain ⟨a1, a2, a3, -⟩ := hs r hb
  rw [h] at a1 a2 a3
  exact ⟨a1, a2, a3⟩

theorem moves_bind {α β : Type} {p : RM α} {f : α → RM β} (h0 : Safe p) (h1 : Moves p) (h2 : ∀ a, Safe (f a)) :
    Moves (p >>= f) := by
  intro r b r'' hb h
  obtain ⟨a, r', e1, e2⟩ := bind_ok_inv h
  have m := h1 _ _ _ hb e1
  obtain ⟨-, -, hb'⟩ := safe_ok h0 hb e1
  obtain ⟨-, h3, -⟩ := safe_ok (h2 a) hb' e2
  omega

theorem safe_ite {α : Type} {c : Prop} [Decidable c] {p q : RM α} (h1 : c → Safe p) (h2 : ¬ c → Safe q) :
    Safe (if c then p else q) := by
  split
  · exact h1 ‹_›
  · exact h2 ‹_›

theorem safe_plain {α : Type} (m : String) : Safe (throw (.plain m) : RM α) := safe_throw (by simp) (by simp)

theorem safe_identifier : Safe readIdentifier :=
  safe_bind safe_u8 fun _ => safe_ite (fun _ => safe_plain _) (fun _ => safe_pure _)

theorem moves_identifier : Moves readIdentifier :=
  moves_bind safe_u8 moves_u8 fun _ => safe_ite (fun _ => safe_plain _) (fun _ => safe_pure _)

theorem safe_lengthLoop (n l : Nat) : Safe (lengthLoop n l) := by
  induction n generalizing l with
  | zero => exact safe_pure _
  | succ n ih => exact safe_bind safe_u8 fun _ => ih _

theorem safe_lengthBody (first : UInt8) : Safe (if first &&& 0x80 = 0 then pure (first &&& 0x7f).toNat
      else if first &&& 0x7f = 0x7f then throw (.plain "noctets is 127")
      else if first &&& 0x7f = 0 then throw (.plain "Unsupported: Indefinite form")
      else if first &&& 0x7f > 4 then throw (.plain "noctets cannot fit in u32")
      else lengthLoop (first &&& 0x7f).toNat 0 : RM Nat) :=
  safe_ite (fun _ => safe_pure _) fun _ => safe_ite (fun _ => safe_plain _) fun _ =>
    safe_ite (fun _ => safe_plain _) fun _ => safe_ite (fun _ => safe_plain _) fun _ => safe_lengthLoop _ _

theorem safe_length : Safe readLength := safe_bind safe_u8 fun first => safe_lengthBody first
theorem moves_length : Moves readLength := moves_bind safe_u8 moves_u8 fun first => safe_lengthBody first

/-! ### Object identifiers and text -/

/-- Safe except that a loop may run out when more than `n` bytes remain. -/
def SafeUpTo {α : Type} (n : Nat) (p : RM α) : Prop := ∀ r : Reader, InBounds r →
  (p r).2.buf = r.buf ∧ r.offset ≤ (p r).2.offset ∧ InBounds (p r).2 ∧ (p r).1 ≠ .error .panic ∧
  (r.remaining < n → (p r).1 ≠ .error .fuel)

theorem safe_upTo {α : Type} {p : RM α} (n : Nat) (h : Safe p) : SafeUpTo n p := fun r hr =>
  let ⟨a, b, c, d, e⟩ := h r hr
  ⟨a, b, c, d, fun _ => e⟩

theorem upTo_bind {α β : Type} {n : Nat} {p : RM α} {f : α → RM β} (h1 : Safe p) (hm : Moves p)
    (h2 : ∀ a, SafeUpTo n (f a)) : SafeUpTo (n + 1) (p >>= f) := by
  intro r hr
  rw [bind_def]
  obtain ⟨a1, a2, a3, a4, a5⟩ := h1 r hr
  rcases hp : p r with ⟨res, r'⟩
  rw [hp] at a1 a2 a3 a4 a5
  cases res with
  | error e => exact ⟨a1, a2, a3, by simpa using a4, fun _ => by simpa using a5⟩
  | ok a =>
    simp only at a1 a2
    have hlt := hm r a r' hr hp
    obtain ⟨b1, b2, b3, b4, b5⟩ := h2 a r' a3
    refine ⟨b1.trans a1, by simp only; omega, b3, b4, fun hn => b5 ?_⟩
    simp only [Reader.remaining, a1] at hn ⊢
    have hb : r'.offset ≤ r'.buf.length := a3
    rw [a1] at hb
    omega

theorem upTo_varLoop (n v : Nat) : SafeUpTo n (varLoop n v) := by
  induction n generalizing v with
  | zero => intro r hr; exact ⟨rfl, Nat.le_refl _, hr, by simp [varLoop, Binary.throw], fun h => absurd h (by omega)⟩
  | succ n ih =>
    refine upTo_bind safe_u8 moves_u8 fun b => ?_
    simp only
    split
    · exact safe_upTo _ (safe_pure _)
    · exact ih _

theorem safe_varU64 : Safe readVarU64 := fun r hr =>
  let ⟨a, b, c, d, e⟩ := upTo_varLoop (r.remaining + 1) 0 r hr
  ⟨a, b, c, d, e (by omega)⟩

theorem moves_varLoop (n v : Nat) : Moves (varLoop n v) := by
  intro r a r' hr h
  cases n with
  | zero => simp [varLoop, Binary.throw] at h
  | succ n =>
    obtain ⟨b, r1, e1, e2⟩ := bind_ok_inv h
    have h1 := moves_u8 r b r1 hr e1
    obtain ⟨-, -, hb⟩ := safe_ok safe_u8 hr e1
    have h2 : SafeUpTo n ((if b &&& 0x80 = 0 then pure ((v <<< 7) % 2 ^ 64 ||| (b &&& 0x7f).toNat)
      else varLoop n ((v <<< 7) % 2 ^ 64 ||| (b &&& 0x7f).toNat)) : RM Nat) := by
      split
      · exact safe_upTo _ (safe_pure _)
      · exact upTo_varLoop _ _
    have := (h2 r1 hb).2.1
    rw [e2] at this
    simp only at this
    omega

theorem moves_varU64 : Moves readVarU64 := fun r a r' hr h => moves_varLoop _ _ r a r' hr h

theorem remaining_lt {r r' : Reader} (hb : r'.buf = r.buf) (h : r.offset < r'.offset) (hi : InBounds r') :
    r'.remaining < r.remaining := by
  simp only [Reader.remaining, hb]
  have : r'.offset ≤ r'.buf.length := hi
  rw [hb] at this
  omega

theorem upTo_oidLoop (n : Nat) (parts : List Nat) : SafeUpTo n (oidLoop n parts) := by
  induction n generalizing parts with
  | zero => intro r hr; exact ⟨rfl, Nat.le_refl _, hr, by simp [oidLoop, Binary.throw], fun h => absurd h (by omega)⟩
  | succ n ih =>
    intro r hr
    simp only [oidLoop]
    split
    · obtain ⟨a1, a2, a3, a4, a5⟩ := safe_varU64 r hr
      rcases hi : readVarU64 r with ⟨res, r'⟩
      rw [hi] at a1 a2 a3 a4 a5
      cases res with
      | error e => exact ⟨a1, a2, a3, by simpa using a4, fun _ => by simpa using a5⟩
      | ok part =>
        simp only at a1 a2 ⊢
        split
        · exact ⟨a1, a2, a3, by simp, fun _ => by simp⟩
        · have hlt := moves_varU64 _ _ _ hr hi
          have hrem := remaining_lt a1 hlt a3
          obtain ⟨b1, b2, b3, b4, b5⟩ := ih (if parts.isEmpty then [part / 40, part % 40] else parts ++ [part]) r' a3
          exact ⟨b1.trans a1, by omega, b3, b4, fun h => b5 (by omega)⟩
    · exact ⟨rfl, Nat.le_refl _, hr, by simp, fun _ => by simp⟩

theorem safe_oid : Safe readObjectIdentifier := fun r hr =>
  let ⟨a, b, c, d, e⟩ := upTo_oidLoop (r.remaining + 1) [] r hr
  ⟨a, b, c, d, e (by omega)⟩

theorem safe_text : Safe readText := by
  refine safe_bind safe_remainingData fun data => ?_
  split
  · exact safe_pure _
  · exact safe_throw (by simp) (by simp)

/-! ### Items -/

theorem upTo_itemList {α : Type} {n : Nat} {item : RM α} (hi : SafeUpTo n item) (fuel : Nat) (r : Reader) (hr : InBounds r) :
    (itemListLoop item fuel r).2.buf = r.buf ∧ r.offset ≤ (itemListLoop item fuel r).2.offset ∧
    InBounds (itemListLoop item fuel r).2 ∧ (itemListLoop item fuel r).1 ≠ .error .panic ∧
    (r.remaining < n → r.remaining < fuel → (itemListLoop item fuel r).1 ≠ .error .fuel) := by
  induction fuel generalizing r with
  | zero => exact ⟨rfl, Nat.le_refl _, hr, by simp [itemListLoop, Binary.throw], fun _ h => absurd h (by omega)⟩
  | succ fuel ih =>
    simp only [itemListLoop]
    split
    · obtain ⟨a1, a2, a3, a4, a5⟩ := hi r hr
      rcases hp : item r with ⟨res, r'⟩
      rw [hp] at a1 a2 a3 a4 a5
      cases res with
      | error e => exact ⟨a1, a2, a3, by simpa using a4, fun h _ => by simpa using a5 h⟩
      | ok a =>
        simp only at a1 a2 ⊢
        split
        · exact ⟨a1, a2, a3, by simp, fun _ _ => by simp⟩
        · rename_i hne
          have hrem : r'.remaining < r.remaining := by
            have h0 : r'.offset ≤ r'.buf.length := a3
            simp only [Reader.remaining, a1] at hne h0 ⊢; omega
          obtain ⟨b1, b2, b3, b4, b5⟩ := ih r' a3
          rcases hl : itemListLoop item fuel r' with ⟨res2, r2⟩
          rw [hl] at b1 b2 b3 b4 b5
          cases res2 with
          | error e => exact ⟨b1.trans a1, by simp only at b2 ⊢; omega, b3, by simpa using b4, fun h1 h2 => by
              simpa using b5 (by omega) (by omega)⟩
          | ok as => exact ⟨b1.trans a1, by simp only at b2 ⊢; omega, b3, by simp, fun _ _ => by simp⟩
    · exact ⟨rfl, Nat.le_refl _, hr, by simp, fun _ _ => by simp⟩

theorem upTo_map {α β : Type} {n : Nat} {p : RM α} {g : α → β} (h : SafeUpTo n p) :
    SafeUpTo n (p >>= fun a => pure (g a)) := by
  intro r hr
  rw [bind_def]
  obtain ⟨a1, a2, a3, a4, a5⟩ := h r hr
  rcases hp : p r with ⟨res, r'⟩
  rw [hp] at a1 a2 a3 a4 a5
  cases res with
  | error e => exact ⟨a1, a2, a3, by simpa using a4, fun h => by simpa using a5 h⟩
  | ok a => exact ⟨a1, a2, a3, by simp [pure_def], fun _ => by simp [pure_def]⟩

theorem upTo_itemListAll {α : Type} {n : Nat} {item : RM α} (hi : SafeUpTo n item) :
    SafeUpTo n (fun r => itemListLoop item (r.remaining + 1) r) := fun r hr =>
  let ⟨a, b, c, d, e⟩ := upTo_itemList hi (r.remaining + 1) r hr
  ⟨a, b, c, d, fun h => e h (by omega)⟩

theorem upTo_err {α : Type} {n : Nat} {r : Reader} {m : String} (hr : InBounds r) :
    ((Except.error (.plain m), r) : Except BinErr α × Reader).2.buf = r.buf ∧
    r.offset ≤ ((Except.error (.plain m), r) : Except BinErr α × Reader).2.offset ∧
    InBounds ((Except.error (.plain m), r) : Except BinErr α × Reader).2 ∧
    ((Except.error (.plain m), r) : Except BinErr α × Reader).1 ≠ .error .panic ∧
    (r.remaining < n → ((Except.error (.plain m), r) : Except BinErr α × Reader).1 ≠ .error .fuel) :=
  ⟨rfl, Nat.le_refl _, hr, by simp, fun _ => by simp⟩

theorem upTo_universal {n : Nat} {item : RM Item} (hi : SafeUpTo n item) (id : Identifier) (len : Nat) :
    SafeUpTo n (readUniversal item id len) := by
  intro r hr
  have hlist := upTo_itemListAll hi
  unfold readUniversal
  split
  case h_1 =>
    split
    · exact upTo_err hr
    · split
      · exact upTo_err hr
      · exact safe_upTo n (safe_bind safe_u8 fun b => safe_ite (fun _ => safe_pure _) fun _ =>
          safe_ite (fun _ => safe_pure _) fun _ => safe_plain _) r hr
  case h_2 => 
    split
    · exact upTo_err hr
    · exact upTo_map (safe_upTo n safe_remainingData) r hr
  case h_3 => 
    split
    · exact upTo_err hr
    · exact safe_upTo n (safe_bind safe_u8 fun b => safe_bind safe_remainingData fun _ => safe_pure _) r hr
  case h_4 => 
    split
    · exact upTo_err hr
    · exact upTo_map (safe_upTo n safe_remainingData) r hr
  case h_5 =>
    split
    · exact upTo_err hr
    · split
      · exact upTo_err hr
      · exact ⟨rfl, Nat.le_refl _, hr, by simp, fun _ => by simp⟩
  case h_6 =>
    split
    · exact upTo_err hr
    · exact upTo_map (safe_upTo n safe_oid) r hr
  case h_7 =>
    split
    · exact upTo_err hr
    · exact upTo_map (safe_upTo n safe_text) r hr
  case h_8 =>
    split
    · exact upTo_err hr
    · exact upTo_map (g := Value.sequence) hlist r hr
  case h_9 =>
    split
    · exact upTo_err hr
    · exact upTo_map (g := Value.set) hlist r hr
  case h_10 =>
    split
    · exact upTo_err hr
    · exact upTo_map (safe_upTo n safe_text) r hr
  case h_11 =>
    split
    · exact upTo_err hr
    · exact upTo_map (safe_upTo n safe_text) r hr
  case h_12 =>
    split
    · exact upTo_err hr
    · exact upTo_map (safe_upTo n safe_text) r hr
  case h_13 => exact ⟨rfl, Nat.le_refl _, hr, by simp, fun _ => by simp⟩

theorem upTo_contents {n : Nat} {item : RM Item} (hi : SafeUpTo n item) (id : Identifier) (len : Nat) :
    SafeUpTo n (readContents item id len) := by
  unfold readContents
  split
  · exact upTo_universal hi id len
  all_goals
    unfold readTagged
    split
    · exact safe_upTo n (safe_pure _)
    · exact upTo_map hi

theorem checkAvailable_cases (n : Nat) (r : Reader) :
    (checkAvailable n r = (.ok (r.offset + n), r) ∧ r.offset + n ≤ r.buf.length) ∨
    ∃ e, checkAvailable n r = (.error e, r) ∧ e ≠ .panic ∧ e ≠ .fuel := by
  simp only [checkAvailable]
  split
  · split
    · exact .inl ⟨rfl, ‹_›⟩
    · exact .inr ⟨_, rfl, by simp, by simp⟩
  · exact .inr ⟨_, rfl, by simp, by simp⟩

theorem upTo_nested {α : Type} {n : Nat} (len : Nat) {p : RM α} (hp : SafeUpTo n p) :
    SafeUpTo n (readNested len >>= fun inner => onReader inner p) := by
  intro r hr
  rcases checkAvailable_cases len r with ⟨h, hl⟩ | ⟨e, h, he1, he2⟩
  · have : readNested len r = (.ok ⟨r.buf.take (r.offset + len), r.offset⟩, { r with offset := r.offset + len }) := by
      rw [readNested, bind_ok h]; rfl
    rw [bind_ok this]
    simp only [onReader]
    obtain ⟨-, -, -, a4, a5⟩ := hp ⟨r.buf.take (r.offset + len), r.offset⟩ (by
      simp only [InBounds, List.length_take]; omega)
    refine ⟨trivial, by simp, hl, a4, fun h => a5 ?_⟩
    simp only [Reader.remaining, List.length_take] at h ⊢; omega
  · have : readNested len r = (.error e, r) := by rw [readNested, bind_error h]
    rw [bind_error this]
    exact ⟨rfl, Nat.le_refl _, hr, by simpa using he1, fun _ => by simpa using he2⟩

theorem upTo_value {n : Nat} {item : RM Item} (hi : SafeUpTo n item) : SafeUpTo (n + 2) (readValue item) :=
  upTo_bind safe_identifier moves_identifier fun id => upTo_bind safe_length moves_length fun len =>
    upTo_nested len (upTo_contents hi id len)

theorem upTo_itemN (n : Nat) : SafeUpTo n (readItemN n) := by
  induction n with
  | zero => intro r hr; exact ⟨rfl, Nat.le_refl _, hr, by simp [readItemN, Binary.throw], fun h => absurd h (by omega)⟩
  | succ n ih =>
    intro r hr
    obtain ⟨a1, a2, a3, a4, a5⟩ := upTo_value ih r hr
    simp only [readItemN]
    rcases hp : readValue (readItemN n) r with ⟨res, r'⟩
    rw [hp] at a1 a2 a3 a4 a5
    cases res with
    | error e => exact ⟨a1, a2, a3, by simpa using a4, fun h => by simpa using a5 (by omega)⟩
    | ok a => exact ⟨a1, a2, a3, by simp, fun _ => by simp⟩

theorem safe_item : Safe readItem := fun r hr =>
  let ⟨a, b, c, d, e⟩ := upTo_itemN (r.remaining + 1) r hr
  ⟨a, b, c, d, e (by omega)⟩

/-! ### More fuel changes nothing -/

/-- `q` does what `p` does unless `p` runs out of fuel. -/
def Extends {α : Type} (p q : RM α) : Prop := ∀ r, (p r).1 ≠ .error .fuel → q r = p r

theorem ext_refl {α : Type} (p : RM α) : Extends p p := fun _ _ => rfl

theorem ext_bind {α β : Type} {p q : RM α} {f g : α → RM β} (h1 : Extends p q) (h2 : ∀ a, Extends (f a) (g a)) :
    Extends (p >>= f) (q >>= g) := by
  intro r h
  rw [bind_def] at h ⊢
  rw [bind_def]
  rcases hp : p r with ⟨res, r'⟩
  rw [hp] at h
  cases res with
  | error e =>
    rw [h1 r (by rw [hp]; simpa using h), hp]
  | ok a =>
    rw [h1 r (by rw [hp]; simp), hp]
    exact h2 a r' h

theorem ext_itemList {α : Type} {p q : RM α} (h : Extends p q) (fuel : Nat) :
    Extends (itemListLoop p fuel) (itemListLoop q fuel) := by
  induction fuel with
  | zero => exact ext_refl _
  | succ fuel ih =>
    intro r hr
    simp only [itemListLoop] at hr ⊢
    split
    · rename_i hpos
      rw [if_pos hpos] at hr
      rcases hp : p r with ⟨res, r'⟩
      rw [hp] at hr
      cases res with
      | error e => rw [h r (by rw [hp]; simpa using hr), hp]
      | ok a =>
        rw [h r (by rw [hp]; simp), hp]
        simp only at hr ⊢
        split
        · rfl
        · rename_i hne
          rw [if_neg hne] at hr
          rcases hl : itemListLoop p fuel r' with ⟨res2, r2⟩
          rw [hl] at hr
          cases res2 with
          | error e => rw [ih r' (by rw [hl]; simpa using hr), hl]
          | ok as => rw [ih r' (by rw [hl]; simp), hl]
    · rfl

theorem ext_universal {p q : RM Item} (h : Extends p q) (id : Identifier) (len : Nat) :
    Extends (readUniversal p id len) (readUniversal q id len) := by
  intro r hr
  unfold readUniversal at hr ⊢
  split
  case h_8 ht =>
    simp only [ht] at hr
    split
    · rfl
    · rename_i hf
      simp only [hf] at hr
      exact ext_bind (ext_itemList h _) (fun _ => ext_refl _) r hr
  case h_9 ht =>
    simp only [ht] at hr
    split
    · rfl
    · rename_i hf
      simp only [hf] at hr
      exact ext_bind (ext_itemList h _) (fun _ => ext_refl _) r hr
  all_goals rfl

theorem ext_contents {p q : RM Item} (h : Extends p q) (id : Identifier) (len : Nat) :
    Extends (readContents p id len) (readContents q id len) := by
  unfold readContents
  split
  · exact ext_universal h id len
  all_goals
    unfold readTagged
    split
    · exact ext_refl _
    · exact ext_bind h fun _ => ext_refl _

theorem ext_value {p q : RM Item} (h : Extends p q) : Extends (readValue p) (readValue q) := by
  refine ext_bind (ext_refl _) fun id => ext_bind (ext_refl _) fun len => ext_bind (ext_refl _) fun inner => ?_
  intro r hr
  simp only [onReader] at hr ⊢
  rw [ext_contents h id len inner hr]

theorem ext_itemN (n : Nat) : Extends (readItemN n) (readItemN (n + 1)) := by
  induction n with
  | zero => intro r h; simp [readItemN, Binary.throw] at h
  | succ n ih =>
    intro r h
    have hv : (readValue (readItemN n) r).1 ≠ .error .fuel := by
      intro hc
      apply h
      simp only [readItemN]
      rcases hp : readValue (readItemN n) r with ⟨res, r'⟩
      rw [hp] at hc
      simp only at hc
      subst hc
      rfl
    have e := ext_value ih r hv
    show readItemN (n + 1 + 1) r = readItemN (n + 1) r
    simp only [readItemN] at e ⊢
    rw [e]

theorem ext_itemN_le {n m : Nat} (h : n ≤ m) : Extends (readItemN n) (readItemN m) := by
  induction h with
  | refl => exact ext_refl _
  | @step m _ ih =>
    intro r hr
    have := ih r hr
    rw [ext_itemN m r (by rw [this]; exact hr), this]

theorem itemN_item {n : Nat} {r r' : Reader} {i : Item} (hr : InBounds r) (h : readItemN n r = (.ok i, r')) :
    readItem r = (.ok i, r') := by
  have h1 := ext_itemN_le (Nat.le_max_left n (r.remaining + 1)) r (by rw [h]; simp)
  have h2 := ext_itemN_le (Nat.le_max_right n (r.remaining + 1)) r ((safe_item r hr).2.2.2.2)
  rw [readItem, ← h2, h1, h]

end Ngfs.Asn1
