import Verif.Spec.Io
import Verif.Lemmas.Varint
import Verif.Props.Varint
import Verif.Lemmas.Mplex

namespace Ngfs.Io
open Varint Spec Spec.Io

/-! ### Views -/

theorem trunc_took {d bs : Bytes} {e : End} {m : Nat} (h : d.length ≤ m) :
    ∃ bs' e', trunc m (d ++ bs, e) = (d ++ bs', e') ∧ trunc (m - d.length) (bs, e) = (bs', e') := by
  unfold trunc
  simp only [List.length_append]
  by_cases hm : m ≤ d.length + bs.length
  · rw [if_pos hm, if_pos (by omega)]
    refine ⟨_, _, ?_, rfl⟩
    rw [List.take_append, List.take_of_length_le h]
  · rw [if_neg hm, if_neg (by omega)]
    exact ⟨_, _, rfl, rfl⟩

theorem foldr_took {d : Bytes} (ls : List Nat) : ∀ {bs : Bytes} {e : End}, (∀ m ∈ ls, d.length ≤ m) →
    ∃ bs' e', ls.foldr trunc (d ++ bs, e) = (d ++ bs', e') ∧
      (ls.map (· - d.length)).foldr trunc (bs, e) = (bs', e') := by
  induction ls with
  | nil => intro bs e _; exact ⟨bs, e, rfl, rfl⟩
  | cons m ls ih =>
    intro bs e h
    obtain ⟨b1, e1, h1, h2⟩ := ih (bs := bs) (e := e) (fun x hx => h x (List.mem_cons_of_mem _ hx))
    obtain ⟨b2, e2, h3, h4⟩ := trunc_took (bs := b1) (e := e1) (h m List.mem_cons_self)
    exact ⟨b2, e2, by rw [List.foldr_cons, h1, h3], by rw [List.map_cons, List.foldr_cons, h2, h4]⟩

theorem foldr_min_le (ls : List Nat) (room : Nat) :
    ls.foldr min room ≤ room ∧ ∀ m ∈ ls, ls.foldr min room ≤ m := by
  induction ls with
  | nil => simp
  | cons a ls ih =>
    simp only [List.foldr_cons, List.mem_cons]
    refine ⟨by omega, ?_⟩
    rintro m (rfl | hm)
    · omega
    · have := ih.2 m hm; omega

theorem foldr_min_zero {ls : List Nat} {room : Nat} (hr : 0 < room) (h : ls.foldr min room = 0) : 0 ∈ ls := by
  induction ls with
  | nil => simp at h; omega
  | cons a ls ih =>
    simp only [List.foldr_cons] at h
    by_cases ha : a = 0
    · simp [ha]
    · exact List.mem_cons_of_mem _ (ih (by omega))

theorem foldr_trunc_nil (ls : List Nat) (e : End) (h : 0 ∉ ls) : ls.foldr trunc ([], e) = ([], e) := by
  induction ls with
  | nil => rfl
  | cons a ls ih =>
    simp only [List.mem_cons, not_or] at h
    rw [List.foldr_cons, ih h.2, trunc, if_neg (by simp; omega)]

theorem foldr_trunc_eof (ls : List Nat) : ls.foldr trunc ([], .eof) = ([], .eof) := by
  induction ls with
  | nil => rfl
  | cons a ls ih => rw [List.foldr_cons, ih, trunc]; split <;> simp

theorem foldr_trunc_zero (ls : List Nat) (v : Bytes × End) (h : 0 ∈ ls) : ls.foldr trunc v = ([], .eof) := by
  induction ls with
  | nil => simp at h
  | cons a ls ih =>
    rw [List.foldr_cons]
    rcases List.mem_cons.mp h with h | h
    · subst h; simp [trunc]
    · rw [ih h, trunc]; split <;> simp

theorem foldr_trunc_le (ls : List Nat) (v : Bytes × End) : ∀ m ∈ ls, (ls.foldr trunc v).1.length ≤ m := by
  induction ls with
  | nil => simp
  | cons a ls ih =>
    intro m hm
    rw [List.foldr_cons]
    have : (trunc a (ls.foldr trunc v)).1.length ≤ a ∧
        (trunc a (ls.foldr trunc v)).1.length ≤ (ls.foldr trunc v).1.length := by
      unfold trunc; split
      · simp only [List.length_take]; omega
      · omega
    rcases List.mem_cons.mp hm with rfl | hm
    · exact this.1
    · have := ih m hm; omega

theorem trunc_nil {m : Nat} {v : Bytes × End} {e : End} (hm : 0 < m) (h : trunc m v = ([], e)) : v = ([], e) := by
  unfold trunc at h
  split at h
  · rename_i hl
    have := congrArg (fun x => x.1.length) h
    simp only [List.length_take, List.length_nil] at this
    omega
  · exact h

/-- The reader without its `k` outermost limits. -/
def Reader.below (r : Reader) (k : Nat) : Reader := { r with limits := r.limits.drop k }

/-- Reading has taken `d` from a reader and from all readers below it. -/
structure Took (r r' : Reader) (d : Bytes) : Prop where
  views : ∀ k, ∃ bs e, view (r.below k) = (d ++ bs, e) ∧ view (r'.below k) = (bs, e)
  limits : r'.limits = r.limits.map (· - d.length)
  t : r'.t = { r.t with reads := r'.t.reads }
  size : scriptSize r'.t.reads + d.length ≤ scriptSize r.t.reads

theorem Took.view {r r' : Reader} {d : Bytes} (h : Took r r' d) :
    ∃ bs e, view r = (d ++ bs, e) ∧ Spec.Io.view r' = (bs, e) := h.views 0

theorem Took.refl (r : Reader) : Took r r [] :=
  ⟨fun k => ⟨_, _, rfl, rfl⟩, by simp, rfl, by simp⟩

theorem Took.trans {r r1 r2 : Reader} {d1 d2 : Bytes} (h1 : Took r r1 d1) (h2 : Took r1 r2 d2) :
    Took r r2 (d1 ++ d2) := by
  refine ⟨fun k => ?_, ?_, ?_, ?_⟩
  · obtain ⟨b1, e1, h3, h4⟩ := h1.views k
    obtain ⟨b2, e2, h5, h6⟩ := h2.views k
    rw [h4] at h5
    cases h5
    exact ⟨b2, e1, by rw [h3, List.append_assoc], h6⟩
  · rw [h2.limits, h1.limits, List.map_map]
    apply List.map_congr_left
    intro a _
    simp only [Function.comp, List.length_append]
    omega
  · rw [h2.t, h1.t]
  · have := h1.size; have := h2.size
    simp only [List.length_append]; omega

theorem content_ready (d : Bytes) (es : List ReadEvent) (h : d ≠ []) :
    content (.ready d :: es) = (d ++ (content es).1, (content es).2) := by
  cases d with
  | nil => exact (h rfl).elim
  | cons b d => rfl

/-- One answer of a reader. -/
theorem pollRead_spec (r : Reader) (room : Nat) (hr : 0 < room) :
    match r.pollRead room with
    | (.pending, r') => Took r r' [] ∧ (scriptSize r'.t.reads < scriptSize r.t.reads ∨
        (r'.t.reads = [] ∧ view r' = ([], .silent)))
    | (.error k, _) => view r = ([], .error k)
    | (.ready [], _) => view r = ([], .eof)
    | (.ready (b :: d), r') => Took r r' (b :: d) ∧ (b :: d).length ≤ room := by
  unfold Reader.pollRead
  obtain ⟨hn1, hn2⟩ := foldr_min_le r.limits room
  generalize hn : r.limits.foldr min room = n at hn1 hn2
  simp only
  by_cases h0 : n = 0
  · rw [if_pos h0]
    exact foldr_trunc_zero _ _ (foldr_min_zero hr (hn.trans h0))
  · rw [if_neg h0]
    have hz : 0 ∉ r.limits := fun h => by have := hn2 0 h; omega
    obtain ⟨⟨reads, ws, fl, sh, se⟩, ls⟩ := r
    simp only at hn hn2 hz ⊢
    cases reads with
    | nil =>
      exact ⟨Took.refl _, .inr ⟨rfl, foldr_trunc_nil _ _ hz⟩⟩
    | cons e es =>
      cases e with
      | pending =>
        refine ⟨⟨fun k => ⟨_, _, rfl, rfl⟩, by simp, rfl, ?_⟩, .inl ?_⟩ <;> simp [scriptSize]
      | error k => exact foldr_trunc_nil _ _ hz
      | ready d =>
        simp only
        cases hd : d with
        | nil => simp only [List.take_nil]; exact foldr_trunc_eof _
        | cons b d' =>
          rw [← hd]
          have hne : d ≠ [] := by rw [hd]; nofun
          have htake : ∃ b t, d.take n = b :: t := by
            rw [hd]
            obtain ⟨m, rfl⟩ : ∃ m, n = m + 1 := ⟨n - 1, by omega⟩
            exact ⟨_, _, rfl⟩
          obtain ⟨b', t', ht⟩ := htake
          have hlen : (b' :: t').length ≤ n := by rw [← ht, List.length_take]; omega
          have hsplit : d = (b' :: t') ++ d.drop n := by rw [← ht, List.take_append_drop]
          simp only [ht]
          refine ⟨⟨fun k => ?_, rfl, rfl, ?_⟩, by omega⟩
          · -- the views
            have hle : ∀ m ∈ ls.drop k, (b' :: t').length ≤ m :=
              fun m hm => Nat.le_trans hlen (hn2 m (List.mem_of_mem_drop hm))
            have hc : content (.ready d :: es) = ((b' :: t') ++
                (content (if (d.drop n).isEmpty then es else .ready (d.drop n) :: es)).1,
                (content (if (d.drop n).isEmpty then es else .ready (d.drop n) :: es)).2) := by
              rw [content_ready d es hne]
              by_cases hre : d.drop n = []
              · simp only [hre, List.isEmpty_nil, if_true]
                rw [hre, List.append_nil] at hsplit
                rw [← hsplit]
              · have : (d.drop n).isEmpty = false := by simp [hre]
                simp only [this, Bool.false_eq_true, if_false]
                rw [content_ready _ _ hre]
                simp only
                rw [← List.append_assoc, ← hsplit]
            obtain ⟨bs', e', h1, h2⟩ := foldr_took (d := b' :: t') (ls.drop k)
              (bs := (content (if (d.drop n).isEmpty then es else .ready (d.drop n) :: es)).1)
              (e := (content (if (d.drop n).isEmpty then es else .ready (d.drop n) :: es)).2) hle
            refine ⟨bs', e', ?_, ?_⟩
            · simp only [Spec.Io.view, Reader.below, hc]
              exact h1
            · simp only [Spec.Io.view, Reader.below, ← List.map_drop]
              exact h2
          · simp only [scriptSize]
            have hl := congrArg List.length hsplit
            simp only [List.length_append] at hl
            split
            · omega
            · simp only [scriptSize]; omega

/-! ### The incremental decoder -/

theorem input_pending_feed {d d' : Decoder} {b : UInt8} (h : d.input b = (.pending, d')) (q : Bytes) :
    d.feed (b :: q) = d'.feed q := by
  rw [Decoder.feed, h]

theorem feed_overflow (bs : Bytes) : ∀ (k res : Nat), k ≤ 10 → ∀ rest,
    (Decoder.mk res (7 * k)).feed bs = (.overflow, rest) →
      ∃ q b, bs = q ++ b :: rest ∧ (∀ c ∈ q, 128 ≤ c.toNat) ∧ k + q.length = 10 := by
  induction bs with
  | nil => intro k res _ rest h; simp [Decoder.feed] at h
  | cons b bs ih =>
    intro k res hk rest h
    by_cases hk10 : k = 10
    · subst hk10
      have : (Decoder.mk res (7 * 10)).feed (b :: bs) = (.overflow, bs) := rfl
      rw [this] at h
      cases h
      exact ⟨[], b, rfl, by simp, rfl⟩
    · have hs : ¬ (7 * k ≥ 64) := by omega
      rw [Decoder.feed, Decoder.input] at h
      simp only [hs, if_false] at h
      by_cases hb : (b &&& 0x80) == 0
      · simp [hb] at h
      · simp only [hb] at h
        obtain ⟨q, b', rfl, hq, hl⟩ := ih (k + 1) _ (by omega) rest h
        refine ⟨b :: q, b', rfl, ?_, by simp only [List.length_cons]; omega⟩
        intro c hc
        rcases List.mem_cons.mp hc with rfl | hc
        · have := (Ngfs.Mplex.high_iff c).mp (by simpa using hb)
          exact this
        · exact hq c hc

/-! ### `ReadOptVarInt` -/

/-- What a poll or the whole future does. -/
def VarintOut (f : ReadOptVarInt) (x : Poll (Except IoKind (Option Nat))) (r' : Reader) (waiting : Prop) : Prop :=
  match x with
  | .pending => waiting
  | .ready (.ok (some v)) => ∃ p, Took f.reader r' p ∧ p ≠ [] ∧ f.decoder.feed p = (.finished v, [])
  | .ready (.ok none) => f.numBytes = 0 ∧ (view f.reader = ([], .eof) ∨ view f.reader = ([], .error .unexpectedEof))
  | .ready (.error k) =>
    (k = .invalidData ∧ ∃ p rest e, view f.reader = (p ++ rest, e) ∧ p ≠ [] ∧ f.decoder.feed p = (.overflow, [])) ∨
    ∃ p e, view f.reader = (p, e) ∧ f.decoder.feed p = (.pending, []) ∧
      ((e = .eof ∧ k = .unexpectedEof ∧ f.numBytes + p.length ≠ 0) ∨
       (e = .error k ∧ (f.numBytes + p.length = 0 → k ≠ .unexpectedEof)))

/-- A poll that is not ready has kept all it has read. -/
def Kept (f f' : ReadOptVarInt) : Prop :=
  ∃ p, Took f.reader f'.reader p ∧ (∀ q, f.decoder.feed (p ++ q) = f'.decoder.feed q) ∧
    f'.numBytes = f.numBytes + p.length ∧
    (scriptSize f'.reader.t.reads < scriptSize f.reader.t.reads ∨
      (f'.reader.t.reads = [] ∧ view f'.reader = ([], .silent)))

/-- The outcome after some bytes is the outcome from the start. -/
theorem varintOut_step {f f1 : ReadOptVarInt} {p : Bytes} (ht : Took f.reader f1.reader p)
    (hq : ∀ q, f.decoder.feed (p ++ q) = f1.decoder.feed q) (hn : f1.numBytes = f.numBytes + p.length)
    {x : Poll (Except IoKind (Option Nat))} {r' : Reader} {w w' : Prop} (hw : w → w')
    (h : VarintOut f1 x r' w) : VarintOut f x r' w' := by
  obtain ⟨bs, e, hv, hv1⟩ := ht.view
  rcases x with _ | (k | (_ | v))
  · exact hw h
  · rcases h with ⟨hk, q, rest, e', h1, h2, h3⟩ | ⟨q, e', h1, h2, h3⟩
    · rw [hv1] at h1; cases h1
      exact .inl ⟨hk, p ++ q, rest, _, by rw [hv, List.append_assoc], by simp [h2], by rw [hq, h3]⟩
    · rw [hv1] at h1; cases h1
      refine .inr ⟨p ++ bs, _, hv, by rw [hq, h2], ?_⟩
      simp only [List.length_append, ← Nat.add_assoc, ← hn]
      exact h3
  · obtain ⟨h1, h2⟩ := h
    have hp : p = [] := by
      rw [← List.length_eq_zero_iff]; omega
    subst hp
    refine ⟨by simp only [List.length_nil] at hn; omega, ?_⟩
    rw [hv1] at h2
    rw [hv, List.nil_append]
    exact h2
  · obtain ⟨q, h1, h2, h3⟩ := h
    exact ⟨p ++ q, ht.trans h1, by simp [h2], by rw [hq, h3]⟩

theorem loop_spec (fuel : Nat) : ∀ f : ReadOptVarInt, scriptSize f.reader.t.reads < fuel →
    VarintOut f (f.loop fuel).1 (f.loop fuel).2.reader (Kept f (f.loop fuel).2) := by
  induction fuel with
  | zero => intro f h; omega
  | succ fuel ih =>
    intro f hf
    have hp := pollRead_spec f.reader 1 (by decide)
    unfold ReadOptVarInt.loop
    generalize f.reader.pollRead 1 = P at hp
    obtain ⟨ev, r⟩ := P
    cases ev with
    | pending =>
      simp only at hp ⊢
      exact ⟨[], hp.1, fun _ => rfl, rfl, hp.2⟩
    | error k =>
      simp only at hp ⊢
      split
      · rename_i h; obtain ⟨h1, rfl⟩ := h; exact ⟨h1, .inr hp⟩
      · rename_i h
        refine .inr ⟨[], _, hp, rfl, .inr ⟨rfl, ?_⟩⟩
        intro h1 h2
        exact h ⟨by simpa using h1, h2⟩
    | ready d =>
      cases d with
      | nil =>
        simp only at hp ⊢
        split
        · rename_i h; exact ⟨h, .inl hp⟩
        · rename_i h; exact .inr ⟨[], _, hp, rfl, .inl ⟨rfl, rfl, by simpa using h⟩⟩
      | cons b d =>
        simp only at hp ⊢
        obtain ⟨ht, hl⟩ := hp
        have hd : d = [] := by
          rw [← List.length_eq_zero_iff]; simp only [List.length_cons] at hl; omega
        subst hd
        cases hi : f.decoder.input b with
        | mk res dec =>
          cases res with
          | finished v =>
            exact ⟨[b], ht, by simp, by rw [Decoder.feed, hi]⟩
          | overflow =>
            obtain ⟨bs, e, hv, -⟩ := ht.view
            exact .inl ⟨rfl, [b], bs, e, hv, by simp, by rw [Decoder.feed, hi]⟩
          | pending =>
            simp only
            have hsz := ht.size
            simp only [List.length_singleton] at hsz
            have := ih ⟨r, dec, f.numBytes + 1⟩ (by simp only; omega)
            refine varintOut_step (f1 := ⟨r, dec, f.numBytes + 1⟩) ht (fun q => ?_) rfl ?_ this
            · exact input_pending_feed hi q
            · rintro ⟨p, h1, h2, h3, h4⟩
              refine ⟨[b] ++ p, ht.trans h1, fun q => ?_, ?_, ?_⟩
              · rw [List.append_assoc]
                show f.decoder.feed (b :: (p ++ q)) = _
                rw [input_pending_feed hi, h2]
              · rw [h3]; simp only [List.length_append, List.length_singleton]; omega
              · rcases h4 with h4 | h4
                · exact .inl (by simp only at h4; omega)
                · exact .inr h4

theorem await_spec (n : Nat) : ∀ f : ReadOptVarInt,
    (scriptSize f.reader.t.reads < n ∨ (f.reader.t.reads = [] ∧ view f.reader = ([], .silent))) →
    VarintOut f (f.await n).1 (f.await n).2
      (∃ p, view f.reader = (p, .silent) ∧ f.decoder.feed p = (.pending, [])) := by
  induction n with
  | zero =>
    intro f hf
    rcases hf with hf | hf
    · omega
    · exact ⟨[], hf.2, rfl⟩
  | succ n ih =>
    intro f _
    have hp := loop_spec (scriptSize f.reader.t.reads + 1) f (by omega)
    unfold ReadOptVarInt.await ReadOptVarInt.poll
    generalize f.loop (scriptSize f.reader.t.reads + 1) = P at hp
    obtain ⟨x, f'⟩ := P
    cases x with
    | ready y =>
      simp only at hp ⊢
      rcases y with k | (_ | v) <;> exact hp
    | pending =>
      simp only at hp ⊢
      obtain ⟨p, h1, h2, h3, h4⟩ := hp
      refine varintOut_step h1 h2 h3 ?_ (ih f' ?_)
      · rintro ⟨q, h5, h6⟩
        obtain ⟨bs, e, hv, hv1⟩ := h1.view
        rw [h5] at hv1
        cases hv1
        exact ⟨p ++ q, hv, by rw [h2, h6]⟩
      · rcases h4 with h4 | h4
        · rename_i hf
          rcases hf with hf | ⟨hf, -⟩
          · exact .inl (by omega)
          · rw [hf] at h4; simp [scriptSize] at h4
        · exact .inr h4

/-! ### `read`, `readBody` -/

theorem read_spec (fuel : Nat) : ∀ (r : Reader) (room : Nat), 0 < room →
    (scriptSize r.t.reads < fuel ∨ (r.t.reads = [] ∧ view r = ([], .silent))) →
    match r.read fuel room with
    | (.pending, _) => view r = ([], .silent)
    | (.ready (.error k), _) => view r = ([], .error k)
    | (.ready (.ok []), _) => view r = ([], .eof)
    | (.ready (.ok (b :: d)), r') => Took r r' (b :: d) := by
  induction fuel with
  | zero =>
    intro r room _ hf
    rcases hf with hf | hf
    · omega
    · exact hf.2
  | succ fuel ih =>
    intro r room hr hf
    have hp := pollRead_spec r room hr
    unfold Reader.read
    generalize r.pollRead room = P at hp
    obtain ⟨ev, r1⟩ := P
    cases ev with
    | error k => exact hp
    | ready d =>
      cases d with
      | nil => exact hp
      | cons b d => exact hp.1
    | pending =>
      simp only at hp ⊢
      obtain ⟨h1, h2⟩ := hp
      have := ih r1 room hr (by
        rcases h2 with h2 | h2
        · rcases hf with hf | ⟨hf, -⟩
          · exact .inl (by omega)
          · rw [hf] at h2; simp [scriptSize] at h2
        · exact .inr h2)
      obtain ⟨bs, e, hv, hv1⟩ := h1.view
      rw [List.nil_append] at hv
      rw [hv1, ← hv] at this
      generalize r1.read fuel room = Q at this
      obtain ⟨x, r2⟩ := Q
      rcases x with _ | (k | d)
      · exact this
      · exact this
      · cases d with
        | nil => exact this
        | cons b d =>
          simp only at this ⊢
          exact h1.trans this

theorem readBody_spec (fuel : Nat) : ∀ (r : Reader) (ls : List Nat) (n : Nat) (inc : Bytes),
    scriptSize r.t.reads < fuel → r.limits = (n - inc.length) :: ls → inc.length ≤ n →
    match readBody fuel r n inc with
    | (.pending, _) => ∃ d, view (r.below 1) = (d, .silent) ∧ inc.length + d.length < n
    | (.ready (.error k), _) => ∃ d e, view (r.below 1) = (d, e) ∧ inc.length + d.length < n ∧
        ((e = .eof ∧ k = .unexpectedEof) ∨ e = .error k)
    | (.ready (.ok x), r') => ∃ d, x = inc ++ d ∧ Took r r' d ∧ x.length = n := by
  induction fuel with
  | zero => intro r ls n inc h; omega
  | succ fuel ih =>
    intro r ls n inc hf hl hn
    unfold readBody
    by_cases hlt : inc.length < n
    · rw [if_pos hlt]
      have hrd := read_spec (scriptSize r.t.reads + 1) r 1024 (by decide) (.inl (by omega))
      have hview : view r = trunc (n - inc.length) (view (r.below 1)) := by
        simp only [Spec.Io.view, Reader.below, hl, List.foldr_cons, List.drop_succ_cons, List.drop_zero]
      generalize r.read (scriptSize r.t.reads + 1) 1024 = Q at hrd
      obtain ⟨x, r1⟩ := Q
      rcases x with _ | (k | d)
      · simp only at hrd ⊢
        rw [hview] at hrd
        exact ⟨[], trunc_nil (by omega) hrd, by simpa using hlt⟩
      · simp only at hrd ⊢
        rw [hview] at hrd
        exact ⟨[], _, trunc_nil (by omega) hrd, by simpa using hlt, .inr rfl⟩
      · cases d with
        | nil =>
          simp only [List.length_nil, if_true] at hrd ⊢
          rw [hview] at hrd
          exact ⟨[], _, trunc_nil (by omega) hrd, by simpa using hlt, .inl (by simp)⟩
        | cons b d =>
          simp only [List.length_cons, Nat.add_eq_zero_iff, Nat.one_ne_zero, and_false, if_false] at hrd ⊢
          have hdl : (b :: d).length ≤ n - inc.length := by
            obtain ⟨bs, e, hv, -⟩ := hrd.view
            have := foldr_trunc_le r.limits (content r.t.reads) (n - inc.length) (by rw [hl]; exact List.mem_cons_self)
            have hv' : r.limits.foldr trunc (content r.t.reads) = (b :: d ++ bs, e) := hv
            rw [hv'] at this
            simp only [List.length_append] at this
            omega
          have hsz := hrd.size
          have := ih r1 (ls.map (· - (b :: d).length)) n (inc ++ (b :: d)) (by
              simp only [List.length_cons] at hsz; omega)
            (by rw [hrd.limits, hl, List.map_cons, List.length_append]; congr 1; omega)
            (by simp only [List.length_append]; omega)
          obtain ⟨bs1, e1, hb, hb1⟩ := hrd.views 1
          rw [hb1] at this
          generalize readBody fuel r1 n (inc ++ (b :: d)) = S at this
          obtain ⟨y, r2⟩ := S
          rcases y with _ | (k | z)
          · obtain ⟨q, hq, hlen⟩ := this
            cases hq
            exact ⟨b :: d ++ bs1, hb, by simp only [List.length_append] at hlen ⊢; omega⟩
          · obtain ⟨q, e', hq, hlen, hor⟩ := this
            cases hq
            exact ⟨b :: d ++ bs1, _, hb, by simp only [List.length_append] at hlen ⊢; omega, hor⟩
          · obtain ⟨q, rfl, hq, hlen⟩ := this
            exact ⟨b :: d ++ q, by rw [List.append_assoc], hrd.trans hq, hlen⟩
    · rw [if_neg hlt]
      exact ⟨[], by simp, Took.refl r, by omega⟩

/-! ### Length-prefixed data -/

theorem feed_finished {p : Bytes} {v : Nat} (h : Decoder.new.feed p = (.finished v, [])) :
    IsVarint p ∧ p.length ≤ 10 ∧ v = base128 p % 2 ^ 64 := by
  obtain ⟨q, hq, h1, h2, h3⟩ := (C03_incremental_exact p v []).mp h
  rw [List.append_nil] at hq
  subst hq
  exact ⟨h1, h2, h3⟩

theorem feed_pending {p : Bytes} (h : Decoder.new.feed p = (.pending, [])) :
    (∀ b ∈ p, 128 ≤ b.toNat) ∧ p.length ≤ 10 := (C03_incremental_pending_iff p).mp (by rw [h])

theorem feed_over {p : Bytes} (h : Decoder.new.feed p = (.overflow, [])) :
    ∃ q b, p = q ++ [b] ∧ (∀ c ∈ q, 128 ≤ c.toNat) ∧ q.length = 10 := by
  obtain ⟨q, b, h1, h2, h3⟩ := feed_overflow p 0 0 (by decide) [] h
  exact ⟨q, b, h1, h2, by omega⟩

theorem readOptVarint_spec (r : Reader) :
    VarintOut ⟨r, Decoder.new, 0⟩ (readOptVarint r).1 (readOptVarint r).2
      (∃ p, view r = (p, .silent) ∧ Decoder.new.feed p = (.pending, [])) :=
  await_spec _ _ (.inl (by simp only; omega))

theorem took_take {r r' : Reader} {n : Nat} {d : Bytes} (h : Took (r.take n) r' d) : Took r r'.untake d := by
  refine ⟨fun k => ?_, ?_, h.t, h.size⟩
  · have := h.views (k + 1)
    have e1 : (r.take n).below (k + 1) = r.below k := rfl
    have e2 : r'.below (k + 1) = r'.untake.below k := by
      simp [Reader.below, Reader.untake]
    rw [e1, e2] at this
    exact this
  · simp only [Reader.untake, h.limits, Reader.take, List.map_cons, List.tail_cons]

/-- **What reading a message does**, on every reader: the answer is the one the bytes call for, and a message is
taken from the reader with its length and nothing else. It waits for ever only inside a message that never
comes. -/
theorem readOptLengthPrefixed_spec (r : Reader) :
    match readOptLengthPrefixed r with
    | (.pending, _) => ∃ bs, view r = (bs, .silent) ∧ Unfinished bs
    | (.ready x, r') => Reads (view r) x ∧
        ∀ data, x = .ok (some data) → ∃ m, Prefixed m data ∧ Took r r' m := by
  have hv := readOptVarint_spec r
  unfold readOptLengthPrefixed
  generalize readOptVarint r = P at hv
  obtain ⟨x, r1⟩ := P
  rcases x with _ | (k | (_ | v))
  · obtain ⟨p, h1, h2⟩ := hv
    exact ⟨p, h1, .inl (feed_pending h2)⟩
  · refine ⟨?_, nofun⟩
    rcases hv with ⟨rfl, p, rest, e, h1, h2, h3⟩ | ⟨p, e, h1, h2, h3⟩
    · obtain ⟨q, b, rfl, hq, hl⟩ := feed_over h3
      simp only at h1
      rw [h1, List.append_assoc]
      exact .tooLong _ _ hq hl (by simp)
    · simp only [Nat.zero_add] at h1 h3
      rw [h1]
      rcases h3 with ⟨rfl, rfl, h4⟩ | ⟨rfl, h4⟩
      · exact .cut (.inl (feed_pending h2)) (fun h => h4 (by rw [h]; rfl))
      · exact .broken (.inl (feed_pending h2)) (fun h => h4 (by rw [h]; rfl))
  · refine ⟨?_, nofun⟩
    obtain ⟨-, h | h⟩ := hv <;> simp only at h <;> rw [h]
    · exact .over
    · exact .overBroken
  · obtain ⟨p, h1, h2, h3⟩ := hv
    simp only at h1 h3 ⊢
    obtain ⟨hp1, hp2, hp3⟩ := feed_finished h3
    have hb := readBody_spec (scriptSize r1.t.reads + 1) (r1.take v) r1.limits v [] (Nat.lt_succ_self _) (by simp [Reader.take]) (by simp)
    have hbel : (r1.take v).below 1 = r1 := rfl
    rw [hbel] at hb
    obtain ⟨bs, e, hv0, hv1⟩ := h1.view
    generalize readBody (scriptSize r1.t.reads + 1) (r1.take v) v [] = S at hb
    obtain ⟨y, r2⟩ := S
    rcases y with _ | (k | z)
    · obtain ⟨d, h4, h5⟩ := hb
      rw [hv1] at h4; cases h4
      exact ⟨p ++ bs, hv0, .inr ⟨p, bs, rfl, hp1, hp2, by rw [← hp3]; simpa using h5⟩⟩
    · obtain ⟨d, e', h4, h5, h6⟩ := hb
      rw [hv1] at h4; cases h4
      refine ⟨?_, nofun⟩
      rw [hv0]
      have hu : Unfinished (p ++ bs) := .inr ⟨p, bs, rfl, hp1, hp2, by rw [← hp3]; simpa using h5⟩
      rcases h6 with ⟨rfl, rfl⟩ | rfl
      · exact .cut hu (by simp [h2])
      · exact .broken hu (by simp [h2])
    · obtain ⟨d, hz, h4, h5⟩ := hb
      rw [List.nil_append] at hz
      subst hz
      have ht := h1.trans (took_take h4)
      have hpre : Prefixed (p ++ z) z := ⟨p, rfl, hp1, hp2, by rw [h5, hp3]⟩
      refine ⟨?_, ?_⟩
      · obtain ⟨bs2, e2, hv2, -⟩ := ht.view
        rw [hv2]
        exact .message _ _ hpre
      · intro data hd
        cases hd
        exact ⟨p ++ z, hpre, ht⟩

/-! ### The specification decides -/

theorem isVarint_not_high {p : Bytes} (h : IsVarint p) : ¬ ∀ b ∈ p, 128 ≤ b.toNat := by
  obtain ⟨i, l, rfl, -, hl⟩ := h
  intro h
  have := h l (by simp)
  omega

/-- A varint of at most ten bytes does not begin with ten continuation bytes. -/
theorem varint_vs_high {p q r s : Bytes} (hp : IsVarint p) (hl : p.length ≤ 10) (hq : ∀ b ∈ q, 128 ≤ b.toNat)
    (hql : p.length ≤ q.length) (h : p ++ r = q ++ s) : False := by
  have h1 : p = q.take p.length := by
    have := congrArg (List.take p.length) h
    rw [List.take_left, List.take_append_of_le_length hql] at this
    exact this
  apply isVarint_not_high hp
  intro b hb
  rw [h1] at hb
  exact hq b (List.mem_of_mem_take hb)

theorem prefixed_unfinished {m data rest : Bytes} (hm : Prefixed m data) : ¬ Unfinished (m ++ rest) := by
  obtain ⟨p, rfl, hp, hl, hd⟩ := hm
  rintro (⟨hh, -⟩ | ⟨p', d', he, hp', hl', hlt⟩)
  · exact isVarint_not_high hp (fun b hb => hh b (by simp [hb]))
  · rw [List.append_assoc] at he
    obtain ⟨rfl, he2⟩ := Mplex.isVarint_unique hp hp' he
    rw [← he2] at hlt
    simp only [List.length_append] at hlt
    omega

theorem prefixed_tooLong {m data rest p s : Bytes} (hm : Prefixed m data) (hp : ∀ b ∈ p, 128 ≤ b.toNat)
    (hl : p.length = 10) (h : m ++ rest = p ++ s) : False := by
  obtain ⟨q, rfl, hq, hql, -⟩ := hm
  rw [List.append_assoc] at h
  exact varint_vs_high hq hql hp (by omega) h

theorem unfinished_tooLong {bs p s : Bytes} (hu : Unfinished bs) (hp : ∀ b ∈ p, 128 ≤ b.toNat)
    (hl : p.length = 10) (hs : s ≠ []) (h : bs = p ++ s) : False := by
  subst h
  rcases hu with ⟨-, h⟩ | ⟨q, d, he, hq, hql, -⟩
  · have := List.length_pos_iff.mpr hs
    simp only [List.length_append] at h; omega
  · exact varint_vs_high hq hql hp (by omega) he.symm

theorem prefixed_unique {m m' d d' r r' : Bytes} (h : Prefixed m d) (h' : Prefixed m' d') (he : m ++ r = m' ++ r') :
    m = m' ∧ d = d' ∧ r = r' := by
  obtain ⟨p, rfl, hp, -, hd⟩ := h
  obtain ⟨p', rfl, hp', -, hd'⟩ := h'
  rw [List.append_assoc, List.append_assoc] at he
  obtain ⟨rfl, he2⟩ := Mplex.isVarint_unique hp hp' he
  obtain ⟨rfl, rfl⟩ := List.append_inj he2 (by omega)
  exact ⟨rfl, rfl, rfl⟩

theorem prefixed_ne_nil {m d : Bytes} (h : Prefixed m d) : m ≠ [] := by
  obtain ⟨p, rfl, ⟨i, l, rfl, -, -⟩, -⟩ := h
  simp

theorem reads_functional {v : Bytes × End} {x y : Except IoKind (Option Bytes)} (hx : Reads v x) (hy : Reads v y) :
    x = y := by
  have key : ∀ bs e m data rest, (bs, e) = (m ++ rest, e) → Prefixed m data →
      ∀ y, Reads (bs, e) y → y = .ok (some data) := by
    intro bs e m data rest he hm y hy
    have hbs : bs = m ++ rest := congrArg Prod.fst he
    have hne : bs ≠ [] := by rw [hbs]; simp [prefixed_ne_nil hm]
    generalize hv : (bs, e) = v at hy
    cases hy with
    | message rest' e' hm' =>
      cases hv
      rw [(prefixed_unique hm hm' hbs.symm).2.1]
    | over => cases hv; exact (hne rfl).elim
    | overBroken => cases hv; exact (hne rfl).elim
    | tooLong rest' e' hp hl hr => cases hv; exact (prefixed_tooLong hm hp hl hbs.symm).elim
    | cut hu h0 => cases hv; rw [hbs] at hu; exact (prefixed_unfinished hm hu).elim
    | broken hu h0 => cases hv; rw [hbs] at hu; exact (prefixed_unfinished hm hu).elim
  cases hx with
  | message rest e hm => exact (key _ _ _ _ _ rfl hm y hy).symm
  | over =>
    generalize hv : (([] : Bytes), End.eof) = v at hy
    cases hy with
    | message rest' e' hm' =>
      have := congrArg Prod.fst hv
      simp only at this
      have := prefixed_ne_nil hm'
      simp_all
    | over => rfl
    | overBroken => cases hv
    | tooLong rest' e' hp hl hr => have := congrArg Prod.fst hv; simp_all
    | cut hu h0 => cases hv; exact (h0 rfl).elim
    | broken hu h0 => cases hv
  | overBroken =>
    generalize hv : (([] : Bytes), End.error .unexpectedEof) = v at hy
    cases hy with
    | message rest' e' hm' =>
      have := congrArg Prod.fst hv
      simp only at this
      have := prefixed_ne_nil hm'
      simp_all
    | over => cases hv
    | overBroken => rfl
    | tooLong rest' e' hp hl hr => have := congrArg Prod.fst hv; simp_all
    | cut hu h0 => cases hv
    | broken hu h0 => cases hv; exact (h0 rfl rfl).elim
  | @tooLong p rest e hp hl hr =>
    generalize hv : ((p ++ rest : Bytes), e) = v at hy
    cases hy with
    | message rest' e' hm' => exact (prefixed_tooLong hm' hp hl (congrArg Prod.fst hv).symm).elim
    | over => have := congrArg Prod.fst hv; simp_all
    | overBroken => have := congrArg Prod.fst hv; simp_all
    | tooLong => rfl
    | cut hu h0 => cases hv; exact (unfinished_tooLong hu hp hl hr rfl).elim
    | broken hu h0 => cases hv; exact (unfinished_tooLong hu hp hl hr rfl).elim
  | @cut bs hu h0 =>
    generalize hv : ((bs : Bytes), End.eof) = v at hy
    cases hy with
    | message rest' e' hm' => cases hv; exact (prefixed_unfinished hm' hu).elim
    | over => cases hv; exact (h0 rfl).elim
    | overBroken => cases hv
    | tooLong rest' e' hp hl hr => cases hv; exact (unfinished_tooLong hu hp hl hr rfl).elim
    | cut => rfl
    | broken hu h0 => cases hv
  | @broken bs k hu h0 =>
    generalize hv : ((bs : Bytes), End.error k) = v at hy
    cases hy with
    | message rest' e' hm' => cases hv; exact (prefixed_unfinished hm' hu).elim
    | over => cases hv
    | overBroken => cases hv; exact (h0 rfl rfl).elim
    | tooLong rest' e' hp hl hr => cases hv; exact (unfinished_tooLong hu hp hl hr rfl).elim
    | cut => cases hv
    | broken => cases hv; rfl

theorem reads_not_unfinished {bs : Bytes} (hu : Unfinished bs) (x : Except IoKind (Option Bytes)) :
    ¬ Reads (bs, .silent) x := by
  intro h
  generalize hv : ((bs : Bytes), End.silent) = v at h
  cases h with
  | message rest' e' hm' => cases hv; exact prefixed_unfinished hm' hu
  | over => cases hv
  | overBroken => cases hv
  | tooLong rest' e' hp hl hr => cases hv; exact unfinished_tooLong hu hp hl hr rfl
  | cut => cases hv
  | broken => cases hv

/-! ### Writing -/

theorem writeAllLoop_spec (ws : List WriteEvent) : ∀ (out sent : Bytes),
    ∃ pre, (writeAllLoop ws out sent).2.2 = sent ++ pre ∧ pre <+: out ∧
      ((writeAllLoop ws out sent).1 = .ready (.ok ()) → pre = out) := by
  induction ws with
  | nil =>
    intro out sent
    cases out with
    | nil => exact ⟨[], by simp [writeAllLoop], List.nil_prefix, fun _ => rfl⟩
    | cons o os => exact ⟨[], by simp [writeAllLoop], List.nil_prefix, by simp [writeAllLoop]⟩
  | cons w ws ih =>
    intro out sent
    cases out with
    | nil => exact ⟨[], by simp [writeAllLoop], List.nil_prefix, fun _ => rfl⟩
    | cons o os =>
      cases w with
      | pending => simpa [writeAllLoop] using ih (o :: os) sent
      | error k => exact ⟨[], by simp [writeAllLoop], List.nil_prefix, by simp [writeAllLoop]⟩
      | accept n =>
        unfold writeAllLoop
        by_cases hn : n = 0
        · rw [if_pos hn]; exact ⟨[], by simp, List.nil_prefix, by simp⟩
        · rw [if_neg hn]
          obtain ⟨pre, h1, h2, h3⟩ := ih ((o :: os).drop n) (sent ++ (o :: os).take n)
          refine ⟨(o :: os).take n ++ pre, by rw [h1, List.append_assoc], ?_, ?_⟩
          · conv => rhs; rw [← List.take_append_drop n (o :: os)]
            exact (List.prefix_append_right_inj _).mpr h2
          · intro h; rw [h3 h, List.take_append_drop]

theorem writeAll_spec (t : Transport) (data : Bytes) :
    ∃ ws pre, (writeAll t data).2 = { t with writes := ws, sent := t.sent ++ pre } ∧ pre <+: data ∧
      ((writeAll t data).1 = .ready (.ok ()) → pre = data) := by
  obtain ⟨pre, h1, h2, h3⟩ := writeAllLoop_spec t.writes data t.sent
  unfold writeAll
  generalize writeAllLoop t.writes data t.sent = W at *
  obtain ⟨x, ws, sent⟩ := W
  simp only at *
  exact ⟨ws, pre, by rw [h1], h2, h3⟩

/-- The bytes `write_length_prefixed_data` sends. -/
def framed (data : Bytes) : Bytes := encodeU64 data.length ++ data

theorem writeLengthPrefixed_spec (t : Transport) (data : Bytes) :
    ∃ ws pre, (writeLengthPrefixed t data).2 = { t with writes := ws, sent := t.sent ++ pre } ∧
      pre <+: framed data ∧ ((writeLengthPrefixed t data).1 = .ready (.ok ()) → pre = framed data) := by
  obtain ⟨ws, pre, h1, h2, h3⟩ := writeAll_spec t (encodeU64 data.length)
  unfold writeLengthPrefixed
  generalize writeAll t (encodeU64 data.length) = W at *
  obtain ⟨x, t1⟩ := W
  simp only at h1 h3
  rcases x with _ | (k | ⟨⟩)
  · exact ⟨ws, pre, h1, h2.trans (List.prefix_append _ _), nofun⟩
  · exact ⟨ws, pre, h1, h2.trans (List.prefix_append _ _), nofun⟩
  · simp only
    obtain ⟨ws', pre', h1', h2', h3'⟩ := writeAll_spec t1 data
    have := h3 rfl
    subst this
    refine ⟨ws', encodeU64 data.length ++ pre', ?_, ?_, ?_⟩
    · rw [h1', h1]; simp
    · exact (List.prefix_append_right_inj _).mpr h2'
    · intro h; rw [h3' h]; rfl

theorem framed_prefixed {data : Bytes} (h : data.length < 2 ^ 64) : Prefixed (framed data) data :=
  ⟨encodeU64 data.length, rfl, isVarint_encode _, encode_length_le (Nat.lt_trans h (by decide)) (by decide), by
    rw [base128_encode, Nat.mod_eq_of_lt h]⟩

theorem request_spec (r : Reader) (data : Bytes) :
    ∃ ws fl pre, (request r data).2 = { r with t := { r.t with writes := ws, flushes := fl, sent := r.t.sent ++ pre } } ∧
      pre <+: framed data ∧ ((request r data).1 = .ready (.ok ()) → pre = framed data) := by
  obtain ⟨ws, pre, h1, h2, h3⟩ := writeLengthPrefixed_spec r.t data
  unfold request
  generalize writeLengthPrefixed r.t data = W at *
  obtain ⟨x, t1⟩ := W
  simp only at h1 h3
  rcases x with _ | (k | ⟨⟩)
  · exact ⟨ws, r.t.flushes, pre, by simp [h1], h2, nofun⟩
  · exact ⟨ws, r.t.flushes, pre, by simp [h1], h2, nofun⟩
  · simp only [flush]
    exact ⟨ws, (flushLoop t1.flushes).2, pre, by simp [h1], h2, fun _ => h3 rfl⟩

end Ngfs.Io
