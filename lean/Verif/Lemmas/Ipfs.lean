import Verif.Props.Io
import Verif.Spec.Ipfs
import Verif.Model.Ipfs
import Verif.Spec.TlsHonest

/-! What the negotiation of `bin/ipfs.rs` does with a stream. -/
namespace Ngfs.Io
open Varint Spec Spec.Io Spec.Ipfs Tls

/-! ### What holds of the answers to come goes on holding -/

/-- A property of the answers to come that reading does not destroy. -/
structure Closed (P : List ReadEvent → Prop) : Prop where
  next : ∀ e es, P (e :: es) → P es
  part : ∀ d d' es, d ≠ [] → d' ≠ [] → P (.ready (d ++ d') :: es) → P (.ready d' :: es)

variable {P : List ReadEvent → Prop}

theorem pollRead_keeps (hP : Closed P) (r : Reader) (room : Nat) (h : P r.t.reads) : P (r.pollRead room).2.t.reads := by
  unfold Reader.pollRead
  simp only
  by_cases h0 : r.limits.foldr min room = 0
  · rw [if_pos h0]; exact h
  · rw [if_neg h0]
    generalize r.limits.foldr min room = n at h0
    rcases hr : r.t.reads with _ | ⟨e, es⟩
    · simp only; rw [hr] at h; rw [hr]; exact h
    · rw [hr] at h
      rcases e with _ | d | k
      · exact hP.next _ _ h
      · simp only
        by_cases hd : d.drop n = []
        · simp only [hd, List.isEmpty_nil, if_true]; exact hP.next _ _ h
        · have : (d.drop n).isEmpty = false := by simp [hd]
          simp only [this, Bool.false_eq_true, if_false]
          refine hP.part (d.take n) _ es ?_ hd (by rw [List.take_append_drop]; exact h)
          intro ht
          rcases List.take_eq_nil_iff.mp ht with h1 | h1
          · exact h0 h1
          · rw [h1] at hd; simp at hd
      · exact hP.next _ _ h

theorem loop_keeps (hP : Closed P) (fuel : Nat) : ∀ f : ReadOptVarInt, P f.reader.t.reads → P (f.loop fuel).2.reader.t.reads := by
  induction fuel with
  | zero => intro f h; exact h
  | succ fuel ih =>
    intro f h
    have hk := pollRead_keeps hP f.reader 1 h
    unfold ReadOptVarInt.loop
    generalize f.reader.pollRead 1 = Q at hk
    obtain ⟨e, r⟩ := Q
    rcases e with _ | (_ | ⟨b, d⟩) | k
    · exact hk
    · simp only; split <;> exact hk
    · simp only
      rcases f.decoder.input b with ⟨_ | _ | _, d⟩
      · exact hk
      · exact hk
      · exact ih ⟨r, d, f.numBytes + 1⟩ hk
    · simp only; split <;> exact hk

theorem await_keeps (hP : Closed P) (n : Nat) : ∀ f : ReadOptVarInt, P f.reader.t.reads → P (f.await n).2.t.reads := by
  induction n with
  | zero => intro f h; exact h
  | succ n ih =>
    intro f h
    have hk : P f.poll.2.reader.t.reads := loop_keeps hP _ f h
    unfold ReadOptVarInt.await
    generalize f.poll = Q at hk
    obtain ⟨_ | x, f'⟩ := Q
    · exact ih _ hk
    · exact hk

theorem readOptVarint_keeps (hP : Closed P) (r : Reader) (h : P r.t.reads) : P (readOptVarint r).2.t.reads := await_keeps hP _ _ h

theorem read_keeps (hP : Closed P) (fuel room : Nat) : ∀ r : Reader, P r.t.reads → P (r.read fuel room).2.t.reads := by
  induction fuel with
  | zero => intro r h; exact h
  | succ fuel ih =>
    intro r h
    have hk := pollRead_keeps hP r room h
    unfold Reader.read
    generalize r.pollRead room = Q at hk
    obtain ⟨_ | d | k, r'⟩ := Q
    · exact ih _ hk
    · exact hk
    · exact hk

theorem readBody_keeps (hP : Closed P) (n fuel : Nat) : ∀ (r : Reader) (inc : Bytes), P r.t.reads →
    P (readBody fuel r n inc).2.t.reads := by
  induction fuel with
  | zero => intro r inc h; exact h
  | succ fuel ih =>
    intro r inc h
    have hk := read_keeps hP (scriptSize r.t.reads + 1) 1024 r h
    unfold readBody
    split
    · generalize r.read (scriptSize r.t.reads + 1) 1024 = Q at hk
      obtain ⟨_ | (k | d), r'⟩ := Q
      · exact hk
      · exact hk
      · simp only
        split
        · exact hk
        · exact ih _ _ hk
    · exact h

theorem readOptLengthPrefixed_keeps (hP : Closed P) (r : Reader) (h : P r.t.reads) : P (readOptLengthPrefixed r).2.t.reads := by
  have hk := readOptVarint_keeps hP r h
  unfold readOptLengthPrefixed
  generalize readOptVarint r = Q at hk
  obtain ⟨_ | (k | (_ | v)), r'⟩ := Q
  · exact hk
  · exact hk
  · exact hk
  · have hb := readBody_keeps hP v (scriptSize r'.t.reads + 1) (r'.take v) [] hk
    simp only
    generalize readBody (scriptSize r'.t.reads + 1) (r'.take v) v [] = S at hb
    obtain ⟨_ | (k | d), r''⟩ := S <;> exact hb

theorem readLengthPrefixed_keeps (hP : Closed P) (r : Reader) (h : P r.t.reads) : P (readLengthPrefixed r).2.t.reads := by
  rw [readLengthPrefixed_snd]; exact readOptLengthPrefixed_keeps hP r h

theorem listLoop_keeps (hP : Closed P) (fuel : Nat) : ∀ (r : Reader) (acc : List Bytes), P r.t.reads →
    P (listLoop fuel r acc).2.t.reads := by
  induction fuel with
  | zero => intro r acc h; exact h
  | succ fuel ih =>
    intro r acc h
    have hk := readLengthPrefixed_keeps hP r h
    unfold listLoop
    generalize readLengthPrefixed r = Q at hk
    obtain ⟨_ | (k | p), r'⟩ := Q
    · exact hk
    · simp only; split <;> exact hk
    · exact ih _ _ hk

theorem request_reads (r : Reader) (data : Bytes) : (request r data).2.t.reads = r.t.reads ∧ (request r data).2.limits = r.limits := by
  obtain ⟨ws, fl, pre, h, -, -⟩ := request_spec r data
  rw [h]
  exact ⟨rfl, rfl⟩

theorem list_keeps (hP : Closed P) (r : Reader) (h : P r.t.reads) : P (list r).2.t.reads := by
  have hq := (request_reads r lsMessage).1
  unfold list
  generalize request r lsMessage = Q at hq
  obtain ⟨_ | (k | ⟨⟩), r1⟩ := Q <;> simp only at hq ⊢
  · rw [hq]; exact h
  · rw [hq]; exact h
  · have hv := readOptVarint_keeps hP r1 (by rw [hq]; exact h)
    unfold readVarint
    generalize readOptVarint r1 = V at hv
    obtain ⟨_ | (k | (_ | v)), r2⟩ := V <;> simp only [orEof]
    · exact hv
    · exact hv
    · exact hv
    · split
      · exact hv
      · exact listLoop_keeps hP _ _ _ hv

theorem select_keeps (hP : Closed P) (r : Reader) (protocol : Bytes) (h : P r.t.reads) : P (select r protocol).2.t.reads := by
  have hq := (request_reads r protocol).1
  unfold select
  generalize request r protocol = Q at hq
  obtain ⟨_ | (k | ⟨⟩), r1⟩ := Q <;> simp only at hq ⊢
  · rw [hq]; exact h
  · rw [hq]; exact h
  · have hv := readLengthPrefixed_keeps hP r1 (by rw [hq]; exact h)
    generalize readLengthPrefixed r1 = V at hv
    obtain ⟨_ | (k | d), r2⟩ := V <;> simp only
    · exact hv
    · exact hv
    · split
      · exact hv
      · split <;> exact hv

theorem readData_content {es : List ReadEvent} : readData es = [] → (content es).1 = [] := by
  induction es with
  | nil => intro _; rfl
  | cons e es ih =>
    rcases e with _ | (_ | ⟨b, d⟩) | k
    · exact ih
    · intro _; rfl
    · intro h; simp [readData] at h
    · intro _; rfl

theorem orderly_of_nothing {es : List ReadEvent} (h : readData es = []) : Orderly es := by
  induction es with
  | nil => trivial
  | cons e es ih =>
    rcases e with _ | (_ | ⟨b, d⟩) | k
    · exact ih h
    · exact h
    · simp [readData] at h
    · exact h

theorem orderly_closed : Closed Orderly where
  next := by
    intro e es h
    rcases e with _ | (_ | ⟨b, d⟩) | k
    · exact h
    · exact orderly_of_nothing h
    · exact h
    · exact orderly_of_nothing h
  part := by
    intro d d' es hd hd' h
    rcases d with _ | ⟨b, d⟩
    · exact (hd rfl).elim
    · rcases d' with _ | ⟨b', d'⟩
      · exact (hd' rfl).elim
      · exact h

theorem orderly_data {es : List ReadEvent} (h : Orderly es) : readData es = (content es).1 := by
  induction es with
  | nil => rfl
  | cons e es ih =>
    rcases e with _ | (_ | ⟨b, d⟩) | k
    · exact ih h
    · exact h
    · simp only [readData, content]; rw [ih h]
    · exact h

theorem settles_of_nothing {es : List ReadEvent} (h : readData es = []) : Settles es := by
  induction es with
  | nil => trivial
  | cons e es ih =>
    rcases e with _ | (_ | ⟨b, d⟩) | k
    · exact ih h
    · exact h
    · simp [readData] at h
    · simp only [Settles]
      split
      · exact h
      · exact ih h

theorem orderly_settles {es : List ReadEvent} (h : Orderly es) : Settles es := by
  induction es with
  | nil => trivial
  | cons e es ih =>
    rcases e with _ | (_ | ⟨b, d⟩) | k
    · exact ih h
    · exact h
    · exact ih h
    · simp only [Settles]
      split
      · exact h
      · exact settles_of_nothing h

theorem settles_closed : Closed Settles where
  next := by
    intro e es h
    rcases e with _ | (_ | ⟨b, d⟩) | k
    · exact h
    · exact settles_of_nothing h
    · exact h
    · simp only [Settles] at h
      split at h
      · exact settles_of_nothing h
      · exact h
  part := by
    intro d d' es hd hd' h
    rcases d with _ | ⟨b, d⟩
    · exact (hd rfl).elim
    · rcases d' with _ | ⟨b', d'⟩
      · exact (hd' rfl).elim
      · exact h

/-! ### Where a reader stands when it has reported the end -/

/-- A read of one piece has reported the end or an error. -/
def ReadEnd (r r' : Reader) : Prop :=
  (Took r r' [] ∧ 0 ∈ r'.limits) ∨ ((content r.t.reads).1 = [] ∧ readData r'.t.reads = [])

/-- Reading has reported the end or an error after taking some bytes: either a limit is used up, or there is nothing left. -/
def Done (r r' : Reader) : Prop :=
  (∃ d, Took r r' d ∧ 0 ∈ r'.limits) ∨
    (∃ d e, content r.t.reads = (d, e) ∧ (∀ m ∈ r.limits, d.length ≤ m) ∧ readData r'.t.reads = [])

theorem took_content {r r' : Reader} {d : Bytes} (h : Took r r' d) :
    ∃ bs e, content r.t.reads = (d ++ bs, e) ∧ content r'.t.reads = (bs, e) := by
  obtain ⟨bs, e, h1, h2⟩ := h.views (r.limits.length)
  have hl : r'.limits.length = r.limits.length := by rw [h.limits, List.length_map]
  simp only [Spec.Io.view, Reader.below, List.drop_length, List.foldr_nil] at h1
  simp only [Spec.Io.view, Reader.below] at h2
  rw [← hl, List.drop_length, List.foldr_nil] at h2
  exact ⟨bs, e, h1, h2⟩

theorem took_le {r r' : Reader} {d : Bytes} (h : Took r r' d) : ∀ m ∈ r.limits, d.length ≤ m := by
  intro m hm
  obtain ⟨bs, e, h1, -⟩ := h.view
  have := foldr_trunc_le r.limits (content r.t.reads) m hm
  unfold Spec.Io.view at h1
  rw [h1] at this
  simp only [List.length_append] at this
  omega

theorem Done.after {r r1 r2 : Reader} {d : Bytes} (h : Took r r1 d) (h2 : Done r1 r2) : Done r r2 := by
  rcases h2 with ⟨d2, h3, h4⟩ | ⟨d2, e2, h3, h4, h5⟩
  · exact .inl ⟨d ++ d2, h.trans h3, h4⟩
  · obtain ⟨bs, e, h6, h7⟩ := took_content h
    rw [h7] at h3
    cases h3
    refine .inr ⟨_, _, h6, ?_, h5⟩
    intro m hm
    have hle := took_le h m hm
    have := h4 (m - d.length) (by rw [h.limits]; exact List.mem_map_of_mem hm)
    rw [List.length_append]
    omega

theorem ReadEnd.done {r r' : Reader} (h : ReadEnd r r') : Done r r' := by
  rcases h with ⟨h1, h2⟩ | ⟨h1, h2⟩
  · exact .inl ⟨[], h1, h2⟩
  · exact .inr ⟨(content r.t.reads).1, (content r.t.reads).2, rfl, by rw [h1]; simp, h2⟩

theorem pollRead_end (r : Reader) (room : Nat) (hr : 0 < room) (ho : Settles r.t.reads) (r' : Reader) (e : ReadEvent)
    (he : e = .ready [] ∨ e = .error .unexpectedEof) (h : r.pollRead room = (e, r')) : ReadEnd r r' := by
  unfold Reader.pollRead at h
  simp only at h
  by_cases h0 : r.limits.foldr min room = 0
  · rw [if_pos h0] at h
    cases h
    exact .inl ⟨Took.refl r, foldr_min_zero hr h0⟩
  · rw [if_neg h0] at h
    generalize r.limits.foldr min room = n at h h0
    rcases hrd : r.t.reads with _ | ⟨e', es⟩
    · rw [hrd] at h
      simp only at h
      cases h
      rcases he with he | he <;> cases he
    · rw [hrd] at h ho
      rcases e' with _ | (_ | ⟨b, d⟩) | k
      · cases h
        rcases he with he | he <;> cases he
      · simp only [List.drop_nil, List.isEmpty_nil, if_true] at h
        cases h
        refine .inr ⟨by rw [hrd]; rfl, ho⟩
      · exfalso
        simp only at h
        have h1 := congrArg Prod.fst h
        simp only at h1
        rcases he with he | he
        · rw [he] at h1
          obtain ⟨m, rfl⟩ : ∃ m, n = m + 1 := ⟨n - 1, by omega⟩
          simp at h1
        · rw [he] at h1; cases h1
      · cases h
        rcases he with he | he
        · cases he
        · cases he
          exact .inr ⟨by rw [hrd]; rfl, by simpa [Settles] using ho⟩

theorem loop_done (fuel : Nat) : ∀ (f f' : ReadOptVarInt) (x : Except IoKind (Option Nat)), Settles f.reader.t.reads →
    (x = .ok none ∨ x = .error .unexpectedEof) → f.loop fuel = (.ready x, f') → Done f.reader f'.reader := by
  induction fuel with
  | zero => intro f f' x _ _ h; cases h
  | succ fuel ih =>
    intro f f' x ho hx h
    have hk := pollRead_keeps settles_closed f.reader 1 ho
    have hs := pollRead_spec f.reader 1 (by decide)
    have he := pollRead_end f.reader 1 (by decide) ho
    unfold ReadOptVarInt.loop at h
    generalize f.reader.pollRead 1 = Q at hk hs he h
    obtain ⟨e, r⟩ := Q
    rcases e with _ | (_ | ⟨b, d⟩) | k
    · cases h
    · simp only at h
      have := (he r _ (.inl rfl) rfl).done
      split at h <;> cases h <;> exact this
    · simp only at h hs hk
      rcases hi : f.decoder.input b with ⟨_ | _ | _, d'⟩
      · rw [hi] at h
        simp only at h
        cases h
        rcases hx with hx | hx <;> cases hx
      · rw [hi] at h
        simp only at h
        cases h
        rcases hx with hx | hx <;> cases hx
      · rw [hi] at h
        simp only at h
        exact Done.after hs.1 (ih ⟨r, d', f.numBytes + 1⟩ _ _ hk hx h)
    · simp only at h
      split at h
      · rename_i hc
        cases h
        exact (he r _ (.inr (by rw [hc.2])) rfl).done
      · cases h
        rcases hx with hx | hx
        · cases hx
        · cases hx
          exact (he r _ (.inr rfl) rfl).done

theorem await_done (n : Nat) : ∀ (f : ReadOptVarInt) (r' : Reader) (x : Except IoKind (Option Nat)), Settles f.reader.t.reads →
    (x = .ok none ∨ x = .error .unexpectedEof) → f.await n = (.ready x, r') → Done f.reader r' := by
  induction n with
  | zero => intro f r' x _ _ h; cases h
  | succ n ih =>
    intro f r' x ho hx h
    have hk : Settles f.poll.2.reader.t.reads := loop_keeps settles_closed _ f ho
    have hs := loop_spec (scriptSize f.reader.t.reads + 1) f (Nat.lt_succ_self _)
    have hd := fun f' x => loop_done (scriptSize f.reader.t.reads + 1) f f' x ho
    unfold ReadOptVarInt.await at h
    unfold ReadOptVarInt.poll at h hk
    generalize f.loop (scriptSize f.reader.t.reads + 1) = Q at hk hs hd h
    obtain ⟨_ | y, f'⟩ := Q
    · simp only at h hs
      obtain ⟨p, hp, -⟩ := hs
      exact Done.after hp (ih _ _ _ hk hx h)
    · simp only at h
      cases h
      exact hd _ _ hx rfl

theorem readOptVarint_done (r r' : Reader) (x : Except IoKind (Option Nat)) (ho : Settles r.t.reads)
    (hx : x = .ok none ∨ x = .error .unexpectedEof) (h : readOptVarint r = (.ready x, r')) : Done r r' :=
  await_done _ _ _ _ ho hx h

theorem read_end (room : Nat) (hr : 0 < room) (fuel : Nat) : ∀ (r r' : Reader) (x : Except IoKind Bytes), Settles r.t.reads →
    (x = .ok [] ∨ x = .error .unexpectedEof) → r.read fuel room = (.ready x, r') → ReadEnd r r' := by
  induction fuel with
  | zero => intro r r' x _ _ h; cases h
  | succ fuel ih =>
    intro r r' x ho hx h
    have hk := pollRead_keeps settles_closed r room ho
    have hs := pollRead_spec r room hr
    have he := pollRead_end r room hr ho
    unfold Reader.read at h
    generalize r.pollRead room = Q at hk hs he h
    obtain ⟨_ | d | k, r1⟩ := Q
    · simp only at h hs hk
      rcases ih _ _ _ hk hx h with ⟨h1, h2⟩ | ⟨h1, h2⟩
      · exact .inl ⟨by simpa using hs.1.trans h1, h2⟩
      · obtain ⟨bs, e, h3, h4⟩ := took_content hs.1
        rw [h4] at h1
        exact .inr ⟨by rw [h3]; exact h1, h2⟩
    · simp only at h
      cases h
      rcases hx with hx | hx
      · cases hx
        exact he _ _ (.inl rfl) rfl
      · cases hx
    · simp only at h
      cases h
      rcases hx with hx | hx
      · cases hx
      · cases hx
        exact he _ _ (.inr rfl) rfl

theorem took_untake {r r' : Reader} {d : Bytes} (h : Took r r' d) : Took r.untake r'.untake d := by
  refine ⟨fun k => ?_, ?_, h.t, h.size⟩
  · have := h.views (k + 1)
    simpa [Reader.below, Reader.untake] using this
  · simp only [Reader.untake, h.limits, List.map_tail]

theorem readBody_done (n fuel : Nat) : ∀ (r r' : Reader) (ls : List Nat) (inc : Bytes),
    r.limits = (n - inc.length) :: ls → Settles r.t.reads → readBody fuel r n inc = (.ready (.error .unexpectedEof), r') →
    Done r.untake r'.untake := by
  induction fuel with
  | zero => intro r r' ls inc _ _ h; cases h
  | succ fuel ih =>
    intro r r' ls inc hl ho h
    have hk := read_keeps settles_closed (scriptSize r.t.reads + 1) 1024 r ho
    have hs := read_spec (scriptSize r.t.reads + 1) r 1024 (by decide) (.inl (by omega))
    have he := fun r' x => read_end 1024 (by decide) (scriptSize r.t.reads + 1) r r' x ho
    unfold readBody at h
    by_cases hlt : inc.length < n
    · rw [if_pos hlt] at h
      have fin : ∀ r1, ReadEnd r r1 → Done r.untake r1.untake := by
        intro r1 h1
        rcases h1 with ⟨h1, h2⟩ | ⟨h1, h2⟩
        · refine .inl ⟨[], took_untake h1, ?_⟩
          rw [h1.limits, hl] at h2
          simp only [List.length_nil, Nat.sub_zero, List.map_id', List.mem_cons] at h2
          simp only [Reader.untake, h1.limits, hl, List.length_nil, Nat.sub_zero, List.map_id', List.tail_cons]
          rcases h2 with h2 | h2
          · omega
          · exact h2
        · exact .inr ⟨(content r.t.reads).1, (content r.t.reads).2, rfl, by rw [h1]; simp, h2⟩
      generalize r.read (scriptSize r.t.reads + 1) 1024 = Q at hk hs he h
      obtain ⟨_ | (k' | d), r1⟩ := Q
      · cases h
      · simp only at h
        cases h
        exact fin _ (he _ _ (.inr rfl) rfl)
      · simp only at h hk
        by_cases hd : d.length = 0
        · rw [if_pos hd] at h
          cases h
          have := List.length_eq_zero_iff.mp hd
          subst this
          exact fin _ (he _ _ (.inl rfl) rfl)
        · rw [if_neg hd] at h
          rcases d with _ | ⟨b, d⟩
          · exact (hd rfl).elim
          · simp only at hs
            refine Done.after (took_untake hs) (ih r1 r' (ls.map (· - (b :: d).length)) _ ?_ hk h)
            rw [hs.limits, hl, List.map_cons, List.length_append]
            congr 1
            omega
    · rw [if_neg hlt] at h
      cases h

/-- A read of a message that reports the end, or that it is inside a message. -/
theorem readOptLengthPrefixed_done (r r' : Reader) (x : Except IoKind (Option Bytes)) (ho : Settles r.t.reads)
    (hx : x = .ok none ∨ x = .error .unexpectedEof) (h : readOptLengthPrefixed r = (.ready x, r')) : Done r r' := by
  have hk := readOptVarint_keeps settles_closed r ho
  have hs := readOptVarint_spec r
  have hd := fun r' x => readOptVarint_done r r' x ho
  unfold readOptLengthPrefixed at h
  generalize readOptVarint r = Q at hk hs hd h
  obtain ⟨_ | (k | (_ | v)), r1⟩ := Q
  · cases h
  · simp only at h
    cases h
    rcases hx with hx | hx
    · cases hx
    · cases hx
      exact hd _ _ (.inr rfl) rfl
  · simp only at h
    cases h
    exact hd _ _ (.inl rfl) rfl
  · obtain ⟨p, h1, -, -⟩ := hs
    simp only at h h1 hk
    have hb := fun r' => readBody_done v (scriptSize r1.t.reads + 1) (r1.take v) r' r1.limits [] (by simp [Reader.take]) hk
    have hu : (r1.take v).untake = r1 := rfl
    rw [hu] at hb
    generalize readBody (scriptSize r1.t.reads + 1) (r1.take v) v [] = S at hb h
    obtain ⟨_ | (k | d), r2⟩ := S
    · cases h
    · simp only at h
      cases h
      rcases hx with hx | hx
      · cases hx
      · cases hx
        exact Done.after h1 (hb _ rfl)
    · simp only at h
      cases h
      rcases hx with hx | hx <;> cases hx

theorem listLoop_done (fuel : Nat) : ∀ (r : Reader) (acc names : List Bytes), Settles r.t.reads →
    (listLoop fuel r acc).1 = .ready (.ok names) → Done r (listLoop fuel r acc).2 := by
  induction fuel with
  | zero => intro r acc names _ h; cases h
  | succ fuel ih =>
    intro r acc names ho h
    have hk := readOptLengthPrefixed_keeps settles_closed r ho
    have hs := readOptLengthPrefixed_spec r
    have hd := fun r' x => readOptLengthPrefixed_done r r' x ho
    unfold listLoop readLengthPrefixed at h ⊢
    generalize readOptLengthPrefixed r = Q at hk hs hd h
    obtain ⟨_ | (k | (_ | p)), r1⟩ := Q
    · simp [orEof] at h
    · simp only [orEof] at h ⊢
      by_cases hk : k = .unexpectedEof
      · subst hk
        rw [if_pos rfl]
        exact hd _ _ (.inr rfl) rfl
      · rw [if_neg hk] at h
        cases h
    · simp only [orEof, if_true] at h ⊢
      exact hd _ _ (.inl rfl) rfl
    · simp only [orEof] at h ⊢
      obtain ⟨m, -, ht⟩ := hs.2 p rfl
      exact Done.after ht (ih _ _ _ hk h)

/-! ### Reading sends nothing -/

/-- Reading leaves what was sent alone, and keeps the number of limits. -/
def Quiet (r r' : Reader) : Prop := r'.t = { r.t with reads := r'.t.reads } ∧ r'.limits.length = r.limits.length

theorem Quiet.refl (r : Reader) : Quiet r r := ⟨rfl, rfl⟩

theorem Quiet.trans {r r1 r2 : Reader} (h1 : Quiet r r1) (h2 : Quiet r1 r2) : Quiet r r2 :=
  ⟨by rw [h2.1, h1.1], h2.2.trans h1.2⟩

theorem pollRead_quiet (r : Reader) (room : Nat) : Quiet r (r.pollRead room).2 := by
  unfold Reader.pollRead
  simp only
  split
  · exact .refl r
  · split
    · exact .refl r
    · exact ⟨rfl, by simp⟩
    · exact ⟨rfl, rfl⟩

theorem loop_quiet (fuel : Nat) : ∀ f : ReadOptVarInt, Quiet f.reader (f.loop fuel).2.reader := by
  induction fuel with
  | zero => intro f; exact .refl _
  | succ fuel ih =>
    intro f
    have hk := pollRead_quiet f.reader 1
    unfold ReadOptVarInt.loop
    generalize f.reader.pollRead 1 = Q at hk
    obtain ⟨e, r⟩ := Q
    rcases e with _ | (_ | ⟨b, d⟩) | k
    · exact hk
    · simp only; split <;> exact hk
    · simp only
      rcases f.decoder.input b with ⟨_ | _ | _, d⟩
      · exact hk
      · exact hk
      · exact Quiet.trans hk (ih ⟨r, d, f.numBytes + 1⟩)
    · simp only; split <;> exact hk

theorem await_quiet (n : Nat) : ∀ f : ReadOptVarInt, Quiet f.reader (f.await n).2 := by
  induction n with
  | zero => intro f; exact .refl _
  | succ n ih =>
    intro f
    have hk : Quiet f.reader f.poll.2.reader := loop_quiet _ f
    unfold ReadOptVarInt.await
    generalize f.poll = Q at hk
    obtain ⟨_ | x, f'⟩ := Q
    · exact hk.trans (ih _)
    · exact hk

theorem read_quiet (fuel room : Nat) : ∀ r : Reader, Quiet r (r.read fuel room).2 := by
  induction fuel with
  | zero => intro r; exact .refl _
  | succ fuel ih =>
    intro r
    have hk := pollRead_quiet r room
    unfold Reader.read
    generalize r.pollRead room = Q at hk
    obtain ⟨_ | d | k, r'⟩ := Q
    · exact hk.trans (ih _)
    · exact hk
    · exact hk

theorem readBody_quiet (n fuel : Nat) : ∀ (r : Reader) (inc : Bytes), Quiet r (readBody fuel r n inc).2 := by
  induction fuel with
  | zero => intro r inc; exact .refl _
  | succ fuel ih =>
    intro r inc
    have hk := read_quiet (scriptSize r.t.reads + 1) 1024 r
    unfold readBody
    split
    · generalize r.read (scriptSize r.t.reads + 1) 1024 = Q at hk
      obtain ⟨_ | (k | d), r'⟩ := Q
      · exact hk
      · exact hk
      · simp only
        split
        · exact hk
        · exact hk.trans (ih _ _)
    · exact .refl _

theorem readOptLengthPrefixed_quiet (r : Reader) : Quiet r (readOptLengthPrefixed r).2 := by
  have hk : Quiet r (readOptVarint r).2 := await_quiet _ _
  unfold readOptLengthPrefixed
  generalize readOptVarint r = Q at hk
  obtain ⟨_ | (k | (_ | v)), r'⟩ := Q
  · exact hk
  · exact hk
  · exact hk
  · have hb := readBody_quiet v (scriptSize r'.t.reads + 1) (r'.take v) []
    simp only at hk ⊢
    generalize readBody (scriptSize r'.t.reads + 1) (r'.take v) v [] = S at hb
    have hu : ∀ r'' : Reader, Quiet (r'.take v) r'' → Quiet r r''.untake := fun r'' h =>
      hk.trans ⟨h.1, by simp only [Reader.untake, List.length_tail, h.2, Reader.take, List.length_cons]; omega⟩
    obtain ⟨_ | (k | d), r''⟩ := S <;> exact hu _ hb

theorem listLoop_quiet (fuel : Nat) : ∀ (r : Reader) (acc : List Bytes), Quiet r (listLoop fuel r acc).2 := by
  induction fuel with
  | zero => intro r acc; exact .refl _
  | succ fuel ih =>
    intro r acc
    have hk := readOptLengthPrefixed_quiet r
    rw [← readLengthPrefixed_snd] at hk
    unfold listLoop
    generalize readLengthPrefixed r = Q at hk
    obtain ⟨_ | (k | p), r'⟩ := Q
    · exact hk
    · simp only; split <;> exact hk
    · exact hk.trans (ih _ _)

theorem listLoop_sent (fuel : Nat) (r : Reader) (acc : List Bytes) :
    (listLoop fuel r acc).2.t.sent = r.t.sent ∧ (listLoop fuel r acc).2.limits.length = r.limits.length := by
  have h := listLoop_quiet fuel r acc
  exact ⟨by rw [h.1], h.2⟩

/-- After a list of names has been returned: the length that was announced has arrived and was taken, or there is nothing left. -/
theorem list_ok (r : Reader) (hl : r.limits = []) (ho : Settles r.t.reads) (names : List Bytes) (h : (list r).1 = .ready (.ok names)) :
    (list r).2.t.sent = r.t.sent ++ framed lsMessage ∧ (list r).2.limits = [] ∧
    ∃ p after e, content r.t.reads = (p ++ after, e) ∧ IsVarint p ∧ p.length ≤ 10 ∧ base128 p % 2 ^ 64 ≤ 65536 ∧
      ((∃ body rest, after = body ++ rest ∧ body.length = base128 p % 2 ^ 64 ∧ Listing body names ∧
        content (list r).2.t.reads = (rest, e)) ∨
       (after.length ≤ base128 p % 2 ^ 64 ∧ readData (list r).2.t.reads = [])) := by
  obtain ⟨ws, fl, pre, hq, -, hpre⟩ := request_spec r lsMessage
  have hn := C74_names_partial r names h
  unfold list at h ⊢
  generalize request r lsMessage = Q at *
  obtain ⟨q, r1⟩ := Q
  rcases q with _ | (k | ⟨⟩)
  · simp at h
  · simp at h
  · simp only at h hq hpre ⊢
    have hs := readOptVarint_spec r1
    have hk := readOptVarint_keeps settles_closed r1 (by rw [hq]; exact ho)
    unfold readVarint at h ⊢
    generalize readOptVarint r1 = V at *
    obtain ⟨x, r2⟩ := V
    rcases x with _ | (k | (_ | v))
    · simp [orEof] at h
    · simp [orEof] at h
    · simp [orEof] at h
    · simp only [orEof] at h ⊢
      obtain ⟨p, h1, h2, h3⟩ := hs
      simp only at h1 h3 hk
      obtain ⟨hp1, hp2, hp3⟩ := feed_finished h3
      by_cases hle : v > 65536
      · rw [if_pos hle] at h; cases h
      · rw [if_neg hle] at h ⊢
        have hd := listLoop_done (scriptSize r2.t.reads + 1) (r2.take v) [] names hk h
        have hlim2 : r2.limits = [] := by rw [h1.limits, hq]; simp [hl]
        have hsent2 : r2.t.sent = r.t.sent ++ framed lsMessage := by rw [h1.t, hq, hpre trivial]
        simp only
        obtain ⟨after, e, hv1, hv2⟩ := took_content h1
        have hr1 : r1.t.reads = r.t.reads := by rw [hq]
        rw [hr1] at hv1
        have hrest := listLoop_sent (scriptSize r2.t.reads + 1) (r2.take v) []
        generalize listLoop (scriptSize r2.t.reads + 1) (r2.take v) [] = L at *
        obtain ⟨y, r3⟩ := L
        simp only at h hd hrest ⊢
        refine ⟨?_, ?_, p, after, e, hv1, hp1, hp2, by rw [← hp3]; omega, ?_⟩
        · rw [← hsent2]; exact hrest.1
        · have := hrest.2
          simp only [Reader.take, List.length_cons, hlim2, List.length_nil] at this
          simp only [Reader.untake]
          rcases hr3 : r3.limits with _ | ⟨a, _ | ⟨b, l⟩⟩
          · rfl
          · rfl
          · rw [hr3] at this; simp at this
        · rw [← hp3]
          rcases hd with ⟨d, hd1, hd2⟩ | ⟨d, e', hd1, hd2, hd3⟩
          · left
            have hle1 := took_le hd1 v (by simp [Reader.take])
            have hl3 := hd1.limits
            rw [hl3] at hd2
            simp only [Reader.take, hlim2, List.map_cons, List.map_nil, List.mem_singleton] at hd2
            obtain ⟨bs, e2, hb1, hb2⟩ := took_content hd1
            have : content r2.t.reads = (d ++ bs, e2) := hb1
            rw [hv2] at this
            cases this
            refine ⟨d, bs, rfl, by omega, ?_, hb2⟩
            obtain ⟨p', after', e', bs', left, e'', hn1, hn2, hn3, -, hn5, hn6, hn7, -⟩ := hn
            have hvw : view r = content r.t.reads := by simp [Spec.Io.view, hl]
            rw [hvw, hv1] at hn1
            have hn1' := congrArg Prod.fst hn1
            simp only at hn1'
            obtain ⟨rfl, hafter⟩ := Mplex.isVarint_unique hp1 hn2 hn1'
            subst hafter
            have hdl : d.length = base128 p % 2 ^ 64 := by rw [← hp3]; omega
            have hn1'' : e' = e := by simpa using (congrArg Prod.snd hn1).symm
            have htr : trunc (base128 p % 2 ^ 64) (d ++ bs, e') = (d, .eof) := by
              unfold trunc
              rw [if_pos (by simp only [List.length_append]; omega)]
              simp only
              rw [List.take_left' hdl]
            rw [htr] at hn5
            exact ⟨bs', left, congrArg Prod.fst hn5, hn6, hn7⟩
          · right
            have : content r2.t.reads = (d, e') := hd1
            rw [hv2] at this
            cases this
            exact ⟨hd2 v (by simp [Reader.take]), hd3⟩

end Ngfs.Io
