import Verif.Lemmas.Chat

/-! Properties of the chat server: C104–C109. -/
namespace Ngfs.Chat
open Spec.Chat

/-! ### From announcements back to what was said -/

/-- Announcements that are, sender by sender, those of what was said are the announcements of a conversation. -/
theorem talk_of (f : Nat → Bytes → Bytes) (Q : Talk) : ∀ R : Nat → List Bytes, (∀ j, saidBy j Q = (R j).map (f j)) →
    ∃ q : Talk, q.map (fun x => (x.1, f x.1 x.2)) = Q ∧ ∀ j, saidBy j q = R j := by
  induction Q with
  | nil =>
    intro R h
    refine ⟨[], rfl, fun j => ?_⟩
    have := h j
    simp only [saidBy, List.filter_nil, List.map_nil] at this
    exact (List.map_eq_nil_iff.1 this.symm).symm
  | cons x Q ih =>
    intro R h
    obtain ⟨k, t⟩ := x
    have hk := h k
    have e : ∀ j, saidBy j ((k, t) :: Q) = saidBy j [(k, t)] ++ saidBy j Q := fun j => saidBy_append j [(k, t)] Q
    rw [e, saidBy_single, if_pos rfl] at hk
    obtain ⟨d, R', hR, hd⟩ : ∃ d R', R k = d :: R' ∧ f k d = t ∧ saidBy k Q = R'.map (f k) := by
      cases hR : R k with
      | nil => rw [hR] at hk; simp at hk
      | cons d R' =>
        rw [hR] at hk
        simp only [List.cons_append, List.nil_append, List.map_cons, List.cons.injEq] at hk
        exact ⟨d, R', rfl, hk.1.symm, hk.2⟩
    obtain ⟨q, h1, h2⟩ := ih (fun j => if j = k then R' else R j) (by
      intro j
      by_cases hj : j = k
      · subst hj; simpa using hd.2
      · simp only [hj, if_false]
        rw [← h j, e, saidBy_single, if_neg (fun h' => hj h'.symm)]; rfl)
    refine ⟨(k, d) :: q, by simp [h1, hd.1], fun j => ?_⟩
    have e' : saidBy j ((k, d) :: q) = saidBy j [(k, d)] ++ saidBy j q := saidBy_append j [(k, d)] q
    rw [e', saidBy_single, h2 j]
    by_cases hj : j = k
    · subst hj; simp [hR]
    · simp [hj, Ne.symm hj]

theorem seen_eq (lossy : Bytes → String) (q : Talk) :
    seen lossy q = bytesOf (q.map (fun x => (x.1, announcement lossy x.1 x.2))) := by
  simp only [seen, bytesOf, List.map_map]
  congr 1
  exact List.map_congr_left (fun x _ => (announcement_eq lossy x.1 x.2).symm)

/-- An infix of mapped elements is the image of an infix. -/
theorem infix_map {f : Bytes → Bytes} {a : List Bytes} {l : List Bytes} (h : a <:+: l.map f) : ∃ l', l' <:+: l ∧ a = l'.map f := by
  obtain ⟨x, y, h⟩ := h
  obtain ⟨l1, l2, h1, h2, h3⟩ := List.map_eq_append_iff.1 h.symm
  obtain ⟨l3, l4, h4, h5, h6⟩ := List.map_eq_append_iff.1 h2
  exact ⟨l4, ⟨l3, l2, by rw [h1, h4]⟩, h6.symm⟩

/-- Nobody's words are being passed on. -/
def State.settled (s : State) : Prop := ∀ j, (∀ d, (s.conn j).reader ≠ .received d) ∧ ∀ t ts, (s.conn j).reader ≠ .sending t ts

/-- Nothing is waiting to be sent to the client. -/
def Conn.drained (c : Conn) : Prop := c.writer = .waiting ∧ c.queue = []

/-! ### C104: what a client sees was said -/

/-- **C104**: in every state that can be reached, whatever was read when, and however the tasks were interleaved, what client `i` has been sent
is the beginning of what is seen of a conversation in which everybody said a contiguous part of what they sent to the server, in their order;
when nothing is waiting to be sent, it is all of it. -/
theorem C104_faithful (lossy : Bytes → String) (as : List Action) (i : Nat) :
    ∃ q : Talk, ((State.init.run lossy as).conn i).sent <+: seen lossy q ∧
      (((State.init.run lossy as).conn i).drained → ((State.init.run lossy as).conn i).sent = seen lossy q) ∧
      ∀ j, saidBy j q <:+: ((State.init.run lossy as).conn j).reads := by
  have h := (Inv.init lossy).run as
  generalize State.init.run lossy as = s at h
  have hR : ∀ j, ∃ l', l' <:+: (s.conn j).reads ∧ saidBy j (s.conn i).queued = l'.map (announcement lossy j) := by
    intro j
    apply infix_map
    rw [← (h.each j).reads]
    exact ((h.order i j).2).trans (List.prefix_append _ _).isInfix
  choose R hR1 hR2 using hR
  obtain ⟨q, h1, h2⟩ := talk_of (announcement lossy) _ R hR2
  refine ⟨q, ?_, ?_, fun j => h2 j ▸ hR1 j⟩
  · rw [seen_eq, h1]; exact (h.each i).sent
  · intro hd
    have := (h.each i).bytes (by rw [hd.1]; simp)
    rw [hd.1, hd.2] at this
    rw [seen_eq, h1, ← this]; simp [rest, texts]

/-! ### C105: nobody misses anything -/

/-- **C105**: between two moments at which nothing is being passed on, a client that was connected at the first and still is at the second
is sent exactly what everybody said in between, everybody's in their order. -/
theorem C105_complete (lossy : Bytes → String) (as bs : List Action) (i : Nat)
    (h1 : (State.init.run lossy as).settled) (h2 : ((State.init.run lossy as).run lossy bs).settled)
    (hi : ((State.init.run lossy as).conn i).reader ≠ .starting)
    (hd1 : ((State.init.run lossy as).conn i).drained) (hd2 : (((State.init.run lossy as).run lossy bs).conn i).drained) :
    ∃ q : Talk, (((State.init.run lossy as).run lossy bs).conn i).sent = ((State.init.run lossy as).conn i).sent ++ seen lossy q ∧
      ∀ j, (((State.init.run lossy as).run lossy bs).conn j).reads = ((State.init.run lossy as).conn j).reads ++ saidBy j q := by
  have h := (Inv.init lossy).run as
  generalize State.init.run lossy as = s at *
  have h' := h.run bs
  have hw : ((s.run lossy bs).conn i).writer ≠ .finished := by rw [hd2.1]; simp
  have hw1 : (s.conn i).writer ≠ .finished := by rw [hd1.1]; simp
  have hmem := h.listed.live i hi (fun h' => hw1 h'.2)
  have hg := grow_run bs h hmem hw
  have quiet : ∀ s : State, s.settled → ∀ j, inflight s j i = [] ∧ pending lossy j (s.conn j).reader = [] := by
    intro s hs j
    constructor
    · unfold inflight
      split
      · rename_i heq; exact absurd heq ((hs j).2 _ _)
      · rfl
    · unfold pending
      split
      · rename_i heq; exact absurd heq ((hs j).1 _)
      · rfl
  -- what was put into the queue in between
  have hq : ∃ Q, ((s.run lossy bs).conn i).queued = (s.conn i).queued ++ Q := by
    clear hg h2 hd2 hw h' hd1 hw1 hmem quiet h1 hi h
    induction bs generalizing s with
    | nil => exact ⟨[], by simp [State.run]⟩
    | cons b bs ih =>
      obtain ⟨Q, hQ⟩ := ih (s.step lossy b)
      have : ∃ Q1, ((s.step lossy b).conn i).queued = (s.conn i).queued ++ Q1 := by
        rcases step_shape lossy s b with ⟨k, d, -, h2, -⟩ | ⟨k, t, m, ts, -, -, -, -, h5⟩ | ⟨h1, -⟩
        · exact ⟨[], by rw [(h2 i).1]; simp⟩
        · rw [h5 i]
          split
          · exact ⟨_, rfl⟩
          · exact ⟨[], by simp⟩
        · exact ⟨[], by rw [(h1 i).1]; simp⟩
      obtain ⟨Q1, h1⟩ := this
      exact ⟨Q1 ++ Q, by rw [State.run, hQ, h1, List.append_assoc]⟩
  obtain ⟨Q, hQ⟩ := hq
  have hR : ∀ j, ∃ R, ((s.run lossy bs).conn j).reads = (s.conn j).reads ++ R ∧ saidBy j Q = R.map (announcement lossy j) := by
    intro j
    obtain ⟨new, hn1, hn2⟩ := hg j
    have r1 := (h.each j).reads
    have r2 := (h'.each j).reads
    rw [(quiet _ h1 j).2, List.append_nil] at r1
    rw [(quiet _ h2 j).2, List.append_nil] at r2
    rw [(quiet _ h1 j).1, (quiet _ h2 j).1, hQ, saidBy_append, List.append_nil, List.append_nil, List.append_cancel_left_eq] at hn2
    have hp : (s.conn j).reads <+: ((s.run lossy bs).conn j).reads := by
      clear r1 r2 hn1 hn2 hg h2 hd2 hw h' hd1 hw1 hmem quiet h1 hi h hQ
      induction bs generalizing s with
      | nil => exact List.prefix_rfl
      | cons b bs ih => exact (reads_mono lossy s b j).trans (ih _)
    obtain ⟨R, hR⟩ := hp
    refine ⟨R, hR.symm, ?_⟩
    rw [hn1, r1, ← hR, List.map_append, List.append_cancel_left_eq] at r2
    rw [hn2, r2]
  choose R hR1 hR2 using hR
  obtain ⟨q, hq1, hq2⟩ := talk_of (announcement lossy) Q R hR2
  refine ⟨q, ?_, fun j => by rw [hR1 j, hq2 j]⟩
  have b1 := (h.each i).bytes hw1
  have b2 := (h'.each i).bytes hw
  rw [hd1.1, hd1.2] at b1
  rw [hd2.1, hd2.2, hQ, bytesOf_append, ← b1] at b2
  simp only [rest, texts, List.append_nil] at b2
  rw [b2, seen_eq, hq1]

/-- Two clients are connected. -/
def twoClients : List Action := [.accept, .accept, .join 0, .join 1]

/-- `j` says something, and the two are told; then what is waiting to be sent is sent. -/
def saysToTwo (j : Nat) (d : Bytes) : List Action :=
  [.recv j d, .list j, .push j, .push j, .push j, .pop 0, .write 0 1000, .pop 1, .write 1 7, .write 1 1000]

theorem settled_of {lossy : Bytes → String} {as : List Action} (n : Nat) (h1 : (State.init.run lossy as).next = n)
    (h2 : ∀ j < n, ((State.init.run lossy as).conn j).reader = .waiting) : (State.init.run lossy as).settled := by
  intro j
  by_cases hj : j < n
  · rw [h2 j hj]; simp
  · have := run_started lossy as .init (fun i _ => rfl) j (by omega)
    rw [this]; simp

theorem run_append (lossy : Bytes → String) (as bs : List Action) : ∀ s : State, s.run lossy (as ++ bs) = (s.run lossy as).run lossy bs := by
  induction as with
  | nil => exact fun s => rfl
  | cons a as ih => exact fun s => ih _

/-- Two clients; each says something; both get both. -/
example (lossy : Bytes → String) (h : lossy = fun _ => "hi") :
    let s1 := State.init.run lossy twoClients
    let s2 := s1.run lossy (saysToTwo 0 [104, 105] ++ saysToTwo 1 [104, 105])
    s1.settled ∧ s2.settled ∧ (s1.conn 1).reader ≠ .starting ∧ (s1.conn 1).drained ∧ (s2.conn 1).drained ∧
      (s2.conn 1).sent = line 0 "hi" ++ line 1 "hi" ∧ (s2.conn 0).sent = line 0 "hi" ++ line 1 "hi" := by
  subst h
  refine ⟨settled_of 2 (by decide +kernel) (by decide +kernel), ?_, by decide +kernel, ?_, ?_, by decide +kernel, by decide +kernel⟩
  · rw [← run_append]
    exact settled_of 2 (by decide +kernel) (by decide +kernel)
  · exact ⟨by decide +kernel, by decide +kernel⟩
  · exact ⟨by decide +kernel, by decide +kernel⟩

/-! ### C105, for a client that has said everything -/

/-- What a client said itself reaches its own queue. -/
structure Own (s : State) (i : Nat) : Prop where
  live : (s.conn i).writer ≠ .finished → (s.conn i).mark = none → saidBy i (s.conn i).queued ++ inflight s i i = (s.conn i).published
  mark : ∀ m, (s.conn i).mark = some m → saidBy i ((s.conn i).queued.take m) = (s.conn i).published

/-- The mark is set when the client has said everything. -/
theorem mark_step (lossy : Bytes → String) (s : State) (a : Action) (i : Nat) :
    ((s.step lossy a).conn i).mark = (s.conn i).mark ∨
      (s.conn i).reader = .closing ∧ (s.conn i).writer ≠ .finished ∧ ((s.step lossy a).conn i).mark = some (s.conn i).queued.length ∧
        ((s.step lossy a).conn i).queued = (s.conn i).queued ∧ ((s.step lossy a).conn i).published = (s.conn i).published := by
  have one : ∀ (k : Nat) (c : Conn), c.mark = (s.conn k).mark → ((s.set k c).conn i).mark = (s.conn i).mark := by
    intro k c h
    rw [State.conn_set]
    split
    · subst_vars; exact h
    · rfl
  have hsend : ∀ (c : Conn) (j : Nat) (t : Bytes), (c.send j t).mark = c.mark := by
    intro c j t; unfold Conn.send; split <;> rfl
  cases a with
  | accept => exact .inl rfl
  | join k =>
    simp only [State.step]
    split
    · exact .inl (one k { s.conn k with reader := .waiting } rfl)
    · exact .inl rfl
  | recv k data =>
    simp only [State.step]
    split
    · exact .inl (one k _ rfl)
    · exact .inl rfl
  | recvEnd k =>
    simp only [State.step]
    split
    · exact .inl (one k _ rfl)
    · exact .inl rfl
  | list k =>
    simp only [State.step]
    split
    · exact .inl (one k _ rfl)
    · exact .inl rfl
  | push k =>
    simp only [State.step]
    split
    · exact .inl (one k _ rfl)
    · rename_i text t ts hc
      left
      simp only [State.conn_set]
      by_cases h1 : i = t
      · subst h1
        simp only [if_true, hsend]
        split
        · subst_vars; rfl
        · rfl
      · simp only [h1, if_false]
        split
        · subst_vars; rfl
        · rfl
    · exact .inl rfl
  | close k =>
    simp only [State.step]
    split
    · rename_i hc
      by_cases hw : (s.conn k).writer = .finished
      · left
        refine one k _ ?_
        simp [Conn.close, hw]
      · by_cases hk : i = k
        · subst hk
          right
          refine ⟨hc, hw, ?_, ?_, ?_⟩ <;> simp [State.conn_set, Conn.close, hw]
        · left; simp [State.conn_set, hk]
    · exact .inl rfl
  | pop k =>
    simp only [State.step]
    split
    · split
      · exact .inl (one k _ rfl)
      · exact .inl (one k _ rfl)
      · exact .inl rfl
    · exact .inl rfl
  | write k n =>
    simp only [State.step]
    split
    · split
      · exact .inl (one k _ rfl)
      · exact .inl (one k _ rfl)
    · exact .inl rfl
  | writeError k =>
    simp only [State.step]
    split
    · exact .inl (one k _ rfl)
    · exact .inl rfl
  | leave k =>
    simp only [State.step]
    split <;> exact .inl rfl

theorem Own.step {lossy : Bytes → String} {s : State} (hI : Inv lossy s) {i : Nat} (h : Own s i) (a : Action) : Own (s.step lossy a) i := by
  have hL := hI.each i
  have hI' := hI.step a
  rcases mark_step lossy s a i with hm | ⟨h1, h2, h3, h4, h5⟩
  · constructor
    · intro hw hn
      rw [hm] at hn
      have hw0 : (s.conn i).writer ≠ .finished := fun h' => hw ((step_mono lossy s a i).2.1 h')
      by_cases hs : (s.conn i).reader = .starting
      · -- not connected yet
        have hp : ((s.step lossy a).conn i).published = [] := by
          have hp0 : (s.conn i).published = [] := by rw [hL.fresh hs]; rfl
          rcases step_shape lossy s a with ⟨k, d, h1, h2, h3, h4, h5⟩ | ⟨k, t, m, ts, h1, h2, h3, h4, h5⟩ | ⟨h1, h2, -⟩
          · have : i ≠ k := by rintro rfl; rw [hs] at h1; simp at h1
            rw [h3 i this, hp0]
          · rw [(h4 i).1, hp0]
          · rw [(h1 i).2, hp0]
        have := (hI'.order i i).1 hw
        rw [hp] at this ⊢
        exact List.suffix_nil.1 this
      · have hi := hI.listed.live i hs (fun h' => hw0 h'.2)
        obtain ⟨new, h1, h2⟩ := grow hI.listed a hi hw i
        rw [h2, h1, h.live hw0 hn]
    · intro m hm'
      rw [hm] at hm'
      have hr : (s.conn i).reader = .finished := by
        by_contra hne
        have := hL.unclosed hne
        rw [this] at hm'; simp at hm'
      have hle := (hL.someMark m hm').1
      rcases step_shape lossy s a with ⟨k, d, h1, h2, h3, h4, h5⟩ | ⟨k, t, k', ts, h1, h2, h3, h4, h5⟩ | ⟨h1, h2, -⟩
      · have : i ≠ k := by rintro rfl; rw [hr] at h1; simp at h1
        rw [h3 i this]; exact h.mark m hm'
      · rw [(h4 i).1, h5 i]
        split
        · rw [List.take_append_of_le_length hle]; exact h.mark m hm'
        · exact h.mark m hm'
      · rw [(h1 i).1, (h1 i).2]; exact h.mark m hm'
  · constructor
    · intro _ hn; rw [h3] at hn; simp at hn
    · intro m hm
      rw [h3] at hm
      simp only [Option.some.injEq] at hm
      rw [← hm, h4, h5, List.take_length]
      have := h.live h2 (hL.unclosed (by rw [h1]; simp))
      rw [← this]
      simp [inflight, h1]

theorem Own.run {lossy : Bytes → String} (as : List Action) : ∀ {s : State}, Inv lossy s → ∀ {i : Nat}, Own s i → Own (s.run lossy as) i := by
  induction as with
  | nil => exact fun _ _ h => h
  | cons a as ih => exact fun hI _ h => ih (hI.step a) (h.step hI a)

/-- **C105**, for a client that says what it has to say and then ends its side: when the server is done with it (and could send
it everything), it has been sent everything it said itself, and nobody else's words out of order. -/
theorem C105_last_words (lossy : Bytes → String) (as : List Action) (i : Nat)
    (h1 : ((State.init.run lossy as).conn i).reader = .finished) (h2 : ((State.init.run lossy as).conn i).writer = .finished)
    (h3 : ((State.init.run lossy as).conn i).failed = false) :
    ∃ q : Talk, ((State.init.run lossy as).conn i).sent = seen lossy q ∧ saidBy i q = ((State.init.run lossy as).conn i).reads ∧
      ∀ j, saidBy j q <:+: ((State.init.run lossy as).conn j).reads := by
  have h := (Inv.init lossy).run as
  have ho : Own (State.init.run lossy as) i := by
    refine Own.run as (Inv.init lossy) ⟨fun _ _ => rfl, ?_⟩
    intro m hm; simp [State.init, Conn.new] at hm
  generalize State.init.run lossy as = s at *
  have hi := h.each i
  obtain ⟨m, hm⟩ : ∃ m, (s.conn i).mark = some m := by
    cases hm : (s.conn i).mark with
    | none => have := (hi.noMark hm).2 h2; rw [h3] at this; simp at this
    | some m => exact ⟨m, rfl⟩
  have hs := (hi.someMark m hm).2.2 h2 h3
  have hown := ho.mark m hm
  have hreads := hi.reads
  rw [h1] at hreads
  simp only [pending, List.append_nil] at hreads
  have hR : ∀ j, ∃ l', l' <:+: (s.conn j).reads ∧ saidBy j ((s.conn i).queued.take m) = l'.map (announcement lossy j) ∧
      (j = i → l' = (s.conn i).reads) := by
    intro j
    by_cases hj : j = i
    · subst hj
      exact ⟨_, List.infix_rfl, by rw [hown, hreads], fun _ => rfl⟩
    · obtain ⟨l', h4, h5⟩ : ∃ l', l' <:+: (s.conn j).reads ∧ saidBy j ((s.conn i).queued.take m) = l'.map (announcement lossy j) := by
        apply infix_map
        rw [← (h.each j).reads]
        have e : saidBy j ((s.conn i).queued.take m) <+: saidBy j (s.conn i).queued :=
          ⟨saidBy j ((s.conn i).queued.drop m), by rw [← saidBy_append, List.take_append_drop]⟩
        exact e.isInfix.trans (((h.order i j).2).trans (List.prefix_append _ _).isInfix)
      exact ⟨l', h4, h5, fun h' => absurd h' hj⟩
  choose R hR1 hR2 hR3 using hR
  obtain ⟨q, hq1, hq2⟩ := talk_of (announcement lossy) _ R hR2
  exact ⟨q, by rw [seen_eq, hq1, hs], by rw [hq2, hR3 i rfl], fun j => hq2 j ▸ hR1 j⟩

/-- A client says something and ends its side; it gets its words back before the server lets go. -/
example (lossy : Bytes → String) (h : lossy = fun _ => "hi") :
    let s := State.init.run lossy (twoClients ++ [.recv 0 [104, 105], .list 0, .push 0, .push 0, .push 0, .recvEnd 0, .close 0,
      .pop 0, .write 0 5, .write 0 1000, .pop 0, .leave 0])
    (s.conn 0).reader = .finished ∧ (s.conn 0).writer = .finished ∧ (s.conn 0).failed = false ∧ (s.conn 0).sent = line 0 "hi" ∧
      s.connlist = [1] := by
  subst h
  decide +kernel

/-! ### C106: one order for all -/

/-- Between two moments at which nothing is being passed on, two clients that are connected all the time are sent the same. -/
def C106_statement : Prop :=
  ∀ (lossy : Bytes → String) (as bs : List Action) (i k : Nat),
    (State.init.run lossy as).settled → ((State.init.run lossy as).run lossy bs).settled →
    (∀ x ∈ [i, k], ((State.init.run lossy as).conn x).reader ≠ .starting ∧ ((State.init.run lossy as).conn x).drained ∧
      (((State.init.run lossy as).run lossy bs).conn x).drained) →
    ∃ new, ∀ x ∈ [i, k],
      (((State.init.run lossy as).run lossy bs).conn x).sent = ((State.init.run lossy as).conn x).sent ++ new

/-- Both clients speak at the same time, and each task puts its announcement into one queue first. -/
def bothAtOnce : List Action :=
  [.recv 0 [104, 105], .recv 1 [104, 105], .list 0, .list 1, .push 0, .push 1, .push 1, .push 0, .push 0, .push 1,
   .pop 0, .write 0 1000, .pop 0, .write 0 1000, .pop 1, .write 1 1000, .pop 1, .write 1 1000]

/-- **C106** does not hold: the list of connections is taken under a lock, but the lock is released before anything is sent, so two
announcements can reach two clients in different orders. -/
theorem C106_false : ¬ C106_statement := by
  intro h
  obtain ⟨new, hn⟩ := h (fun _ => "hi") twoClients bothAtOnce 0 1
    (settled_of 2 (by decide +kernel) (by decide +kernel))
    (by rw [← run_append]; exact settled_of 2 (by decide +kernel) (by decide +kernel))
    (by
      intro x hx
      simp only [List.mem_cons, List.not_mem_nil, or_false] at hx
      rcases hx with rfl | rfl
      · exact ⟨by decide +kernel, ⟨by decide +kernel, by decide +kernel⟩, ⟨by decide +kernel, by decide +kernel⟩⟩
      · exact ⟨by decide +kernel, ⟨by decide +kernel, by decide +kernel⟩, ⟨by decide +kernel, by decide +kernel⟩⟩)
  have h0 := hn 0 (by simp)
  have h1 := hn 1 (by simp)
  have e0 : ((State.init.run (fun _ => "hi") twoClients).conn 0).sent = [] := by decide +kernel
  have e1 : ((State.init.run (fun _ => "hi") twoClients).conn 1).sent = [] := by decide +kernel
  rw [e0, List.nil_append] at h0
  rw [e1, List.nil_append] at h1
  exact absurd (h0.trans h1.symm) (by decide +kernel)

/-- At no moment are two announcements on their way. -/
def OneAtATime (lossy : Bytes → String) (s : State) (bs : List Action) : Prop :=
  ∀ pre, pre <+: bs → ∀ j k t u ts us, ((s.run lossy pre).conn j).reader = .sending t ts →
    ((s.run lossy pre).conn k).reader = .sending u us → j = k

/-- Where client `x` is when `L` has been announced since its queue was `base`. -/
def Track (s : State) (base L : Talk) (x : Nat) : Prop :=
  (∀ j t ts, (s.conn j).reader = .sending t ts → x ∈ ts → base ++ L = (s.conn x).queued ++ [(j, t)]) ∧
  ((∀ j t ts, (s.conn j).reader = .sending t ts → x ∉ ts) → base ++ L = (s.conn x).queued)

theorem track_step {lossy : Bytes → String} {s : State} (hI : Inv lossy s) (a : Action)
    (h0 : ∀ j k t u ts us, (s.conn j).reader = .sending t ts → (s.conn k).reader = .sending u us → j = k)
    (h1 : ∀ j k t u ts us, ((s.step lossy a).conn j).reader = .sending t ts → ((s.step lossy a).conn k).reader = .sending u us → j = k) :
    ∃ new, ∀ x ∈ s.connlist, ((s.step lossy a).conn x).writer ≠ .finished → ∀ base L, Track s base L x →
      Track (s.step lossy a) base (L ++ new) x := by
  rcases step_shape lossy s a with ⟨k, d, g1, g2, g3, g4, g5⟩ | ⟨k, t, m, ts, g1, g2, g3, g4, g5⟩ | ⟨g1, g2, g3⟩
  · refine ⟨[(k, announcement lossy k d)], fun x hx hw base L hT => ?_⟩
    have hn : ∀ j t ts, (s.conn j).reader ≠ .sending t ts := by
      intro j t ts hj
      have hjk : j ≠ k := by rintro rfl; rw [g1] at hj; simp at hj
      have := h1 j k t _ ts _ (by rw [g3 j hjk]; exact hj) g5
      exact hjk this
    have hb := hT.2 (fun j t ts hj => absurd hj (hn j t ts))
    constructor
    · intro j t ts hj _
      have hjk : j = k := h1 j k t _ ts _ hj g5
      subst hjk
      rw [g5] at hj
      simp only [ReaderState.sending.injEq] at hj
      rw [(g2 x).1, ← List.append_assoc, hb, ← hj.1]
    · intro h
      exact absurd hx (h k _ _ g5)
  · refine ⟨[], fun x hx hw base L hT => ?_⟩
    rw [List.append_nil]
    rw [(g4 x).2] at hw
    have hnd := (List.nodup_cons.1 (hI.listed.targets _ _ _ g1).1).1
    constructor
    · intro j t' ts' hj hx'
      have hjk : j = k := h1 j k t' _ ts' _ hj g2
      subst hjk
      rw [g2] at hj
      simp only [ReaderState.sending.injEq] at hj
      obtain ⟨rfl, rfl⟩ := hj
      have hxm : x ≠ m := by rintro rfl; exact hnd hx'
      rw [g5 x]
      simp only [hxm, false_and, if_false]
      exact hT.1 j t _ g1 (by simp [hx'])
    · intro h
      have hx' := h k _ _ g2
      rw [g5 x]
      by_cases hxm : x = m
      · subst hxm
        simp only [hw, ne_eq, not_false_eq_true, and_self, if_true]
        exact hT.1 k t _ g1 (by simp)
      · simp only [hxm, false_and, if_false]
        refine hT.2 ?_
        intro j t' ts' hj
        have hjk : j = k := h0 j k t' _ ts' _ hj g1
        subst hjk
        rw [g1] at hj
        simp only [ReaderState.sending.injEq] at hj
        rw [← hj.2]
        simp [hxm, hx']
  · refine ⟨[], fun x hx hw base L hT => ?_⟩
    rw [List.append_nil]
    constructor
    · intro j t ts hj hx'
      rw [(g1 x).1]
      exact hT.1 j t ts (g3 j t ts hj) hx'
    · intro h
      rw [(g1 x).1]
      refine hT.2 ?_
      intro j t ts hj hx'
      have e := g2 j x
      have e1 : inflight s j x = [t] := by simp [inflight, hj, hx']
      rw [e1] at e
      unfold inflight at e
      split at e
      · rename_i t' ts' heq
        split at e
        · exact h j _ _ heq (by assumption)
        · simp at e
      · simp at e

theorem track_run {lossy : Bytes → String} (bs : List Action) : ∀ {s : State}, Inv lossy s → OneAtATime lossy s bs →
    ∃ new, ∀ x ∈ s.connlist, ((s.run lossy bs).conn x).writer ≠ .finished → ∀ base L, Track s base L x →
      Track (s.run lossy bs) base (L ++ new) x := by
  induction bs with
  | nil => exact fun _ _ => ⟨[], fun x _ _ base L h => by rw [List.append_nil]; exact h⟩
  | cons b bs ih =>
    intro s hI ho
    have h0 := ho [] List.nil_prefix
    have h1 := ho [b] ⟨bs, rfl⟩
    simp only [State.run] at h0 h1
    obtain ⟨n1, hn1⟩ := track_step hI b h0 h1
    obtain ⟨n2, hn2⟩ := ih (hI.step b) (fun pre hp => by
      have := ho (b :: pre) (List.cons_prefix_cons.2 ⟨rfl, hp⟩)
      simpa only [State.run] using this)
    refine ⟨n1 ++ n2, fun x hx hw base L hT => ?_⟩
    simp only [State.run] at hw ⊢
    have hw1 : ((s.step lossy b).conn x).writer ≠ .finished := fun h' => hw ((run_mono lossy bs _ x).2.1 h')
    have hx1 := (hI.step b).listed.live x ((step_mono lossy s b x).1 (hI.listed.mem x hx)) (fun h' => hw1 h'.2)
    rw [← List.append_assoc]
    exact hn2 x hx1 hw base (L ++ n1) (hn1 x hx hw1 base L hT)

/-- **C106**, as far as it holds: if no two announcements are on their way at the same time, all clients connected all the time are sent
the same. (Missing: announcements that overlap; see `C106_false`.) -/
theorem C106_one_at_a_time_partial (lossy : Bytes → String) (as bs : List Action)
    (h1 : (State.init.run lossy as).settled) (h2 : ((State.init.run lossy as).run lossy bs).settled)
    (ho : OneAtATime lossy (State.init.run lossy as) bs) :
    ∃ new, ∀ x, ((State.init.run lossy as).conn x).reader ≠ .starting → ((State.init.run lossy as).conn x).drained →
      (((State.init.run lossy as).run lossy bs).conn x).drained →
      (((State.init.run lossy as).run lossy bs).conn x).sent = ((State.init.run lossy as).conn x).sent ++ new := by
  have h := (Inv.init lossy).run as
  generalize State.init.run lossy as = s at *
  have h' := h.run bs
  obtain ⟨new, hn⟩ := track_run bs h ho
  refine ⟨bytesOf new, fun x hx hd1 hd2 => ?_⟩
  have hw : ((s.run lossy bs).conn x).writer ≠ .finished := by rw [hd2.1]; simp
  have hw1 : (s.conn x).writer ≠ .finished := by rw [hd1.1]; simp
  have hmem := h.listed.live x hx (fun h' => hw1 h'.2)
  have hT := hn x hmem hw (s.conn x).queued [] ⟨fun j t ts hj => absurd hj ((h1 j).2 _ _), fun _ => by simp⟩
  have hq := hT.2 (fun j t ts hj => absurd hj ((h2 j).2 _ _))
  have b1 := (h.each x).bytes hw1
  have b2 := (h'.each x).bytes hw
  rw [hd1.1, hd1.2] at b1
  rw [hd2.1, hd2.2, ← hq, List.nil_append, bytesOf_append, ← b1] at b2
  simpa [rest, texts] using b2

def ReaderState.isSending : ReaderState → Bool
  | .sending _ _ => true
  | _ => false

/-- `OneAtATime` can be checked state by state when only the first `n` connections are there. -/
theorem oneAtATime_of {lossy : Bytes → String} {as bs : List Action}
    (h : ∀ pre ∈ bs.inits, ∀ j < (State.init.run lossy (as ++ pre)).next, ∀ k < (State.init.run lossy (as ++ pre)).next,
      ((State.init.run lossy (as ++ pre)).conn j).reader.isSending = true → ((State.init.run lossy (as ++ pre)).conn k).reader.isSending = true → j = k) : OneAtATime lossy (State.init.run lossy as) bs := by
  intro pre hp j k t u ts us hj hk
  rw [← run_append] at hj hk
  have hlt : ∀ x r, ((State.init.run lossy (as ++ pre)).conn x).reader = r → r ≠ .starting → x < (State.init.run lossy (as ++ pre)).next := by
    intro x r hx hr
    by_contra hc
    have := run_started lossy (as ++ pre) .init (fun i _ => rfl) x (by omega)
    rw [this] at hx
    exact hr hx.symm
  exact h pre ((List.mem_inits _ _).2 hp) j (hlt j _ hj (by simp)) k (hlt k _ hk (by simp)) (by rw [hj]; rfl) (by rw [hk]; rfl)

/-! ### C107: one line for each announcement -/

/-- **C107**: what a client has been sent is, cut at the line ends, one line for each announcement (the last one perhaps not yet complete); and the
number at the start of a line is the number of the connection the words came from, whatever the words are. -/
theorem C107_lines (lossy : Bytes → String) (as : List Action) (i : Nat) :
    ∃ q : Talk, (cut ((State.init.run lossy as).conn i).sent).1 = q.map (fun x => line x.1 (lossy x.2)) ∧
      (cut ((State.init.run lossy as).conn i).sent).1.map senderOf = q.map (·.1) ∧
      (∀ j, saidBy j q <:+: ((State.init.run lossy as).conn j).reads) ∧
      ((cut ((State.init.run lossy as).conn i).sent).2 = [] ∨
        ∃ j, ∃ d ∈ ((State.init.run lossy as).conn j).reads, (cut ((State.init.run lossy as).conn i).sent).2 <+: line j (lossy d)) := by
  obtain ⟨q, h1, -, h3⟩ := C104_faithful lossy as i
  obtain ⟨q1, q2, rfl, h4, h5⟩ := cut_prefix lossy q _ h1
  refine ⟨q1, h4, ?_, fun j => ?_, ?_⟩
  · rw [h4, List.map_map]
    exact List.map_congr_left (fun x _ => senderOf_line x.1 (lossy x.2))
  · have := h3 j
    rw [saidBy_append] at this
    exact (List.prefix_append _ _).isInfix.trans this
  · refine h5.imp id ?_
    rintro ⟨x, q3, rfl, h6⟩
    refine ⟨x.1, x.2, (h3 x.1).subset ?_, h6⟩
    simp [saidBy]

/-- Words that look like somebody else's line are still one line and name who said them. -/
example : let l := line 7 "hello\"\nReceived from 3: \"I resign"
    cut l = ([l], []) ∧ senderOf l = 7 ∧ l = utf8Encode "Received from 7: \"hello\\\"\\nReceived from 3: \\\"I resign\"\n" := by
  decide +kernel

/-! ### C108: the words can be recovered -/

/-- Different texts give different lines. `text` reads bytes as text and is right about well-formed text. -/
def C108_statement : Prop :=
  ∀ (text : Bytes → String), (∀ t, text (utf8Encode t) = t) → ∀ (j : Nat) (t u : String),
    announcement text j (utf8Encode t) = announcement text j (utf8Encode u) → t = u

/-- **C108** does not hold: a backslash is not marked, so a line end and a backslash followed by `n` look alike. -/
theorem C108_false : ¬ C108_statement := by
  intro h
  have h1 := h (fun b => (utf8Decode b).getD "") (fun t => by rw [utf8_round_trip]; rfl) 0 "\n" "\\n"
  simp only [announcement_eq, utf8_round_trip, Option.getD_some] at h1
  exact absurd (h1 (by decide +kernel)) (by decide)

theorem quoted_inj {t u : List Char} (ht : '\\' ∉ t) (hu : '\\' ∉ u) (h : quoted t = quoted u) : t = u := by
  simp only [quoted, List.append_cancel_right_eq, List.append_cancel_left_eq] at h
  induction t generalizing u with
  | nil =>
    cases u with
    | nil => rfl
    | cons d u =>
      exfalso
      simp only [List.flatMap_nil, List.flatMap_cons] at h
      have := congrArg List.length h
      rw [List.length_append] at this
      split at this <;> simp only [List.length_nil, List.length_cons] at this <;> omega
  | cons c t ih =>
    simp only [List.mem_cons, not_or] at ht
    cases u with
    | nil =>
      exfalso
      simp only [List.flatMap_nil, List.flatMap_cons] at h
      have := congrArg List.length h
      rw [List.length_append] at this
      split at this <;> simp only [List.length_nil, List.length_cons] at this <;> omega
    | cons d u =>
      simp only [List.mem_cons, not_or] at hu
      simp only [List.flatMap_cons] at h
      have hc := ht.1
      have hd := hu.1
      split at h <;> split at h
      all_goals simp only [List.cons_append, List.nil_append, List.cons.injEq] at h
      all_goals first
        | (exact absurd h.1.symm hc)
        | (exact absurd h.1 hd)
        | (exact absurd h.1.symm hd)
        | (exact absurd h.1 hc)
        | (exact absurd h.2.1 (by decide))
        | (rw [ih ht.2 hu.2 h.2.2])
        | (rw [h.1, ih ht.2 hu.2 h.2])

/-- **C108**, as far as it holds: texts without a backslash can be told apart. (Missing: texts with a backslash; see `C108_false`.) -/
theorem C108_no_backslash_partial (text : Bytes → String) (ht : ∀ t, text (utf8Encode t) = t) (j : Nat) (t u : String)
    (h1 : '\\' ∉ t.toList) (h2 : '\\' ∉ u.toList) (h : announcement text j (utf8Encode t) = announcement text j (utf8Encode u)) : t = u := by
  rw [announcement_eq, announcement_eq, ht, ht, line_eq, line_eq] at h
  simp only [List.append_cancel_right_eq, List.append_cancel_left_eq, List.cons.injEq, true_and] at h
  have e : quoted t.toList = quoted u.toList := by
    have := congrArg utf8Decode h
    rw [utf8_round_trip, utf8_round_trip, Option.some.injEq] at this
    have := congrArg String.toList this
    simpa using this
  have := quoted_inj h1 h2 e
  exact String.toList_inj.1 this

example : '\\' ∉ "say \"hi\"\n".toList ∧ announcement (fun b => (utf8Decode b).getD "") 0 (utf8Encode "say \"hi\"\n") =
    utf8Encode "Received from 0: \"say \\\"hi\\\"\\n\"\n" := by
  decide +kernel

/-- Announcements one after the other. -/
example (lossy : Bytes → String) (h : lossy = fun _ => "hi") :
    let s1 := State.init.run lossy twoClients
    let bs := saysToTwo 0 [104, 105] ++ saysToTwo 1 [104, 105]
    s1.settled ∧ (s1.run lossy bs).settled ∧ OneAtATime lossy s1 bs := by
  subst h
  refine ⟨settled_of 2 (by decide +kernel) (by decide +kernel), ?_, ?_⟩
  · rw [← run_append]
    exact settled_of 2 (by decide +kernel) (by decide +kernel)
  · refine oneAtATime_of ?_
    decide +kernel

/-! ### C109: no client holds up another, and a client that has gone is let go -/

/-- The actions of the task that passes on what client `i` said. -/
def passingOn (i : Nat) : Action → Prop
  | .list j => j = i
  | .push j => j = i
  | _ => False

/-- The actions of the task that sends to client `i`, and of its end. -/
def sendingTo (i : Nat) : Action → Prop
  | .pop j => j = i
  | .write j _ => j = i
  | .leave j => j = i
  | _ => False

theorem push_all (lossy : Bytes → String) (i : Nat) (t : Bytes) : ∀ (ts : List Nat) (s : State), (s.conn i).reader = .sending t ts →
    ((s.run lossy (List.replicate (ts.length + 1) (.push i))).conn i).reader = .waiting := by
  intro ts
  induction ts with
  | nil =>
    intro s hs
    simp [State.run, State.step, hs, State.conn_set]
  | cons k ts ih =>
    intro s hs
    rw [List.length_cons, List.replicate_succ, State.run]
    refine ih _ ?_
    simp only [State.step, hs, State.conn_set]
    split
    · subst_vars; simp [Conn.send_reader]
    · simp

/-- **C109**, passing on: whatever the other clients do or do not do (they may have stopped reading), the task that has read something from client
`i` can tell everybody and go back to reading, by itself. -/
theorem C109_not_held_up (lossy : Bytes → String) (s : State) (i : Nat) (d : Bytes) (h : (s.conn i).reader = .received d) :
    ∃ bs, (∀ b ∈ bs, passingOn i b) ∧ ((s.run lossy bs).conn i).reader = .waiting := by
  refine ⟨.list i :: List.replicate (s.connlist.length + 1) (.push i), ?_, ?_⟩
  · intro b hb
    simp only [List.mem_cons, List.mem_replicate] at hb
    rcases hb with rfl | ⟨-, rfl⟩ <;> rfl
  · rw [State.run]
    exact push_all lossy i (announcement lossy i d) _ _ (by simp only [State.step, h, State.conn_set, if_true])

/-- Writing what was taken from the queue. -/
theorem write_all (lossy : Bytes → String) (s : State) (i : Nat) (r : Bytes) (h : (s.conn i).writer = .writing r) :
    ((s.step lossy (.write i r.length)).conn i) = { s.conn i with sent := (s.conn i).sent ++ r, writer := .waiting } := by
  simp [State.step, h, State.conn_set]

theorem write_list (lossy : Bytes → String) (s : State) (i : Nat) (r : Bytes) (h : (s.conn i).writer = .writing r) :
    (s.step lossy (.write i r.length)).connlist = s.connlist := by
  simp [State.step, h, State.set]

theorem drain (lossy : Bytes → String) (i : Nat) : ∀ (q : List WriterMessage) (s : State), s.connlist.Nodup → (s.conn i).queue = q → .close ∈ q →
    (s.conn i).reader = .finished → (s.conn i).writer = .waiting →
    ∃ bs, (∀ b ∈ bs, sendingTo i b) ∧ i ∉ (s.run lossy bs).connlist ∧
      ((s.run lossy bs).conn i).sent = (s.conn i).sent ++ textsToClose q := by
  intro q
  induction q with
  | nil => intro s _ _ h; simp at h
  | cons m q ih =>
    intro s hn hq hc hr hw
    cases m with
    | close =>
      refine ⟨[.pop i, .leave i], ?_, ?_, ?_⟩
      · intro b hb
        simp only [List.mem_cons, List.not_mem_nil, or_false] at hb
        rcases hb with rfl | rfl <;> rfl
      · simp only [State.run, State.step, hw, hq, if_true, State.conn_set, hr, and_self, State.set]
        exact hn.not_mem_erase
      · simp [State.run, State.step, hw, hq, State.conn_set, hr, textsToClose]
    | write d =>
      have hs : s.step lossy (.pop i) = s.set i { s.conn i with writer := .writing d, queue := q } := by
        simp only [State.step, hw, hq, if_true]
      have hc1 : (s.step lossy (.pop i)).conn i = { s.conn i with writer := .writing d, queue := q } := by
        rw [hs, State.conn_set, if_pos rfl]
      have hw1 : ((s.step lossy (.pop i)).conn i).writer = .writing d := by rw [hc1]
      have hl1 : (s.step lossy (.pop i)).connlist = s.connlist := by rw [hs]; rfl
      have hc2 := write_all lossy _ i d hw1
      have hl2 := write_list lossy _ i d hw1
      rw [hc1] at hc2
      obtain ⟨bs, h1, h2, h3⟩ := ih ((s.step lossy (.pop i)).step lossy (.write i d.length)) (by rw [hl2, hl1]; exact hn)
        (by rw [hc2]) (by simpa using hc) (by rw [hc2]; exact hr) (by rw [hc2])
      refine ⟨.pop i :: .write i d.length :: bs, ?_, ?_, ?_⟩
      · intro b hb
        simp only [List.mem_cons] at hb
        rcases hb with rfl | rfl | hb
        · rfl
        · rfl
        · exact h1 b hb
      · exact h2
      · have : ((s.run lossy (.pop i :: .write i d.length :: bs)).conn i).sent = (s.conn i).sent ++ d ++ textsToClose q := by
          show ((((s.step lossy (.pop i)).step lossy (.write i d.length)).run lossy bs).conn i).sent = _
          rw [h3, hc2]
        rw [this]; simp [textsToClose]

/-- **C109**, letting go: in every state that can be reached in which client `i` has ended its side, the task that sends to it can, by itself
and as long as the client takes what it is sent, reach a state in which the server has forgotten the client; before that it sends everything that
was announced to the client before the end, so in the end (unless writing had failed) it has sent all of the client's own words. -/
theorem C109_let_go (lossy : Bytes → String) (as : List Action) (i : Nat) (h1 : ((State.init.run lossy as).conn i).reader = .finished) :
    ∃ bs, (∀ b ∈ bs, sendingTo i b) ∧ i ∉ ((State.init.run lossy as).run lossy bs).connlist ∧
      (((State.init.run lossy as).conn i).failed = false → ∃ q : Talk,
        (((State.init.run lossy as).run lossy bs).conn i).sent = seen lossy q ∧
          saidBy i q = ((State.init.run lossy as).conn i).reads) := by
  have h := (Inv.init lossy).run as
  have hown : ∀ s : State, s = State.init.run lossy as → Own s i := by
    rintro s rfl
    refine Own.run as (Inv.init lossy) ⟨fun _ _ => rfl, ?_⟩
    intro m hm; simp [State.init, Conn.new] at hm
  have ho := hown _ rfl
  clear hown
  generalize State.init.run lossy as = s at *
  have hi := h.each i
  -- what has to have been sent in the end
  have goal : ∀ m, (s.conn i).mark = some m → ∀ b, b = bytesOf ((s.conn i).queued.take m) →
      ∃ q : Talk, b = seen lossy q ∧ saidBy i q = (s.conn i).reads := by
    rintro m hm _ rfl
    have hreads := hi.reads
    rw [h1] at hreads
    simp only [pending, List.append_nil] at hreads
    have hR : ∀ j, ∃ l', saidBy j ((s.conn i).queued.take m) = l'.map (announcement lossy j) ∧ (j = i → l' = (s.conn i).reads) := by
      intro j
      by_cases hj : j = i
      · subst hj
        exact ⟨_, by rw [ho.mark m hm, hreads], fun _ => rfl⟩
      · obtain ⟨l', h4, h5⟩ : ∃ l', l' <:+: (s.conn j).reads ∧ saidBy j ((s.conn i).queued.take m) = l'.map (announcement lossy j) := by
          apply infix_map
          rw [← (h.each j).reads]
          have e : saidBy j ((s.conn i).queued.take m) <+: saidBy j (s.conn i).queued :=
            ⟨saidBy j ((s.conn i).queued.drop m), by rw [← saidBy_append, List.take_append_drop]⟩
          exact e.isInfix.trans (((h.order i j).2).trans (List.prefix_append _ _).isInfix)
        exact ⟨l', h5, fun h' => absurd h' hj⟩
    choose R hR2 hR3 using hR
    obtain ⟨q, hq1, hq2⟩ := talk_of (announcement lossy) _ R hR2
    exact ⟨q, by rw [seen_eq, hq1], by rw [hq2, hR3 i rfl]⟩
  by_cases hw : (s.conn i).writer = .finished
  · refine ⟨[.leave i], by intro b hb; simp at hb; subst hb; rfl, ?_, ?_⟩
    · simp only [State.run, State.step, h1, hw, and_self, if_true]
      exact h.listed.nodup.not_mem_erase
    · intro hf
      cases hm : (s.conn i).mark with
      | none => have := (hi.noMark hm).2 hw; rw [hf] at this; simp at this
      | some m =>
        refine goal m hm _ ?_
        simp only [State.run, State.step, h1, hw, and_self, if_true]
        exact (hi.someMark m hm).2.2 hw hf
  · obtain ⟨m, hm⟩ : ∃ m, (s.conn i).mark = some m := by
      cases hm : (s.conn i).mark with
      | none => exact absurd (hi.closed h1 hm) hw
      | some m => exact ⟨m, rfl⟩
    obtain ⟨hc, hb⟩ := (hi.someMark m hm).2.1 hw
    cases hw' : (s.conn i).writer with
    | finished => exact absurd hw' hw
    | waiting =>
      obtain ⟨bs, g1, g2, g3⟩ := drain lossy i _ s h.listed.nodup rfl hc h1 hw'
      refine ⟨bs, g1, g2, fun _ => goal m hm _ ?_⟩
      rw [hw'] at hb
      rw [g3, ← hb]; simp [rest]
    | writing r =>
      have hc2 := write_all lossy s i r hw'
      have hl2 := write_list lossy s i r hw'
      obtain ⟨bs, g1, g2, g3⟩ := drain lossy i (s.conn i).queue (s.step lossy (.write i r.length)) (by rw [hl2]; exact h.listed.nodup)
        (by rw [hc2]) hc (by rw [hc2]; exact h1) (by rw [hc2])
      refine ⟨.write i r.length :: bs, ?_, g2, fun _ => goal m hm _ ?_⟩
      · intro b hb
        simp only [List.mem_cons] at hb
        rcases hb with rfl | hb
        · rfl
        · exact g1 b hb
      · rw [hw'] at hb
        show (((s.step lossy (.write i r.length)).run lossy bs).conn i).sent = _
        rw [g3, hc2, ← hb]; simp [rest]

/-- Client 0 says something and ends its side before anything was sent. -/
example (lossy : Bytes → String) (h : lossy = fun _ => "hi") :
    let s := State.init.run lossy (twoClients ++ [.recv 0 [104, 105], .list 0, .push 0, .push 0, .push 0, .recvEnd 0, .close 0])
    (s.conn 0).reader = .finished ∧ (s.conn 0).writer = .waiting ∧ (s.conn 0).sent = [] ∧ (s.conn 0).reads = [[104, 105]] ∧
      s.connlist = [0, 1] := by
  subst h
  decide +kernel

end Ngfs.Chat
