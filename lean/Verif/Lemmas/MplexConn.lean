import Verif.Lemmas.Mplex

/-! The invariant of a multiplexed connection. -/
namespace Ngfs.Mplex
open Varint Spec Spec.Mplex

/-- What is waiting in the frame slot for a stream's reader. -/
def Shared.waiting (m : Shared) (id : StreamId) : Bytes :=
  match m.incoming with
  | some f => if f.streamId = id ∧ (f.op = .message ∨ f.op = .reset) then f.data else []
  | none => []

/-- What the specification says is owed to a stream, in terms of the state. -/
def Shared.owed (m : Shared) (id : StreamId) : Option Bytes :=
  if id ∈ m.readers then some (m.waiting id) else none

theorem owedAfter_append (id : StreamId) (a b : List Event) : ∀ o,
    owedAfter id o (a ++ b) = (owedAfter id o a).bind (owedAfter id · b) := by
  induction a with
  | nil => intro o; rfl
  | cons e es ih =>
    intro o
    simp only [List.cons_append, owedAfter]
    cases owedStep id o e with
    | none => rfl
    | some o' => exact ih o'

theorem takenIn_append (a b : List Event) : takenIn (a ++ b) = takenIn a ++ takenIn b := List.filterMap_append ..
theorem outIn_append (a b : List Event) : outIn (a ++ b) = outIn a ++ outIn b := List.filterMap_append ..

theorem takenIn_map (fs : List Frame) : takenIn (fs.map .taken) = fs := by
  induction fs with
  | nil => rfl
  | cons f fs ih => simp only [takenIn, List.map_cons, List.filterMap_cons] at ih ⊢; rw [ih]

theorem outIn_map (fs : List Frame) : outIn (fs.map .taken) = [] := by
  induction fs with
  | nil => rfl
  | cons f fs ih => simpa only [outIn, List.map_cons, List.filterMap_cons] using ih

/-- What filling the frame slot does. -/
structure FillStep (m : Shared) (r : Poll (Except Fault Unit)) (m' : Shared) (taken : List Frame) : Prop where
  wire : ∃ used bs, m.frames.transport.reads = used ++ m'.frames.transport.reads ∧
    m.frames.incoming ++ readBytes used = bs ++ m'.frames.incoming ∧ Frames bs taken
  outgoing : m'.frames.outgoing = m.frames.outgoing
  transport : m'.frames.transport = { m.frames.transport with reads := m'.frames.transport.reads }
  next : m'.nextStreamNum = m.nextStreamNum
  readers : m'.readers = m.readers
  closed : m'.closed = m.closed
  wanted : m'.incoming ≠ none → m'.frameWanted = true
  ended : r = .ready (.ok ()) → m'.incoming = none → m'.frames.incoming = [] ∧ m'.frames.readEof = true ∧ m'.noMoreFrames = true
  idle : r ≠ .ready (.ok ()) → m'.incoming = none
  last : ∀ g, m'.incoming = some g → (taken = [] ∧ m.incoming = some g) ∨ taken.getLast? = some g
  owed : ∀ id, owedAfter id (m.owed id) (taken.map .taken) = some (m'.owed id)

theorem frameWanted_false {m : Shared} (h : m.frameWanted = false) (id : StreamId) (hid : id ∈ m.readers) :
    m.waiting id = [] := by
  unfold Shared.frameWanted at h
  unfold Shared.waiting
  cases hi : m.incoming with
  | none => rfl
  | some f =>
    simp only [hi] at h ⊢
    split at h
    · cases h
    · rw [if_neg]
      rintro ⟨rfl, -⟩
      simp only [Shared.haveReader, List.contains_eq_mem, decide_eq_false_iff_not] at h
      exact h hid

theorem owed_none {m m' : Shared} (h : m.frameWanted = false) (hr : m'.readers = m.readers)
    (hi : m'.incoming = none) (id : StreamId) : m.owed id = m'.owed id := by
  unfold Shared.owed
  rw [hr]
  split
  · rename_i hid
    rw [frameWanted_false h id hid]
    simp [Shared.waiting, hi]
  · rfl

theorem owed_ext {m m' : Shared} {id : StreamId} (hr : m.readers = m'.readers)
    (hw : m.waiting id = m'.waiting id) : m.owed id = m'.owed id := by
  unfold Shared.owed
  rw [hr, hw]

theorem owed_taken {m m' : Shared} {f : Frame} (h : m.frameWanted = false) (hr : m'.readers = m.readers)
    (hi : m'.incoming = some f) (id : StreamId) : owedStep id (m.owed id) (.taken f) = some (m'.owed id) := by
  simp only [owedStep, Shared.owed, hr]
  by_cases hid : id ∈ m.readers
  · simp only [hid, if_true, frameWanted_false h id hid, Option.map_some, List.nil_append]
    simp only [Shared.waiting, hi]
    split <;> rfl
  · simp only [hid, if_false, Option.map_none, ite_self]

theorem fillLoop_step (fuel : Nat) : ∀ (m : Shared), m.closed = false →
    m.frames.incoming.length + (readBytes m.frames.transport.reads).length < fuel →
    FillStep m (fillLoop fuel m).1 (fillLoop fuel m).2.1 (fillLoop fuel m).2.2 ∧
      (fillLoop fuel m).1 ≠ .ready (.error .fuel) := by
  induction fuel with
  | zero => intro m _ h; omega
  | succ fuel ih =>
    intro m hc hfuel
    rw [fillLoop, if_neg (by simp [hc])]
    cases hw : m.frameWanted with
    | true =>
      simp only [if_true]
      refine ⟨⟨⟨[], [], rfl, by simp [readBytes], .nil⟩, rfl, rfl, rfl, rfl, rfl, fun _ => hw, ?_, fun h => (h rfl).elim, fun g hg => .inl ⟨rfl, hg⟩,
        fun id => rfl⟩, nofun⟩
      intro _ hn
      simp [Shared.frameWanted, hn] at hw
    | false =>
      simp only [Bool.false_eq_true, if_false]
      obtain ⟨reads', inc', eof', hp, hstep⟩ := pollReadFrame_eq m.frames
      rw [hp]
      generalize readFrameLoop m.frames.transport.reads m.frames.incoming m.frames.readEof = R at hstep
      obtain ⟨r, R2⟩ := R
      simp only at hstep ⊢
      obtain ⟨⟨used, hu, hr⟩, hpend, hend, hnf⟩ := hstep
      have quiet : ∀ (rr : Poll (Except Fault Unit)) (nm : Bool), inc' = m.frames.incoming ++ readBytes used →
          (rr = .ready (.ok ()) → inc' = [] ∧ eof' = true ∧ nm = true) →
          FillStep m rr { m with incoming := none, noMoreFrames := nm, frames := { m.frames with
            transport := { m.frames.transport with reads := reads' }, incoming := inc', readEof := eof' } } [] := by
        intro rr nm h1 h2
        exact ⟨⟨used, [], hu, by rw [h1, List.nil_append], .nil⟩, rfl, rfl, rfl, rfl, rfl, fun h => (h rfl).elim,
          fun h _ => h2 h, fun _ => rfl, nofun, fun id => congrArg some (owed_none hw (by rfl) (by rfl) id)⟩
      cases r with
      | pending => exact ⟨quiet .pending m.noMoreFrames hr nofun, nofun⟩
      | ready x =>
        cases x with
        | error e => exact ⟨quiet (.ready (.error e)) m.noMoreFrames hr nofun, fun h => hnf (by cases h; rfl)⟩
        | ok o =>
          cases o with
          | none => exact ⟨quiet (.ready (.ok ())) true hr (fun _ => ⟨(hend rfl).1, (hend rfl).2, rfl⟩), nofun⟩
          | some f =>
            simp only at hr ⊢
            obtain ⟨b, hb, hf⟩ := hr
            set m1 : Shared := { m with incoming := some f, frames := { m.frames with
              transport := { m.frames.transport with reads := reads' }, incoming := inc', readEof := eof' } } with hm1
            have hlen := isFrame_length hf
            have hrd : readBytes m.frames.transport.reads = readBytes used ++ readBytes reads' := by
              rw [hu, readBytes_append]
            have hbl := congrArg List.length hb
            simp only [List.length_append] at hbl
            have hfuel1 : m1.frames.incoming.length + (readBytes m1.frames.transport.reads).length < fuel := by
              simp only [hm1]
              rw [hrd, List.length_append] at hfuel
              omega
            obtain ⟨⟨⟨used', bs', hu', hb', hfr⟩, h1, h2, h3, h4, h5, h6, h7, h7b, h8, h9⟩, hnf'⟩ := ih m1 hc hfuel1
            refine ⟨⟨⟨used ++ used', b ++ bs', ?_, ?_, ?_⟩, h1, h2, h3, h4, h5, h6, h7, h7b, ?_, ?_⟩, hnf'⟩
            · rw [hu, List.append_assoc, ← hu']
            · rw [readBytes_append, ← List.append_assoc, hb, List.append_assoc, List.append_assoc, ← hb']
            · exact frames_append (frames_one hf) hfr
            · intro g hg
              right
              rcases h8 g hg with ⟨ht, hi⟩ | hl
              · rw [ht]; simp only [hm1, Option.some.injEq] at hi; simp [hi]
              · rw [List.getLast?_cons, hl]; rfl
            · intro id
              simp only [List.map_cons, owedAfter]
              rw [owed_taken (m' := m1) hw rfl rfl id]
              exact h9 id

theorem pollFill_step (m : Shared) (hc : m.closed = false) :
    FillStep m m.pollFill.1 m.pollFill.2.1 m.pollFill.2.2 ∧ m.pollFill.1 ≠ .ready (.error .fuel) :=
  fillLoop_step _ m hc (by omega)

/-- Draining moves bytes from the output buffer to the transport, nothing else. -/
theorem writeLoop_bytes (ws : List WriteEvent) : ∀ (out sent : Bytes),
    (writeLoop ws out sent).2.2.2 ++ (writeLoop ws out sent).2.2.1 = sent ++ out := by
  induction ws with
  | nil => intro out sent; cases out <;> simp [writeLoop]
  | cons w ws ih =>
    intro out sent
    cases out with
    | nil => simp [writeLoop]
    | cons o os =>
      cases w with
      | pending => simp [writeLoop]
      | error k => simp [writeLoop]
      | accept n =>
        rw [writeLoop, ih, List.append_assoc, List.take_append_drop]

theorem writeLoop_done (ws : List WriteEvent) : ∀ (out sent : Bytes),
    (writeLoop ws out sent).1 = .ready (.ok ()) → (writeLoop ws out sent).2.2.1 = [] := by
  induction ws with
  | nil => intro out sent; cases out <;> simp [writeLoop]
  | cons w ws ih =>
    intro out sent
    cases out with
    | nil => simp [writeLoop]
    | cons o os =>
      cases w with
      | pending => simp [writeLoop]
      | error k => simp [writeLoop]
      | accept n => rw [writeLoop]; exact ih _ _

/-- What draining does to the frame stream. -/
theorem pollDrain_step (s : FrameStream) :
    ∃ ws fl sent out, s.pollDrain.2 = { s with
        transport := { s.transport with writes := ws, flushes := fl, sent := sent }, outgoing := out } ∧
      sent ++ out = s.transport.sent ++ s.outgoing ∧ (s.pollDrain.1 = .ready (.ok ()) → out = []) := by
  have h1 := writeLoop_bytes s.transport.writes s.outgoing s.transport.sent
  have h2 := writeLoop_done s.transport.writes s.outgoing s.transport.sent
  unfold FrameStream.pollDrain
  generalize writeLoop s.transport.writes s.outgoing s.transport.sent = W at h1 h2
  obtain ⟨r, ws, out, sent⟩ := W
  simp only at h1 h2 ⊢
  cases r with
  | pending => exact ⟨ws, s.transport.flushes, sent, out, rfl, h1, nofun⟩
  | ready x =>
    cases x with
    | error k => exact ⟨ws, s.transport.flushes, sent, out, rfl, h1, nofun⟩
    | ok u =>
      simp only [Transport.pollFlush]
      cases hf : s.transport.flushes with
      | nil => exact ⟨ws, [], sent, out, by simp only [hf], h1, nofun⟩
      | cons e es =>
        cases e with
        | pending => exact ⟨ws, es, sent, out, rfl, h1, nofun⟩
        | ok => exact ⟨ws, es, sent, out, rfl, h1, fun _ => h2 rfl⟩
        | error k => exact ⟨ws, es, sent, out, rfl, h1, nofun⟩

theorem sendAll_append (a b : List OutFrame) : ∀ s, sendAll s (a ++ b) = sendAll (sendAll s a) b := by
  induction a with
  | nil => intro s; rfl
  | cons o os ih => intro s; cases o <;> exact ih _

/-- Appending does not look at what is already in the buffer. -/
theorem appendFrame_shift {s s' : FrameStream} {pre : Bytes} (h : s.outgoing = pre ++ s'.outgoing)
    (hd : Nat) (data : Bytes) :
    (s.appendFrame hd data).outgoing = pre ++ (s'.appendFrame hd data).outgoing := by
  simp [FrameStream.appendFrame, h]

/-- The invariant, relating the state to the transport at the start and to what has happened since. -/
structure Inv (t : Transport) (m : Shared) (evs : List Event) : Prop where
  closed : m.closed = false
  wire : ∃ used bs, t.reads = used ++ m.frames.transport.reads ∧
    readBytes used = bs ++ m.frames.incoming ∧ Frames bs (takenIn evs)
  out : t.sent ++ (sendAll (FrameStream.new t) (outIn evs)).outgoing = m.frames.transport.sent ++ m.frames.outgoing
  owed : ∀ id, owedAfter id none evs = some (m.owed id)
  newEmpty : ∀ f, m.incoming = some f → f.op = .new → f.data = []
  readerNums : ∀ n, .receiver n ∈ m.readers → n < m.nextStreamNum
  frameNums : ∀ f, m.incoming = some f → f.op ≠ .new → ∀ n, f.streamId = .receiver n → n < m.nextStreamNum
  last : ∀ g, m.incoming = some g → ∃ f, (takenIn evs).getLast? = some f ∧ g.streamId = f.streamId ∧
    g.op = f.op ∧ (g.data = [] → f.data = [])

theorem inv_new (t : Transport) : Inv t (Shared.new t) [] :=
  ⟨rfl, ⟨[], [], rfl, rfl, .nil⟩, by simp [outIn, sendAll, FrameStream.new, Shared.new], fun id => rfl,
    nofun, by simp [Shared.new], nofun, nofun⟩

theorem frames_newEmpty {bs : Bytes} {fs : List Frame} (h : Frames bs fs) :
    ∀ f ∈ fs, f.op = .new → f.data = [] := by
  induction h with
  | nil => simp
  | snoc _ hf ih =>
    intro g hg hop
    rcases List.mem_append.mp hg with hg | hg
    · exact ih g hg hop
    · rw [List.mem_singleton] at hg
      subst hg
      obtain ⟨num, flag, payload, ⟨h, l, -, -, -, -, -, h7, -⟩, rfl⟩ := hf
      simp only at hop ⊢
      match flag, h7, hop with
      | 0, _, _ => rfl
      | 1, _, h => cases h
      | 2, _, h => cases h
      | 3, _, h => cases h
      | 4, _, h => cases h
      | 5, _, h => cases h
      | 6, _, h => cases h
      | n + 7, h7, _ => omega

theorem frameWanted_true {m : Shared} (h : m.frameWanted = true) {f : Frame} (hi : m.incoming = some f)
    (ho : f.op ≠ .new) : f.streamId ∈ m.readers := by
  simpa [Shared.frameWanted, hi, ho, Shared.haveReader] using h

theorem fill_inv {t : Transport} {m : Shared} {evs : List Event} (h : Inv t m evs) :
    Inv t m.pollFill.2.1 (evs ++ m.pollFill.2.2.map .taken) := by
  obtain ⟨hs, -⟩ := pollFill_step m h.closed
  generalize m.pollFill.1 = r at hs
  generalize m.pollFill.2.1 = m' at hs
  generalize m.pollFill.2.2 = taken at hs
  obtain ⟨used, bs, hu, hb, hf⟩ := h.wire
  obtain ⟨used', bs', hu', hb', hf'⟩ := hs.wire
  refine ⟨hs.closed.trans h.closed, ⟨used ++ used', bs ++ bs', ?_, ?_, ?_⟩, ?_, ?_, ?_, ?_, ?_, ?_⟩
  · rw [hu, List.append_assoc, ← hu']
  · rw [readBytes_append, hb, List.append_assoc, hb', List.append_assoc]
  · rw [takenIn_append, takenIn_map]; exact frames_append hf hf'
  · rw [outIn_append, outIn_map, List.append_nil, hs.outgoing, hs.transport]; exact h.out
  · intro id
    rw [owedAfter_append, h.owed id]
    exact hs.owed id
  · intro f hi ho
    rcases hs.last f hi with ⟨-, h0⟩ | h1
    · exact h.newEmpty f h0 ho
    · exact frames_newEmpty hf' f (List.mem_of_getLast? h1) ho
  · rw [hs.readers, hs.next]; exact h.readerNums
  · intro f hi ho n hn
    rw [hs.next]
    have := frameWanted_true (hs.wanted (by rw [hi]; nofun)) hi ho
    rw [hs.readers, hn] at this
    exact h.readerNums n this
  · intro g hi
    rw [takenIn_append, takenIn_map]
    rcases hs.last g hi with ⟨ht, h0⟩ | h1
    · rw [ht, List.append_nil]; exact h.last g h0
    · exact ⟨g, by rw [List.getLast?_append, h1]; rfl, rfl, rfl, fun h => h⟩

theorem drain_inv {t : Transport} {m : Shared} {evs : List Event} (h : Inv t m evs) :
    Inv t { m with frames := m.frames.pollDrain.2 } evs := by
  obtain ⟨ws, fl, sent, out, he, hso, -⟩ := pollDrain_step m.frames
  rw [he]
  exact ⟨h.closed, h.wire, h.out.trans hso.symm, h.owed, h.newEmpty, h.readerNums, h.frameNums, h.last⟩

/-- Appending one frame. -/
theorem append_inv {t : Transport} {m : Shared} {evs : List Event} (h : Inv t m evs) (hd : Nat) (data : Bytes)
    (e : Event) (o : OutFrame) (he : outIn [e] = [o])
    (ho : ∀ s, sendAll s [o] = s.appendFrame hd data)
    (ht : takenIn [e] = []) (hw : ∀ id x, owedStep id x e = some x) :
    Inv t { m with frames := m.frames.appendFrame hd data } (evs ++ [e]) := by
  refine ⟨h.closed, ?_, ?_, ?_, h.newEmpty, h.readerNums, h.frameNums, ?_⟩
  · rw [takenIn_append, ht, List.append_nil]; exact h.wire
  · rw [outIn_append, he, sendAll_append, ho]
    have := h.out
    simp only [FrameStream.appendFrame, ← List.append_assoc] at this ⊢
    rw [this]
  · intro id
    rw [owedAfter_append, h.owed id]
    simp [owedAfter, hw]
    rfl
  · rw [takenIn_append, ht, List.append_nil]; exact h.last

/-- Emptying the frame slot when nothing in it is owed to anybody. -/
theorem accept_inv {t : Transport} {m : Shared} {evs : List Event} (h : Inv t m evs) {f : Frame}
    (hi : m.incoming = some f) (ho : f.op = .new) :
    Inv t (m.add f.streamId).wantAnotherFrame (evs ++ [.opened f.streamId])
      ∨ ∃ n, f.streamId = .receiver n := by
  cases hid : f.streamId with
  | receiver n => exact .inr ⟨n, rfl⟩
  | initiator num =>
    left
    refine ⟨h.closed, ?_, ?_, ?_, nofun, ?_, nofun, nofun⟩
    · rw [takenIn_append]; simpa [takenIn, Shared.add, Shared.wantAnotherFrame] using h.wire
    · rw [outIn_append]; simpa [outIn, Shared.add, Shared.wantAnotherFrame] using h.out
    · intro id
      have hwait : ∀ id, m.waiting id = [] := by
        intro id; simp [Shared.waiting, hi, ho]
      rw [owedAfter_append, h.owed id]
      simp only [Option.bind_some, owedAfter, owedStep, Shared.owed, Shared.add, Shared.wantAnotherFrame,
        Shared.waiting, List.mem_cons, List.mem_filter, decide_not, Bool.not_eq_eq_eq_not, Bool.not_true,
        decide_eq_false_iff_not]
      by_cases e : StreamId.initiator num = id
      · subst e
        by_cases hm : StreamId.initiator num ∈ m.readers <;> simp [hm, hi, ho]
      · have e' : ¬ id = StreamId.initiator num := fun h => e h.symm
        by_cases hm : id ∈ m.readers <;> simp [hm, e, e', hi, ho]
    · intro n hn
      simp only [Shared.add, Shared.wantAnotherFrame, List.mem_cons, List.mem_filter, reduceCtorEq, false_or] at hn
      exact h.readerNums n hn.1

/-- Frames that open a stream come from its initiator. -/
theorem frames_newInit {bs : Bytes} {fs : List Frame} (h : Frames bs fs) :
    ∀ f ∈ fs, f.op = .new → ∃ n, f.streamId = .initiator n := by
  induction h with
  | nil => simp
  | snoc _ hf ih =>
    intro g hg hop
    rcases List.mem_append.mp hg with hg | hg
    · exact ih g hg hop
    · rw [List.mem_singleton] at hg
      subst hg
      obtain ⟨num, flag, payload, ⟨h, l, -, -, -, -, -, h7, -⟩, rfl⟩ := hf
      simp only at hop ⊢
      match flag, h7, hop with
      | 0, _, _ => exact ⟨num, rfl⟩
      | 1, _, h => cases h
      | 2, _, h => cases h
      | 3, _, h => cases h
      | 4, _, h => cases h
      | 5, _, h => cases h
      | 6, _, h => cases h
      | n + 7, h7, _ => omega

theorem inv_newInit {t : Transport} {m : Shared} {evs : List Event} (h : Inv t m evs) {f : Frame}
    (hi : m.incoming = some f) (ho : f.op = .new) : ∃ n, f.streamId = .initiator n := by
  obtain ⟨g, hg, h1, h2, -⟩ := h.last f hi
  obtain ⟨_, _, _, _, hf⟩ := h.wire
  rw [h1]
  exact frames_newInit hf g (List.mem_of_getLast? hg) (h2 ▸ ho)

theorem pollAccept_inv {t : Transport} {m : Shared} {evs : List Event} (h : Inv t m evs) :
    (∀ id, m.pollAcceptId.1 = .ready (.ok (some id)) → ∃ n, id = .initiator n) ∧
    Inv t m.pollAcceptId.2.1 (evs ++ m.pollAcceptId.2.2.map .taken ++
      match m.pollAcceptId.1 with
      | .ready (.ok (some id)) => [.opened id]
      | _ => []) := by
  have hf := fill_inv h
  obtain ⟨hs, -⟩ := pollFill_step m h.closed
  unfold Shared.pollAcceptId
  generalize hP : m.pollFill = P at hf hs
  obtain ⟨r, m', taken⟩ := P
  simp only at hf hs ⊢
  cases r with
  | pending => exact ⟨nofun, by simpa using hf⟩
  | ready x =>
    cases x with
    | error e => exact ⟨nofun, by simpa using hf⟩
    | ok u =>
      simp only
      cases hi : m'.incoming with
      | none => exact ⟨nofun, by simpa using hf⟩
      | some f =>
        simp only
        by_cases ho : f.op = .new
        · simp only [ho, if_true]
          obtain ⟨n, hn⟩ := inv_newInit hf hi ho
          refine ⟨fun id hid => ⟨n, by cases hid; exact hn⟩, ?_⟩
          rcases accept_inv hf hi ho with hA | ⟨k, hk⟩
          · exact hA
          · rw [hn] at hk; cases hk
        · simp only [ho, if_false]
          exact ⟨nofun, by simpa using hf⟩

theorem pollRead_inv {t : Transport} {m : Shared} {evs : List Event} (h : Inv t m evs) (id : StreamId) (room : Nat) :
    Inv t (m.pollRead id room).2.1 (evs ++ (m.pollRead id room).2.2.map .taken ++
      match (m.pollRead id room).1 with
      | .ready (.ok data) => [.got id data]
      | _ => []) := by
  have hf := fill_inv h
  obtain ⟨hs, -⟩ := pollFill_step m h.closed
  unfold Shared.pollRead
  generalize hP : m.pollFill = P at hf hs
  obtain ⟨r, m', taken⟩ := P
  simp only at hf hs ⊢
  generalize hE : evs ++ List.map Event.taken taken = evs' at hf
  -- reading nothing
  have gotNil : ∀ m2 : Shared, Inv t m2 evs' → Inv t m2 (evs' ++ [.got id []]) := by
    intro m2 h2
    refine ⟨h2.closed, ?_, ?_, ?_, h2.newEmpty, h2.readerNums, h2.frameNums, ?_⟩
    · rw [takenIn_append]; simpa [takenIn] using h2.wire
    · rw [outIn_append]; simpa [outIn] using h2.out
    · intro i
      rw [owedAfter_append, h2.owed i]
      simp only [Option.bind_some, owedAfter, owedStep]
      by_cases hid : id = i
      · subst hid
        cases hm : m2.owed id <;> simp
      · simp [hid]
    · intro g hg
      rw [takenIn_append]; simpa [takenIn] using h2.last g hg
  cases r with
  | pending => simpa [hE] using hf
  | ready x =>
    cases x with
    | error e => simpa [hE] using hf
    | ok u =>
      simp only
      cases hi : m'.incoming with
      | none => simpa [hE] using gotNil m' hf
      | some f =>
        simp only
        by_cases hid : f.streamId = id
        · simp only [hid, if_true]
          have drop : m'.waiting id = [] → Inv t m'.wantAnotherFrame evs' := by
            intro hw
            refine ⟨hf.closed, hf.wire, hf.out, ?_, nofun, hf.readerNums, nofun, nofun⟩
            intro i
            rw [hf.owed i]
            refine congrArg some (owed_ext rfl ?_)
            by_cases e : f.streamId = i
            · rw [hid] at e; subst e; rw [hw]; rfl
            · simp [Shared.waiting, Shared.wantAnotherFrame, hi, e]
          by_cases hc : f.op = .close
          · simp only [hc, if_true]
            rw [hE]
            exact gotNil _ (drop (by simp [Shared.waiting, hi, hc]))
          · simp only [hc, if_false]
            by_cases hn : f.op = .new
            · have hd := hf.newEmpty f hi hn
              simp only [hd, List.length_nil, Nat.zero_min, List.drop_nil, List.isEmpty_nil, if_true, List.take_nil]
              rw [hE]
              exact gotNil _ (drop (by simp [Shared.waiting, hi, hn]))
            · have hmr : f.op = .message ∨ f.op = .reset := by
                cases h : f.op <;> simp_all
              have hread : id ∈ m'.readers := by
                have := frameWanted_true (hs.wanted (by rw [hi]; nofun)) hi hn
                rwa [hid] at this
              have hwait : m'.waiting id = f.data := by simp [Shared.waiting, hi, hid, hmr]
              set amt := min f.data.length room with hamt
              have hpre : f.data.take amt <+: f.data := List.take_prefix _ _
              have hlen : (f.data.take amt).length = amt := by rw [List.length_take]; omega
              have howed : ∀ m2 : Shared, m2.readers = m'.readers → m2.waiting id = f.data.drop amt →
                  (∀ i, i ≠ id → m2.waiting i = m'.waiting i) →
                  ∀ i, owedAfter i none (evs' ++ [.got id (f.data.take amt)]) = some (m2.owed i) := by
                intro m2 hr2 hw2 hw3 i
                rw [owedAfter_append, hf.owed i]
                simp only [Option.bind_some, owedAfter, owedStep, Shared.owed, hr2]
                by_cases e : id = i
                · subst e
                  simp only [hread, if_true, hwait, hpre, hlen, hw2, Option.bind_some]
                · have e' : i ≠ id := fun h => e h.symm
                  simp only [e, if_false, hw3 i e', Option.bind_some]
              by_cases hr : (f.data.drop amt).isEmpty
              · simp only [hr, if_true]
                rw [hE]
                refine ⟨hf.closed, ?_, ?_, howed _ rfl ?_ ?_, nofun, hf.readerNums, nofun, nofun⟩
                · rw [takenIn_append]; simpa [takenIn, Shared.wantAnotherFrame] using hf.wire
                · rw [outIn_append]; simpa [outIn, Shared.wantAnotherFrame] using hf.out
                · rw [List.isEmpty_iff.mp hr]; rfl
                · intro i hne
                  have : ¬ f.streamId = i := by rw [hid]; exact fun h => hne h.symm
                  simp [Shared.waiting, Shared.wantAnotherFrame, hi, this]
              · simp only [hr, Bool.false_eq_true, if_false]
                rw [hE]
                refine ⟨hf.closed, ?_, ?_, howed _ rfl ?_ ?_, ?_, hf.readerNums, ?_, ?_⟩
                · rw [takenIn_append]; simpa [takenIn] using hf.wire
                · rw [outIn_append]; simpa [outIn] using hf.out
                · simp [Shared.waiting, hmr]
                · intro i hne
                  have : ¬ f.streamId = i := by rw [hid]; exact fun h => hne h.symm
                  simp only [Shared.waiting, hi, this, Ne.symm hne, false_and, if_false]
                · intro g hg ho; cases hg; exact (hn ho).elim
                · intro g hg ho n hn'
                  cases hg
                  exact hf.frameNums f hi hn n (hid.trans hn')
                · intro g hg
                  cases hg
                  obtain ⟨f0, h1, h2, h3, -⟩ := hf.last f hi
                  refine ⟨f0, ?_, hid.symm.trans h2, h3, fun h0 => ?_⟩
                  · rw [takenIn_append]; simpa [takenIn] using h1
                  · simp only at h0; rw [h0] at hr; exact (hr rfl).elim
        · simp only [hid, if_false]
          simpa [hE] using hf

theorem connect_inv {t : Transport} {m : Shared} {evs : List Event} (h : Inv t m evs) (name : Option Bytes)
    (hn : m.nextStreamNum + 1 < 2 ^ 64) :
    (m.appendNew name).1 = .receiver m.nextStreamNum ∧
    (m.appendNew name).2.nextStreamNum = m.nextStreamNum + 1 ∧
    Inv t (m.appendNew name).2
      (evs ++ [.opened (.receiver m.nextStreamNum), .announced m.nextStreamNum (name.getD [])]) := by
  have hnext : (m.nextStreamNum + 1) % 2 ^ 64 = m.nextStreamNum + 1 := Nat.mod_eq_of_lt hn
  refine ⟨rfl, hnext, ?_⟩
  have hfresh : StreamId.receiver m.nextStreamNum ∉ m.readers := fun hm =>
    Nat.lt_irrefl _ (h.readerNums _ hm)
  have hwait : m.waiting (.receiver m.nextStreamNum) = [] := by
    unfold Shared.waiting
    cases hi : m.incoming with
    | none => rfl
    | some f =>
      simp only
      rw [if_neg]
      rintro ⟨h1, h2⟩
      have := h.frameNums f hi (by rcases h2 with h2 | h2 <;> rw [h2] <;> nofun) _ h1
      exact Nat.lt_irrefl _ this
  have h1 : Inv t (({ m with nextStreamNum := (m.nextStreamNum + 1) % 2 ^ 64 } : Shared).add (.receiver m.nextStreamNum))
      (evs ++ [.opened (.receiver m.nextStreamNum)]) := by
    refine ⟨h.closed, ?_, ?_, ?_, h.newEmpty, ?_, ?_, ?_⟩
    · rw [takenIn_append]; simpa [takenIn, Shared.add] using h.wire
    · rw [outIn_append]; simpa [outIn, Shared.add] using h.out
    · intro i
      rw [owedAfter_append, h.owed i]
      simp only [Option.bind_some, owedAfter, owedStep, Shared.owed, Shared.add, List.mem_cons, List.mem_filter]
      by_cases e : StreamId.receiver m.nextStreamNum = i
      · subst e
        simp only [hfresh, if_true, true_or, if_false, Option.getD_none, Option.bind_some]
        exact congrArg (fun x => some (some x)) hwait.symm
      · have e' : ¬ i = StreamId.receiver m.nextStreamNum := fun h => e h.symm
        by_cases hm : i ∈ m.readers
        · simp only [e, hm, e', if_false, if_true, true_and, decide_true, ne_eq, not_false_eq_true, false_or, Option.bind_some]
          rfl
        · simp only [e, hm, e', if_false, false_and, false_or, Option.bind_some]
    · intro n hm
      simp only [Shared.add, List.mem_cons, List.mem_filter, StreamId.receiver.injEq] at hm ⊢
      rw [hnext]
      rcases hm with rfl | ⟨hm, -⟩
      · omega
      · have := h.readerNums n hm; omega
    · intro f hi ho n hf
      have := h.frameNums f hi ho n hf
      show n < (m.nextStreamNum + 1) % 2 ^ 64
      rw [hnext]; omega
    · intro g hg
      rw [takenIn_append]; simpa [takenIn] using h.last g hg
  have h2 := append_inv h1 (header m.nextStreamNum .newStream) (name.getD [])
    (.announced m.nextStreamNum (name.getD [])) (.new m.nextStreamNum (some (name.getD []))) rfl (fun _ => rfl) rfl
    (fun _ _ => rfl)
  rw [List.append_assoc] at h2
  cases name <;> exact h2

theorem dropReader_inv {t : Transport} {m : Shared} {evs : List Event} (h : Inv t m evs) (id : StreamId) :
    Inv t (m.removeReader id) (evs ++ [.dropped id]) := by
  refine ⟨h.closed, ?_, ?_, ?_, h.newEmpty, ?_, h.frameNums, ?_⟩
  · rw [takenIn_append]; simpa [takenIn, Shared.removeReader] using h.wire
  · rw [outIn_append]; simpa [outIn, Shared.removeReader] using h.out
  · intro i
    rw [owedAfter_append, h.owed i]
    simp only [Option.bind_some, owedAfter, owedStep, Shared.owed, Shared.removeReader, List.mem_filter]
    by_cases e : id = i
    · subst e; simp
    · have e' : ¬ i = id := fun h => e h.symm
      by_cases hm : i ∈ m.readers <;> simp [hm, e, e']
      rfl
  · intro n hn
    simp only [Shared.removeReader, List.mem_filter] at hn
    exact h.readerNums n hn.1
  · intro g hg
    rw [takenIn_append]; simpa [takenIn] using h.last g hg

/-! ### Any step, any run -/

/-- How many streams are opened locally. -/
def connects (ops : List Op) : Nat := ops.countP fun | .connect _ => true | _ => false

theorem pair_eta {α β : Type} {p : α × β} {a : α} {b : β} (h : p = (a, b)) : p.1 = a ∧ p.2 = b := by
  subst h; exact ⟨rfl, rfl⟩

theorem finishConnect_inv {t : Transport} {c : Conn} {evs : List Event} (h : Inv t c.shared evs) (id : StreamId) :
    Inv t (c.finishConnect id).2.1.shared evs ∧
      (c.finishConnect id).2.1.shared.nextStreamNum = c.shared.nextStreamNum ∧
      (c.finishConnect id).2.1.poisoned = c.poisoned ∧ (c.finishConnect id).2.1.connecting = c.connecting := by
  have hd := drain_inv h
  unfold Conn.finishConnect
  generalize hP : c.shared.frames.pollDrain = P at hd
  obtain ⟨r, fs⟩ := P
  rcases r with _ | (_ | _) <;> exact ⟨hd, rfl, rfl, rfl⟩

theorem drain_conn {t : Transport} {c : Conn} {evs : List Event} (h : Inv t c.shared evs) (i : Nat) (w : Handle) :
    Inv t (c.drain i w).2.shared evs ∧ (c.drain i w).2.shared.nextStreamNum = c.shared.nextStreamNum := by
  have hd := drain_inv h
  unfold Conn.drain
  cases w.writeError with
  | some k => exact ⟨h, rfl⟩
  | none =>
    simp only
    generalize hP : c.shared.frames.pollDrain = P at hd
    obtain ⟨r, fs⟩ := P
    rcases r with _ | (_ | _) <;> exact ⟨hd, rfl⟩

theorem drain_connecting (c : Conn) (i : Nat) (w : Handle) : (c.drain i w).2.connecting = c.connecting := by
  unfold Conn.drain
  cases w.writeError with
  | some k => rfl
  | none =>
    simp only
    generalize c.shared.frames.pollDrain = P
    obtain ⟨r, fs⟩ := P
    rcases r with _ | (_ | _) <;> rfl

theorem message_inv {t : Transport} {m : Shared} {evs : List Event} (h : Inv t m evs) (id : StreamId) (data : Bytes) :
    Inv t { m with frames := m.frames.appendMessage id.inverse data } (evs ++ [.wrote id data]) := by
  cases id with
  | receiver n =>
    exact append_inv h (header n .messageInitiator) data (.wrote (.receiver n) data) (.message (.initiator n) data)
      rfl (fun _ => rfl) rfl (fun _ _ => rfl)
  | initiator n =>
    exact append_inv h (header n .messageReceiver) data (.wrote (.initiator n) data) (.message (.receiver n) data)
      rfl (fun _ => rfl) rfl (fun _ _ => rfl)

theorem close_inv {t : Transport} {m : Shared} {evs : List Event} (h : Inv t m evs) (id : StreamId) :
    Inv t { m with frames := m.frames.appendClose id.inverse } (evs ++ [.shut id]) := by
  cases id with
  | receiver n =>
    exact append_inv h (header n .closeInitiator) [] (.shut (.receiver n)) (.close (.initiator n))
      rfl (fun _ => rfl) rfl (fun _ _ => rfl)
  | initiator n =>
    exact append_inv h (header n .closeReceiver) [] (.shut (.initiator n)) (.close (.receiver n))
      rfl (fun _ => rfl) rfl (fun _ _ => rfl)

theorem pollAccept_next {m : Shared} (hc : m.closed = false) : m.pollAcceptId.2.1.nextStreamNum = m.nextStreamNum := by
  obtain ⟨hs, -⟩ := pollFill_step m hc
  unfold Shared.pollAcceptId
  generalize m.pollFill = P at hs
  obtain ⟨r, m', taken⟩ := P
  rcases r with _ | (_ | _)
  · exact hs.next
  · exact hs.next
  · simp only
    cases m'.incoming with
    | none => exact hs.next
    | some f => simp only; split <;> exact hs.next

theorem pollRead_next {m : Shared} (hc : m.closed = false) (id : StreamId) (room : Nat) :
    (m.pollRead id room).2.1.nextStreamNum = m.nextStreamNum := by
  obtain ⟨hs, -⟩ := pollFill_step m hc
  unfold Shared.pollRead
  generalize m.pollFill = P at hs
  obtain ⟨r, m', taken⟩ := P
  rcases r with _ | (_ | _)
  · exact hs.next
  · exact hs.next
  · simp only
    cases m'.incoming with
    | none => exact hs.next
    | some f =>
      simp only
      split
      · split
        · exact hs.next
        · split <;> exact hs.next
      · exact hs.next

theorem step_inv {t : Transport} {c : Conn} {evs : List Event} (h : Inv t c.shared evs) (op : Op)
    (hn : c.shared.nextStreamNum + connects [op] < 2 ^ 64) :
    Inv t (c.step op).2.1.shared (evs ++ (c.step op).2.2) ∧
      (c.step op).2.1.shared.nextStreamNum ≤ c.shared.nextStreamNum + connects [op] := by
  unfold Conn.step
  cases c.poisoned with
  | true => simp only [if_true, List.append_nil]; exact ⟨h, Nat.le_add_right _ _⟩
  | false =>
    simp only [Bool.false_eq_true, if_false]
    cases op with
    | accept =>
      have h1 := (pollAccept_inv h).2
      have h2 := pollAccept_next h.closed
      simp only [Conn.accept]
      generalize c.shared.pollAcceptId = P at h1 h2
      obtain ⟨r, m', taken⟩ := P
      rcases r with _ | (_ | (_ | _))
      all_goals (simp only [List.append_nil, List.append_assoc] at h1 h2 ⊢; exact ⟨h1, by rw [h2]; exact Nat.le_add_right _ _⟩)
    | connect name =>
      have hone : connects [.connect name] = 1 := rfl
      rw [hone] at hn ⊢
      obtain ⟨h1, h2, h3⟩ := connect_inv h name hn
      simp only [Conn.connect]
      generalize hP : c.shared.appendNew name = P at h1 h2 h3
      obtain ⟨id, m⟩ := P
      simp only at h1 h2 h3 ⊢
      have h4 := finishConnect_inv (c := { c with shared := m }) h3 id
      refine ⟨by rw [h1] at h4 ⊢; exact h4.1, ?_⟩
      rw [h4.2.1, h2]
    | reconnect k =>
      simp only [Conn.reconnect]
      cases c.connecting[k]? with
      | none => simp only [List.append_nil]; exact ⟨h, Nat.le_add_right _ _⟩
      | some id =>
        have h4 := finishConnect_inv h id
        simp only [List.append_nil]
        exact ⟨h4.1, by rw [h4.2.1]; exact Nat.le_add_right _ _⟩
    | read i room =>
      simp only
      cases c.handles[i]? with
      | none => simp only [List.append_nil]; exact ⟨h, Nat.le_add_right _ _⟩
      | some w =>
        have h1 := pollRead_inv h w.id room
        have h2 := pollRead_next h.closed w.id room
        simp only [Conn.read]
        generalize c.shared.pollRead w.id room = P at h1 h2
        obtain ⟨r, m', taken⟩ := P
        rcases r with _ | (_ | _)
        all_goals (simp only [List.append_nil, List.append_assoc] at h1 h2 ⊢; exact ⟨h1, by rw [h2]; exact Nat.le_add_right _ _⟩)
    | write i data =>
      simp only
      cases c.handles[i]? with
      | none => simp only [List.append_nil]; exact ⟨h, Nat.le_add_right _ _⟩
      | some w =>
        obtain ⟨h1, h2⟩ := drain_conn h i w
        simp only [Conn.write]
        generalize c.drain i w = P at h1 h2
        obtain ⟨r, c'⟩ := P
        rcases r with _ | (_ | _)
        · simp only [List.append_nil]; exact ⟨h1, by rw [h2]; exact Nat.le_add_right _ _⟩
        · simp only [List.append_nil]; exact ⟨h1, by rw [h2]; exact Nat.le_add_right _ _⟩
        · exact ⟨message_inv h1 w.id data, by simp only; rw [h2]; exact Nat.le_add_right _ _⟩
    | flush i =>
      simp only
      cases c.handles[i]? with
      | none => simp only [List.append_nil]; exact ⟨h, Nat.le_add_right _ _⟩
      | some w =>
        obtain ⟨h1, h2⟩ := drain_conn h i w
        simp only [Conn.flush]
        generalize c.drain i w = P at h1 h2
        obtain ⟨r, c'⟩ := P
        rcases r with _ | (_ | _) <;>
          (simp only [List.append_nil]; exact ⟨h1, by rw [h2]; exact Nat.le_add_right _ _⟩)
    | shutdown i =>
      simp only
      cases c.handles[i]? with
      | none => simp only [List.append_nil]; exact ⟨h, Nat.le_add_right _ _⟩
      | some w =>
        obtain ⟨h1, h2⟩ := drain_conn h i w
        simp only [Conn.shutdown]
        generalize c.drain i w = P at h1 h2
        obtain ⟨r, c'⟩ := P
        rcases r with _ | (_ | _)
        · simp only [List.append_nil]; exact ⟨h1, by rw [h2]; exact Nat.le_add_right _ _⟩
        · simp only [List.append_nil]; exact ⟨h1, by rw [h2]; exact Nat.le_add_right _ _⟩
        · exact ⟨close_inv h1 w.id, by simp only; rw [h2]; exact Nat.le_add_right _ _⟩
    | dropReader i =>
      simp only
      cases c.handles[i]? with
      | none => simp only [List.append_nil]; exact ⟨h, Nat.le_add_right _ _⟩
      | some w => exact ⟨dropReader_inv h w.id, Nat.le_add_right _ _⟩

theorem connects_cons (op : Op) (ops : List Op) : connects (op :: ops) = connects [op] + connects ops := by
  unfold connects
  rw [← List.singleton_append, List.countP_append]

theorem run_inv {t : Transport} (ops : List Op) : ∀ {c : Conn} {evs : List Event}, Inv t c.shared evs →
    c.shared.nextStreamNum + connects ops < 2 ^ 64 →
    Inv t (c.run ops).2.1.shared (evs ++ (c.run ops).2.2) := by
  induction ops with
  | nil => intro c evs h _; simpa [Conn.run] using h
  | cons op ops ih =>
    intro c evs h hn
    rw [connects_cons] at hn
    obtain ⟨h1, h2⟩ := step_inv h op (by omega)
    have := ih h1 (by omega)
    simpa [Conn.run, List.append_assoc] using this

/-- A read never returns more than there is room for. -/
theorem pollRead_room (m : Shared) (id : StreamId) (room : Nat) (d : Bytes)
    (h : (m.pollRead id room).1 = .ready (.ok d)) : d.length ≤ room := by
  unfold Shared.pollRead at h
  generalize m.pollFill = P at h
  obtain ⟨r, m', taken⟩ := P
  rcases r with _ | (_ | _)
  · simp at h
  · simp at h
  · simp only at h
    cases hi : m'.incoming with
    | none => simp only [hi] at h; cases h; simp
    | some f =>
      simp only [hi] at h
      split at h
      · split at h
        · cases h; simp
        · split at h <;> (cases h; simp only [List.length_take]; omega)
      · cases h

/-- What is owed and not empty is in the frame slot. -/
theorem owed_frame {m : Shared} {id : StreamId} {bs : Bytes} (h : m.owed id = some bs) (hb : bs ≠ []) :
    ∃ f, m.incoming = some f ∧ f.streamId = id ∧ (f.op = .message ∨ f.op = .reset) ∧ f.data = bs ∧
      m.frameWanted = true := by
  unfold Shared.owed at h
  split at h
  · rename_i hid
    rw [Option.some.injEq] at h
    unfold Shared.waiting at h
    cases hi : m.incoming with
    | none => simp only [hi] at h; exact (hb h.symm).elim
    | some f =>
      simp only [hi] at h
      split at h
      · rename_i hc
        refine ⟨f, rfl, hc.1, hc.2, h, ?_⟩
        simp only [Shared.frameWanted, hi, Shared.haveReader]
        split
        · rfl
        · simpa [hc.1] using hid
      · exact (hb h.symm).elim
  · cases h

theorem run_next {t : Transport} (ops : List Op) : ∀ {c : Conn} {evs : List Event}, Inv t c.shared evs →
    c.shared.nextStreamNum + connects ops < 2 ^ 64 →
    (c.run ops).2.1.shared.nextStreamNum ≤ c.shared.nextStreamNum + connects ops := by
  induction ops with
  | nil => intro c evs h _; exact Nat.le_add_right _ _
  | cons op ops ih =>
    intro c evs h hn
    rw [connects_cons] at hn ⊢
    obtain ⟨h1, h2⟩ := step_inv h op (by omega)
    have h3 := ih h1 (by omega)
    show ((c.step op).2.1.run ops).2.1.shared.nextStreamNum ≤ _
    exact Nat.le_trans h3 (by omega)

/-- Why a read returns nothing although there is room. -/
theorem pollRead_nil (m : Shared) (id : StreamId) (room : Nat) (hr : 0 < room)
    (h : (m.pollRead id room).1 = .ready (.ok [])) :
    (m.pollRead id room).2.1.waiting id = [] ∧ m.pollFill.1 = .ready (.ok ()) ∧
    (m.pollRead id room).2.2 = m.pollFill.2.2 ∧
    (m.pollFill.2.1.incoming = none ∨
      ∃ f, m.pollFill.2.1.incoming = some f ∧ f.streamId = id ∧ (f.op = .close ∨ f.data = [])) := by
  unfold Shared.pollRead at h ⊢
  generalize m.pollFill = P at h
  obtain ⟨r, m', taken⟩ := P
  rcases r with _ | (_ | _)
  · simp at h
  · simp at h
  · simp only at h ⊢
    cases hi : m'.incoming with
    | none => exact ⟨by simp [Shared.waiting, hi], trivial, rfl, .inl rfl⟩
    | some f =>
      simp only [hi] at h ⊢
      by_cases hid : f.streamId = id
      · simp only [hid, if_true] at h ⊢
        by_cases hc : f.op = .close
        · simp only [hc, if_true]
          exact ⟨rfl, trivial, trivial, .inr ⟨f, rfl, hid, .inl hc⟩⟩
        · simp only [hc, if_false] at h ⊢
          have hd : f.data = [] := by
            split at h
            all_goals
              simp only [Poll.ready.injEq, Except.ok.injEq, List.take_eq_nil_iff] at h
              rcases h with h | h
              · have : f.data.length = 0 := by omega
                exact List.length_eq_zero_iff.mp this
              · exact h
          simp only [hd, List.length_nil, Nat.zero_min, List.drop_nil, List.isEmpty_nil, if_true]
          exact ⟨rfl, trivial, trivial, .inr ⟨f, rfl, hid, .inr hd⟩⟩
      · simp [hid] at h

/-! ### Identifiers of locally opened streams -/

/-- Operations that can hand out a locally opened stream. -/
def Op.isConnect : Op → Bool
  | .connect _ => true
  | .reconnect _ => true
  | _ => false

/-- The unfinished connects have distinct identifiers, all used up. -/
def Conn.LocalIds (c : Conn) : Prop :=
  c.connecting.Nodup ∧ ∀ id ∈ c.connecting, ∃ n, n < c.shared.nextStreamNum ∧ id = .receiver n

theorem finishConnect_answer (c : Conn) (id : StreamId) :
    ((c.finishConnect id).1 = .stream id ∧ (c.finishConnect id).2.2 = true) ∨
    (∀ x, (c.finishConnect id).1 ≠ .stream x) := by
  unfold Conn.finishConnect
  generalize c.shared.frames.pollDrain = P
  obtain ⟨r, fs⟩ := P
  rcases r with _ | (_ | _)
  · right; simp
  · right; simp
  · left; simp

theorem step_ids {t : Transport} {c : Conn} {evs : List Event} (h : Inv t c.shared evs) (hl : c.LocalIds) (op : Op)
    (hn : c.shared.nextStreamNum + connects [op] < 2 ^ 64) :
    (c.step op).2.1.LocalIds ∧
    (∀ x ∈ (c.step op).2.1.connecting, x ∈ c.connecting ∨
      (x = .receiver c.shared.nextStreamNum ∧ (c.step op).2.1.shared.nextStreamNum = c.shared.nextStreamNum + 1)) ∧
    c.shared.nextStreamNum ≤ (c.step op).2.1.shared.nextStreamNum ∧
    (op.isConnect = true → ∀ id, (c.step op).1 = .stream id →
      (id ∈ c.connecting ∨
        (id = .receiver c.shared.nextStreamNum ∧ (c.step op).2.1.shared.nextStreamNum = c.shared.nextStreamNum + 1)) ∧
      id ∉ (c.step op).2.1.connecting) ∧
    (op.isConnect = false → ∀ id, (c.step op).1 = .stream id → ∃ n, id = .initiator n) := by
  have same : ∀ (c' : Conn), c'.connecting = c.connecting → c'.shared.nextStreamNum = c.shared.nextStreamNum →
      c'.LocalIds ∧ (∀ x ∈ c'.connecting, x ∈ c.connecting ∨
        (x = .receiver c.shared.nextStreamNum ∧ c'.shared.nextStreamNum = c.shared.nextStreamNum + 1)) ∧
      c.shared.nextStreamNum ≤ c'.shared.nextStreamNum := by
    intro c' h1 h2
    refine ⟨?_, ?_, by omega⟩
    · unfold Conn.LocalIds; rw [h1, h2]; exact hl
    · intro x hx; rw [h1] at hx; exact .inl hx
  unfold Conn.step
  cases c.poisoned with
  | true =>
    simp only [if_true]
    obtain ⟨h1, h2, h3⟩ := same c rfl rfl
    exact ⟨h1, h2, h3, fun _ => nofun, fun _ => nofun⟩
  | false =>
    simp only [Bool.false_eq_true, if_false]
    cases op with
    | accept =>
      have h1 := (pollAccept_inv h).1
      have h2 := pollAccept_next h.closed
      simp only [Conn.accept]
      generalize c.shared.pollAcceptId = P at h1 h2
      obtain ⟨r, m', taken⟩ := P
      simp only at h1 h2
      rcases r with _ | (e | (_ | id))
      · obtain ⟨a, b, d⟩ := same { c with shared := m' } rfl h2
        exact ⟨a, b, d, nofun, fun _ => nofun⟩
      · obtain ⟨a, b, d⟩ := same { c with shared := m', poisoned := e.poisons } rfl h2
        exact ⟨a, b, d, nofun, fun _ => by cases e <;> exact nofun⟩
      · obtain ⟨a, b, d⟩ := same { c with shared := m' } rfl h2
        exact ⟨a, b, d, nofun, fun _ => nofun⟩
      · obtain ⟨a, b, d⟩ := same { c with shared := m', handles := c.handles ++ [⟨id, none⟩] } rfl h2
        exact ⟨a, b, d, nofun, fun _ x hx => by cases hx; exact h1 _ rfl⟩
    | connect name =>
      have hone : connects [.connect name] = 1 := rfl
      rw [hone] at hn
      obtain ⟨h1, h2, h3⟩ := connect_inv h name hn
      simp only [Conn.connect]
      generalize hP : c.shared.appendNew name = P at h1 h2 h3
      obtain ⟨id, m⟩ := P
      simp only at h1 h2 h3 ⊢
      obtain ⟨-, h5, h6, h7⟩ := finishConnect_inv (c := { c with shared := m }) h3 id
      have h8 := finishConnect_answer { c with shared := m } id
      generalize ({ c with shared := m } : Conn).finishConnect id = Q at h5 h6 h7 h8
      obtain ⟨a, c', fin⟩ := Q
      simp only at h5 h6 h7 h8 ⊢
      have hid : id ∉ c.connecting := by
        intro hm
        obtain ⟨n, hlt, he⟩ := hl.2 id hm
        rw [h1] at he; cases he; omega
      refine ⟨?_, ?_, by omega, ?_, nofun⟩
      · unfold Conn.LocalIds
        simp only [h7, h5, h2]
        cases fin with
        | true =>
          simp only [if_true]
          exact ⟨hl.1, fun x hx => by obtain ⟨n, hn', he⟩ := hl.2 x hx; exact ⟨n, by omega, he⟩⟩
        | false =>
          simp only [Bool.false_eq_true, if_false]
          refine ⟨?_, ?_⟩
          · rw [List.nodup_append]
            exact ⟨hl.1, by simp, by simp only [List.mem_singleton]; rintro x hx y rfl rfl; exact hid hx⟩
          · intro x hx
            rcases List.mem_append.mp hx with hx | hx
            · obtain ⟨n, hn', he⟩ := hl.2 x hx; exact ⟨n, by omega, he⟩
            · rw [List.mem_singleton] at hx; subst hx; exact ⟨_, by omega, h1⟩
      · intro x hx
        simp only [h7] at hx
        cases fin with
        | true => exact .inl (by simpa using hx)
        | false =>
          simp only [Bool.false_eq_true, if_false] at hx
          rcases List.mem_append.mp hx with hx | hx
          · exact .inl hx
          · rw [List.mem_singleton] at hx; exact .inr ⟨by rw [hx, h1], by omega⟩
      · intro _ x hx
        rcases h8 with ⟨h9, h10⟩ | h9
        · rw [h9] at hx; cases hx
          refine ⟨.inr ⟨h1, by omega⟩, ?_⟩
          simp only [h10, if_true, h7]
          exact hid
        · exact (h9 x hx).elim
    | reconnect k =>
      simp only [Conn.reconnect]
      cases hk : c.connecting[k]? with
      | none =>
        obtain ⟨a, b, d⟩ := same c rfl rfl
        exact ⟨a, b, d, fun _ => nofun, fun _ => nofun⟩
      | some id =>
        obtain ⟨-, h5, h6, h7⟩ := finishConnect_inv h id
        have h8 := finishConnect_answer c id
        simp only
        generalize c.finishConnect id = Q at h5 h6 h7 h8
        obtain ⟨a, c', fin⟩ := Q
        simp only at h5 h6 h7 h8 ⊢
        have hmem : id ∈ c.connecting := List.mem_of_getElem? hk
        have hsub : ∀ x ∈ (if fin = true then c'.connecting.eraseIdx k else c'.connecting), x ∈ c.connecting := by
          intro x hx
          rw [h7] at hx
          cases fin with
          | true => exact List.mem_of_mem_eraseIdx (by simpa using hx)
          | false => simpa using hx
        refine ⟨⟨?_, ?_⟩, ?_, by omega, ?_, nofun⟩
        · simp only [h7]
          cases fin with
          | true => exact hl.1.eraseIdx k
          | false => exact hl.1
        · intro x hx
          obtain ⟨n, hn', he⟩ := hl.2 x (hsub x hx)
          exact ⟨n, by simp only; omega, he⟩
        · intro x hx; exact .inl (hsub x hx)
        · intro _ x hx
          rcases h8 with ⟨h9, h10⟩ | h9
          · rw [h9] at hx; cases hx
            refine ⟨.inl hmem, ?_⟩
            simp only [h10, if_true, h7]
            intro hin
            rw [List.mem_eraseIdx_iff_getElem?] at hin
            obtain ⟨j, hjk, hj⟩ := hin
            exact hjk ((List.getElem?_inj (by rw [List.getElem?_eq_some_iff] at hj; exact hj.1) hl.1).mp (hj.trans hk.symm))
          · exact (h9 x hx).elim
    | read i room =>
      simp only
      cases c.handles[i]? with
      | none =>
        obtain ⟨a, b, d⟩ := same c rfl rfl
        exact ⟨a, b, d, nofun, fun _ => nofun⟩
      | some w =>
        have h2 := pollRead_next h.closed w.id room
        simp only [Conn.read]
        generalize c.shared.pollRead w.id room = P at h2
        obtain ⟨r, m', taken⟩ := P
        simp only at h2
        rcases r with _ | (e | d)
        · obtain ⟨a, b, d⟩ := same { c with shared := m' } rfl h2
          exact ⟨a, b, d, nofun, fun _ => nofun⟩
        · obtain ⟨a, b, d⟩ := same { c with shared := m', poisoned := e.poisons } rfl h2
          exact ⟨a, b, d, nofun, fun _ => by cases e <;> exact nofun⟩
        · obtain ⟨a, b, d⟩ := same { c with shared := m' } rfl h2
          exact ⟨a, b, d, nofun, fun _ => nofun⟩
    | write i data =>
      simp only
      cases c.handles[i]? with
      | none =>
        obtain ⟨a, b, d⟩ := same c rfl rfl
        exact ⟨a, b, d, nofun, fun _ => nofun⟩
      | some w =>
        have h2 := (drain_conn h i w).2
        have h3 := drain_connecting c i w
        simp only [Conn.write]
        generalize c.drain i w = P at h2 h3
        obtain ⟨r, c'⟩ := P
        rcases r with _ | (_ | _)
        · obtain ⟨a, b, d⟩ := same c' h3 h2
          exact ⟨a, b, d, nofun, fun _ => nofun⟩
        · obtain ⟨a, b, d⟩ := same c' h3 h2
          exact ⟨a, b, d, nofun, fun _ => nofun⟩
        · obtain ⟨a, b, d⟩ := same { c' with shared := { c'.shared with frames := c'.shared.frames.appendMessage w.id.inverse data } } h3 h2
          exact ⟨a, b, d, nofun, fun _ => nofun⟩
    | flush i =>
      simp only
      cases c.handles[i]? with
      | none =>
        obtain ⟨a, b, d⟩ := same c rfl rfl
        exact ⟨a, b, d, nofun, fun _ => nofun⟩
      | some w =>
        have h2 := (drain_conn h i w).2
        have h3 := drain_connecting c i w
        simp only [Conn.flush]
        generalize c.drain i w = P at h2 h3
        obtain ⟨r, c'⟩ := P
        obtain ⟨a, b, d⟩ := same c' h3 h2
        rcases r with _ | (_ | _) <;> exact ⟨a, b, d, nofun, fun _ => nofun⟩
    | shutdown i =>
      simp only
      cases c.handles[i]? with
      | none =>
        obtain ⟨a, b, d⟩ := same c rfl rfl
        exact ⟨a, b, d, nofun, fun _ => nofun⟩
      | some w =>
        have h2 := (drain_conn h i w).2
        have h3 := drain_connecting c i w
        simp only [Conn.shutdown]
        generalize c.drain i w = P at h2 h3
        obtain ⟨r, c'⟩ := P
        rcases r with _ | (_ | _)
        · obtain ⟨a, b, d⟩ := same c' h3 h2
          exact ⟨a, b, d, nofun, fun _ => nofun⟩
        · obtain ⟨a, b, d⟩ := same c' h3 h2
          exact ⟨a, b, d, nofun, fun _ => nofun⟩
        · obtain ⟨a, b, d⟩ := same { c' with shared := { c'.shared with frames := c'.shared.frames.appendClose w.id.inverse }, handles := c'.handles.set i { w with writeError := some .brokenPipe } } h3 h2
          exact ⟨a, b, d, nofun, fun _ => nofun⟩
    | dropReader i =>
      simp only
      cases c.handles[i]? with
      | none =>
        obtain ⟨a, b, d⟩ := same c rfl rfl
        exact ⟨a, b, d, nofun, fun _ => nofun⟩
      | some w =>
        obtain ⟨a, b, d⟩ := same { c with shared := c.shared.removeReader w.id } rfl rfl
        exact ⟨a, b, d, nofun, fun _ => nofun⟩

/-! ### After shutdown -/

/-- The writer of a stream has given up. -/
def Conn.Ended (c : Conn) (h : Nat) : Prop := ∃ id, c.handles[h]? = some ⟨id, some .brokenPipe⟩

theorem drain_handles (c : Conn) (i : Nat) (w : Handle) (hw : c.handles[i]? = some w) (h : Nat) (he : c.Ended h) :
    (c.drain i w).2.Ended h ∧ (i = h → c.drain i w = (.ready (.error .brokenPipe), c)) ∧
      ((c.drain i w).1 = .ready (.ok ()) → i ≠ h) := by
  obtain ⟨id, hh⟩ := he
  unfold Conn.drain
  cases hwe : w.writeError with
  | some k =>
    refine ⟨⟨id, hh⟩, ?_, by simp⟩
    rintro rfl
    rw [hw] at hh
    cases hh
    simp only at hwe
    cases hwe
    rfl
  | none =>
    have hne : i ≠ h := by
      rintro rfl
      rw [hw] at hh; cases hh; cases hwe
    simp only
    generalize c.shared.frames.pollDrain = P
    obtain ⟨r, fs⟩ := P
    rcases r with _ | (_ | _)
    · exact ⟨⟨id, hh⟩, fun h => (hne h).elim, fun _ => hne⟩
    · refine ⟨⟨id, ?_⟩, fun h => (hne h).elim, fun _ => hne⟩
      simp only
      rw [List.getElem?_set_ne hne, hh]
    · exact ⟨⟨id, hh⟩, fun h => (hne h).elim, fun _ => hne⟩

theorem ended_append {c : Conn} {h : Nat} (he : c.Ended h) (x : Handle) :
    ∃ id, (c.handles ++ [x])[h]? = some ⟨id, some .brokenPipe⟩ := by
  obtain ⟨id, hh⟩ := he
  refine ⟨id, ?_⟩
  rw [List.getElem?_append_left (by rw [List.getElem?_eq_some_iff] at hh; exact hh.1), hh]

theorem finishConnect_ended {c : Conn} {h : Nat} (he : c.Ended h) (id : StreamId) :
    (c.finishConnect id).2.1.Ended h := by
  unfold Conn.finishConnect
  generalize c.shared.frames.pollDrain = P
  obtain ⟨r, fs⟩ := P
  rcases r with _ | (_ | _)
  · exact he
  · exact he
  · exact ended_append he _

theorem step_ended {c : Conn} {h : Nat} (he : c.Ended h) (op : Op) : (c.step op).2.1.Ended h := by
  unfold Conn.step
  cases c.poisoned with
  | true => exact he
  | false =>
    simp only [Bool.false_eq_true, if_false]
    cases op with
    | accept =>
      simp only [Conn.accept]
      generalize c.shared.pollAcceptId = P
      obtain ⟨r, m', taken⟩ := P
      rcases r with _ | (e | (_ | id))
      · exact he
      · exact he
      · exact he
      · exact ended_append he _
    | connect name =>
      simp only [Conn.connect]
      exact finishConnect_ended (c := { c with shared := (c.shared.appendNew name).2 }) he (c.shared.appendNew name).1
    | reconnect k =>
      simp only [Conn.reconnect]
      cases c.connecting[k]? with
      | none => exact he
      | some id => exact finishConnect_ended he id
    | read i room =>
      simp only
      cases c.handles[i]? with
      | none => exact he
      | some w =>
        simp only [Conn.read]
        generalize c.shared.pollRead w.id room = P
        obtain ⟨r, m', taken⟩ := P
        rcases r with _ | (e | d) <;> exact he
    | write i data =>
      simp only
      cases hw : c.handles[i]? with
      | none => exact he
      | some w =>
        have h1 := (drain_handles c i w hw h he).1
        simp only [Conn.write]
        generalize c.drain i w = P at h1
        obtain ⟨r, c'⟩ := P
        rcases r with _ | (_ | _) <;> exact h1
    | flush i =>
      simp only
      cases hw : c.handles[i]? with
      | none => exact he
      | some w =>
        have h1 := (drain_handles c i w hw h he).1
        simp only [Conn.flush]
        generalize c.drain i w = P at h1
        obtain ⟨r, c'⟩ := P
        rcases r with _ | (_ | _) <;> exact h1
    | shutdown i =>
      simp only
      cases hw : c.handles[i]? with
      | none => exact he
      | some w =>
        obtain ⟨h1, -, h3⟩ := drain_handles c i w hw h he
        simp only [Conn.shutdown]
        generalize c.drain i w = P at h1 h3
        obtain ⟨r, c'⟩ := P
        rcases r with _ | (_ | _)
        · exact h1
        · exact h1
        · obtain ⟨id, hh⟩ := h1
          refine ⟨id, ?_⟩
          simp only
          rw [List.getElem?_set_ne (h3 rfl)]
          exact hh
    | dropReader i =>
      simp only
      cases c.handles[i]? with
      | none => exact he
      | some w => exact he

theorem run_ended (ops : List Op) : ∀ {c : Conn} {h : Nat}, c.Ended h → (c.run ops).2.1.Ended h := by
  induction ops with
  | nil => intro c h he; exact he
  | cons op ops ih => intro c h he; exact ih (step_ended he op)

theorem shutdown_ended {c : Conn} {h : Nat} (hs : (c.step (.shutdown h)).1 = .done) :
    (c.step (.shutdown h)).2.1.Ended h := by
  unfold Conn.step at hs ⊢
  cases hp : c.poisoned with
  | true => simp [hp] at hs
  | false =>
    simp only [hp, Bool.false_eq_true, if_false] at hs ⊢
    cases hw : c.handles[h]? with
    | none => simp [hw] at hs
    | some w =>
      simp only [hw, Conn.shutdown] at hs ⊢
      have hlen : (c.drain h w).2.handles.length = c.handles.length := by
        unfold Conn.drain
        cases w.writeError with
        | some k => rfl
        | none =>
          simp only
          generalize c.shared.frames.pollDrain = P
          obtain ⟨r, fs⟩ := P
          rcases r with _ | (_ | _) <;> simp
      generalize c.drain h w = P at hs hlen
      obtain ⟨r, c'⟩ := P
      rcases r with _ | (_ | _)
      · simp at hs
      · simp at hs
      · refine ⟨w.id, ?_⟩
        simp only at hlen ⊢
        rw [List.getElem?_set_self]
        rw [hlen]
        rw [List.getElem?_eq_some_iff] at hw
        exact hw.1

/-! ### Crashes -/

theorem nextFrame_panic_iff (bs : Bytes) :
    nextFrame bs = .error .panic ↔
      ∃ h l rest, bs = h ++ l ++ rest ∧ IsVarint h ∧ h.length ≤ 10 ∧ base128 h < 2 ^ 64 ∧ base128 h % 8 < 7 ∧
        IsVarint l ∧ l.length ≤ 10 ∧ base128 l < 2 ^ 64 ∧ 2 ^ 64 ≤ h.length + l.length + base128 l := by
  constructor
  · intro h
    unfold nextFrame at h
    cases h1 : extractVarint bs with
    | error e => simp only [h1] at h; have := (extract_error h1).1; cases h; cases this
    | ok o =>
      cases o with
      | none => simp [h1] at h
      | some hv =>
        obtain ⟨hd, r1⟩ := hv
        simp only [h1] at h
        cases h2 : Flag.fromRaw (hd % 256 % 8) with
        | error e => simp only [h2] at h; have := (fromRaw_error h2).1; cases h; cases this
        | ok fl =>
          simp only [h2] at h
          cases h3 : extractVarint r1 with
          | error e => simp only [h3] at h; have := (extract_error h3).1; cases h; cases this
          | ok o =>
            cases o with
            | none => simp [h3] at h
            | some lv =>
              obtain ⟨len, body⟩ := lv
              simp only [h3] at h
              obtain ⟨p, rfl, hp, hpl, hpv, hplt⟩ := (extract_some_iff _ _ _).mp h1
              obtain ⟨q, rfl, hq, hql, hqv, hqlt⟩ := (extract_some_iff _ _ _).mp h3
              split at h
              · rename_i hbig
                simp only [List.length_append] at hbig
                have h7 := (parts_eq 0 _ [] fl h2).1
                exact ⟨p, q, body, by simp, hp, hpl, by omega, by rw [hpv]; omega, hq, hql, by omega, by omega⟩
              · split at h <;> cases h
  · rintro ⟨p, q, rest, rfl, hp, hpl, hplt, hp7, hq, hql, hqlt, hbig⟩
    have h1 : extractVarint (p ++ q ++ rest) = .ok (some (base128 p, q ++ rest)) :=
      (extract_some_iff _ _ _).mpr ⟨p, by simp, hp, hpl, rfl, hplt⟩
    have h3 : extractVarint (q ++ rest) = .ok (some (base128 q, rest)) :=
      (extract_some_iff _ _ _).mpr ⟨q, by simp, hq, hql, rfl, hqlt⟩
    have hflag : base128 p % 256 % 8 = base128 p % 8 := by omega
    obtain ⟨fl, hfl⟩ := fromRaw_ok hp7
    unfold nextFrame
    simp only [h1, hflag, hfl, h3]
    rw [if_pos (by simp only [List.length_append]; omega)]

theorem readFrameLoop_panic (reads : List ReadEvent) : ∀ (inc : Bytes) (eof : Bool),
    (readFrameLoop reads inc eof).1 = .ready (.error .panic) →
      nextFrame (readFrameLoop reads inc eof).2.2.1 = .error .panic := by
  have hready : ∀ inc eof r inc', readyFrame inc eof = some (r, inc') → r = .error .panic →
      nextFrame inc' = .error .panic := by
    intro inc eof r inc' h hr
    subst hr
    unfold readyFrame at h
    cases hn : nextFrame inc with
    | error e => simp only [hn, Option.some.injEq, Prod.mk.injEq, Except.error.injEq] at h; rw [← h.2, hn, h.1]
    | ok o =>
      cases o with
      | some v => simp [hn] at h
      | none =>
        simp only [hn] at h
        split at h
        · split at h <;> simp at h
        · cases h
  induction reads with
  | nil =>
    intro inc eof h
    unfold readFrameLoop at h ⊢
    cases hr : readyFrame inc eof with
    | none => simp [hr] at h
    | some v =>
      obtain ⟨r, inc'⟩ := v
      simp only [hr, Poll.ready.injEq] at h ⊢
      exact hready _ _ _ _ hr h
  | cons e es ih =>
    intro inc eof h
    unfold readFrameLoop at h ⊢
    cases hr : readyFrame inc eof with
    | some v =>
      obtain ⟨r, inc'⟩ := v
      simp only [hr, Poll.ready.injEq] at h ⊢
      exact hready _ _ _ _ hr h
    | none =>
      simp only [hr] at h ⊢
      cases e with
      | pending => simp at h
      | error k => simp at h
      | ready d =>
        simp only at h ⊢
        split at h
        · rename_i hd
          rw [if_pos hd]
          exact ih _ _ h
        · rename_i hd
          rw [if_neg hd]
          exact ih _ _ h

theorem pollReadFrame_panic (s : FrameStream) (h : s.pollReadFrame.1 = .ready (.error .panic)) :
    nextFrame s.pollReadFrame.2.incoming = .error .panic :=
  readFrameLoop_panic s.transport.reads s.incoming s.readEof h

theorem fillLoop_panic (fuel : Nat) : ∀ (m : Shared), (fillLoop fuel m).1 = .ready (.error .panic) →
    nextFrame (fillLoop fuel m).2.1.frames.incoming = .error .panic := by
  induction fuel with
  | zero => intro m h; simp [fillLoop] at h
  | succ fuel ih =>
    intro m h
    unfold fillLoop at h ⊢
    split at h
    · simp at h
    · split at h
      · simp at h
      · rename_i h1 h2
        rw [if_neg h1, if_neg h2]
        have hp := pollReadFrame_panic m.frames
        generalize m.frames.pollReadFrame = P at h hp
        obtain ⟨r, fs⟩ := P
        rcases r with _ | (e | (_ | f))
        · simp at h
        · simp only [Poll.ready.injEq, Except.error.injEq] at h
          subst h
          exact hp rfl
        · simp at h
        · exact ih _ h

theorem pollFill_panic (m : Shared) (h : m.pollFill.1 = .ready (.error .panic)) :
    nextFrame m.pollFill.2.1.frames.incoming = .error .panic := fillLoop_panic _ m h

/-- The lock is poisoned only by bytes that crash the frame reader; they stay in the buffer. -/
def Conn.CrashShown (c : Conn) : Prop :=
  c.poisoned = true → nextFrame c.shared.frames.incoming = .error .panic

theorem finishConnect_poisoned (c : Conn) (id : StreamId) : (c.finishConnect id).2.1.poisoned = c.poisoned := by
  unfold Conn.finishConnect
  generalize c.shared.frames.pollDrain = P
  obtain ⟨r, fs⟩ := P
  rcases r with _ | (_ | _) <;> rfl

theorem drain_poisoned (c : Conn) (h : Nat) (w : Handle) : (c.drain h w).2.poisoned = c.poisoned := by
  unfold Conn.drain
  cases w.writeError with
  | some k => rfl
  | none =>
    simp only
    generalize c.shared.frames.pollDrain = P
    obtain ⟨r, fs⟩ := P
    rcases r with _ | (_ | _) <;> rfl

theorem pollAccept_error (m : Shared) (hfuel : m.pollFill.1 ≠ .ready (.error .fuel))
    (hpan : m.pollFill.1 = .ready (.error .panic) → nextFrame m.pollFill.2.1.frames.incoming = .error .panic) (e : Fault)
    (he : m.pollAcceptId.1 = .ready (.error e)) :
    e ≠ .fuel ∧ (e = .panic → nextFrame m.pollAcceptId.2.1.frames.incoming = .error .panic) := by
  have key : m.pollFill.1 = .ready (.error e) ∧ m.pollAcceptId.2.1.frames = m.pollFill.2.1.frames := by
    unfold Shared.pollAcceptId at he ⊢
    clear hfuel hpan
    generalize m.pollFill = P at *
    obtain ⟨r, m', taken⟩ := P
    rcases r with _ | (e' | ⟨⟩)
    · simp at he
    · simp only [Poll.ready.injEq, Except.error.injEq] at he
      subst he
      exact ⟨rfl, rfl⟩
    · exfalso
      simp only at he
      cases hi : m'.incoming with
      | none => simp [hi] at he
      | some f =>
        simp only [hi] at he
        split at he <;> simp at he
  rw [key.2]
  refine ⟨?_, ?_⟩
  · rintro rfl; exact hfuel key.1
  · rintro rfl; exact hpan key.1

theorem pollRead_error (m : Shared) (id : StreamId) (room : Nat) (hfuel : m.pollFill.1 ≠ .ready (.error .fuel))
    (hpan : m.pollFill.1 = .ready (.error .panic) → nextFrame m.pollFill.2.1.frames.incoming = .error .panic) (e : Fault)
    (he : (m.pollRead id room).1 = .ready (.error e)) :
    e ≠ .fuel ∧ (e = .panic → nextFrame (m.pollRead id room).2.1.frames.incoming = .error .panic) := by
  have key : m.pollFill.1 = .ready (.error e) ∧ (m.pollRead id room).2.1.frames = m.pollFill.2.1.frames := by
    unfold Shared.pollRead at he ⊢
    clear hfuel hpan
    generalize m.pollFill = P at *
    obtain ⟨r, m', taken⟩ := P
    rcases r with _ | (e' | ⟨⟩)
    · simp at he
    · simp only [Poll.ready.injEq, Except.error.injEq] at he
      subst he
      exact ⟨rfl, rfl⟩
    · exfalso
      simp only at he
      cases hi : m'.incoming with
      | none => simp [hi] at he
      | some f =>
        simp only [hi] at he
        split at he
        · split at he
          · simp at he
          · split at he <;> simp at he
        · simp at he
  rw [key.2]
  refine ⟨?_, ?_⟩
  · rintro rfl; exact hfuel key.1
  · rintro rfl; exact hpan key.1

theorem step_panic {c : Conn} (hcl : c.shared.closed = false) (hc : c.CrashShown) (op : Op) :
    (c.step op).2.1.CrashShown ∧ ((c.step op).1 = .panicked → (c.step op).2.1.poisoned = true) := by
  have plain : ∀ c' : Conn, c'.poisoned = false → c'.CrashShown := fun c' h h' => by rw [h] at h'; cases h'
  unfold Conn.step
  cases hp : c.poisoned with
  | true => exact ⟨hc, fun _ => hp⟩
  | false =>
    simp only [Bool.false_eq_true, if_false]
    have hfuel := (pollFill_step c.shared hcl).2
    have hpan := pollFill_panic c.shared
    cases op with
    | accept =>
      have h2 := pollAccept_error c.shared hfuel hpan
      simp only [Conn.accept]
      generalize c.shared.pollAcceptId = P at h2
      obtain ⟨r, m', taken⟩ := P
      rcases r with _ | (e | (_ | id))
      · exact ⟨plain _ hp, nofun⟩
      · obtain ⟨hf, hq⟩ := h2 e rfl
        cases e with
        | io k => exact ⟨plain _ rfl, nofun⟩
        | panic => exact ⟨fun _ => hq rfl, fun _ => rfl⟩
        | fuel => exact (hf rfl).elim
      · exact ⟨plain _ hp, nofun⟩
      · exact ⟨plain _ hp, nofun⟩
    | connect name =>
      simp only [Conn.connect]
      have h1 := finishConnect_poisoned { c with shared := (c.shared.appendNew name).2 } (c.shared.appendNew name).1
      have h3 : ∀ (c : Conn) id, (c.finishConnect id).1 ≠ .panicked := by
        intro c id
        unfold Conn.finishConnect
        generalize c.shared.frames.pollDrain = P
        obtain ⟨r, fs⟩ := P
        rcases r with _ | (_ | _) <;> simp
      exact ⟨plain _ (h1.trans hp), fun h => (h3 _ _ h).elim⟩
    | reconnect k =>
      simp only [Conn.reconnect]
      cases c.connecting[k]? with
      | none => exact ⟨plain _ hp, nofun⟩
      | some id =>
        have h1 := finishConnect_poisoned c id
        have h3 : ∀ (c : Conn) id, (c.finishConnect id).1 ≠ .panicked := by
          intro c id
          unfold Conn.finishConnect
          generalize c.shared.frames.pollDrain = P
          obtain ⟨r, fs⟩ := P
          rcases r with _ | (_ | _) <;> simp
        exact ⟨plain _ (h1.trans hp), fun h => (h3 _ _ h).elim⟩
    | read i room =>
      simp only
      cases c.handles[i]? with
      | none => exact ⟨plain _ hp, nofun⟩
      | some w =>
        have h2 := pollRead_error c.shared w.id room hfuel hpan
        simp only [Conn.read]
        generalize c.shared.pollRead w.id room = P at h2
        obtain ⟨r, m', taken⟩ := P
        rcases r with _ | (e | d)
        · exact ⟨plain _ hp, nofun⟩
        · obtain ⟨hf, hq⟩ := h2 e rfl
          cases e with
          | io k => exact ⟨plain _ rfl, nofun⟩
          | panic => exact ⟨fun _ => hq rfl, fun _ => rfl⟩
          | fuel => exact (hf rfl).elim
        · exact ⟨plain _ hp, nofun⟩
    | write i data =>
      simp only
      cases c.handles[i]? with
      | none => exact ⟨plain _ hp, nofun⟩
      | some w =>
        have h1 := drain_poisoned c i w
        simp only [Conn.write]
        generalize c.drain i w = P at h1
        obtain ⟨r, c'⟩ := P
        rcases r with _ | (_ | _) <;> exact ⟨plain _ (h1.trans hp), nofun⟩
    | flush i =>
      simp only
      cases c.handles[i]? with
      | none => exact ⟨plain _ hp, nofun⟩
      | some w =>
        have h1 := drain_poisoned c i w
        simp only [Conn.flush]
        generalize c.drain i w = P at h1
        obtain ⟨r, c'⟩ := P
        rcases r with _ | (_ | _) <;> exact ⟨plain _ (h1.trans hp), nofun⟩
    | shutdown i =>
      simp only
      cases c.handles[i]? with
      | none => exact ⟨plain _ hp, nofun⟩
      | some w =>
        have h1 := drain_poisoned c i w
        simp only [Conn.shutdown]
        generalize c.drain i w = P at h1
        obtain ⟨r, c'⟩ := P
        rcases r with _ | (_ | _) <;> exact ⟨plain _ (h1.trans hp), nofun⟩
    | dropReader i =>
      simp only
      cases c.handles[i]? with
      | none => exact ⟨plain _ hp, nofun⟩
      | some w => exact ⟨plain _ rfl, nofun⟩

theorem step_poisoned {c : Conn} (h : c.poisoned = true) (op : Op) : c.step op = (.panicked, c, []) := by
  unfold Conn.step; simp [h]

theorem run_panic {t : Transport} (ops : List Op) : ∀ {c : Conn} {evs : List Event}, Inv t c.shared evs →
    c.shared.nextStreamNum + connects ops < 2 ^ 64 → c.CrashShown →
      (c.run ops).2.1.CrashShown ∧ (.panicked ∈ (c.run ops).1 ∨ c.poisoned = true → (c.run ops).2.1.poisoned = true) := by
  induction ops with
  | nil => intro c evs _ _ hc; exact ⟨hc, by simp [Conn.run]⟩
  | cons op ops ih =>
    intro c evs hi hn hc
    rw [connects_cons] at hn
    obtain ⟨i1, i2⟩ := step_inv hi op (by omega)
    obtain ⟨h1, h2⟩ := step_panic hi.closed hc op
    obtain ⟨h3, h4⟩ := ih i1 (by omega) h1
    refine ⟨h3, ?_⟩
    rintro (hm | hp)
    · have hm : Answer.panicked ∈ (c.step op).1 :: ((c.step op).2.1.run ops).1 := hm
      rcases List.mem_cons.mp hm with h | h
      · exact h4 (.inr (h2 h.symm))
      · exact h4 (.inl h)
    · refine h4 (.inr ?_)
      rw [step_poisoned hp]
      exact hp

/-! ### The end of the transport -/

theorem readFrameLoop_eof (reads : List ReadEvent) : ∀ (inc : Bytes) (eof : Bool),
    ∃ used, reads = used ++ (readFrameLoop reads inc eof).2.1 ∧
      ((readFrameLoop reads inc eof).2.2.2 = true → eof = true ∨ .ready [] ∈ used) := by
  induction reads with
  | nil =>
    intro inc eof
    refine ⟨[], ?_, ?_⟩
    · unfold readFrameLoop
      cases readyFrame inc eof with
      | none => rfl
      | some v => obtain ⟨r, i⟩ := v; rfl
    · unfold readFrameLoop
      cases readyFrame inc eof with
      | none => exact .inl
      | some v => obtain ⟨r, i⟩ := v; exact .inl
  | cons e es ih =>
    intro inc eof
    unfold readFrameLoop
    cases readyFrame inc eof with
    | some v => obtain ⟨r, i⟩ := v; exact ⟨[], rfl, .inl⟩
    | none =>
      simp only
      cases e with
      | pending => exact ⟨[.pending], rfl, .inl⟩
      | error k => exact ⟨[.error k], rfl, .inl⟩
      | ready d =>
        simp only
        cases d with
        | nil =>
          obtain ⟨u, hu, -⟩ := ih inc true
          exact ⟨.ready [] :: u, by simpa using hu, fun _ => .inr (by simp)⟩
        | cons x d =>
          obtain ⟨u, hu, he⟩ := ih (inc ++ (x :: d)) eof
          refine ⟨.ready (x :: d) :: u, by simpa using hu, fun h => ?_⟩
          rcases he h with h | h
          · exact .inl h
          · exact .inr (List.mem_cons_of_mem _ h)

theorem fillLoop_eof (fuel : Nat) : ∀ (m : Shared),
    ∃ used, m.frames.transport.reads = used ++ (fillLoop fuel m).2.1.frames.transport.reads ∧
      ((fillLoop fuel m).2.1.frames.readEof = true → m.frames.readEof = true ∨ .ready [] ∈ used) := by
  induction fuel with
  | zero => intro m; exact ⟨[], rfl, .inl⟩
  | succ fuel ih =>
    intro m
    unfold fillLoop
    split
    · exact ⟨[], rfl, .inl⟩
    · split
      · exact ⟨[], rfl, .inl⟩
      · obtain ⟨used, hu, he⟩ := readFrameLoop_eof m.frames.transport.reads m.frames.incoming m.frames.readEof
        have hP : ∃ r reads inc eof, m.frames.pollReadFrame = (r,
            { m.frames with transport := { m.frames.transport with reads := reads }, incoming := inc, readEof := eof }) ∧
            m.frames.transport.reads = used ++ reads ∧ (eof = true → m.frames.readEof = true ∨ .ready [] ∈ used) :=
          ⟨_, _, _, _, rfl, hu, he⟩
        obtain ⟨r, reads, inc, eof, hP, hu, he⟩ := hP
        rw [hP]
        rcases r with _ | (_ | (_ | f))
        · exact ⟨used, hu, he⟩
        · exact ⟨used, hu, he⟩
        · exact ⟨used, hu, he⟩
        · simp only
          obtain ⟨used', hu', he'⟩ := ih { m with incoming := some f, frames := { m.frames with transport := { m.frames.transport with reads := reads }, incoming := inc, readEof := eof } }
          refine ⟨used ++ used', ?_, fun h => ?_⟩
          · rw [List.append_assoc, ← hu', hu]
          · rcases he' h with h | h
            · rcases he h with h | h
              · exact .inl h
              · exact .inr (List.mem_append_left _ h)
            · exact .inr (List.mem_append_right _ h)

/-- The reader believes the transport has ended only if it has. -/
def EofSeen (t : Transport) (fs : FrameStream) : Prop :=
  ∃ used, t.reads = used ++ fs.transport.reads ∧ (fs.readEof = true → .ready [] ∈ used)

theorem pollFill_eof {t : Transport} {m : Shared} (h : EofSeen t m.frames) : EofSeen t m.pollFill.2.1.frames := by
  obtain ⟨used, hu, he⟩ := h
  obtain ⟨used', hu', he'⟩ := fillLoop_eof (m.frames.incoming.length + (readBytes m.frames.transport.reads).length + 1) m
  refine ⟨used ++ used', ?_, fun h => ?_⟩
  · rw [hu, List.append_assoc, hu']; rfl
  · rcases he' h with h | h
    · exact List.mem_append_left _ (he h)
    · exact List.mem_append_right _ h

theorem pollDrain_eof {t : Transport} {fs : FrameStream} (h : EofSeen t fs) : EofSeen t fs.pollDrain.2 := by
  obtain ⟨ws, fl, sent, out, he, -, -⟩ := pollDrain_step fs
  rw [he]
  exact h

theorem pollAccept_frames (m : Shared) : m.pollAcceptId.2.1.frames = m.pollFill.2.1.frames := by
  unfold Shared.pollAcceptId
  generalize m.pollFill = P
  obtain ⟨r, m', taken⟩ := P
  rcases r with _ | (_ | _)
  · rfl
  · rfl
  · simp only
    cases m'.incoming with
    | none => rfl
    | some f => simp only; split <;> rfl

theorem pollRead_frames (m : Shared) (id : StreamId) (room : Nat) :
    (m.pollRead id room).2.1.frames = m.pollFill.2.1.frames := by
  unfold Shared.pollRead
  generalize m.pollFill = P
  obtain ⟨r, m', taken⟩ := P
  rcases r with _ | (_ | _)
  · rfl
  · rfl
  · simp only
    cases m'.incoming with
    | none => rfl
    | some f =>
      simp only
      split
      · split
        · rfl
        · split <;> rfl
      · rfl

theorem appendNew_eof {t : Transport} {fs : FrameStream} (h : EofSeen t fs) (n : Nat) (name : Option Bytes) :
    EofSeen t (fs.appendNew n name) := by cases name <;> exact h

theorem finishConnect_eof {t : Transport} {c : Conn} (h : EofSeen t c.shared.frames) (id : StreamId) :
    EofSeen t (c.finishConnect id).2.1.shared.frames := by
  have := pollDrain_eof h
  unfold Conn.finishConnect
  generalize c.shared.frames.pollDrain = P at this
  obtain ⟨r, fs⟩ := P
  rcases r with _ | (_ | _) <;> exact this

theorem drain_eof {t : Transport} {c : Conn} (h : EofSeen t c.shared.frames) (i : Nat) (w : Handle) :
    EofSeen t (c.drain i w).2.shared.frames := by
  have := pollDrain_eof h
  unfold Conn.drain
  cases w.writeError with
  | some k => exact h
  | none =>
    simp only
    generalize c.shared.frames.pollDrain = P at this
    obtain ⟨r, fs⟩ := P
    rcases r with _ | (_ | _) <;> exact this

theorem step_eof {t : Transport} {c : Conn} (h : EofSeen t c.shared.frames) (op : Op) :
    EofSeen t (c.step op).2.1.shared.frames := by
  unfold Conn.step
  cases c.poisoned with
  | true => exact h
  | false =>
    simp only [Bool.false_eq_true, if_false]
    cases op with
    | accept =>
      have hf := pollFill_eof h
      rw [← pollAccept_frames] at hf
      simp only [Conn.accept]
      generalize c.shared.pollAcceptId = P at hf
      obtain ⟨r, m', taken⟩ := P
      rcases r with _ | (_ | (_ | _)) <;> exact hf
    | connect name =>
      simp only [Conn.connect]
      exact finishConnect_eof (c := { c with shared := (c.shared.appendNew name).2 })
        (appendNew_eof (t := t) h _ _) (c.shared.appendNew name).1
    | reconnect k =>
      simp only [Conn.reconnect]
      cases c.connecting[k]? with
      | none => exact h
      | some id => exact finishConnect_eof h id
    | read i room =>
      simp only
      cases c.handles[i]? with
      | none => exact h
      | some w =>
        have hf := pollFill_eof h
        rw [← pollRead_frames _ w.id room] at hf
        simp only [Conn.read]
        generalize c.shared.pollRead w.id room = P at hf
        obtain ⟨r, m', taken⟩ := P
        rcases r with _ | (_ | _) <;> exact hf
    | write i data =>
      simp only
      cases c.handles[i]? with
      | none => exact h
      | some w =>
        have h1 := drain_eof h i w
        simp only [Conn.write]
        generalize c.drain i w = P at h1
        obtain ⟨r, c'⟩ := P
        rcases r with _ | (_ | _)
        · exact h1
        · exact h1
        · simp only [FrameStream.appendMessage]
          cases w.id.inverse <;> exact h1
    | flush i =>
      simp only
      cases c.handles[i]? with
      | none => exact h
      | some w =>
        have h1 := drain_eof h i w
        simp only [Conn.flush]
        generalize c.drain i w = P at h1
        obtain ⟨r, c'⟩ := P
        rcases r with _ | (_ | _) <;> exact h1
    | shutdown i =>
      simp only
      cases c.handles[i]? with
      | none => exact h
      | some w =>
        have h1 := drain_eof h i w
        simp only [Conn.shutdown]
        generalize c.drain i w = P at h1
        obtain ⟨r, c'⟩ := P
        rcases r with _ | (_ | _)
        · exact h1
        · exact h1
        · simp only [FrameStream.appendClose]
          cases w.id.inverse <;> exact h1
    | dropReader i =>
      simp only
      cases c.handles[i]? with
      | none => exact h
      | some w => exact h

theorem run_eof {t : Transport} (ops : List Op) : ∀ {c : Conn}, EofSeen t c.shared.frames →
    EofSeen t (c.run ops).2.1.shared.frames := by
  induction ops with
  | nil => intro c h; exact h
  | cons op ops ih => intro c h; exact ih (step_eof h op)

theorem fillLoop_pending (fuel : Nat) : ∀ (m : Shared), (fillLoop fuel m).1 = .pending →
    nextFrame (fillLoop fuel m).2.1.frames.incoming = .ok none := by
  induction fuel with
  | zero => intro m h; simp [fillLoop] at h
  | succ fuel ih =>
    intro m h
    unfold fillLoop at h ⊢
    split at h
    · simp at h
    · split at h
      · simp at h
      · rename_i h1 h2
        rw [if_neg h1, if_neg h2]
        obtain ⟨reads', inc', eof', he, hst⟩ := pollReadFrame_eq m.frames
        rw [he] at h ⊢
        have hp := hst.pending
        generalize (readFrameLoop m.frames.transport.reads m.frames.incoming m.frames.readEof).1 = r at *
        rcases r with _ | (e | (_ | f))
        · exact hp rfl
        · simp at h
        · simp at h
        · exact ih _ h

theorem flush_done {c : Conn} {h : Nat} {w : Handle} (hd : (c.drain h w).1 = .ready (.ok ())) :
    (c.drain h w).2.shared.frames.outgoing = [] := by
  unfold Conn.drain at hd ⊢
  cases hw : w.writeError with
  | some k => simp [hw] at hd
  | none =>
    simp only [hw] at hd ⊢
    obtain ⟨ws, fl, sent, out, he, -, ho⟩ := pollDrain_step c.shared.frames
    generalize c.shared.frames.pollDrain = P at *
    obtain ⟨r, fs⟩ := P
    simp only at he ho
    rcases r with _ | (_ | ⟨⟩)
    · simp at hd
    · simp at hd
    · simp only; rw [he]; exact ho rfl

end Ngfs.Mplex
