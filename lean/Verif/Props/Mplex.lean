import Verif.Lemmas.MplexConn

/-! Properties of the multiplexer: C31 (multiplexed part), C36, C37, C38 and C68 to C72. -/
namespace Ngfs.Mplex
open Varint Spec Spec.Mplex

/-! ### C36: framing -/

/-- **C36**: any frames sent, over a transport that cuts the bytes anywhere and pauses anywhere, are read
back in order. However often the reader is polled, it never reports an error, and what it has returned
is a prefix of what was sent; polled once more than there are transport answers and frames, it has
returned all of them and reports the end. -/
theorem C36_frames_round_trip (outs : List OutFrame) (hfit : ∀ o ∈ outs, o.Fits) (t t' : Transport)
    (hd : Delivers t'.reads (sendAll (FrameStream.new t) outs).outgoing) (n : Nat) :
    (∀ r ∈ (pollTimes n (FrameStream.new t')).1, r = .pending ∨ ∃ o, r = .ready (.ok o)) ∧
    framesIn (pollTimes n (FrameStream.new t')).1 <+: outs.map OutFrame.seen ∧
    (t'.reads.length + outs.length < n →
      framesIn (pollTimes n (FrameStream.new t')).1 = outs.map OutFrame.seen ∧
      (pollTimes n (FrameStream.new t')).1.getLast? = some (.ready (.ok none))) := by
  obtain ⟨bs, hb, hf⟩ := sendAll_bytes outs (FrameStream.new t) hfit
  rw [hb] at hd
  have := pollTimes_good n (FrameStream.new t') (outs.map OutFrame.seen)
    ⟨bs, by simpa [FrameStream.new] using hf, .inr ⟨rfl, by simpa [FrameStream.new] using hd⟩⟩
  simpa [FrameStream.new] using this

/-- **C36**, for any peer: whatever bytes arrive and however they are cut, the frames returned are the
frames those bytes consist of, and what remains is in the buffer. -/
theorem C36_frames_exact (n : Nat) (t : Transport) :
    ∃ used bs, t.reads = used ++ (pollTimes n (FrameStream.new t)).2.transport.reads ∧
      readBytes used = bs ++ (pollTimes n (FrameStream.new t)).2.incoming ∧
      Frames bs (framesIn (pollTimes n (FrameStream.new t)).1) := by
  suffices h : ∀ n (s : FrameStream), ∃ used bs, s.transport.reads = used ++ (pollTimes n s).2.transport.reads ∧
      s.incoming ++ readBytes used = bs ++ (pollTimes n s).2.incoming ∧ Frames bs (framesIn (pollTimes n s).1) by
    simpa [FrameStream.new] using h n (FrameStream.new t)
  intro n
  induction n with
  | zero => intro s; exact ⟨[], [], rfl, by simp [pollTimes, readBytes], .nil⟩
  | succ n ih =>
    intro s
    obtain ⟨reads', inc', eof', hp, ⟨⟨used, hu, hr⟩, -, -, -⟩⟩ := pollReadFrame_eq s
    obtain ⟨used', bs', hu', hb', hf'⟩ := ih
      { s with transport := { s.transport with reads := reads' }, incoming := inc', readEof := eof' }
    simp only [pollTimes, hp]
    generalize readFrameLoop s.transport.reads s.incoming s.readEof = R at hr
    obtain ⟨r, R2⟩ := R
    simp only at hr hu' hb' ⊢
    have quiet : inc' = s.incoming ++ readBytes used →
        s.incoming ++ readBytes (used ++ used') = bs' ++ (pollTimes n
          { s with transport := { s.transport with reads := reads' }, incoming := inc', readEof := eof' }).2.incoming := by
      intro h; rw [readBytes_append, ← List.append_assoc, ← h, hb']
    rcases r with _ | (_ | (_ | f))
    · exact ⟨used ++ used', bs', by rw [hu, List.append_assoc, ← hu'], quiet hr, hf'⟩
    · exact ⟨used ++ used', bs', by rw [hu, List.append_assoc, ← hu'], quiet hr, hf'⟩
    · exact ⟨used ++ used', bs', by rw [hu, List.append_assoc, ← hu'], quiet hr, hf'⟩
    · obtain ⟨b, hb, hf⟩ := hr
      refine ⟨used ++ used', b ++ bs', by rw [hu, List.append_assoc, ← hu'], ?_, ?_⟩
      · rw [readBytes_append, ← List.append_assoc, hb, List.append_assoc, List.append_assoc, hb']
      · simpa [framesIn] using frames_append (frames_one hf) hf'

/-- **C36**: a frame that has arrived is returned by the next poll, and the reader waits only when the
buffer does not begin with a frame. -/
theorem C36_complete_frame_returned (s : FrameStream) :
    (∀ b f rest, s.incoming = b ++ rest → IsFrame b f →
      s.pollReadFrame = (.ready (.ok (some f)), { s with incoming := rest })) ∧
    (s.pollReadFrame.1 = .pending → ¬ ∃ b f rest, s.pollReadFrame.2.incoming = b ++ rest ∧ IsFrame b f) := by
  constructor
  · intro b f rest hs hf
    have hn := (nextFrame_some_iff s.incoming f rest).mpr ⟨b, hs, hf⟩
    obtain ⟨⟨reads, ws, fl, sh, se⟩, inc, out, eof⟩ := s
    simp only [FrameStream.pollReadFrame] at hn ⊢
    cases reads <;> simp [readFrameLoop, readFrameLoop_cons, readyFrame, hn]
  · intro hp
    obtain ⟨reads', inc', eof', he, hst⟩ := pollReadFrame_eq s
    rw [he] at hp ⊢
    rintro ⟨b, f, rest, hb, hf⟩
    have h1 := hst.pending hp
    have h2 := (nextFrame_some_iff inc' f rest).mpr ⟨b, hb, hf⟩
    rw [h1] at h2
    cases h2

/-- Three frames with the second one's header cut in two. -/
example : ∃ t', Delivers t'.reads (sendAll (FrameStream.new ⟨[], [], [], [], []⟩)
      [.new 33 (some [65]), .message (.initiator 300) [1, 2, 3], .close (.receiver 5)]).outgoing ∧
    framesIn (pollTimes 9 (FrameStream.new t')).1 =
      [⟨.initiator 33, .new, []⟩, ⟨.initiator 300, .message, [1, 2, 3]⟩, ⟨.receiver 5, .close, []⟩] := by
  have he : (sendAll (FrameStream.new ⟨[], [], [], [], []⟩)
      [.new 33 (some [65]), .message (.initiator 300) [1, 2, 3], .close (.receiver 5)]).outgoing =
      [136, 2, 1, 65, 226, 18, 3, 1, 2, 3, 43, 0] := by decide +kernel
  refine ⟨⟨[.ready [136, 2, 1, 65, 226], .pending, .ready [18, 3, 1, 2], .ready [3, 43, 0], .ready []], [], [], [], []⟩,
    ?_, by decide +kernel⟩
  rw [he]
  exact .piece [136, 2, 1, 65, 226] nofun (.pause (.piece [18, 3, 1, 2] nofun (.piece [3, 43, 0] nofun (.eof _))))

/-! ### C37: streams do not mix -/

/-- **C37**, safety: over any history of polls on any streams, every read on a stream hands over exactly
the next bytes owed to that stream: the payloads of the frames addressed to it that were taken from the
transport while it was open, in order, none lost, none repeated, none from another stream. And the
frames taken are exactly what the bytes received consist of. -/
theorem C37_streams_exact (t : Transport) (ops : List Op) (hn : connects ops < 2 ^ 64 - 33) :
    (∀ id, ∃ o, owedAfter id none ((Conn.new t).run ops).2.2 = some o) ∧
    ∃ used bs rest, t.reads = used ++ rest ∧
      readBytes used = bs ++ ((Conn.new t).run ops).2.1.shared.frames.incoming ∧
      Frames bs (takenIn ((Conn.new t).run ops).2.2) := by
  have h := run_inv ops (c := Conn.new t) (inv_new t) (show 33 + connects ops < 2 ^ 64 by omega)
  rw [List.nil_append] at h
  refine ⟨fun id => ⟨_, h.owed id⟩, ?_⟩
  obtain ⟨used, bs, h1, h2, h3⟩ := h.wire
  exact ⟨used, bs, _, h1, h2, h3⟩

/-- The history records what reads return: a read on a stream that answers with bytes appends one `got`
with that stream's identifier and those bytes, and a poll that does not answer with bytes appends
none. -/
theorem C37_history_faithful (c : Conn) (op : Op) :
    (∀ data, (c.step op).1 = .bytes data →
      ∃ h room w, op = .read h room ∧ c.handles[h]? = some w ∧ data.length ≤ room ∧
        (c.step op).2.2.getLast? = some (.got w.id data)) ∧
    (∀ id data, Event.got id data ∈ (c.step op).2.2 → (c.step op).1 = .bytes data) := by
  unfold Conn.step
  cases c.poisoned with
  | true => exact ⟨nofun, by simp⟩
  | false =>
    simp only [Bool.false_eq_true, if_false]
    cases op with
    | accept =>
      simp only [Conn.accept]
      generalize c.shared.pollAcceptId = P
      obtain ⟨r, m', taken⟩ := P
      rcases r with _ | (e | (_ | _))
      · exact ⟨nofun, by simp⟩
      · exact ⟨by cases e <;> simp [faultAnswer], by simp⟩
      · exact ⟨nofun, by simp⟩
      · exact ⟨nofun, by simp⟩
    | connect name =>
      have h : ∀ (c : Conn) id data, (c.finishConnect id).1 ≠ .bytes data := by
        intro c id data
        unfold Conn.finishConnect
        generalize c.shared.frames.pollDrain = P
        obtain ⟨r, fs⟩ := P
        rcases r with _ | (_ | _) <;> simp
      simp only [Conn.connect]
      exact ⟨fun data hd => (h _ _ _ hd).elim, by simp⟩
    | reconnect k =>
      have h : ∀ (c : Conn) id data, (c.finishConnect id).1 ≠ .bytes data := by
        intro c id data
        unfold Conn.finishConnect
        generalize c.shared.frames.pollDrain = P
        obtain ⟨r, fs⟩ := P
        rcases r with _ | (_ | _) <;> simp
      simp only [Conn.reconnect]
      cases c.connecting[k]? with
      | none => exact ⟨nofun, by simp⟩
      | some id => exact ⟨fun data hd => (h _ _ _ hd).elim, by simp⟩
    | read i room =>
      simp only
      cases hw : c.handles[i]? with
      | none => exact ⟨nofun, by simp⟩
      | some w =>
        have hl := pollRead_room c.shared w.id room
        simp only [Conn.read]
        generalize c.shared.pollRead w.id room = P at hl
        obtain ⟨r, m', taken⟩ := P
        rcases r with _ | (e | d)
        · exact ⟨nofun, by simp⟩
        · exact ⟨by cases e <;> simp [faultAnswer], by simp⟩
        · refine ⟨fun data hd => ⟨i, room, w, rfl, hw, ?_, ?_⟩, ?_⟩
          · cases hd; exact hl _ rfl
          · cases hd; simp
          · intro id data hm
            simp only [List.mem_append, List.mem_map, List.mem_singleton, Event.got.injEq] at hm
            rcases hm with ⟨_, _, h⟩ | ⟨_, rfl⟩
            · cases h
            · rfl
    | write i data =>
      simp only
      cases c.handles[i]? with
      | none => exact ⟨nofun, by simp⟩
      | some w =>
        simp only [Conn.write]
        generalize c.drain i w = P
        obtain ⟨r, c'⟩ := P
        rcases r with _ | (_ | _) <;> exact ⟨nofun, by simp⟩
    | flush i =>
      simp only
      cases c.handles[i]? with
      | none => exact ⟨nofun, by simp⟩
      | some w =>
        simp only [Conn.flush]
        generalize c.drain i w = P
        obtain ⟨r, c'⟩ := P
        rcases r with _ | (_ | _) <;> exact ⟨nofun, by simp⟩
    | shutdown i =>
      simp only
      cases c.handles[i]? with
      | none => exact ⟨nofun, by simp⟩
      | some w =>
        simp only [Conn.shutdown]
        generalize c.drain i w = P
        obtain ⟨r, c'⟩ := P
        rcases r with _ | (_ | _) <;> exact ⟨nofun, by simp⟩
    | dropReader i =>
      simp only
      cases c.handles[i]? with
      | none => exact ⟨nofun, by simp⟩
      | some w => exact ⟨nofun, by simp⟩

/-- **C37**, progress: bytes that are owed to an open stream are handed over by the next read on it, as
many as there is room for. -/
theorem C37_owed_is_readable (t : Transport) (ops : List Op) (hn : connects ops < 2 ^ 64 - 33)
    (hp : ((Conn.new t).run ops).2.1.poisoned = false) (h room : Nat) (w : Handle) (bs : Bytes)
    (hw : ((Conn.new t).run ops).2.1.handles[h]? = some w)
    (ho : owedAfter w.id none ((Conn.new t).run ops).2.2 = some (some bs)) (hb : bs ≠ []) :
    (((Conn.new t).run ops).2.1.step (.read h room)).1 = .bytes (bs.take room) := by
  have hi := run_inv ops (c := Conn.new t) (inv_new t) (show 33 + connects ops < 2 ^ 64 by omega)
  rw [List.nil_append] at hi
  generalize (Conn.new t).run ops = R at *
  obtain ⟨as, c, evs⟩ := R
  simp only at *
  rw [hi.owed] at ho
  have how : c.shared.owed w.id = some bs := by simpa using ho
  obtain ⟨f, hf, hid, hop, hdata, hwant⟩ := owed_frame how hb
  have hfill : c.shared.pollFill = (.ready (.ok ()), c.shared, []) := by
    unfold Shared.pollFill
    rw [fillLoop, if_neg (by simp [hi.closed]), if_pos hwant]
  have hnc : ¬ f.op = .close := by rcases hop with h | h <;> rw [h] <;> nofun
  have htake : f.data.take (min f.data.length room) = bs.take room := by
    rw [hdata]
    rcases Nat.le_total bs.length room with h | h
    · rw [Nat.min_eq_left h, List.take_length, List.take_of_length_le h]
    · rw [Nat.min_eq_right h]
  cases hr : (f.data.drop (min f.data.length room)).isEmpty <;>
    simp only [Conn.step, hp, hw, Conn.read, Shared.pollRead, hfill, hf, hid, hnc, htake, hr, Bool.false_eq_true,
      if_false, if_true]

/-- **C37**: a read that returns nothing although there was room leaves nothing owed to the stream. -/
theorem C37_nothing_withheld (t : Transport) (ops : List Op) (hn : connects ops < 2 ^ 64 - 33)
    (h room : Nat) (w : Handle) (hw : ((Conn.new t).run ops).2.1.handles[h]? = some w) (hr : 0 < room)
    (he : (((Conn.new t).run ops).2.1.step (.read h room)).1 = .bytes []) :
    owedAfter w.id none (((Conn.new t).run ops).2.2 ++ (((Conn.new t).run ops).2.1.step (.read h room)).2.2) = some (some []) ∨
    owedAfter w.id none (((Conn.new t).run ops).2.2 ++ (((Conn.new t).run ops).2.1.step (.read h room)).2.2) = some none := by
  have hi := run_inv ops (c := Conn.new t) (inv_new t) (show 33 + connects ops < 2 ^ 64 by omega)
  rw [List.nil_append] at hi
  have hs := (step_inv hi (.read h room) (by
    have := run_next (c := Conn.new t) ops (inv_new t) (show 33 + connects ops < 2 ^ 64 by omega)
    have h33 : (Conn.new t).shared.nextStreamNum = 33 := rfl
    show _ + 0 < 2 ^ 64
    omega)).1
  generalize (Conn.new t).run ops = R at *
  obtain ⟨as, c, evs⟩ := R
  simp only at *
  rw [hs.owed]
  have hwait : (c.step (.read h room)).2.1.shared.waiting w.id = [] := by
    unfold Conn.step at he ⊢
    cases hp : c.poisoned with
    | true => simp [hp] at he
    | false =>
      simp only [hp, hw, Bool.false_eq_true, if_false, Conn.read] at he ⊢
      have hq := pollRead_nil c.shared w.id room hr
      generalize c.shared.pollRead w.id room = P at he hq
      obtain ⟨r, m', taken⟩ := P
      rcases r with _ | (e | d)
      · cases he
      · cases e <;> cases he
      · cases he; exact (hq rfl).1
  unfold Shared.owed
  rw [hwait]
  split
  · exact .inl rfl
  · exact .inr rfl

/-- Two streams: data for the second is waiting behind data for the first; reads in both orders. -/
def exampleTransport : Transport :=
  ⟨[.ready [8, 0, 16, 0, 10, 2, 65], .ready [66, 18, 3, 67, 68, 69, 10, 1, 70], .ready []],
    List.replicate 20 (.accept 5), List.replicate 20 .ok, [], []⟩

example : ((Conn.new exampleTransport).run [.accept, .accept, .read 1 10, .read 0 1, .read 0 9, .read 0 9, .read 1 2,
    .read 1 9, .read 1 9, .read 0 9, .read 0 9]).1 =
    [.stream (.initiator 1), .stream (.initiator 2), .pending, .bytes [65], .bytes [66], .pending, .bytes [67, 68],
      .bytes [69], .pending, .bytes [70], .bytes []] := by decide +kernel

/-! ### C38: identifiers -/

/-- The identifiers of the streams that connecting hands out. -/
def handedOut : List Op → List Answer → List StreamId
  | .connect _ :: ops, .stream id :: as => id :: handedOut ops as
  | .reconnect _ :: ops, .stream id :: as => id :: handedOut ops as
  | _ :: ops, _ :: as => handedOut ops as
  | _, _ => []

/-- The identifiers of the streams that accepting hands out. -/
def handedIn : List Op → List Answer → List StreamId
  | .accept :: ops, .stream id :: as => id :: handedIn ops as
  | _ :: ops, _ :: as => handedIn ops as
  | _, _ => []

/-- **C38**: as long as fewer than `2^64 - 33` streams are opened, no two locally opened streams get the
same identifier, whatever else happens; locally opened streams are all on the receiver side and
accepted ones all on the initiator side, so one is never taken for the other. -/
theorem C38_ids_unique (t : Transport) (ops : List Op) (hn : connects ops < 2 ^ 64 - 33) :
    (handedOut ops ((Conn.new t).run ops).1).Nodup ∧
    (∀ id ∈ handedOut ops ((Conn.new t).run ops).1, ∃ n, id = .receiver n) ∧
    (∀ id ∈ handedIn ops ((Conn.new t).run ops).1, ∃ n, id = .initiator n) := by
  suffices h : ∀ ops (c : Conn) evs, Inv t c.shared evs → c.LocalIds →
      c.shared.nextStreamNum + connects ops < 2 ^ 64 →
      (handedOut ops (c.run ops).1).Nodup ∧
      (∀ id ∈ handedOut ops (c.run ops).1, id ∈ c.connecting ∨
        ∃ n, c.shared.nextStreamNum ≤ n ∧ id = .receiver n) ∧
      (∀ id ∈ handedIn ops (c.run ops).1, ∃ n, id = .initiator n) by
    obtain ⟨h1, h2, h3⟩ := h ops (Conn.new t) [] (inv_new t) ⟨by simp [Conn.new], by simp [Conn.new]⟩
      (show 33 + connects ops < 2 ^ 64 by omega)
    refine ⟨h1, fun id hid => ?_, h3⟩
    rcases h2 id hid with hm | ⟨n, -, he⟩
    · simp [Conn.new] at hm
    · exact ⟨n, he⟩
  intro ops
  induction ops with
  | nil => intro c evs _ _ _; exact ⟨by simp [handedOut], by simp [handedOut], by simp [handedIn]⟩
  | cons op ops ih =>
    intro c evs hi hl hn
    rw [connects_cons] at hn
    obtain ⟨i1, i2⟩ := step_inv hi op (by omega)
    obtain ⟨s1, s2, s3, s4, s5⟩ := step_ids hi hl op (by omega)
    obtain ⟨r1, r2, r3⟩ := ih (c.step op).2.1 _ i1 s1 (by omega)
    have hrun : (c.run (op :: ops)).1 = (c.step op).1 :: ((c.step op).2.1.run ops).1 := rfl
    rw [hrun]
    -- what the later steps hand out
    have later : ∀ id ∈ handedOut ops ((c.step op).2.1.run ops).1,
        id ∈ c.connecting ∨ ∃ n, c.shared.nextStreamNum ≤ n ∧ id = .receiver n := by
      intro id hid
      rcases r2 id hid with hm | ⟨n, hle, he⟩
      · rcases s2 id hm with hm | ⟨he, -⟩
        · exact .inl hm
        · exact .inr ⟨_, Nat.le_refl _, he⟩
      · exact .inr ⟨n, by omega, he⟩
    cases hc : op.isConnect with
    | true =>
      by_cases ha : ∃ id, (c.step op).1 = .stream id
      · obtain ⟨id, ha⟩ := ha
        obtain ⟨hfrom, hnot⟩ := s4 hc id ha
        have e1 : handedOut (op :: ops) (.stream id :: ((c.step op).2.1.run ops).1) =
            id :: handedOut ops ((c.step op).2.1.run ops).1 := by
          cases op <;> first | rfl | cases hc
        have e2 : handedIn (op :: ops) (.stream id :: ((c.step op).2.1.run ops).1) =
            handedIn ops ((c.step op).2.1.run ops).1 := by
          cases op <;> first | rfl | cases hc
        rw [ha, e1, e2]
        refine ⟨List.nodup_cons.mpr ⟨fun hin => ?_, r1⟩, ?_, r3⟩
        · rcases r2 id hin with hm | ⟨n, hle, he⟩
          · exact hnot hm
          · rcases hfrom with hm | ⟨he', hnx⟩
            · obtain ⟨k, hk, he''⟩ := hl.2 id hm
              rw [he] at he''; cases he''; omega
            · rw [he] at he'; cases he'; omega
        · intro x hx
          rcases List.mem_cons.mp hx with rfl | hx
          · rcases hfrom with hm | ⟨he', -⟩
            · exact .inl hm
            · exact .inr ⟨_, Nat.le_refl _, he'⟩
          · exact later x hx
      · have e1 : handedOut (op :: ops) ((c.step op).1 :: ((c.step op).2.1.run ops).1) =
            handedOut ops ((c.step op).2.1.run ops).1 := by
          generalize (c.step op).1 = a at ha
          cases a with
          | stream id => exact (ha ⟨id, rfl⟩).elim
          | _ => cases op <;> rfl
        have e2 : handedIn (op :: ops) ((c.step op).1 :: ((c.step op).2.1.run ops).1) =
            handedIn ops ((c.step op).2.1.run ops).1 := by
          cases op <;> first | rfl | cases hc
        rw [e1, e2]
        exact ⟨r1, later, r3⟩
    | false =>
      have e1 : handedOut (op :: ops) ((c.step op).1 :: ((c.step op).2.1.run ops).1) =
          handedOut ops ((c.step op).2.1.run ops).1 := by
        generalize (c.step op).1 = a
        cases op <;> first | rfl | cases hc
      rw [e1]
      refine ⟨r1, later, ?_⟩
      intro id hid
      have : id ∈ handedIn ops ((c.step op).2.1.run ops).1 ∨ (c.step op).1 = .stream id := by
        generalize (c.step op).1 = a at hid ⊢
        cases op <;> cases a <;> first | exact .inl hid | skip
        rcases List.mem_cons.mp hid with rfl | h
        · exact .inr rfl
        · exact .inl h
      rcases this with h | h
      · exact r3 id h
      · exact s5 hc id h

/-- Two connects, the first one finishing after the second. -/
example : handedOut [.connect none, .connect none, .reconnect 0]
    ((Conn.new ⟨[], [.pending, .accept 9, .accept 9], [.ok, .ok], [], []⟩).run
      [.connect none, .connect none, .reconnect 0]).1 = [.receiver 34, .receiver 33] := by decide +kernel

/-! ### C31: after shutdown (multiplexed streams) -/

/-- **C31** (multiplexed streams): once shutdown of a stream has answered "done", then after any further history, a
write, flush or shutdown on that stream fails with "broken pipe" (or panics, if the connection has
panicked), and changes nothing. -/
theorem C31_mplex_nothing_after_shutdown (c : Conn) (h : Nat) (hs : (c.step (.shutdown h)).1 = .done)
    (ops : List Op) (op : Op) (hop : (∃ data, op = .write h data) ∨ op = .flush h ∨ op = .shutdown h) :
    let c' := ((c.step (.shutdown h)).2.1.run ops).2.1
    ((c'.step op).1 = .failed .brokenPipe ∨ (c'.step op).1 = .panicked ∧ c'.poisoned = true) ∧
    (c'.step op).2 = (c', []) := by
  have he := run_ended ops (shutdown_ended hs)
  simp only
  generalize ((c.step (.shutdown h)).2.1.run ops).2.1 = c' at he
  have he' := he
  obtain ⟨id, hh⟩ := he
  have hd := (drain_handles c' h _ hh h he').2.1 rfl
  unfold Conn.step
  cases hp : c'.poisoned with
  | true => exact ⟨.inr ⟨rfl, rfl⟩, rfl⟩
  | false =>
    rcases hop with ⟨data, rfl⟩ | rfl | rfl
    · simp only [hh, Conn.write, hd]
      exact ⟨.inl rfl, rfl⟩
    · simp only [hh, Conn.flush, hd]
      exact ⟨.inl rfl, rfl⟩
    · simp only [hh, Conn.shutdown, hd]
      exact ⟨.inl rfl, rfl⟩

example : ((Conn.new ⟨[], [.accept 99, .accept 99], [.ok, .ok], [], []⟩).run
      [.connect none, .shutdown 0, .write 0 [1]]).1 = [.stream (.receiver 33), .done, .failed .brokenPipe] := by
  decide +kernel

/-! ### C68: what is written -/

/-- **C68**: what the transport has been given, together with what is still buffered, is exactly the frames
that the history of connects, writes and shutdowns asks for, in that order, on the wire in the format of
the specification. -/
theorem C68_written_is_framed (t : Transport) (ops : List Op) (hn : connects ops < 2 ^ 64 - 33)
    (hfit : ∀ o ∈ outIn ((Conn.new t).run ops).2.2, o.Fits) :
    ∃ bs, ((Conn.new t).run ops).2.1.shared.frames.transport.sent ++
        ((Conn.new t).run ops).2.1.shared.frames.outgoing = t.sent ++ bs ∧
      Frames bs ((outIn ((Conn.new t).run ops).2.2).map OutFrame.seen) := by
  have h := run_inv ops (c := Conn.new t) (inv_new t) (show 33 + connects ops < 2 ^ 64 by omega)
  rw [List.nil_append] at h
  obtain ⟨bs, hb, hf⟩ := sendAll_bytes _ (FrameStream.new t) hfit
  exact ⟨bs, by rw [← h.out, hb]; simp [FrameStream.new], hf⟩

/-- **C68**: the history records what the user did: a write that is accepted is accepted whole and is
recorded with the stream's identifier and the bytes; a shutdown that succeeds is recorded; and nothing
else is. -/
theorem C68_history_faithful (c : Conn) (op : Op) :
    (∀ h data w, op = .write h data → c.handles[h]? = some w →
      (∀ n, (c.step op).1 = .written n → n = data.length ∧ (c.step op).2.2 = [.wrote w.id data]) ∧
      ((∀ n, (c.step op).1 ≠ .written n) → (c.step op).2.2 = [])) ∧
    (∀ h w, op = .shutdown h → c.handles[h]? = some w →
      ((c.step op).1 = .done → (c.step op).2.2 = [.shut w.id]) ∧
      ((c.step op).1 ≠ .done → (c.step op).2.2 = [])) ∧
    (∀ id data, Event.wrote id data ∈ (c.step op).2.2 → ∃ h, op = .write h data) ∧
    (∀ id, Event.shut id ∈ (c.step op).2.2 → ∃ h, op = .shutdown h) ∧
    (∀ num name, Event.announced num name ∈ (c.step op).2.2 → ∃ o, op = .connect o ∧ o.getD [] = name) := by
  refine ⟨?_, ?_, ?_, ?_, ?_⟩
  · rintro h data w rfl hw
    unfold Conn.step
    cases c.poisoned with
    | true => exact ⟨nofun, fun _ => rfl⟩
    | false =>
      simp only [Bool.false_eq_true, if_false, hw, Conn.write]
      generalize c.drain h w = P
      obtain ⟨r, c'⟩ := P
      rcases r with _ | (_ | _)
      · exact ⟨nofun, fun _ => rfl⟩
      · exact ⟨nofun, fun _ => rfl⟩
      · refine ⟨?_, fun hne => (hne _ rfl).elim⟩
        rintro n ⟨⟩
        exact ⟨rfl, rfl⟩
  · rintro h w rfl hw
    unfold Conn.step
    cases c.poisoned with
    | true => exact ⟨nofun, fun _ => rfl⟩
    | false =>
      simp only [Bool.false_eq_true, if_false, hw, Conn.shutdown]
      generalize c.drain h w = P
      obtain ⟨r, c'⟩ := P
      rcases r with _ | (_ | _)
      · exact ⟨nofun, fun _ => rfl⟩
      · exact ⟨nofun, fun _ => rfl⟩
      · exact ⟨fun _ => rfl, fun hne => (hne rfl).elim⟩
  all_goals
    unfold Conn.step
    cases c.poisoned with
    | true => simp
    | false =>
      simp only [Bool.false_eq_true, if_false]
      cases op with
      | accept =>
        simp only [Conn.accept]
        generalize c.shared.pollAcceptId = P
        obtain ⟨r, m', taken⟩ := P
        rcases r with _ | (_ | (_ | _)) <;> simp
      | connect name => simp [Conn.connect]
      | reconnect k =>
        simp only [Conn.reconnect]
        cases c.connecting[k]? <;> simp
      | read i room =>
        simp only
        cases c.handles[i]? with
        | none => simp
        | some w =>
          simp only [Conn.read]
          generalize c.shared.pollRead w.id room = P
          obtain ⟨r, m', taken⟩ := P
          rcases r with _ | (_ | _) <;> simp
      | write i data =>
        simp only
        cases c.handles[i]? with
        | none => simp
        | some w =>
          simp only [Conn.write]
          generalize c.drain i w = P
          obtain ⟨r, c'⟩ := P
          rcases r with _ | (_ | _) <;> simp
      | flush i =>
        simp only
        cases c.handles[i]? with
        | none => simp
        | some w =>
          simp only [Conn.flush]
          generalize c.drain i w = P
          obtain ⟨r, c'⟩ := P
          rcases r with _ | (_ | _) <;> simp
      | shutdown i =>
        simp only
        cases c.handles[i]? with
        | none => simp
        | some w =>
          simp only [Conn.shutdown]
          generalize c.drain i w = P
          obtain ⟨r, c'⟩ := P
          rcases r with _ | (_ | _) <;> simp
      | dropReader i =>
        simp only
        cases c.handles[i]? <;> simp

/-- **C68**: a flush that succeeds leaves nothing in the buffer: all that was written before has been given to the
transport. -/
theorem C68_flush_delivers (t : Transport) (ops : List Op) (hn : connects ops < 2 ^ 64 - 33) (h : Nat)
    (hfit : ∀ o ∈ outIn ((Conn.new t).run ops).2.2, o.Fits)
    (hd : (((Conn.new t).run ops).2.1.step (.flush h)).1 = .done) :
    ∃ bs, (((Conn.new t).run ops).2.1.step (.flush h)).2.1.shared.frames.transport.sent = t.sent ++ bs ∧
      Frames bs ((outIn ((Conn.new t).run ops).2.2).map OutFrame.seen) := by
  have hi := run_inv ops (c := Conn.new t) (inv_new t) (show 33 + connects ops < 2 ^ 64 by omega)
  rw [List.nil_append] at hi
  obtain ⟨bs, hb, hf⟩ := sendAll_bytes _ (FrameStream.new t) hfit
  generalize (Conn.new t).run ops = R at *
  obtain ⟨as, c, evs⟩ := R
  simp only at *
  refine ⟨bs, ?_, hf⟩
  unfold Conn.step at hd ⊢
  cases hp : c.poisoned with
  | true => simp [hp] at hd
  | false =>
    simp only [hp, Bool.false_eq_true, if_false] at hd ⊢
    cases hw : c.handles[h]? with
    | none => simp [hw] at hd
    | some w =>
      simp only [hw, Conn.flush] at hd ⊢
      have h1 := (drain_conn hi h w).1.out
      have h2 := flush_done (c := c) (h := h) (w := w)
      generalize c.drain h w = P at hd h1 h2
      obtain ⟨r, c'⟩ := P
      rcases r with _ | (_ | ⟨⟩)
      · simp at hd
      · simp at hd
      · simp only at h1 h2 ⊢
        rw [h2 trivial, List.append_nil, hb] at h1
        rw [← h1]; simp [FrameStream.new]

/-- Two writes on two streams and a flush, over a transport that takes three bytes at a time. -/
example : ((Conn.new ⟨[], List.replicate 9 (.accept 3), List.replicate 9 .ok, [], []⟩).run
      [.connect none, .connect (some [65]), .write 0 [1, 2], .write 1 [3], .flush 0]).2.1.shared.frames.transport.sent =
    [136, 2, 0, 144, 2, 1, 65, 138, 2, 2, 1, 2, 146, 2, 1, 3] := by decide +kernel

/-! ### C69: no crash -/

/-- **C69**, as stated: no bytes from the peer make the multiplexer panic. -/
def C69_statement : Prop :=
  ∀ (t : Transport) (ops : List Op), connects ops < 2 ^ 64 - 33 → Answer.panicked ∉ ((Conn.new t).run ops).1

/-- A header and a length of `2^64 - 1`. -/
def crashTransport : Transport :=
  ⟨[.ready [1, 0xff, 0xff, 0xff, 0xff, 0xff, 0xff, 0xff, 0xff, 0xff, 1]], [], [], [], []⟩

/-- **C69** is false: eleven bytes from the peer make the task that polls the connection panic, and, the lock being
poisoned, every later operation on every stream of the connection too. -/
theorem C69_false : ¬ C69_statement := by
  intro h
  have := h crashTransport [.accept] (by decide)
  exact this (by decide +kernel)

/-- **C69**, partial: exactly which bytes crash the frame reader: those that begin with a valid header and a valid
length that together reach beyond `2^64 - 1`. Missing: that there are no such bytes
(`C69_false`). -/
theorem C69_crash_exactly_partial (bs : Bytes) :
    nextFrame bs = .error .panic ↔
      ∃ h l rest, bs = h ++ l ++ rest ∧ IsVarint h ∧ h.length ≤ 10 ∧ base128 h < 2 ^ 64 ∧ base128 h % 8 < 7 ∧
        IsVarint l ∧ l.length ≤ 10 ∧ base128 l < 2 ^ 64 ∧ 2 ^ 64 ≤ h.length + l.length + base128 l :=
  nextFrame_panic_iff bs

/-- **C69**, partial, for whole connections: a connection panics only if the peer sent such bytes right behind a
sequence of complete frames. -/
theorem C69_only_crash_partial (t : Transport) (ops : List Op) (hn : connects ops < 2 ^ 64 - 33)
    (hp : Answer.panicked ∈ ((Conn.new t).run ops).1) :
    ∃ used unread bs fs h l rest, t.reads = used ++ unread ∧ readBytes used = bs ++ (h ++ l ++ rest) ∧ Frames bs fs ∧
      IsVarint h ∧ h.length ≤ 10 ∧ base128 h < 2 ^ 64 ∧ base128 h % 8 < 7 ∧
      IsVarint l ∧ l.length ≤ 10 ∧ base128 l < 2 ^ 64 ∧ 2 ^ 64 ≤ h.length + l.length + base128 l := by
  have hi := run_inv ops (c := Conn.new t) (inv_new t) (show 33 + connects ops < 2 ^ 64 by omega)
  obtain ⟨h1, h2⟩ := run_panic ops (c := Conn.new t) (inv_new t) (show 33 + connects ops < 2 ^ 64 by omega) nofun
  obtain ⟨h, l, rest, he, hr⟩ := (nextFrame_panic_iff _).mp (h1 (h2 (.inl hp)))
  obtain ⟨used, bs, hu, hb, hf⟩ := hi.wire
  exact ⟨used, _, bs, _, h, l, rest, hu, by rw [hb, he], hf, hr⟩

example : Answer.panicked ∈ ((Conn.new crashTransport).run [.accept]).1 := by decide +kernel

/-! ### C70: shutdown -/

/-- **C70**, as stated: when shutting down a stream has succeeded, everything sent on the stream including the announcement
that it is closed has been given to the transport. -/
def C70_statement : Prop :=
  ∀ (t : Transport) (ops : List Op) (h : Nat), connects ops < 2 ^ 64 - 33 →
    (((Conn.new t).run ops).2.1.step (.shutdown h)).1 = .done →
    (((Conn.new t).run ops).2.1.step (.shutdown h)).2.1.shared.frames.outgoing = []

/-- **C70** is false: the announcement stays in the buffer, and further operations on the stream that could send
it are refused (`C31_mplex_nothing_after_shutdown`). -/
theorem C70_false : ¬ C70_statement := by
  intro h
  have := h ⟨[], [.accept 99, .accept 99], [.ok, .ok], [], []⟩ [.connect none] 0 (by decide) (by decide +kernel)
  revert this
  decide +kernel

/-- **C70**, partial: when a shutdown succeeds, everything written before it has been given to the transport, and what is
buffered is exactly the announcement. Missing: that the announcement is given to the transport too
(`C70_false`). -/
theorem C70_writes_delivered_partial (t : Transport) (ops : List Op) (hn : connects ops < 2 ^ 64 - 33) (h : Nat)
    (w : Handle) (hw : ((Conn.new t).run ops).2.1.handles[h]? = some w)
    (hfit : ∀ o ∈ outIn (((Conn.new t).run ops).2.2 ++ [.shut w.id]), o.Fits)
    (hd : (((Conn.new t).run ops).2.1.step (.shutdown h)).1 = .done) :
    ∃ bs, (((Conn.new t).run ops).2.1.step (.shutdown h)).2.1.shared.frames.transport.sent = t.sent ++ bs ∧
      Frames bs ((outIn ((Conn.new t).run ops).2.2).map OutFrame.seen) ∧
      IsFrame (((Conn.new t).run ops).2.1.step (.shutdown h)).2.1.shared.frames.outgoing ⟨w.id.inverse, .close, []⟩ := by
  have hi := run_inv ops (c := Conn.new t) (inv_new t) (show 33 + connects ops < 2 ^ 64 by omega)
  rw [List.nil_append] at hi
  have hsplit : ∀ o, o ∈ outIn ((Conn.new t).run ops).2.2 ∨ o ∈ outIn [.shut w.id] → o.Fits := by
    intro o ho; refine hfit o ?_; rw [outIn_append]; exact List.mem_append.mpr ho
  obtain ⟨bs, hb, hf⟩ := sendAll_bytes _ (FrameStream.new t) (fun o ho => hsplit o (.inl ho))
  generalize (Conn.new t).run ops = R at *
  obtain ⟨as, c, evs⟩ := R
  simp only at *
  refine ⟨bs, ?_⟩
  unfold Conn.step at hd ⊢
  cases hp : c.poisoned with
  | true => simp [hp] at hd
  | false =>
    simp only [hp, Bool.false_eq_true, if_false] at hd ⊢
    simp only [hw, Conn.shutdown] at hd ⊢
    have h1 := (drain_conn hi h w).1.out
    have h2 := flush_done (c := c) (h := h) (w := w)
    generalize c.drain h w = P at hd h1 h2
    obtain ⟨r, c'⟩ := P
    rcases r with _ | (_ | ⟨⟩)
    · simp at hd
    · simp at hd
    · simp only at h1 h2 ⊢
      have h2 := h2 trivial
      rw [h2, List.append_nil, hb] at h1
      obtain ⟨bs', hb', hf'⟩ := sendAll_bytes [.close w.id.inverse] c'.shared.frames (by
        intro o ho
        refine hsplit o (.inr ?_)
        cases hid : w.id <;> simpa [outIn, hid, StreamId.inverse] using ho)
      have hcl : (sendAll c'.shared.frames [.close w.id.inverse]) = c'.shared.frames.appendClose w.id.inverse := rfl
      rw [hcl, h2, List.nil_append] at hb'
      refine ⟨?_, hf, ?_⟩
      · rw [show (c'.shared.frames.appendClose w.id.inverse).transport = c'.shared.frames.transport by
          cases w.id <;> rfl, ← h1]
        simp [FrameStream.new]
      · rw [hb']
        have : [OutFrame.close w.id.inverse].map OutFrame.seen = [] ++ [⟨w.id.inverse, .close, []⟩] := rfl
        rw [this] at hf'
        generalize hfs : ([] ++ [⟨w.id.inverse, .close, []⟩] : List Frame) = fs at hf'
        cases hf' with
        | nil => cases hfs
        | snoc h0 hf0 =>
          have := List.append_inj' hfs rfl
          obtain ⟨rfl, h3⟩ := this
          cases h3
          cases frames_nil_inv h0
          simpa using hf0

/-! ### C71: the end of a stream -/

/-- The transport has reported its end among the answers already used. -/
def Ended (t : Transport) (c : Conn) : Prop :=
  ∃ used, t.reads = used ++ c.shared.frames.transport.reads ∧ .ready [] ∈ used

/-- **C71**, as stated: a read with room that returns no bytes means that the peer has closed the stream or the
transport has ended. -/
def C71_statement : Prop :=
  ∀ (t : Transport) (ops : List Op) (h room : Nat) (w : Handle), connects ops < 2 ^ 64 - 33 →
    ((Conn.new t).run ops).2.1.handles[h]? = some w → 0 < room →
    (((Conn.new t).run ops).2.1.step (.read h room)).1 = .bytes [] →
    Ended t (((Conn.new t).run ops).2.1.step (.read h room)).2.1 ∨
    ∃ d, ⟨w.id, .close, d⟩ ∈ takenIn (((Conn.new t).run ops).2.2 ++ (((Conn.new t).run ops).2.1.step (.read h room)).2.2)

/-- **C71** is false: an empty message, which a peer may send at any time, reads like the end of the stream. -/
theorem C71_false : ¬ C71_statement := by
  intro h
  have := h ⟨[.ready [8, 0, 10, 0]], [], [], [], []⟩ [.accept] 0 5 ⟨.initiator 1, none⟩ (by decide)
    (by decide +kernel) (by decide) (by decide +kernel)
  rcases this with ⟨used, hu, hm⟩ | ⟨d, hd⟩
  · have hin : ReadEvent.ready [] ∈ [ReadEvent.ready [8, 0, 10, 0]] := by
      have : (⟨[.ready [8, 0, 10, 0]], [], [], [], []⟩ : Transport).reads = [ReadEvent.ready [8, 0, 10, 0]] := rfl
      rw [this] at hu
      rw [hu]; exact List.mem_append_left _ hm
    simp at hin
  · have ht : takenIn (((Conn.new ⟨[.ready [8, 0, 10, 0]], [], [], [], []⟩).run [.accept]).2.2 ++
        (((Conn.new ⟨[.ready [8, 0, 10, 0]], [], [], [], []⟩).run [.accept]).2.1.step (.read 0 5)).2.2) =
        [⟨.initiator 1, .new, []⟩, ⟨.initiator 1, .message, []⟩] := by decide +kernel
    rw [ht] at hd
    simp at hd

/-- **C71**, partial: a read with room that returns no bytes means that the transport has ended with nothing left over, or that
the last frame taken from it was addressed to this stream and was a close or had no payload. Missing: that a frame
without payload other than a close is not reported (`C71_false`). -/
theorem C71_end_partial (t : Transport) (ops : List Op) (h room : Nat) (w : Handle) (hn : connects ops < 2 ^ 64 - 33)
    (hw : ((Conn.new t).run ops).2.1.handles[h]? = some w) (hr : 0 < room)
    (he : (((Conn.new t).run ops).2.1.step (.read h room)).1 = .bytes []) :
    (Ended t (((Conn.new t).run ops).2.1.step (.read h room)).2.1 ∧
      (((Conn.new t).run ops).2.1.step (.read h room)).2.1.shared.frames.incoming = []) ∨
    ∃ f, (takenIn (((Conn.new t).run ops).2.2 ++ (((Conn.new t).run ops).2.1.step (.read h room)).2.2)).getLast? = some f ∧
      f.streamId = w.id ∧ (f.op = .close ∨ f.data = []) := by
  have hi := run_inv ops (c := Conn.new t) (inv_new t) (show 33 + connects ops < 2 ^ 64 by omega)
  rw [List.nil_append] at hi
  have heof : EofSeen t ((Conn.new t).run ops).2.1.shared.frames :=
    run_eof ops ⟨[], rfl, nofun⟩
  generalize (Conn.new t).run ops = R at *
  obtain ⟨as, c, evs⟩ := R
  simp only at *
  cases hp : c.poisoned with
  | true => rw [step_poisoned hp] at he; cases he
  | false =>
    have hs : c.step (.read h room) = c.read w.id room := by
      unfold Conn.step; simp [hp, hw]
    rw [hs] at he ⊢
    unfold Conn.read at he ⊢
    have hq := pollRead_nil c.shared w.id room hr
    have hfr := pollRead_frames c.shared w.id room
    obtain ⟨hst, -⟩ := pollFill_step c.shared hi.closed
    have hfi := fill_inv hi
    have hfe := pollFill_eof heof
    generalize c.shared.pollRead w.id room = P at he hq hfr
    generalize c.shared.pollFill = F at *
    obtain ⟨r, m', taken⟩ := P
    obtain ⟨fr, fm, ft⟩ := F
    rcases r with _ | (e | d)
    · cases he
    · cases e <;> cases he
    · cases he
      obtain ⟨-, hok, htk, hor⟩ := hq rfl
      simp only at hok htk hor hfr hst hfi hfe ⊢
      subst htk
      rcases hor with hnone | ⟨f, hf, hid, hop⟩
      · left
        obtain ⟨h1, h2, -⟩ := hst.ended hok hnone
        rw [hfr]
        refine ⟨?_, h1⟩
        obtain ⟨used, hu, hm⟩ := hfe
        exact ⟨used, by rw [hfr]; exact hu, hm h2⟩
      · right
        obtain ⟨g, hg, h1, h2, h3⟩ := hfi.last f hf
        refine ⟨g, ?_, by rw [← h1, hid], ?_⟩
        · rw [← List.append_assoc, takenIn_append, show takenIn [Event.got w.id []] = [] from rfl, List.append_nil]
          exact hg
        · rcases hop with h | h
          · exact .inl (by rw [← h2, h])
          · exact .inr (h3 h)

example : (((Conn.new ⟨[.ready [8, 0, 10, 1, 7, 12, 0]], [], [], [], []⟩).run [.accept, .read 0 5, .read 0 5])).1 =
    [.stream (.initiator 1), .bytes [7], .bytes []] := by decide +kernel

/-! ### C72: streams do not wait for each other -/

/-- **C72**, as stated: if a message for an open stream has arrived in full, a read on the stream does not wait,
whatever the other streams' users do. -/
def C72_statement : Prop :=
  ∀ (t : Transport) (ops : List Op) (h room : Nat) (w : Handle) (f : Frame) (fs : List Frame),
    connects ops < 2 ^ 64 - 33 → ((Conn.new t).run ops).2.1.poisoned = false →
    ((Conn.new t).run ops).2.1.handles[h]? = some w →
    (∃ o, owedAfter w.id none ((Conn.new t).run ops).2.2 = some (some o)) →
    Frames ((Conn.new t).run ops).2.1.shared.frames.incoming fs →
    f ∈ fs → f.streamId = w.id → f.op = .message →
    (((Conn.new t).run ops).2.1.step (.read h room)).1 ≠ .pending

/-- **C72** is false: while the user of one stream does not read, no other stream gets its data. -/
theorem C72_false : ¬ C72_statement := by
  intro h
  have hf1 : IsFrame [18, 3, 67, 68, 69] ⟨.initiator 2, .message, [67, 68, 69]⟩ := by
    obtain ⟨b, hb, hf⟩ := (nextFrame_some_iff [18, 3, 67, 68, 69] ⟨.initiator 2, .message, [67, 68, 69]⟩ []).mp
      (by rfl)
    rw [List.append_nil] at hb; rw [hb]; exact hf
  have hf2 : IsFrame [10, 1, 70] ⟨.initiator 1, .message, [70]⟩ := by
    obtain ⟨b, hb, hf⟩ := (nextFrame_some_iff [10, 1, 70] ⟨.initiator 1, .message, [70]⟩ []).mp (by rfl)
    rw [List.append_nil] at hb; rw [hb]; exact hf
  refine h exampleTransport [.accept, .accept, .read 1 10] 1 10 ⟨.initiator 2, none⟩
    ⟨.initiator 2, .message, [67, 68, 69]⟩ [⟨.initiator 2, .message, [67, 68, 69]⟩, ⟨.initiator 1, .message, [70]⟩]
    (by decide) (by decide +kernel) (by decide +kernel) ⟨[], by decide +kernel⟩ ?_ (by simp) rfl rfl (by decide +kernel)
  have : ((Conn.new exampleTransport).run [.accept, .accept, .read 1 10]).2.1.shared.frames.incoming =
      [18, 3, 67, 68, 69] ++ [10, 1, 70] := by decide +kernel
  rw [this]
  exact .snoc (.snoc .nil hf1) hf2

/-- **C72**, partial: a read waits only if no complete frame has arrived, or the last frame taken from the transport is for somebody
else who has not taken it yet. Missing: that it does not wait in the second case (`C72_false`). -/
theorem C72_waits_only_partial (t : Transport) (ops : List Op) (h room : Nat) (w : Handle)
    (hn : connects ops < 2 ^ 64 - 33) (hp : ((Conn.new t).run ops).2.1.poisoned = false)
    (hw : ((Conn.new t).run ops).2.1.handles[h]? = some w)
    (he : (((Conn.new t).run ops).2.1.step (.read h room)).1 = .pending) :
    (¬ ∃ b f rest, (((Conn.new t).run ops).2.1.step (.read h room)).2.1.shared.frames.incoming = b ++ rest ∧ IsFrame b f) ∨
    ∃ f, (takenIn (((Conn.new t).run ops).2.2 ++ (((Conn.new t).run ops).2.1.step (.read h room)).2.2)).getLast? = some f ∧
      f.streamId ≠ w.id ∧
      (f.op = .new ∨ ∃ o, owedAfter f.streamId none
        (((Conn.new t).run ops).2.2 ++ (((Conn.new t).run ops).2.1.step (.read h room)).2.2) = some (some o)) := by
  have hi := run_inv ops (c := Conn.new t) (inv_new t) (show 33 + connects ops < 2 ^ 64 by omega)
  rw [List.nil_append] at hi
  generalize (Conn.new t).run ops = R at *
  obtain ⟨as, c, evs⟩ := R
  simp only at *
  have hs : c.step (.read h room) = c.read w.id room := by
    unfold Conn.step; simp [hp, hw]
  rw [hs] at he ⊢
  unfold Conn.read at he ⊢
  have hfi := fill_inv hi
  obtain ⟨hst, -⟩ := pollFill_step c.shared hi.closed
  have hpe : c.shared.pollFill.1 = .pending → nextFrame c.shared.pollFill.2.1.frames.incoming = .ok none :=
    fillLoop_pending _ _
  unfold Shared.pollRead at he ⊢
  generalize c.shared.pollFill = F at *
  obtain ⟨fr, m, ft⟩ := F
  rcases fr with _ | (e | ⟨⟩)
  · left
    rintro ⟨b, f, rest, hb, hf⟩
    have h1 := hpe rfl
    have h2 := (nextFrame_some_iff m.frames.incoming f rest).mpr ⟨b, hb, hf⟩
    simp only at h1 h2
    rw [h1] at h2
    cases h2
  · cases e <;> cases he
  · right
    simp only at he hfi hst ⊢
    cases hinc : m.incoming with
    | none => simp [hinc] at he
    | some f =>
      simp only [hinc] at he ⊢
      by_cases hid : f.streamId = w.id
      · exfalso
        simp only [hid, if_true] at he
        split at he
        · rename_i heq
          split at heq
          · cases heq
          · split at heq <;> cases heq
        · rename_i e _ _ _
          cases e <;> cases he
        · cases he
      · simp only [hid, if_false] at he ⊢
        obtain ⟨g, hg, h1, h2, -⟩ := hfi.last f hinc
        refine ⟨g, hg, by rw [← h1]; exact hid, ?_⟩
        have hwant := hst.wanted (by rw [hinc]; nofun)
        by_cases hop : f.op = .new
        · exact .inl (by rw [← h2, hop])
        · right
          rw [hfi.owed, ← h1]
          unfold Shared.owed
          rw [if_pos (frameWanted_true hwant hinc hop)]
          exact ⟨_, rfl⟩

/-! ### C73: impossible headers -/

/-- **C73**, as stated: bytes that no continuation can turn into something that begins with a frame are refused, not
kept. -/
def C73_statement : Prop :=
  ∀ bs : Bytes, (∀ ext b f rest, bs ++ ext = b ++ rest → ¬ IsFrame b f) → nextFrame bs ≠ .ok none

/-- **C73** is false: as long as a peer sends only bytes with the high bit set, they are kept, however many. -/
theorem C73_false : ¬ C73_statement := by
  intro h
  refine h (List.replicate 11 0xff) ?_ (by rfl)
  rintro ext b f rest he ⟨num, flag, payload, ⟨p, l, rfl, ⟨i, x, rfl, hi, hx⟩, hlen, -⟩, -⟩
  simp only [List.length_append, List.length_singleton] at hlen
  have h1 : (List.replicate 11 0xff ++ ext)[i.length]? = some (0xff : UInt8) := by
    rw [List.getElem?_append_left (by simp; omega), List.getElem?_replicate, if_pos (by omega)]
  rw [he] at h1
  have h2 : (i ++ [x] ++ l ++ payload ++ rest)[i.length]? = some x := by simp
  rw [h2] at h1
  cases h1
  simp at hx

/-- And without a bound: any number of such bytes. -/
theorem C73_kept_without_bound_partial (n : Nat) : nextFrame (List.replicate n 0xff) = .ok none := by
  have : extractVarint (List.replicate n 0xff) = .ok none :=
    (extract_none_iff _).mpr (fun b hb => by rw [(List.mem_replicate.mp hb).2]; decide)
  simp [nextFrame, this]

/-- **C73**, partial: a header or a length that has arrived in full and is not valid (more than ten bytes, beyond 64 bits, or a
flag that is not defined) is refused at once. Missing: refusing before the last byte of it has arrived
(`C73_false`). -/
theorem C73_complete_refused_partial (h rest : Bytes) (hv : IsVarint h) :
    (10 < h.length ∨ 2 ^ 64 ≤ base128 h ∨ base128 h % 8 = 7 → nextFrame (h ++ rest) = .error (.io .invalidData)) ∧
    (∀ l rest', rest = l ++ rest' → IsVarint l → 10 < l.length ∨ 2 ^ 64 ≤ base128 l →
      nextFrame (h ++ rest) = .error (.io .invalidData)) := by
  have bad : ∀ h rest : Bytes, IsVarint h → (10 < h.length ∨ 2 ^ 64 ≤ base128 h) →
      extractVarint (h ++ rest) = .error (.io .invalidData) := by
    intro h rest hv hb
    cases he : extractVarint (h ++ rest) with
    | error e => rw [(extract_error he).1]
    | ok o =>
      exfalso
      cases o with
      | none =>
        have := (extract_none_iff _).mp he
        obtain ⟨i, x, rfl, -, hx⟩ := hv
        have := this x (by simp)
        omega
      | some v =>
        obtain ⟨v, r⟩ := v
        obtain ⟨p, hp, hpv, hpl, hpb, hlt⟩ := (extract_some_iff _ _ _).mp he
        obtain ⟨rfl, -⟩ := isVarint_unique hv hpv hp
        omega
  have good : ∀ h rest : Bytes, IsVarint h → ¬ (10 < h.length ∨ 2 ^ 64 ≤ base128 h) →
      extractVarint (h ++ rest) = .ok (some (base128 h, rest)) := fun h rest hv hb =>
    (extract_some_iff _ _ _).mpr ⟨h, rfl, hv, by omega, rfl, by omega⟩
  have flag7 : ∀ v, v % 8 = 7 → Flag.fromRaw (v % 256 % 8) = .error (.io .invalidData) := by
    intro v hv7
    rw [show v % 256 % 8 = 7 by omega]
    rfl
  by_cases hb : 10 < h.length ∨ 2 ^ 64 ≤ base128 h
  · exact ⟨fun _ => by simp [nextFrame, bad h rest hv hb], fun _ _ _ _ _ => by simp [nextFrame, bad h rest hv hb]⟩
  · refine ⟨fun h' => ?_, ?_⟩
    · have h7 : base128 h % 8 = 7 := by
        rcases h' with h' | h' | h'
        · exact (hb (.inl h')).elim
        · exact (hb (.inr h')).elim
        · exact h'
      simp only [nextFrame, good h rest hv hb, flag7 _ h7]
    · rintro l rest' rfl hl hlb
      have := bad l rest' hl hlb
      by_cases h7 : base128 h % 8 = 7
      · simp only [nextFrame, good h _ hv hb, flag7 _ h7]
      · obtain ⟨fl, hfl⟩ := fromRaw_ok (flag := base128 h % 256 % 8) (by omega)
        simp only [nextFrame, good h _ hv hb, hfl, this]

example : nextFrame [15, 0] = .error (.io .invalidData) := by rfl

end Ngfs.Mplex
