import Verif.Lemmas.Io

/-! Properties of length-prefixed messages and protocol negotiation: C39, C40, C74, C75. -/
namespace Ngfs.Io
open Varint Spec Spec.Io

/-! ### C40: length-prefixed messages -/

/-- **C40**: reading one message answers exactly what the bytes that arrive call for, however they are cut and whatever
pauses there are: it depends on `view r` only. -/
theorem C40_read_exact (r : Reader) (x : Except IoKind (Option Bytes)) :
    (readOptLengthPrefixed r).1 = .ready x ↔ Reads (view r) x := by
  have h := readOptLengthPrefixed_spec r
  generalize readOptLengthPrefixed r = P at h
  obtain ⟨y, r'⟩ := P
  cases y with
  | pending =>
    obtain ⟨bs, h1, h2⟩ := h
    rw [h1]
    exact ⟨nofun, fun h => (reads_not_unfinished h2 x h).elim⟩
  | ready z =>
    obtain ⟨h1, -⟩ := h
    constructor
    · rintro ⟨⟩; exact h1
    · intro h2; rw [reads_functional h1 h2]

/-- **C40**: a message that is read is taken from the stream with its length, and nothing more; the next read starts
right behind it. -/
theorem C40_takes_exactly_the_message (r : Reader) (data : Bytes)
    (h : (readOptLengthPrefixed r).1 = .ready (.ok (some data))) :
    ∃ m rest e, Prefixed m data ∧ view r = (m ++ rest, e) ∧ view (readOptLengthPrefixed r).2 = (rest, e) := by
  have hs := readOptLengthPrefixed_spec r
  generalize readOptLengthPrefixed r = P at h hs
  obtain ⟨y, r'⟩ := P
  cases h
  obtain ⟨m, h1, h2⟩ := hs.2 data rfl
  obtain ⟨rest, e, h3, h4⟩ := h2.view
  exact ⟨m, rest, e, h1, h3, h4⟩

/-- **C40**: reading waits for ever only if the bytes stop inside a message and no end is reported. -/
theorem C40_waits_only_inside (r : Reader) (h : (readOptLengthPrefixed r).1 = .pending) :
    ∃ bs, view r = (bs, .silent) ∧ Unfinished bs := by
  have hs := readOptLengthPrefixed_spec r
  generalize readOptLengthPrefixed r = P at h hs
  obtain ⟨y, r'⟩ := P
  cases h
  exact hs

/-- **C40**: a stream cut inside a written message is an error, wherever it is cut. -/
theorem C40_truncation_reported (r : Reader) (data cut missing : Bytes) (hd : data.length < 2 ^ 64)
    (hcut : framed data = cut ++ missing) (h1 : cut ≠ []) (h2 : missing ≠ []) (hv : view r = (cut, .eof)) :
    (readOptLengthPrefixed r).1 = .ready (.error .unexpectedEof) := by
  rw [C40_read_exact, hv]
  refine .cut ?_ h1
  have hvi := isVarint_encode data.length
  have hle := encode_length_le (k := 10) (v := data.length) (Nat.lt_trans hd (by decide)) (by decide)
  rcases Nat.lt_or_ge cut.length (encodeU64 data.length).length with hlt | hge
  · left
    obtain ⟨i, l, he, hi, -⟩ := hvi
    have hpre : cut = i.take cut.length := by
      have := congrArg (List.take cut.length) hcut
      rw [List.take_left, framed, List.take_append_of_le_length (by omega), he,
        List.take_append_of_le_length (by
          have := congrArg List.length he
          simp only [List.length_append, List.length_singleton] at this
          omega)] at this
      exact this.symm
    refine ⟨fun b hb => hi b ?_, by omega⟩
    rw [hpre] at hb
    exact List.mem_of_mem_take hb
  · right
    have hsplit : cut = encodeU64 data.length ++ cut.drop (encodeU64 data.length).length := by
      have h3 : cut.take (encodeU64 data.length).length = encodeU64 data.length := by
        have := congrArg (List.take (encodeU64 data.length).length) hcut
        rw [framed, List.take_left, List.take_append_of_le_length hge] at this
        exact this.symm
      conv => lhs; rw [← List.take_append_drop (encodeU64 data.length).length cut, h3]
    refine ⟨encodeU64 data.length, cut.drop (encodeU64 data.length).length, hsplit, hvi, hle, ?_⟩
    rw [base128_encode, Nat.mod_eq_of_lt hd]
    have h3 := congrArg List.length hcut
    have h4 := List.length_pos_iff.mpr h2
    simp only [framed, List.length_append, List.length_drop] at h3 ⊢
    omega

/-- Reading messages one after the other. -/
def readTimes : Nat → Reader → List (Poll (Except IoKind (Option Bytes)))
  | 0, _ => []
  | n + 1, r => (readOptLengthPrefixed r).1 :: readTimes n (readOptLengthPrefixed r).2

/-- Writing messages one after the other, as long as it succeeds. -/
def writeMany : Transport → List Bytes → Poll (Except IoKind Unit) × Transport
  | t, [] => (.ready (.ok ()), t)
  | t, m :: ms =>
    match writeLengthPrefixed t m with
    | (.ready (.ok ()), t') => writeMany t' ms
    | (x, t') => (x, t')

/-- **C40**, writing: a message written successfully has been given to the transport as its length and its bytes; one that
fails has been given to it in part. -/
theorem C40_written (t : Transport) (data : Bytes) (hd : data.length < 2 ^ 64) :
    ∃ m pre, Prefixed m data ∧ (writeLengthPrefixed t data).2.sent = t.sent ++ pre ∧ pre <+: m ∧
      ((writeLengthPrefixed t data).1 = .ready (.ok ()) → pre = m) := by
  obtain ⟨ws, pre, h1, h2, h3⟩ := writeLengthPrefixed_spec t data
  exact ⟨framed data, pre, framed_prefixed hd, by rw [h1], h2, h3⟩

theorem writeMany_spec (ms : List Bytes) : ∀ t, (∀ m ∈ ms, m.length < 2 ^ 64) →
    (writeMany t ms).1 = .ready (.ok ()) → ∃ bs, (writeMany t ms).2.sent = t.sent ++ bs ∧ Messages bs ms := by
  induction ms with
  | nil => intro t _ _; exact ⟨[], by simp [writeMany], .nil⟩
  | cons m ms ih =>
    intro t hm hw
    obtain ⟨ws, pre, h1, -, h3⟩ := writeLengthPrefixed_spec t m
    unfold writeMany at hw ⊢
    generalize writeLengthPrefixed t m = W at *
    obtain ⟨x, t1⟩ := W
    simp only at h1 h3
    rcases x with _ | (k | ⟨⟩)
    · simp at hw
    · simp at hw
    · simp only at hw ⊢
      obtain ⟨bs, h4, h5⟩ := ih t1 (fun x hx => hm x (List.mem_cons_of_mem _ hx)) hw
      refine ⟨framed m ++ bs, ?_, .cons (framed_prefixed (hm m List.mem_cons_self)) h5⟩
      rw [h4, h1, h3 rfl, List.append_assoc]

theorem readTimes_spec {bs : Bytes} {ms : List Bytes} (h : Messages bs ms) : ∀ (r : Reader) (e : End), view r = (bs, e) →
    readTimes ms.length r = ms.map (fun m => .ready (.ok (some m))) ∧
    (e = .eof → readTimes (ms.length + 1) r = ms.map (fun m => .ready (.ok (some m))) ++ [.ready (.ok none)]) := by
  induction h with
  | nil =>
    intro r e hv
    refine ⟨rfl, ?_⟩
    rintro rfl
    have := (C40_read_exact r (.ok none)).mpr (by rw [hv]; exact .over)
    simp [readTimes, this]
  | @cons b bs m ms hb _ ih =>
    intro r e hv
    have h1 := (C40_read_exact r (.ok (some m))).mpr (by rw [hv]; exact .message _ _ hb)
    obtain ⟨m', rest, e', h2, h3, h4⟩ := C40_takes_exactly_the_message r m h1
    rw [hv] at h3
    have h5 := congrArg Prod.fst h3
    have h6 : e = e' := congrArg Prod.snd h3
    obtain ⟨-, -, rfl⟩ := prefixed_unique hb h2 h5
    subst h6
    obtain ⟨h7, h8⟩ := ih _ _ h4
    refine ⟨?_, fun he => ?_⟩
    · simp only [List.length_cons, readTimes, List.map_cons, h1, h7]
    · simp only [List.length_cons, List.map_cons, List.cons_append]
      rw [readTimes, h1, h8 he]

/-- **C40**, round trip: messages written one after the other and delivered in any pieces with any pauses are read back, and
then the end of the stream is reported. -/
theorem C40_round_trip (t t' : Transport) (ms : List Bytes) (hm : ∀ m ∈ ms, m.length < 2 ^ 64) (ht : t.sent = [])
    (hw : (writeMany t ms).1 = .ready (.ok ())) (hd : content t'.reads = ((writeMany t ms).2.sent, .eof)) :
    readTimes (ms.length + 1) ⟨t', []⟩ = ms.map (fun m => .ready (.ok (some m))) ++ [.ready (.ok none)] := by
  obtain ⟨bs, h1, h2⟩ := writeMany_spec ms t hm hw
  rw [ht, List.nil_append] at h1
  exact (readTimes_spec h2 ⟨t', []⟩ .eof (by simp [view, hd, h1])).2 rfl

example : (writeMany ⟨[], [.accept 1, .pending, .accept 9, .accept 9, .accept 9], [], [], []⟩ [[7, 8], []]).1 =
      .ready (.ok ()) ∧
    content [.pending, .ready [2], .ready [7], .pending, .ready [8, 0], .ready []] =
      ((writeMany ⟨[], [.accept 1, .pending, .accept 9, .accept 9, .accept 9], [], [], []⟩ [[7, 8], []]).2.sent, .eof) := by
  decide +kernel

example : readTimes 3 ⟨⟨[.pending, .ready [2], .ready [7], .pending, .ready [8, 0], .ready []], [], [], [], []⟩, []⟩ =
    [.ready (.ok (some [7, 8])), .ready (.ok (some [])), .ready (.ok none)] := by decide +kernel

example : readTimes 1 ⟨⟨[.ready [2], .ready [7], .ready []], [], [], [], []⟩, []⟩ = [.ready (.error .unexpectedEof)] := by
  decide +kernel

/-! ### C39: negotiation -/

theorem request_view (r : Reader) (data : Bytes) : view (request r data).2 = view r := by
  obtain ⟨ws, fl, pre, h, -, -⟩ := request_spec r data
  rw [h]; rfl

theorem readLengthPrefixed_ok (r : Reader) (data : Bytes) :
    (readLengthPrefixed r).1 = .ready (.ok data) ↔ (readOptLengthPrefixed r).1 = .ready (.ok (some data)) := by
  unfold readLengthPrefixed orEof
  generalize readOptLengthPrefixed r = P
  obtain ⟨x, r'⟩ := P
  rcases x with _ | (k | (_ | v)) <;> simp

theorem readLengthPrefixed_snd (r : Reader) : (readLengthPrefixed r).2 = (readOptLengthPrefixed r).2 := by
  unfold readLengthPrefixed orEof
  generalize readOptLengthPrefixed r = P
  obtain ⟨x, r'⟩ := P
  rcases x with _ | (k | (_ | v)) <;> rfl

/-- **C39**, exact: once the request has been sent, a protocol counts as accepted exactly if the remote's next message is
its name, and as unsupported exactly if it is `na`. -/
theorem C39_select_exact (r : Reader) (protocol : Bytes) (hreq : (request r protocol).1 = .ready (.ok ())) :
    ((select r protocol).1 = .ready (.ok .accepted) ↔ ∃ m rest e, view r = (m ++ rest, e) ∧ Prefixed m protocol) ∧
    ((select r protocol).1 = .ready (.ok .unsupported) ↔
      protocol ≠ naMessage ∧ ∃ m rest e, view r = (m ++ rest, e) ∧ Prefixed m naMessage) := by
  have hv := request_view r protocol
  have hread : ∀ data, (readLengthPrefixed (request r protocol).2).1 = .ready (.ok data) ↔
      ∃ m rest e, view r = (m ++ rest, e) ∧ Prefixed m data := by
    intro data
    rw [readLengthPrefixed_ok, ← hv]
    constructor
    · intro h
      obtain ⟨m, rest, e, h1, h2, -⟩ := C40_takes_exactly_the_message _ _ h
      exact ⟨m, rest, e, h2, h1⟩
    · rintro ⟨m, rest, e, h1, h2⟩
      rw [C40_read_exact, h1]
      exact .message _ _ h2
  unfold select
  generalize request r protocol = Q at *
  obtain ⟨q, r1⟩ := Q
  simp only at hreq hread
  subst hreq
  simp only
  rw [← hread, ← hread]
  generalize readLengthPrefixed r1 = P
  obtain ⟨x, r2⟩ := P
  rcases x with _ | (k | data)
  · simp
  · simp
  · simp only
    by_cases h1 : data = protocol
    · subst h1; simp
    · by_cases h2 : data = naMessage
      · subst h2; simp [h1, Ne.symm h1]
      · simp [h1, h2]

theorem select_accepted {r : Reader} {protocol : Bytes} (h : (select r protocol).1 = .ready (.ok .accepted)) :
    ∃ m rest e, view r = (m ++ rest, e) ∧ Prefixed m protocol ∧ view (select r protocol).2 = (rest, e) ∧
      (select r protocol).2.t.sent = r.t.sent ++ framed protocol := by
  obtain ⟨ws, fl, pre, hq, -, hpre⟩ := request_spec r protocol
  have hv := request_view r protocol
  unfold select at h ⊢
  generalize request r protocol = Q at *
  obtain ⟨q, r1⟩ := Q
  rcases q with _ | (k | ⟨⟩)
  · simp at h
  · simp at h
  · simp only at h hq hv hpre ⊢
    have hl := readLengthPrefixed_ok r1
    have hs := readOptLengthPrefixed_spec r1
    have h2 := readLengthPrefixed_snd r1
    generalize readOptLengthPrefixed r1 = P at hl hs h2
    generalize readLengthPrefixed r1 = R at *
    obtain ⟨y, r2⟩ := R
    rcases y with _ | (k | data)
    · simp at h
    · simp at h
    · simp only at h hl h2 ⊢
      by_cases h1 : data = protocol
      · subst h1
        simp only [if_true] at h ⊢
        have hp := (hl data).mp rfl
        obtain ⟨px, pr⟩ := P
        simp only at hp h2
        subst hp h2
        obtain ⟨m, h3, h4⟩ := hs.2 data rfl
        obtain ⟨rest, e, h5, h6⟩ := h4.view
        refine ⟨m, rest, e, by rw [← hv, h5], h3, h6, ?_⟩
        rw [h4.t]
        show r1.t.sent = _
        rw [hq, hpre trivial]
      · rw [if_neg h1] at h
        split at h <;> cases h

theorem handshake_ok {r : Reader} (h : (handshake r).1 = .ready (.ok ())) :
    (select r multistreamId).1 = .ready (.ok .accepted) ∧ (handshake r).2 = (select r multistreamId).2 := by
  unfold handshake at h ⊢
  generalize select r multistreamId = P at h
  obtain ⟨x, r'⟩ := P
  rcases x with _ | (k | (_ | _)) <;> simp_all

/-- **C39**: negotiation succeeds only if the remote sent the negotiation header and then exactly the name of the
protocol, each as one message; it has then been sent the header and the name, and whatever the remote sent behind its
answer is still there for the protocol to read. -/
theorem C39_negotiated (r : Reader) (protocol : Bytes) (h : (negotiate r protocol).1 = .ready (.ok .accepted)) :
    ∃ m1 m2 rest e, view r = (m1 ++ (m2 ++ rest), e) ∧ Prefixed m1 multistreamId ∧ Prefixed m2 protocol ∧
      view (negotiate r protocol).2 = (rest, e) ∧
      (negotiate r protocol).2.t.sent = r.t.sent ++ framed multistreamId ++ framed protocol := by
  unfold negotiate at h ⊢
  have hh := @handshake_ok r
  generalize handshake r = H at *
  obtain ⟨x, r1⟩ := H
  rcases x with _ | (k | ⟨⟩)
  · simp at h
  · simp at h
  · simp only at h hh ⊢
    obtain ⟨h1, rfl⟩ := hh trivial
    obtain ⟨m1, rest1, e1, h2, h3, h4, h5⟩ := select_accepted h1
    obtain ⟨m2, rest2, e2, h6, h7, h8, h9⟩ := select_accepted h
    rw [h4] at h6
    cases h6
    exact ⟨m1, m2, rest2, e1, h2, h3, h7, h8, by rw [h9, h5]⟩

/-- **C39**: any other answer to the header is an error, and nothing is negotiated. -/
theorem C39_no_header_no_protocol (r : Reader) (protocol : Bytes)
    (h : ¬ ∃ m rest e, view r = (m ++ rest, e) ∧ Prefixed m multistreamId) (x : SelectResponse) :
    (negotiate r protocol).1 ≠ .ready (.ok x) := by
  unfold negotiate
  have hh := @handshake_ok r
  generalize handshake r = H at *
  obtain ⟨y, r1⟩ := H
  rcases y with _ | (k | ⟨⟩)
  · simp
  · simp
  · exfalso
    obtain ⟨h1, -⟩ := hh rfl
    obtain ⟨m, rest, e, h2, h3, -⟩ := select_accepted h1
    exact h ⟨m, rest, e, h2, h3⟩

example : (negotiate ⟨⟨[.ready (framed multistreamId), .pending, .ready [3, 47, 120], .ready [10, 99]],
      List.replicate 9 (.accept 99), [.ok, .ok], [], []⟩, []⟩ [47, 120, 10]).1 = .ready (.ok .accepted) := by
  decide +kernel

example : (select ⟨⟨[.ready [3, 110, 97, 10]], List.replicate 9 (.accept 99), [.ok, .ok], [], []⟩, []⟩ [47, 120, 10]).1 =
    .ready (.ok .unsupported) := by decide +kernel

/-! ### C74: the list of protocols -/

/-- **C74**, as stated: a list of protocols is returned only if the remote sent all of it. -/
def C74_statement : Prop :=
  ∀ (r : Reader) (names : List Bytes), (list r).1 = .ready (.ok names) →
    ∃ p body rest e, view r = (p ++ (body ++ rest), e) ∧ IsVarint p ∧ p.length ≤ 10 ∧
      body.length = base128 p % 2 ^ 64 ∧ Messages body names

/-- **C74** is false: a list cut anywhere is returned as if it was complete. Here ten bytes are announced and two
arrive. -/
theorem C74_false : ¬ C74_statement := by
  intro h
  obtain ⟨p, body, rest, e, hv, hp, -, hl, -⟩ := h
    ⟨⟨[.ready [10, 5, 97], .ready []], List.replicate 9 (.accept 99), [.ok], [], []⟩, []⟩ [] (by decide +kernel)
  have hv' : (([10, 5, 97] : Bytes), End.eof) = (p ++ (body ++ rest), e) := hv
  have h1 : [10] ++ [5, 97] = p ++ (body ++ rest) := congrArg Prod.fst hv'
  obtain ⟨rfl, h2⟩ := Mplex.isVarint_unique ⟨[], 10, rfl, by simp, by decide⟩ hp h1
  have h3 := congrArg List.length h2
  simp [base128] at hl
  simp only [List.length_append, List.length_cons, List.length_nil] at h3
  omega

theorem listLoop_spec (fuel : Nat) : ∀ (r : Reader) (acc names : List Bytes), scriptSize r.t.reads < fuel →
    (listLoop fuel r acc).1 = .ready (.ok names) →
    ∃ new bs left e, names = acc ++ new ∧ view r = (bs ++ left, e) ∧ Messages bs new ∧
      (left = [] ∨ Unfinished left) ∧ (e = .eof ∨ e = .error .unexpectedEof) := by
  induction fuel with
  | zero => intro r acc names h; omega
  | succ fuel ih =>
    intro r acc names hf h
    have hs := readOptLengthPrefixed_spec r
    unfold listLoop readLengthPrefixed at h
    generalize readOptLengthPrefixed r = P at hs h
    obtain ⟨x, r1⟩ := P
    have over : ∀ (y : Except IoKind (Option Bytes)), Reads (view r) y → (y = .ok none ∨ y = .error .unexpectedEof) →
        ∃ left e, view r = (left, e) ∧ (left = [] ∨ Unfinished left) ∧ (e = .eof ∨ e = .error .unexpectedEof) := by
      intro y hy hor
      generalize view r = V at hy ⊢
      cases hy with
      | message rest e hm => rcases hor with h | h <;> cases h
      | over => exact ⟨[], _, rfl, .inl rfl, .inl rfl⟩
      | overBroken => exact ⟨[], _, rfl, .inl rfl, .inr rfl⟩
      | tooLong rest e h1 h2 h3 => rcases hor with h | h <;> cases h
      | cut hu h0 => exact ⟨_, _, rfl, .inr hu, .inl rfl⟩
      | broken hu h0 =>
        rcases hor with h | h
        · cases h
        · cases h; exact ⟨_, _, rfl, .inr hu, .inr rfl⟩
    rcases x with _ | (k | (_ | p))
    · simp [orEof] at h
    · simp only [orEof] at h
      split at h
      · rename_i hk
        subst hk
        cases h
        obtain ⟨left, e, h1, h2, h3⟩ := over _ hs.1 (.inr rfl)
        exact ⟨[], [], left, e, by simp, by simpa using h1, .nil, h2, h3⟩
      · cases h
    · simp only [orEof, if_true] at h
      cases h
      obtain ⟨left, e, h1, h2, h3⟩ := over _ hs.1 (.inl rfl)
      exact ⟨[], [], left, e, by simp, by simpa using h1, .nil, h2, h3⟩
    · simp only [orEof] at h
      obtain ⟨m, hm, ht⟩ := hs.2 p rfl
      have hsz := ht.size
      have hpos := List.length_pos_iff.mpr (prefixed_ne_nil hm)
      obtain ⟨new, bs, left, e, h1, h2, h3, h4, h5⟩ := ih r1 _ _ (by omega) h
      obtain ⟨b0, e0, hv, hv1⟩ := ht.view
      rw [h2] at hv1
      cases hv1
      exact ⟨p :: new, m ++ bs, left, e, by simp [h1], by rw [hv, List.append_assoc], .cons hm h3, h4, h5⟩

/-- **C74**, partial: the names returned are the first messages of what the remote sent behind the announced length, cut
at that length; what follows them before the cut, the end or the breakdown of the stream is not a whole message. At most
65536 bytes are announced. Missing: that nothing follows and that the announced length has arrived
(`C74_false`). -/
theorem C74_names_partial (r : Reader) (names : List Bytes) (h : (list r).1 = .ready (.ok names)) :
    ∃ p after e bs left e', view r = (p ++ after, e) ∧ IsVarint p ∧ p.length ≤ 10 ∧ base128 p % 2 ^ 64 ≤ 65536 ∧
      trunc (base128 p % 2 ^ 64) (after, e) = (bs ++ left, e') ∧ Messages bs names ∧
      (left = [] ∨ Unfinished left) ∧ (e' = .eof ∨ e' = .error .unexpectedEof) := by
  have hv := request_view r lsMessage
  unfold list at h
  generalize request r lsMessage = Q at *
  obtain ⟨q, r1⟩ := Q
  rcases q with _ | (k | ⟨⟩)
  · simp at h
  · simp at h
  · simp only at h hv
    have hs := readOptVarint_spec r1
    unfold readVarint at h
    generalize readOptVarint r1 = V at *
    obtain ⟨x, r2⟩ := V
    rcases x with _ | (k | (_ | v))
    · simp [orEof] at h
    · simp [orEof] at h
    · simp [orEof] at h
    · simp only [orEof] at h
      obtain ⟨p, h1, h2, h3⟩ := hs
      simp only at h1 h3
      obtain ⟨hp1, hp2, hp3⟩ := feed_finished h3
      split at h
      · cases h
      · rename_i hle
        simp only at h
        obtain ⟨new, bs, left, e', h4, h5, h6, h7, h8⟩ := listLoop_spec _ (r2.take v) [] names (Nat.lt_succ_self _) h
        rw [List.nil_append] at h4
        subst h4
        obtain ⟨after, e, hv1, hv2⟩ := h1.view
        refine ⟨p, after, e, bs, left, e', by rw [← hv, hv1], hp1, hp2, by rw [← hp3]; omega, ?_, h6, h7, h8⟩
        rw [← hp3, ← hv2, ← h5]
        rfl

/-- Two names. -/
example : (list ⟨⟨[.ready [5, 2, 47], .ready [97, 1, 98, 7], .ready []], List.replicate 9 (.accept 99), [.ok], [], []⟩, []⟩).1 =
    .ready (.ok [[47, 97], [98]]) := by decide +kernel

/-! ### C75: answering requests -/

/-- **C75**, as stated: when a service is started for a peer, the peer has been told the name of that service. -/
def C75_statement : Prop :=
  ∀ (services : List Bytes) (r : Reader) (s : Bytes), (serve services r).1 = .ready (.ok (some s)) →
    ∃ before, (serve services r).2.t.sent = before ++ framed s

/-- The bytes of `/ipfs/bitswap/1.2.0\n`. -/
def bitswapProtocol : Bytes :=
  [47, 105, 112, 102, 115, 47, 98, 105, 116, 115, 119, 97, 112, 47, 49, 46, 50, 46, 48, 10]

/-- A peer that asks for bitswap. -/
def bitswapPeer : Reader :=
  ⟨⟨[.ready (framed multistreamId), .ready (framed bitswapProtocol)], List.replicate 9 (.accept 99), [.ok, .ok], [], []⟩, []⟩

/-- **C75** is false: whatever the service, the peer is told `/ipfs/id/1.0.0`. -/
theorem C75_false : ¬ C75_statement := by
  intro h
  obtain ⟨before, hb⟩ := h [idProtocol, bitswapProtocol] bitswapPeer bitswapProtocol (by decide +kernel)
  have h1 : (serve [idProtocol, bitswapProtocol] bitswapPeer).2.t.sent = framed multistreamId ++ framed idProtocol := by
    decide +kernel
  have h2 : (framed multistreamId ++ framed idProtocol).reverse[3]? = (before ++ framed bitswapProtocol).reverse[3]? := by
    rw [← h1, hb]
  rw [List.reverse_append, List.getElem?_append_left (by decide +kernel), List.reverse_append,
    List.getElem?_append_left (by decide +kernel)] at h2
  revert h2
  decide +kernel

theorem serveLoop_spec (services : List Bytes) (fuel : Nat) : ∀ (r : Reader) (s : Bytes), scriptSize r.t.reads < fuel →
    (serveLoop services fuel r).1 = .ready (.ok (some s)) →
    ∃ asked bs rest e, view r = (bs ++ rest, e) ∧ Messages bs (asked ++ [s]) ∧ (∀ a ∈ asked, a ∉ services) ∧ s ∈ services ∧
      view (serveLoop services fuel r).2 = (rest, e) ∧
      (serveLoop services fuel r).2.t.sent =
        r.t.sent ++ (List.replicate asked.length (framed naMessage)).flatten ++ framed idProtocol := by
  induction fuel with
  | zero => intro r s h; omega
  | succ fuel ih =>
    intro r s hf h
    have hs := readOptLengthPrefixed_spec r
    unfold serveLoop at h ⊢
    generalize readOptLengthPrefixed r = P at hs h
    obtain ⟨x, r1⟩ := P
    rcases x with _ | (k | (_ | data))
    · simp at h
    · simp at h
    · simp at h
    · simp only at h ⊢
      obtain ⟨m, hm, ht⟩ := hs.2 data rfl
      have hsz := ht.size
      have hpos := List.length_pos_iff.mpr (prefixed_ne_nil hm)
      obtain ⟨b0, e0, hv, hv1⟩ := ht.view
      have hsent : r1.t.sent = r.t.sent := by rw [ht.t]
      by_cases hc : services.contains data = true
      · simp only [hc, if_true] at h ⊢
        obtain ⟨ws, fl, pre, hq, -, hpre⟩ := request_spec r1 idProtocol
        have hrv := request_view r1 idProtocol
        generalize request r1 idProtocol = Q at *
        obtain ⟨q, r2⟩ := Q
        rcases q with _ | (k | ⟨⟩)
        · simp at h
        · simp at h
        · simp only at h hq hrv hpre ⊢
          cases h
          refine ⟨[], m, b0, e0, hv, by simpa using Messages.cons hm .nil, by simp, by simpa using hc, by rw [hrv, hv1], ?_⟩
          rw [hq, hpre trivial]
          simp [hsent]
      · simp only [hc] at h ⊢
        obtain ⟨ws, fl, pre, hq, -, hpre⟩ := request_spec r1 naMessage
        have hrv := request_view r1 naMessage
        generalize request r1 naMessage = Q at *
        obtain ⟨q, r2⟩ := Q
        rcases q with _ | (k | ⟨⟩)
        · simp at h
        · simp at h
        · simp only [Bool.false_eq_true, if_false] at h hq hrv hpre ⊢
          obtain ⟨asked, bs, rest, e, h1, h2, h3, h4, h5, h6⟩ := ih r2 s (by
            rw [hq]; simp only; omega) h
          rw [hrv, hv1] at h1
          cases h1
          refine ⟨data :: asked, m ++ bs, rest, e0, by rw [hv, List.append_assoc], .cons hm h2, ?_, h4, h5, ?_⟩
          · intro a ha
            rcases List.mem_cons.mp ha with rfl | ha
            · simpa using hc
            · exact h3 a ha
          · rw [h6, hq, hpre trivial]
            simp only [List.length_cons, List.replicate_succ, List.flatten_cons, hsent, List.append_assoc]

/-- **C75**, partial: a service is started only if the peer sent the negotiation header and then, possibly after asking for
others that are not offered, its exact name; each of the others has been answered with `na`, and what the peer sent behind
its request is left for the service. The final answer is always `/ipfs/id/1.0.0`. Missing: that it is the name of the
service (`C75_false`). -/
theorem C75_served_partial (services : List Bytes) (r : Reader) (s : Bytes)
    (h : (serve services r).1 = .ready (.ok (some s))) :
    ∃ m asked bs rest e, view r = (m ++ (bs ++ rest), e) ∧ Prefixed m multistreamId ∧ Messages bs (asked ++ [s]) ∧
      (∀ a ∈ asked, a ∉ services) ∧ s ∈ services ∧ view (serve services r).2 = (rest, e) ∧
      (serve services r).2.t.sent = r.t.sent ++ framed multistreamId ++
        (List.replicate asked.length (framed naMessage)).flatten ++ framed idProtocol := by
  unfold serve at h ⊢
  have hh := @handshake_ok r
  generalize handshake r = H at *
  obtain ⟨x, r1⟩ := H
  rcases x with _ | (k | ⟨⟩)
  · simp at h
  · simp at h
  · simp only at h hh ⊢
    obtain ⟨h1, rfl⟩ := hh trivial
    obtain ⟨m1, rest1, e1, h2, h3, h4, h5⟩ := select_accepted h1
    obtain ⟨asked, bs, rest, e, h6, h7, h8, h9, h10, h11⟩ := serveLoop_spec services _ _ s (Nat.lt_succ_self _) h
    rw [h4] at h6
    cases h6
    exact ⟨m1, asked, bs, rest, e1, h2, h3, h7, h8, h9, h10, by rw [h11, h5]⟩

example : (serve [idProtocol] ⟨⟨[.ready (framed multistreamId ++ framed [47, 120, 10] ++ framed idProtocol)],
    List.replicate 9 (.accept 99), [.ok, .ok, .ok], [], []⟩, []⟩).1 = .ready (.ok (some idProtocol)) := by decide +kernel

end Ngfs.Io
