import Verif.Props.TlsRead
import Verif.Props.IoFailure
import Verif.Model.Ipfs

/-!
C208: length-prefixed messages that are read over a TLS connection.
-/
namespace Ngfs.Ipfs
open Io Tls Spec Spec.Io

/-! ### What a TLS connection delivers -/

theorem content_overTls (evs : List ConnEvent) : (content (readAnswers evs)).1 <+: Tls.readBytes evs := by
  induction evs with
  | nil => exact List.nil_prefix
  | cons ev evs ih =>
    cases ev with
    | read room x =>
      rcases x with _ | (e | d)
      · exact ih
      · exact List.nil_prefix
      · cases d with
        | nil => exact List.nil_prefix
        | cons b d =>
          show b :: d ++ (content (readAnswers evs)).1 <+: b :: d ++ Tls.readBytes evs
          exact (List.prefix_append_right_inj _).mpr ih
    | write buf x => rcases x with _ | (e | n) <;> exact ih
    | flush x => rcases x with _ | (e | ⟨⟩) <;> exact ih
    | shutdown x => rcases x with _ | (e | ⟨⟩) <;> exact ih

/-- An end or a failure of what a connection delivers is the answer to a read. -/
theorem content_end (evs : List ConnEvent) :
    ((content (readAnswers evs)).2 = .eof → ∃ room, .read room (.ready (.ok [])) ∈ evs) ∧
    ∀ k, (content (readAnswers evs)).2 = .error k → ∃ room e, .read room (.ready (.error e)) ∈ evs ∧ ioKind e = k := by
  induction evs with
  | nil => exact ⟨nofun, nofun⟩
  | cons ev evs ih =>
    have later : ((content (readAnswers evs)).2 = .eof → ∃ room, .read room (.ready (.ok [])) ∈ ev :: evs) ∧
        ∀ k, (content (readAnswers evs)).2 = .error k → ∃ room e, .read room (.ready (.error e)) ∈ ev :: evs ∧ ioKind e = k := by
      refine ⟨fun h => ?_, fun k h => ?_⟩
      · obtain ⟨room, h⟩ := ih.1 h
        exact ⟨room, List.mem_cons_of_mem _ h⟩
      · obtain ⟨room, e, h, hk⟩ := ih.2 k h
        exact ⟨room, e, List.mem_cons_of_mem _ h, hk⟩
    cases ev with
    | read room x =>
      rcases x with _ | (e | d)
      · exact later
      · refine ⟨nofun, fun k hk => ?_⟩
        cases hk
        exact ⟨room, e, List.mem_cons_self, rfl⟩
      · cases d with
        | nil => exact ⟨fun _ => ⟨room, List.mem_cons_self⟩, nofun⟩
        | cons b d => exact later
    | write buf x => rcases x with _ | (e | n) <;> exact later
    | flush x => rcases x with _ | (e | ⟨⟩) <;> exact later
    | shutdown x => rcases x with _ | (e | ⟨⟩) <;> exact later

theorem room_of_read {X K : Type} (cr : Crypto X K) (ops : List ConnOp) : ∀ (c : Conn) (room : Nat) (x : Poll (Except TlsErr Bytes)),
    .read room x ∈ (connRun cr c ops).1 → ConnOp.read room ∈ ops := by
  induction ops with
  | nil => intro c room x h; cases h
  | cons op ops ih =>
    intro c room x h
    rcases List.mem_cons.mp h with h | h
    · cases op with
      | read room' =>
        cases h
        exact List.mem_cons_self
      | write buf => cases h
      | flush => cases h
      | shutdown => cases h
    · exact List.mem_cons_of_mem _ (ih _ _ _ h)

/-- Messages that were read one after the other stand in this order at the beginning of what arrived, and reading goes on behind
them. -/
theorem readTimes_messages (ms : List Bytes) : ∀ (r : Reader) (more : List (Poll (Except IoKind (Option Bytes)))) (n : Nat),
    readTimes n r = ms.map (fun m => .ready (.ok (some m))) ++ more →
    ∃ bs rest e r', Messages bs ms ∧ view r = (bs ++ rest, e) ∧ view r' = (rest, e) ∧ readTimes (n - ms.length) r' = more := by
  induction ms with
  | nil => intro r more n h; exact ⟨[], (view r).1, (view r).2, r, .nil, rfl, rfl, h⟩
  | cons m ms ih =>
    intro r more n h
    cases n with
    | zero => cases h
    | succ n =>
      rw [readTimes, List.map_cons, List.cons_append] at h
      injection h with h1 h2
      obtain ⟨b, rest, e, hb, hv, hv'⟩ := C40_takes_exactly_the_message r m h1
      obtain ⟨bs, rest', e', r', i1, i2, i3, i4⟩ := ih _ _ _ h2
      rw [hv'] at i2
      cases i2
      refine ⟨b ++ bs, rest', e, r', .cons hb i1, by rw [hv, List.append_assoc], i3, ?_⟩
      rw [← i4, List.length_cons, Nat.add_sub_add_right]

/-! ### C208 -/

/-- **C208**: the messages that are read one after the other over a TLS connection, whatever reads, writes and other calls are made of
it and whatever happens on the network, stand in this order at the beginning of the data that the peer has authenticated. -/
theorem C208_messages {X K : Type} (cr : Crypto X K) (c : Conn)
    (hiv : c.seqenc.trafficSecrets.server.writeIv.length = 12) (hact : c.readState = .active)
    (hfresh : c.incomingDecrypted = []) (ops : List ConnOp) (n : Nat) (ms : List Bytes)
    (more : List (Poll (Except IoKind (Option Bytes))))
    (h : readTimes n ⟨overTls (connRun cr c ops).1, []⟩ = ms.map (fun m => .ready (.ok (some m))) ++ more) :
    ∃ all taken msgs bs rest, Received cr c (connRun cr c ops).2 all taken msgs ∧ Messages bs ms ∧ appData msgs = bs ++ rest := by
  obtain ⟨all, taken, msgs, hr, hd, -⟩ := C60_read_stream cr c hiv hact hfresh ops
  obtain ⟨bs, rest, e, -, hm, hv, -, -⟩ := readTimes_messages ms _ _ _ h
  have hp := content_overTls (connRun cr c ops).1
  have hv1 : (content (readAnswers (connRun cr c ops).1)).1 = bs ++ rest := congrArg Prod.fst hv
  rw [hv1] at hp
  obtain ⟨tail, ht⟩ := hp
  exact ⟨all, taken, msgs, bs, rest ++ (tail ++ (connRun cr c ops).2.incomingDecrypted), hr, hm, by
    rw [← hd, ← ht]; simp only [List.append_assoc]⟩

/-- **C208**, the claim about the end: it is reported, behind any number of messages, only if the peer has authenticated it: by
"close notify", or by a record without data, which also counts as one (C28). -/
def C208_statement : Prop :=
  ∀ (X K : Type) (cr : Crypto X K) (c : Conn) (ops : List ConnOp) (n : Nat) (ms : List Bytes), cr.Correct →
    c.seqenc.trafficSecrets.server.writeIv.length = 12 → c.readState = .active → c.incomingDecrypted = [] →
    (∀ room, .read room ∈ ops → 0 < room) →
    readTimes n ⟨overTls (connRun cr c ops).1, []⟩ = ms.map (fun m => .ready (.ok (some m))) ++ [.ready (.ok none)] →
    ∃ all taken msgs, Received cr c (connRun cr c ops).2 all taken msgs ∧ ∃ m ∈ msgs, IsCloseNotify m ∨ m = (23, [])

/-- **C208** is false: if the network connection is closed, by whomever, between two records, the end of the messages is
reported. -/
theorem C208_false : ¬ C208_statement := by
  intro h
  obtain ⟨all, taken, msgs, hr, m, hm, -⟩ := h Unit Unit toyCrypto (exampleConn [.ready []]) [.read 1] 1 [] toyCrypto_correct
    rfl rfl rfl (by simp) (by decide +kernel)
  have hall : all = [] := by
    cases all with
    | nil => rfl
    | cons w ws =>
      have hl := congrArg List.length hr.framed
      rw [show ((exampleConn [.ready []]).plaintext.receiver.incoming ++
        readData (exampleConn [.ready []]).plaintext.inner.reads).length = 0 by decide +kernel] at hl
      simp only [wire, List.flatMap_cons, List.length_append, WireRecord.bytes_length] at hl
      omega
  subst hall
  have htaken : taken = [] := List.sublist_nil.mp hr.sub
  subst htaken
  have ha := hr.auth
  cases msgs with
  | nil => cases hm
  | cons m' ms => exact ha

/-- **C208**, partial: the end of the messages is reported only if the peer has authenticated it, or a read of the connection answered
"unexpected end of file", which it does if the network connection ends (`C203_read_only`). Missing: the latter
(`C208_false`). -/
theorem C208_end_partial {X K : Type} (cr : Crypto X K) (c : Conn)
    (hiv : c.seqenc.trafficSecrets.server.writeIv.length = 12) (hact : c.readState = .active)
    (ops : List ConnOp) (hroom : ∀ room, .read room ∈ ops → 0 < room) (n : Nat) (ms : List Bytes)
    (h : readTimes n ⟨overTls (connRun cr c ops).1, []⟩ = ms.map (fun m => .ready (.ok (some m))) ++ [.ready (.ok none)]) :
    (∃ all taken msgs, Received cr c (connRun cr c ops).2 all taken msgs ∧ ∃ m ∈ msgs, IsCloseNotify m ∨ m = (23, [])) ∨
    ∃ room e, .read room (.ready (.error e)) ∈ (connRun cr c ops).1 ∧ (e = .unexpectedEof ∨ e = .ioError .unexpectedEof) := by
  obtain ⟨bs, rest, e, r', -, hv, hv', hl⟩ := readTimes_messages ms _ _ _ h
  have hend : (readOptLengthPrefixed r').1 = .ready (.ok none) := by
    generalize n - ms.length = k at hl
    cases k with
    | zero => cases hl
    | succ k =>
      rw [readTimes] at hl
      injection hl
  have he : (content (readAnswers (connRun cr c ops).1)).2 = e := congrArg Prod.snd hv
  rw [C205_end_partial, hv'] at hend
  rcases hend with hend | hend
  · cases hend
    obtain ⟨room, hr⟩ := (content_end _).1 he
    exact .inl (C28_end_of_stream_partial cr c hiv hact ops room (hroom room (room_of_read cr ops c room _ hr)) hr)
  · cases hend
    obtain ⟨room, e, hr, hk⟩ := (content_end _).2 _ he
    refine .inr ⟨room, e, hr, ?_⟩
    cases e <;> first | exact .inl rfl | (cases hk; exact .inr rfl) | cases hk

/-- Two messages in three records, read in small pieces; then the peer's goodbye. -/
example : readTimes 3 ⟨overTls (connRun toyCrypto
      (exampleConn [.ready (toyRecord 0 .applicationData [2, 7]), .ready (toyRecord 1 .applicationData [8, 1]),
        .ready (toyRecord 2 .applicationData [9]), .ready (toyRecord 3 .alert [1, 0])])
      [.read 1, .read 10, .read 10, .read 10, .read 10]).1, []⟩ =
    [.ready (.ok (some [7, 8])), .ready (.ok (some [9])), .ready (.ok none)] := by decide +kernel

end Ngfs.Ipfs
