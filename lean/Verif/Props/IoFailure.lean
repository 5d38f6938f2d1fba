import Verif.Props.Io

/-!
C205: a stream that breaks is not taken for one that the peer has ended.
-/
namespace Ngfs.Io
open Varint Spec Spec.Io

/-- **C205**, the claim: the end of the messages is reported only if the peer ended the stream at that point, and a stream
on which the peer may ask for services is given up without a failure only if the peer ended it behind whole messages, the
first being the header. -/
def C205_statement : Prop :=
  (∀ r : Reader, (readOptLengthPrefixed r).1 = .ready (.ok none) → view r = ([], .eof)) ∧
  (∀ (services : List Bytes) (r : Reader), (serve services r).1 = .ready (.ok none) →
    ∃ bs asked, view r = (bs, .eof) ∧ Messages bs (multistreamId :: asked))

/-- A connection that breaks with "unexpected end of file" counts as ended (`io.rs` 31). The encrypted connection answers
so if it is cut off without the peer's goodbye (`tls/error.rs` 45), and the multiplexer if it is cut off inside a
frame (`mplex/frame.rs` 176). -/
theorem C205_false : ¬ C205_statement := fun h =>
  absurd (h.1 ⟨⟨[.error .unexpectedEof], [], [], [], []⟩, []⟩ (by decide)) (by decide)

/-- The second half of the claim fails as well: the peer has sent the header, and then the connection breaks. -/
theorem C205_false_serving : ¬ ∀ (services : List Bytes) (r : Reader), (serve services r).1 = .ready (.ok none) →
    ∃ bs asked, view r = (bs, .eof) ∧ Messages bs (multistreamId :: asked) := by
  intro h
  obtain ⟨bs, asked, hv, -⟩ := h [] ⟨⟨[.ready (framed multistreamId), .error .unexpectedEof],
    List.replicate 9 (.accept 99), [.ok], [], []⟩, []⟩ (by decide +kernel)
  have he : _ = End.eof := congrArg Prod.snd hv
  revert he
  decide +kernel

/-- **C205**, partial, exact: the end of the messages is reported if nothing more comes and the peer ended the stream, or
the stream broke with "unexpected end of file"; and in no other case. Missing: that it is not reported in the second case
(`C205_false`). -/
theorem C205_end_partial (r : Reader) : (readOptLengthPrefixed r).1 = .ready (.ok none) ↔
    view r = ([], .eof) ∨ view r = ([], .error .unexpectedEof) := by
  rw [C40_read_exact]
  constructor
  · intro h
    generalize view r = v at h
    cases h with
    | over => exact .inl rfl
    | overBroken => exact .inr rfl
  · rintro (h | h) <;> rw [h]
    · exact .over
    · exact .overBroken

/-- **C205**, partial: every other failure of the stream before the end of a message is reported, with its kind. -/
theorem C205_break_reported_partial (r : Reader) {bs : Bytes} {k : IoKind} (hv : view r = (bs, .error k))
    (hu : Unfinished bs) (hk : bs ≠ [] ∨ k ≠ .unexpectedEof) : (readOptLengthPrefixed r).1 = .ready (.error k) := by
  rw [C40_read_exact, hv]
  exact .broken hu fun h => hk.elim (absurd h) id

/-- **C205**, the other direction: reading a message fails only if the stream failed with that kind of error before the
end of the message, or ended inside the message, or the length of the message has more than ten bytes. -/
theorem C205_only_partial (r : Reader) {k : IoKind} (h : (readOptLengthPrefixed r).1 = .ready (.error k)) :
    (∃ bs, view r = (bs, .error k) ∧ Unfinished bs) ∨
    (k = .unexpectedEof ∧ ∃ bs, view r = (bs, .eof) ∧ bs ≠ [] ∧ Unfinished bs) ∨
    (k = .invalidData ∧ ∃ p rest e, view r = (p ++ rest, e) ∧ p.length = 10 ∧ rest ≠ [] ∧ ∀ b ∈ p, 128 ≤ b.toNat) := by
  rw [C40_read_exact] at h
  generalize view r = v at h
  cases h with
  | tooLong rest e h1 h2 h3 => exact .inr (.inr ⟨rfl, _, rest, e, rfl, h2, h3, h1⟩)
  | cut h1 h2 => exact .inr (.inl ⟨rfl, _, rfl, h2, h1⟩)
  | broken h1 h2 => exact .inl ⟨_, rfl, h1⟩

/-! Reading sends nothing. -/

theorem reader_pollRead_sent (r : Reader) (room : Nat) : (r.pollRead room).2.t.sent = r.t.sent := by
  unfold Reader.pollRead
  simp only
  split
  · rfl
  · split <;> rfl

theorem varintLoop_sent (fuel : Nat) : ∀ f : ReadOptVarInt, (f.loop fuel).2.reader.t.sent = f.reader.t.sent := by
  induction fuel with
  | zero => intro f; rfl
  | succ fuel ih =>
    intro f
    have hp := reader_pollRead_sent f.reader 1
    unfold ReadOptVarInt.loop
    generalize f.reader.pollRead 1 = P at hp
    obtain ⟨e, r⟩ := P
    simp only at hp
    cases e with
    | pending => exact hp
    | error k => dsimp only; split <;> exact hp
    | ready d =>
      cases d with
      | nil => dsimp only; split <;> exact hp
      | cons b d =>
        dsimp only
        generalize f.decoder.input b = D
        obtain ⟨x, d'⟩ := D
        cases x with
        | finished v => exact hp
        | overflow => exact hp
        | pending => exact (ih ⟨r, d', f.numBytes + 1⟩).trans hp

theorem varintAwait_sent (n : Nat) : ∀ f : ReadOptVarInt, (f.await n).2.t.sent = f.reader.t.sent := by
  induction n with
  | zero => intro f; rfl
  | succ n ih =>
    intro f
    have hp := varintLoop_sent (scriptSize f.reader.t.reads + 1) f
    unfold ReadOptVarInt.await ReadOptVarInt.poll
    generalize f.loop (scriptSize f.reader.t.reads + 1) = P at hp
    obtain ⟨_ | x, f'⟩ := P
    · exact (ih f').trans hp
    · exact hp

theorem readOptLengthPrefixed_none_sent (r : Reader) (h : (readOptLengthPrefixed r).1 = .ready (.ok none)) :
    (readOptLengthPrefixed r).2.t.sent = r.t.sent := by
  have hp : (readOptVarint r).2.t.sent = r.t.sent := varintAwait_sent _ _
  unfold readOptLengthPrefixed at h ⊢
  generalize readOptVarint r = P at hp h
  obtain ⟨_ | (k | (_ | v)), r1⟩ := P
  · exact hp
  · exact hp
  · exact hp
  · simp only at h
    generalize readBody (scriptSize r1.t.reads + 1) (r1.take v) v [] = Q at h
    obtain ⟨_ | (k | y), r2⟩ := Q <;> simp at h

theorem serveLoop_end (services : List Bytes) (fuel : Nat) : ∀ r : Reader, scriptSize r.t.reads < fuel →
    (serveLoop services fuel r).1 = .ready (.ok none) →
    ∃ asked bs e, view r = (bs, e) ∧ (e = .eof ∨ e = .error .unexpectedEof) ∧ Messages bs asked ∧
      (∀ a ∈ asked, a ∉ services) ∧ (serveLoop services fuel r).2.t.sent =
        r.t.sent ++ (List.replicate asked.length (framed naMessage)).flatten := by
  induction fuel with
  | zero => intro r h; omega
  | succ fuel ih =>
    intro r hf h
    have hs := readOptLengthPrefixed_spec r
    have hend := C205_end_partial r
    unfold serveLoop at h ⊢
    generalize hP : readOptLengthPrefixed r = P at hs h hend
    obtain ⟨x, r1⟩ := P
    rcases x with _ | (k | (_ | data))
    · simp at h
    · simp at h
    · have hsent : r1.t.sent = r.t.sent := by
        have := readOptLengthPrefixed_none_sent r
        rw [hP] at this
        exact this rfl
      rcases hend.mp rfl with hv | hv
      · exact ⟨[], [], .eof, hv, .inl rfl, .nil, by simp, by simp [hsent]⟩
      · exact ⟨[], [], _, hv, .inr rfl, .nil, by simp, by simp [hsent]⟩
    · simp only at h ⊢
      obtain ⟨m, hm, ht⟩ := hs.2 data rfl
      have hsz := ht.size
      have hpos := List.length_pos_iff.mpr (prefixed_ne_nil hm)
      obtain ⟨b0, e0, hv, hv1⟩ := ht.view
      have hsent : r1.t.sent = r.t.sent := by rw [ht.t]
      by_cases hc : services.contains data = true
      · simp only [hc, if_true] at h
        generalize request r1 idProtocol = Q at h
        obtain ⟨q, r2⟩ := Q
        rcases q with _ | (k | ⟨⟩) <;> simp at h
      · simp only [hc] at h ⊢
        obtain ⟨ws, fl, pre, hq, -, hpre⟩ := request_spec r1 naMessage
        have hrv := request_view r1 naMessage
        generalize request r1 naMessage = Q at *
        obtain ⟨q, r2⟩ := Q
        rcases q with _ | (k | ⟨⟩)
        · simp at h
        · simp at h
        · simp only [Bool.false_eq_true, if_false] at h hq hrv hpre ⊢
          obtain ⟨asked, bs, e, h1, h2, h3, h4, h5⟩ := ih r2 (by
            rw [hq]; simp only; omega) h
          rw [hrv, hv1] at h1
          cases h1
          refine ⟨data :: asked, m ++ b0, e0, hv, h2, .cons hm h3, ?_, ?_⟩
          · intro a ha
            rcases List.mem_cons.mp ha with rfl | ha
            · simpa using hc
            · exact h4 a ha
          · rw [h5, hq, hpre trivial]
            simp only [List.length_cons, List.replicate_succ, List.flatten_cons, hsent, List.append_assoc]

/-- **C205**, partial: a stream on which the peer may ask for services is given up without a failure only if the peer sent
the header and then nothing but whole messages asking for services that are not offered, all of which have been answered with
`na`; and behind the last of them ended the stream, or the stream broke with "unexpected end of file". Missing: that it is
not so in the latter case (`C205_false_serving`). -/
theorem C205_served_to_the_end_partial (services : List Bytes) (r : Reader) (h : (serve services r).1 = .ready (.ok none)) :
    ∃ bs asked e, view r = (bs, e) ∧ (e = .eof ∨ e = .error .unexpectedEof) ∧ Messages bs (multistreamId :: asked) ∧
      (∀ a ∈ asked, a ∉ services) ∧ (serve services r).2.t.sent = r.t.sent ++ framed multistreamId ++
        (List.replicate asked.length (framed naMessage)).flatten := by
  unfold serve at h ⊢
  have hh := @handshake_ok r
  generalize handshake r = H at *
  obtain ⟨x, r1⟩ := H
  rcases x with _ | (k | ⟨⟩)
  · simp at h
  · simp at h
  · simp only at h hh ⊢
    obtain ⟨h1, rfl⟩ := hh trivial
    obtain ⟨m1, rest1, e1, h2, h3, h4, h5⟩ := select_accepted h1
    obtain ⟨asked, bs, e, h6, h7, h8, h9, h10⟩ := serveLoop_end services _ _ (Nat.lt_succ_self _) h
    rw [h4] at h6
    cases h6
    exact ⟨m1 ++ rest1, asked, e1, h2, h7, .cons h3 h8, h9, by rw [h10, h5]⟩

/-- A stream that ends in an orderly way, one that breaks inside a length, and one that ends inside a message. -/
example : (readOptLengthPrefixed ⟨⟨[.pending, .ready []], [], [], [], []⟩, []⟩).1 = .ready (.ok none) := by decide
example : (readOptLengthPrefixed ⟨⟨[.ready [200], .error .unexpectedEof], [], [], [], []⟩, []⟩).1 =
    .ready (.error .unexpectedEof) := by decide
example : (readOptLengthPrefixed ⟨⟨[.ready [5, 1, 2], .ready []], [], [], [], []⟩, []⟩).1 =
    .ready (.error .unexpectedEof) := by decide +kernel

/-- A peer asks for a service that is not offered, and then ends the stream. -/
example : (serve [idProtocol] ⟨⟨[.ready (framed multistreamId ++ framed [47, 120, 10]), .ready []],
    List.replicate 9 (.accept 99), [.ok, .ok, .ok], [], []⟩, []⟩).1 = .ready (.ok none) := by decide +kernel

end Ngfs.Io
