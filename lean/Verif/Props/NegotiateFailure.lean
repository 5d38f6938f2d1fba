import Verif.Lemmas.Ipfs
import Verif.Lemmas.Failure
import Verif.Spec.NegotiateFailure

/-!
C206: negotiating a protocol reports the failures of the stream, and only those; what holds of the same for serving (C205).
-/
namespace Ngfs.Io
open Varint Spec Spec.Io

/-! ### Sending -/

theorem writeAllLoop_used (ws : List WriteEvent) : ∀ (o sent : Bytes),
    ∃ used, ws = used ++ (writeAllLoop ws o sent).2.1 ∧
      (∀ k, (writeAllLoop ws o sent).1 = .ready (.error k) →
        WriteEvent.error k ∈ used ∨ (k = .writeZero ∧ WriteEvent.accept 0 ∈ used)) ∧
      ((∀ k, (writeAllLoop ws o sent).1 ≠ .ready (.error k)) → ∀ k, WriteEvent.error k ∉ used) := by
  induction ws with
  | nil =>
    intro o sent
    cases o <;> exact ⟨[], rfl, nofun, fun _ _ => List.not_mem_nil⟩
  | cons w es ih =>
    intro o sent
    rcases o with _ | ⟨b, bs⟩
    · exact ⟨[], rfl, nofun, fun _ _ => List.not_mem_nil⟩
    · cases w with
      | pending =>
        obtain ⟨used, h1, h2, h3⟩ := ih (b :: bs) sent
        rw [writeAllLoop]
        refine ⟨.pending :: used, by rw [List.cons_append, ← h1], ?_, ?_⟩
        · intro k hk
          exact (h2 k hk).imp (List.mem_cons_of_mem _) fun h => ⟨h.1, List.mem_cons_of_mem _ h.2⟩
        · intro hn k hk
          rcases List.mem_cons.mp hk with hk | hk
          · cases hk
          · exact h3 hn k hk
      | error k =>
        refine ⟨[.error k], rfl, ?_, ?_⟩
        · intro k' hk'; cases hk'; simp
        · intro hn; exact absurd rfl (hn k)
      | accept n =>
        rw [writeAllLoop]
        by_cases hz : n = 0
        · subst hz
          rw [if_pos rfl]
          refine ⟨[.accept 0], rfl, ?_, ?_⟩
          · intro k' hk'; cases hk'; simp
          · intro hn; exact absurd rfl (hn .writeZero)
        · rw [if_neg hz]
          obtain ⟨used, h1, h2, h3⟩ := ih ((b :: bs).drop n) (sent ++ (b :: bs).take n)
          refine ⟨.accept n :: used, by rw [List.cons_append, ← h1], ?_, ?_⟩
          · intro k hk
            exact (h2 k hk).imp (List.mem_cons_of_mem _) fun h => ⟨h.1, List.mem_cons_of_mem _ h.2⟩
          · intro hn k hk
            rcases List.mem_cons.mp hk with hk | hk
            · cases hk
            · exact h3 hn k hk

theorem flushLoop_used (fs : List DoneEvent) :
    ∃ used, fs = used ++ (flushLoop fs).2 ∧ (∀ k, (flushLoop fs).1 = .ready (.error k) → DoneEvent.error k ∈ used) ∧
      ((∀ k, (flushLoop fs).1 ≠ .ready (.error k)) → ∀ k, DoneEvent.error k ∉ used) := by
  induction fs with
  | nil => exact ⟨[], rfl, nofun, fun _ _ => List.not_mem_nil⟩
  | cons e es ih =>
    cases e with
    | pending =>
      obtain ⟨used, h1, h2, h3⟩ := ih
      rw [flushLoop]
      refine ⟨.pending :: used, by rw [List.cons_append, ← h1], fun k hk => List.mem_cons_of_mem _ (h2 k hk), ?_⟩
      intro hn k hk
      rcases List.mem_cons.mp hk with hk | hk
      · cases hk
      · exact h3 hn k hk
    | ok => exact ⟨[.ok], rfl, nofun, by simp⟩
    | error k =>
      refine ⟨[.error k], rfl, ?_, ?_⟩
      · intro k' hk'; cases hk'; simp
      · intro hn; exact absurd rfl (hn k)

/-- What a step of the negotiation does with the answers for writing and flushing. -/
structure Sends {α : Type} (x : Poll (Except IoKind α)) (t t' : Transport) : Prop where
  writes : ∃ used, t.writes = used ++ t'.writes
  flushes : ∃ used, t.flushes = used ++ t'.flushes
  only : ∀ k, x = .ready (.error k) → SendingFails t k
  well : (∀ k, x ≠ .ready (.error k)) → UsedWell WriteEvent.error t.writes t'.writes ∧ UsedWell DoneEvent.error t.flushes t'.flushes

theorem writeAll_sends (t : Transport) (data : Bytes) : Sends (writeAll t data).1 t (writeAll t data).2 := by
  obtain ⟨used, h1, h2, h3⟩ := writeAllLoop_used t.writes data t.sent
  unfold writeAll
  generalize writeAllLoop t.writes data t.sent = W at *
  obtain ⟨x, ws, sent⟩ := W
  simp only at *
  refine ⟨⟨used, h1⟩, ⟨[], rfl⟩, ?_, fun hn => ⟨⟨used, h1, h3 hn⟩, usedWell_refl _ _⟩⟩
  intro k hk
  rcases h2 k hk with h | ⟨h, h'⟩
  · exact .inl (by rw [h1]; exact List.mem_append_left _ h)
  · exact .inr (.inr ⟨h, by rw [h1]; exact List.mem_append_left _ h'⟩)

theorem flush_sends (t : Transport) : Sends (flush t).1 t (flush t).2 := by
  obtain ⟨used, h1, h2, h3⟩ := flushLoop_used t.flushes
  unfold flush
  generalize flushLoop t.flushes = W at *
  obtain ⟨x, fs⟩ := W
  simp only at *
  refine ⟨⟨[], rfl⟩, ⟨used, h1⟩, ?_, fun hn => ⟨usedWell_refl _ _, ⟨used, h1, h3 hn⟩⟩⟩
  intro k hk
  exact .inr (.inl (by rw [h1]; exact List.mem_append_left _ (h2 k hk)))

theorem sendingFails_later {t t' : Transport} {k : IoKind} (hw : ∃ used, t.writes = used ++ t'.writes)
    (hf : ∃ used, t.flushes = used ++ t'.flushes) (h : SendingFails t' k) : SendingFails t k := by
  obtain ⟨u, hu⟩ := hw
  obtain ⟨v, hv⟩ := hf
  rcases h with h | h | ⟨h, h'⟩
  · exact .inl (by rw [hu]; exact List.mem_append_right _ h)
  · exact .inr (.inl (by rw [hv]; exact List.mem_append_right _ h))
  · exact .inr (.inr ⟨h, by rw [hu]; exact List.mem_append_right _ h'⟩)

theorem Sends.after {α β : Type} {x : Poll (Except IoKind α)} {y : Poll (Except IoKind β)} {t t1 t2 : Transport}
    (h1 : Sends x t t1) (hx : ∀ k, x ≠ .ready (.error k)) (h2 : Sends y t1 t2) : Sends y t t2 := by
  obtain ⟨u, hu⟩ := h1.writes
  obtain ⟨v, hv⟩ := h1.flushes
  obtain ⟨u', hu'⟩ := h2.writes
  obtain ⟨v', hv'⟩ := h2.flushes
  refine ⟨⟨u ++ u', by rw [hu, hu', List.append_assoc]⟩, ⟨v ++ v', by rw [hv, hv', List.append_assoc]⟩, ?_, ?_⟩
  · intro k hk
    exact sendingFails_later ⟨u, hu⟩ ⟨v, hv⟩ (h2.only k hk)
  · intro hn
    exact ⟨usedWell_trans (h1.well hx).1 (h2.well hn).1, usedWell_trans (h1.well hx).2 (h2.well hn).2⟩

theorem writeLengthPrefixed_sends (t : Transport) (data : Bytes) :
    Sends (writeLengthPrefixed t data).1 t (writeLengthPrefixed t data).2 := by
  have h1 := writeAll_sends t (encodeU64 data.length)
  unfold writeLengthPrefixed
  generalize writeAll t (encodeU64 data.length) = W at *
  obtain ⟨x, t1⟩ := W
  rcases x with _ | (k | ⟨⟩)
  · exact h1
  · exact h1
  · exact h1.after nofun (writeAll_sends t1 data)

theorem request_sends (r : Reader) (data : Bytes) : Sends (request r data).1 r.t (request r data).2.t := by
  have h1 := writeLengthPrefixed_sends r.t data
  unfold request
  generalize writeLengthPrefixed r.t data = W at *
  obtain ⟨x, t1⟩ := W
  rcases x with _ | (k | ⟨⟩)
  · exact h1
  · exact h1
  · exact h1.after nofun (flush_sends t1)

/-! ### Asking for a protocol -/

/-- What reading an answer gives, seen from what arrives. -/
theorem readLengthPrefixed_view (r : Reader) :
    match (readLengthPrefixed r).1 with
    | .pending => ∃ bs, view r = (bs, .silent)
    | .ready (.error k) => ∀ expected, AnswerFails expected (view r) k
    | .ready (.ok data) => ∃ m rest e, Prefixed m data ∧ view r = (m ++ rest, e) ∧ view (readLengthPrefixed r).2 = (rest, e) := by
  have hs := readOptLengthPrefixed_spec r
  unfold readLengthPrefixed
  generalize readOptLengthPrefixed r = P at *
  obtain ⟨x, r1⟩ := P
  rcases x with _ | (k | (_ | data))
  · obtain ⟨bs, h, -⟩ := hs
    exact ⟨bs, h⟩
  · have h := hs.1
    show ∀ expected, AnswerFails expected (view r) k
    intro expected
    generalize view r = v at h
    cases h with
    | tooLong rest e h1 h2 h3 => exact .tooLong rest e h1 h2 h3
    | cut h1 h2 => exact .ended h1
    | broken h1 h2 => exact .broken h1
  · have h := hs.1
    show ∀ expected, AnswerFails expected (view r) .unexpectedEof
    intro expected
    have hu : Unfinished [] := .inl ⟨nofun, by simp⟩
    generalize view r = v at h
    cases h with
    | over => exact .ended hu
    | overBroken => exact .broken hu
  · obtain ⟨m, hm, ht⟩ := hs.2 data rfl
    obtain ⟨rest, e, h1, h2⟩ := ht.view
    exact ⟨m, rest, e, hm, h1, h2⟩

theorem wentWell_trans {a b c : Reader} (h1 : WentWell a b) (h2 : WentWell b c) : WentWell a c := by
  refine ⟨usedWell_trans h1.writes h2.writes, usedWell_trans h1.flushes h2.flushes, ?_⟩
  obtain ⟨t1, r1, e1, hv, h⟩ := h1.reads
  obtain ⟨t2, r2, e2, hv2, h'⟩ := h2.reads
  rcases h with h | h
  · rw [hv2] at h
    cases h
    exact ⟨t1 ++ t2, r2, e1, by rw [hv, List.append_assoc], h'⟩
  · exact ⟨t1, r1, e1, hv, .inr h⟩

theorem request_well (r : Reader) (data : Bytes) (h : ∀ k, (request r data).1 ≠ .ready (.error k)) :
    WentWell r (request r data).2 := by
  have hw := (request_sends r data).well h
  exact ⟨hw.1, hw.2, ⟨[], (view r).1, (view r).2, rfl, .inl (request_view r data)⟩⟩

theorem readLengthPrefixed_well (r : Reader) (h : ∀ k, (readLengthPrefixed r).1 ≠ .ready (.error k)) :
    WentWell r (readLengthPrefixed r).2 := by
  have hq := readOptLengthPrefixed_quiet r
  rw [← readLengthPrefixed_snd] at hq
  have hv := readLengthPrefixed_view r
  generalize readLengthPrefixed r = P at *
  obtain ⟨x, r1⟩ := P
  simp only at h hq hv ⊢
  refine ⟨?_, ?_, ?_⟩
  · rw [hq.1]; exact usedWell_refl _ _
  · rw [hq.1]; exact usedWell_refl _ _
  · rcases x with _ | (k | data)
    · obtain ⟨bs, hv⟩ := hv
      exact ⟨bs, [], .silent, by rw [hv, List.append_nil], .inr rfl⟩
    · exact absurd rfl (h k)
    · obtain ⟨m, rest, e, -, h1, h2⟩ := hv
      exact ⟨m, rest, e, h1, .inl h2⟩

theorem select_only (r : Reader) (protocol : Bytes) {k : IoKind} (h : (select r protocol).1 = .ready (.error k)) :
    SendingFails r.t k ∨ AnswerFails [protocol, naMessage] (view r) k := by
  have hs := request_sends r protocol
  have hrv := request_view r protocol
  unfold select at h
  generalize request r protocol = Q at *
  obtain ⟨q, r1⟩ := Q
  rcases q with _ | (k' | ⟨⟩)
  · simp at h
  · cases h; exact .inl (hs.only k rfl)
  · simp only at h hrv
    have hv := readLengthPrefixed_view r1
    generalize readLengthPrefixed r1 = P at *
    obtain ⟨x, r2⟩ := P
    rw [hrv] at hv
    rcases x with _ | (k' | data)
    · simp at h
    · cases h; exact .inr (hv _)
    · simp only at h hv
      obtain ⟨m, rest, e, hm, h1, -⟩ := hv
      split at h
      · cases h
      · rename_i n1
        split at h
        · cases h
        · rename_i n2
          cases h
          rw [h1]
          exact .inr (.other rest e hm (by simp [n1, n2]))

theorem select_well (r : Reader) (protocol : Bytes) (h : ∀ k, (select r protocol).1 ≠ .ready (.error k)) :
    WentWell r (select r protocol).2 := by
  have hs := request_well r protocol
  unfold select at h ⊢
  generalize request r protocol = Q at *
  obtain ⟨q, r1⟩ := Q
  rcases q with _ | (k' | ⟨⟩)
  · exact hs nofun
  · exact absurd rfl (h k')
  · simp only at h hs ⊢
    have hr := readLengthPrefixed_well r1
    generalize readLengthPrefixed r1 = P at *
    obtain ⟨x, r2⟩ := P
    rcases x with _ | (k' | data)
    · exact wentWell_trans (hs nofun) (hr nofun)
    · exact absurd rfl (h k')
    · simp only at h ⊢
      have := wentWell_trans (hs nofun) (hr nofun)
      split
      · exact this
      · split <;> exact this

theorem answerFails_fewer {expected fewer : List Bytes} {v : Bytes × End} {k : IoKind} (h : AnswerFails expected v k)
    (hs : ∀ d ∈ fewer, d ∈ expected) : AnswerFails fewer v k := by
  cases h with
  | broken h => exact .broken h
  | ended h => exact .ended h
  | tooLong rest e h1 h2 h3 => exact .tooLong rest e h1 h2 h3
  | other rest e h1 h2 => exact .other rest e h1 fun h => h2 (hs _ h)

theorem handshake_only (r : Reader) {k : IoKind} (h : (handshake r).1 = .ready (.error k)) :
    SendingFails r.t k ∨ AnswerFails [multistreamId] (view r) k := by
  have hs := @select_only r multistreamId
  have hex := (C39_select_exact r multistreamId)
  have hreq : (select r multistreamId).1 = .ready (.ok .unsupported) → (request r multistreamId).1 = .ready (.ok ()) := by
    unfold select
    generalize request r multistreamId = Q
    obtain ⟨_ | (_ | ⟨⟩), r1⟩ := Q
    · exact nofun
    · exact nofun
    · exact fun _ => rfl
  unfold handshake at h
  generalize select r multistreamId = P at *
  obtain ⟨x, r1⟩ := P
  rcases x with _ | (k' | (_ | _))
  · simp at h
  · cases h
    exact (hs rfl).imp_right fun h => answerFails_fewer h (by simp)
  · simp at h
  · cases h
    obtain ⟨hne, m, rest, e, hv, hm⟩ := (hex (hreq rfl)).2.mp rfl
    rw [hv]
    exact .inr (.other rest e hm (by simpa using hne.symm))

theorem handshake_well (r : Reader) (h : ∀ k, (handshake r).1 ≠ .ready (.error k)) : WentWell r (handshake r).2 := by
  have hs := select_well r multistreamId
  unfold handshake at h ⊢
  generalize select r multistreamId = P at *
  obtain ⟨x, r1⟩ := P
  rcases x with _ | (k' | (_ | _))
  · exact hs nofun
  · exact absurd rfl (h k')
  · exact hs nofun
  · exact absurd rfl (h .invalidData)

/-! ### C206 -/

/-- **C206**: opening a stream for a protocol fails only if sending to it failed with that kind of error, or no header could be
taken from what arrived, for that reason, or a header arrived, and behind it no answer to the request could be taken, for that
reason. -/
theorem C206_only (r : Reader) (protocol : Bytes) {k : IoKind} (h : (negotiate r protocol).1 = .ready (.error k)) :
    SendingFails r.t k ∨ AnswerFails [multistreamId] (view r) k ∨
    ∃ m rest e, Prefixed m multistreamId ∧ view r = (m ++ rest, e) ∧ AnswerFails [protocol, naMessage] (rest, e) k := by
  have ho := @handshake_only r
  have hw := handshake_well r
  have hh := @handshake_ok r
  unfold negotiate at h
  generalize handshake r = H at *
  obtain ⟨x, r1⟩ := H
  rcases x with _ | (k' | ⟨⟩)
  · simp at h
  · cases h
    exact (ho rfl).imp_right .inl
  · simp only at h hh hw
    obtain ⟨h1, rfl⟩ := hh trivial
    obtain ⟨m, rest, e, h2, h3, h4, -⟩ := select_accepted h1
    obtain ⟨⟨u, hu, -⟩, ⟨v, hv, -⟩, -⟩ := hw nofun
    rcases select_only _ _ h with h5 | h5
    · exact .inl (sendingFails_later ⟨u, hu⟩ ⟨v, hv⟩ h5)
    · rw [h4] at h5
      exact .inr (.inr ⟨m, rest, e, h3, h2, h5⟩)

/-- **C206**: as long as opening a stream for a protocol does not fail, whether it is done or waits, its transport has not
failed. -/
theorem C206_reports (r : Reader) (protocol : Bytes) (h : ∀ k, (negotiate r protocol).1 ≠ .ready (.error k)) :
    WentWell r (negotiate r protocol).2 := by
  have hw := handshake_well r
  unfold negotiate at h ⊢
  generalize handshake r = H at *
  obtain ⟨x, r1⟩ := H
  rcases x with _ | (k' | ⟨⟩)
  · exact hw nofun
  · exact absurd rfl (h k')
  · exact wentWell_trans (hw nofun) (select_well r1 protocol h)

/-- The flush behind the second request fails; the remote refuses the protocol and then breaks down, which is not noticed. -/
example : (negotiate ⟨⟨[.ready (framed multistreamId)], List.replicate 9 (.accept 99), [.ok, .error .brokenPipe], [], []⟩, []⟩
    idProtocol).1 = .ready (.error .brokenPipe) := by decide +kernel
example : (negotiate ⟨⟨[.ready (framed multistreamId ++ framed naMessage), .error (.other 5)], List.replicate 9 (.accept 99),
    [.ok, .ok], [], []⟩, []⟩ idProtocol).1 = .ready (.ok .unsupported) := by decide +kernel

/-- The remote answers with something else, and the remote is cut off inside its header. -/
example : (negotiate ⟨⟨[.ready (framed multistreamId ++ framed lsMessage)], List.replicate 9 (.accept 99), [.ok, .ok], [], []⟩, []⟩
    idProtocol).1 = .ready (.error .invalidData) := by decide +kernel
example : (negotiate ⟨⟨[.ready [19, 47], .ready []], List.replicate 9 (.accept 99), [.ok, .ok], [], []⟩, []⟩
    idProtocol).1 = .ready (.error .unexpectedEof) := by decide +kernel

/-! ### C205, serving -/

theorem serveLoop_only (services : List Bytes) (fuel : Nat) : ∀ (r : Reader) (k : IoKind), scriptSize r.t.reads < fuel →
    (serveLoop services fuel r).1 = .ready (.error k) →
    SendingFails r.t k ∨ ∃ asked bs rest e, view r = (bs ++ rest, e) ∧ Messages bs asked ∧ (∀ a ∈ asked, a ∉ services) ∧
      Reads (rest, e) (.error k) := by
  induction fuel with
  | zero => intro r k h; omega
  | succ fuel ih =>
    intro r k hf h
    have hs := readOptLengthPrefixed_spec r
    unfold serveLoop at h
    generalize readOptLengthPrefixed r = P at hs h
    obtain ⟨x, r1⟩ := P
    rcases x with _ | (k' | (_ | data))
    · simp at h
    · cases h
      exact .inr ⟨[], [], (view r).1, (view r).2, rfl, .nil, nofun, hs.1⟩
    · simp at h
    · simp only at h
      obtain ⟨m, hm, ht⟩ := hs.2 data rfl
      have hsz := ht.size
      have hpos := List.length_pos_iff.mpr (prefixed_ne_nil hm)
      obtain ⟨b0, e0, hv, hv1⟩ := ht.view
      have hlater : ∀ {t'}, (∃ u, r1.t.writes = u ++ t'.writes) → (∃ u, r1.t.flushes = u ++ t'.flushes) →
          SendingFails t' k → SendingFails r.t k := by
        intro t' hw hfl hfail
        rw [ht.t] at hw hfl
        exact sendingFails_later hw hfl hfail
      by_cases hc : services.contains data = true
      · simp only [hc, if_true] at h
        have hq := request_sends r1 idProtocol
        generalize request r1 idProtocol = Q at h hq
        obtain ⟨q, r2⟩ := Q
        rcases q with _ | (k' | ⟨⟩)
        · simp at h
        · cases h
          exact .inl (hlater ⟨[], rfl⟩ ⟨[], rfl⟩ (hq.only k rfl))
        · simp at h
      · simp only [hc] at h
        obtain ⟨ws, fl, pre, hreq, -, -⟩ := request_spec r1 naMessage
        have hrv := request_view r1 naMessage
        have hq := request_sends r1 naMessage
        generalize request r1 naMessage = Q at *
        obtain ⟨q, r2⟩ := Q
        rcases q with _ | (k' | ⟨⟩)
        · simp at h
        · cases h
          exact .inl (hlater ⟨[], rfl⟩ ⟨[], rfl⟩ (hq.only k rfl))
        · simp only [Bool.false_eq_true, if_false] at h hreq hrv hq
          rcases ih r2 k (by rw [hreq]; simp only; omega) h with h' | ⟨asked, bs, rest, e, h1, h2, h3, h4⟩
          · exact .inl (hlater hq.writes hq.flushes h')
          · rw [hrv, hv1] at h1
            cases h1
            refine .inr ⟨data :: asked, m ++ bs, rest, e0, by rw [hv, List.append_assoc], .cons hm h2, ?_, h4⟩
            intro a ha
            rcases List.mem_cons.mp ha with rfl | ha
            · simpa using hc
            · exact h3 a ha

/-- **C205**, partial: serving a stream fails only if sending an answer failed with that kind of error, or no header could be
taken from what arrived, for that reason, or behind the header and requests for services that are not offered reading the next
request failed in the way that C205 allows. -/
theorem C205_serving_only_partial (services : List Bytes) (r : Reader) {k : IoKind}
    (h : (serve services r).1 = .ready (.error k)) :
    SendingFails r.t k ∨ AnswerFails [multistreamId] (view r) k ∨
    ∃ bs asked rest e, view r = (bs ++ rest, e) ∧ Messages bs (multistreamId :: asked) ∧ (∀ a ∈ asked, a ∉ services) ∧
      Reads (rest, e) (.error k) := by
  have ho := @handshake_only r
  have hw := handshake_well r
  have hh := @handshake_ok r
  unfold serve at h
  generalize handshake r = H at *
  obtain ⟨x, r1⟩ := H
  rcases x with _ | (k' | ⟨⟩)
  · simp at h
  · cases h
    exact (ho rfl).imp_right .inl
  · simp only at h hh hw
    obtain ⟨h1, rfl⟩ := hh trivial
    obtain ⟨m, rest, e, h2, h3, h4, -⟩ := select_accepted h1
    obtain ⟨⟨u, hu, -⟩, ⟨v, hv, -⟩, -⟩ := hw nofun
    rcases serveLoop_only services _ _ k (Nat.lt_succ_self _) h with h5 | ⟨asked, bs, rest', e', h6, h7, h8, h9⟩
    · exact .inl (sendingFails_later ⟨u, hu⟩ ⟨v, hv⟩ h5)
    · rw [h4] at h6
      cases h6
      exact .inr (.inr ⟨m ++ bs, asked, rest', e, by rw [h2, List.append_assoc], .cons h3 h7, h8, h9⟩)

theorem serveLoop_sends (services : List Bytes) (fuel : Nat) : ∀ r : Reader,
    (∀ k, (serveLoop services fuel r).1 ≠ .ready (.error k)) →
    UsedWell WriteEvent.error r.t.writes (serveLoop services fuel r).2.t.writes ∧
    UsedWell DoneEvent.error r.t.flushes (serveLoop services fuel r).2.t.flushes := by
  induction fuel with
  | zero => intro r h; exact ⟨usedWell_refl _ _, usedWell_refl _ _⟩
  | succ fuel ih =>
    intro r h
    have hk := readOptLengthPrefixed_quiet r
    unfold serveLoop at h ⊢
    generalize readOptLengthPrefixed r = P at hk h
    obtain ⟨x, r1⟩ := P
    have hsame : r1.t.writes = r.t.writes ∧ r1.t.flushes = r.t.flushes := by
      have := hk.1
      simp only at this
      exact ⟨by rw [this], by rw [this]⟩
    have hrefl : UsedWell WriteEvent.error r.t.writes r1.t.writes ∧ UsedWell DoneEvent.error r.t.flushes r1.t.flushes := by
      rw [hsame.1, hsame.2]; exact ⟨usedWell_refl _ _, usedWell_refl _ _⟩
    rcases x with _ | (k' | (_ | data))
    · exact hrefl
    · exact hrefl
    · exact hrefl
    · simp only at h ⊢
      by_cases hc : services.contains data = true
      · simp only [hc, if_true] at h ⊢
        have hq := (request_sends r1 idProtocol).well
        generalize request r1 idProtocol = Q at h hq
        obtain ⟨q, r2⟩ := Q
        rw [← hsame.1, ← hsame.2]
        rcases q with _ | (k' | ⟨⟩)
        · exact hq nofun
        · exact absurd rfl (h k')
        · exact hq nofun
      · simp only [hc, Bool.false_eq_true, if_false] at h ⊢
        have hq := (request_sends r1 naMessage).well
        generalize request r1 naMessage = Q at h hq
        obtain ⟨q, r2⟩ := Q
        rw [← hsame.1, ← hsame.2]
        rcases q with _ | (k' | ⟨⟩)
        · exact hq nofun
        · exact absurd rfl (h k')
        · have h1 := hq nofun
          have h2 := ih r2 h
          exact ⟨usedWell_trans h1.1 h2.1, usedWell_trans h1.2 h2.2⟩

/-- **C205**, partial: as long as serving a stream does not fail, no write and no flush of it has failed. (What was read is said
by `C205_served_to_the_end_partial` and C75.) -/
theorem C205_serving_reports_partial (services : List Bytes) (r : Reader) (h : ∀ k, (serve services r).1 ≠ .ready (.error k)) :
    UsedWell WriteEvent.error r.t.writes (serve services r).2.t.writes ∧
    UsedWell DoneEvent.error r.t.flushes (serve services r).2.t.flushes := by
  have hw := handshake_well r
  unfold serve at h ⊢
  generalize handshake r = H at *
  obtain ⟨x, r1⟩ := H
  rcases x with _ | (k' | ⟨⟩)
  · exact ⟨(hw nofun).writes, (hw nofun).flushes⟩
  · exact absurd rfl (h k')
  · have h1 := hw nofun
    have h2 := serveLoop_sends services _ r1 h
    exact ⟨usedWell_trans h1.writes h2.1, usedWell_trans h1.flushes h2.2⟩

/-- The answer to a request for a service that is not offered cannot be flushed. -/
example : (serve [idProtocol] ⟨⟨[.ready (framed multistreamId ++ framed [47, 120, 10])],
    List.replicate 9 (.accept 99), [.ok, .error .brokenPipe], [], []⟩, []⟩).1 = .ready (.error .brokenPipe) := by decide +kernel

end Ngfs.Io
