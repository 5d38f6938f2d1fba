import Verif.Spec.TlsAnswer
import Verif.Lemmas.TlsHonest
import Verif.Lemmas.TlsTool
import Verif.Lemmas.TlsReadAll

/-!
Lemmas for C163: reading an answer with session tickets in it, and sending the request.
-/
namespace Ngfs.Tls
open Ngfs.Spec

/-! ### Reading -/

theorem receive_ticket {X K : Type} (cr : Crypto X K) (r : RecordReceiver) (n : Nat) (key : EncryptionKey) (w : WireRecord)
    (more content : Bytes) {ticket} (hiv : key.writeIv.length = 12) (hw : w.Legal) (ho : w.Outer) (hr : r.incoming = w.bytes ++ more)
    (hp : Protects cr key n w 22 content) (ht : Parses cr content (.newSessionTicket ticket)) :
    ∃ raw, pollReceiveEncryptedMessage cr r n key
      = (.ready (.ok (some (.handshake (.newSessionTicket ticket)))), ⟨more, r.readState⟩, n + 1, raw) := by
  have hdec := decryptMessage_protects cr _ hiv _ w hw 22 (by decide) content hp
  have h22 : ContentType.fromRaw 22 = .handshake := rfl
  rw [h22, show Message.fromRaw cr.x509 content .handshake = .ok (.handshake (.newSessionTicket ticket)) from ht] at hdec
  simp only [pollReceiveEncryptedMessage, receive_one cr r n key w more hw ho hr, WireRecord.owned, hdec]
  exact ⟨_, rfl⟩

theorem answerData_data (d : Bytes) (ms : List (UInt8 × Bytes)) : answerData ((23, d) :: ms) = d ++ answerData ms := by
  simp [answerData]

theorem answerData_ticket (d : Bytes) (ms : List (UInt8 × Bytes)) : answerData ((22, d) :: ms) = answerData ms := by
  simp [answerData]

/-- What the reader still has before it. -/
structure Ax {X K : Type} (cr : Crypto X K) (c : Conn) (ms : List (UInt8 × Bytes)) (es : List ReadEvent) (k : Nat)
    (ws : List WireRecord) : Prop where
  iv : c.seqenc.trafficSecrets.server.writeIv.length = 12
  act : c.readState = .active
  frame : c.plaintext.receiver.incoming ++ readData es = wire ws
  reads : c.plaintext.inner.reads = es ++ List.replicate k (.ready [])
  benign : ∀ e ∈ es, Benign e
  rst : c.plaintext.receiver.readState = .active ∨ (c.plaintext.receiver.readState = .eof ∧ es = [])
  prot : ProtectsAll cr c.seqenc.trafficSecrets.server c.seqenc.serverSequenceNo ws (ms ++ [closeMessage])
  outer : ∀ w ∈ ws, w.Outer
  enough : ws.length ≤ k
  answer : Answer cr ms

/-- One round of receiving, when there is a record to come. -/
theorem ax_recv {X K : Type} {cr : Crypto X K} {c : Conn} {ms : List (UInt8 × Bytes)} {es : List ReadEvent} {k : Nat}
    {w : WireRecord} {ws : List WireRecord} (h : Ax cr c ms es k (w :: ws)) :
    (∃ p', c.plaintext.pollRecv = (.pending, p') ∧ p'.inner.reads.length < c.plaintext.inner.reads.length ∧
      ∃ es' k', Ax cr { c with plaintext := p' } ms es' k' (w :: ws)) ∨
    (∃ p' es' k', c.plaintext.pollRecv = (.ready (.ok ()), p') ∧ p'.inner.reads.length < c.plaintext.inner.reads.length ∧
      p'.receiver.incoming ++ readData es' = wire (w :: ws) ∧ p'.inner.reads = es' ++ List.replicate k' (.ready []) ∧
      (∀ e ∈ es', Benign e) ∧ ws.length ≤ k' ∧
      ((p'.receiver.readState = .active ∧ ws.length + 1 ≤ k') ∨ (p'.receiver.readState = .eof ∧ es' = []))) := by
  obtain ⟨hiv, hact, hfr, hrd, hben, hrst, hpr, hout, hk, hans⟩ := h
  simp only [List.length_cons] at hk
  have hlen : c.plaintext.inner.reads.length = es.length + k := by rw [hrd]; simp
  unfold PlaintextStream.pollRecv pollReceiveAndAddData Transport.pollRead
  rw [hrd]
  rcases es with _ | ⟨e, es⟩
  · obtain ⟨k, rfl⟩ : ∃ j, k = j + 1 := ⟨k - 1, by omega⟩
    right
    refine ⟨_, [], k, rfl, ?_, ?_, rfl, nofun, by omega, .inr ⟨?_, rfl⟩⟩
    · simp
    · rw [← hfr]; unfold RecordReceiver.close; dsimp only; split <;> rfl
    · unfold RecordReceiver.close
      dsimp only
      rcases hrst with h | ⟨h, _⟩ <;> rw [h]
      exact h
  · have hst : c.plaintext.receiver.readState = .active := by
      rcases hrst with h | ⟨_, h⟩
      · exact h
      · cases h
    have hes : ∀ x ∈ es, Benign x := fun x hx => hben x (by simp [hx])
    have hb := hben e (by simp)
    rcases e with _ | data | x
    · left
      refine ⟨_, rfl, by simp, es, k, ⟨hiv, hact, ?_, rfl, hes, .inl hst, hpr, hout, hk, hans⟩⟩
      rw [← hfr]; rfl
    · rcases data with _ | ⟨b, bs⟩
      · exact absurd rfl hb
      right
      refine ⟨_, es, k, rfl, by simp, ?_, rfl, hes, by omega, .inl ⟨hst, hk⟩⟩
      rw [← hfr]; simp [RecordReceiver.appendData, readData]
    · exact absurd hb id

/-- Filling the buffer: a pause, some data, or the end. -/
theorem ax_fill {X K : Type} {cr : Crypto X K} (n : Nat) : ∀ {c : Conn} {ms : List (UInt8 × Bytes)} {es : List ReadEvent}
    {k : Nat} {ws : List WireRecord}, Ax cr c ms es k ws → c.incomingDecrypted = [] → c.plaintext.inner.reads.length < n →
    ∃ c', c'.plaintext.inner.reads.length < c.plaintext.inner.reads.length ∧
      ((c.fillLoop cr n = (.pending, c') ∧ c'.incomingDecrypted = [] ∧ ∃ ms' es' k' ws', Ax cr c' ms' es' k' ws' ∧
          answerData ms' = answerData ms) ∨
        (c.fillLoop cr n = (.ready (.ok ()), c') ∧ c'.incomingDecrypted ≠ [] ∧ ∃ ms' es' k' ws', Ax cr c' ms' es' k' ws' ∧
          c'.incomingDecrypted ++ answerData ms' = answerData ms) ∨
        (c.fillLoop cr n = (.ready (.ok ()), c') ∧ c'.incomingDecrypted = [] ∧ answerData ms = [] ∧ c'.readState = .eof)) := by
  induction n with
  | zero => intro c ms es k ws _ _ hn; omega
  | succ n ih =>
    intro c ms es k ws h hd hn
    rcases ws with _ | ⟨w, ws⟩
    · have := h.prot
      rcases ms with _ | ⟨a, ms⟩ <;> exact absurd this id
    rw [Conn.fillLoop]
    rcases ax_recv h with ⟨p', e1, e2, es', k', e3⟩ | ⟨p', es', k', e1, e2, e3, e4, e5, e6, e7⟩
    · rw [e1]
      exact ⟨_, e2, .inl ⟨rfl, hd, ms, es', k', _, e3, rfl⟩⟩
    · rw [e1]
      simp only
      have ho : w.Outer := h.outer w (by simp)
      have hout : ∀ v ∈ ws, v.Outer := fun v hv => h.outer v (by simp [hv])
      have hrst : p'.receiver.readState = .active ∨ (p'.receiver.readState = .eof ∧ es' = []) := by
        rcases e7 with e7 | e7
        · exact .inl e7.1
        · exact .inr e7
      rcases wire_cut w ws _ _ e3 with ⟨more, hm, hmr⟩ | ⟨hlt, rest, hrest⟩
      · rcases ms with _ | ⟨⟨typ, content⟩, ms⟩
        · obtain ⟨hw, hp, _⟩ := h.prot
          obtain ⟨raw, he⟩ := receive_close cr p'.receiver c.seqenc.serverSequenceNo c.seqenc.trafficSecrets.server w more h.iv hw ho hm hp
          rw [he]
          exact ⟨_, e2, .inr (.inr ⟨rfl, hd, rfl, rfl⟩)⟩
        · have hans : Answer cr ms := fun m hm => h.answer m (by simp [hm])
          obtain ⟨hw, hp, hpr⟩ := h.prot
          rcases h.answer (typ, content) (by simp) with ⟨ht, hc⟩ | ⟨ht, ticket, hc⟩ <;> simp only at ht hc <;> subst ht
          · obtain ⟨raw, he⟩ := receive_data cr p'.receiver c.seqenc.serverSequenceNo c.seqenc.trafficSecrets.server w more content h.iv hw ho hm hp
            rw [he]
            refine ⟨_, e2, .inr (.inl ⟨rfl, ?_, ms, es', k', ws, ⟨h.iv, h.act, hmr, e4, e5, hrst, hpr, hout, e6, hans⟩, ?_⟩)⟩
            · simpa [hd] using hc
            · simp [hd, answerData_data]
          · obtain ⟨raw, he⟩ := receive_ticket cr p'.receiver c.seqenc.serverSequenceNo c.seqenc.trafficSecrets.server w more content h.iv hw ho hm hp hc
            rw [he]
            simp only
            have hax : Ax cr { c with plaintext := { p' with receiver := ⟨more, p'.receiver.readState⟩ }, seqenc := { c.seqenc with serverSequenceNo := c.seqenc.serverSequenceNo + 1 } } ms es' k' ws :=
              ⟨h.iv, h.act, hmr, e4, e5, hrst, hpr, hout, e6, hans⟩
            obtain ⟨c', g1, g2⟩ := ih hax hd (by simp only; omega)
            refine ⟨c', by simp only at g1; omega, ?_⟩
            rw [answerData_ticket]
            exact g2
      · have hst : p'.receiver.readState = .active ∧ ws.length + 1 ≤ k' := by
          rcases e7 with e7 | ⟨_, e7⟩
          · exact e7
          · subst e7
            have := congrArg List.length e3
            simp only [readData, List.append_nil, wire_cons, List.length_append] at this
            omega
        have hw : w.Legal := by
          rcases ms with _ | ⟨a, ms⟩ <;> exact h.prot.1
        obtain ⟨raw, he⟩ := receive_wait cr p'.receiver c.seqenc.serverSequenceNo c.seqenc.trafficSecrets.server w rest hw hst.1 hrest hlt
        rw [he]
        refine ⟨_, e2, .inl ⟨rfl, hd, ms, es', k', w :: ws, ⟨h.iv, h.act, e3, e4, e5, hrst, h.prot, h.outer, hst.2, h.answer⟩, rfl⟩⟩

/-- One read of the program. -/
theorem ax_read {X K : Type} {cr : Crypto X K} {c : Conn} {ms : List (UInt8 × Bytes)} {es : List ReadEvent}
    {k : Nat} {ws : List WireRecord} (h : Ax cr c ms es k ws) (room : Nat) (hroom : 0 < room) :
    ∃ c',
      (c.pollRead cr room = (.pending, c') ∧ ∃ ms' es' k' ws', Ax cr c' ms' es' k' ws' ∧
        c'.incomingDecrypted ++ answerData ms' = c.incomingDecrypted ++ answerData ms ∧
        c'.plaintext.inner.reads.length < c.plaintext.inner.reads.length) ∨
      (∃ d, c.pollRead cr room = (.ready (.ok d), c') ∧ d ≠ [] ∧ ∃ ms' es' k' ws', Ax cr c' ms' es' k' ws' ∧
        d ++ (c'.incomingDecrypted ++ answerData ms') = c.incomingDecrypted ++ answerData ms ∧
        c'.plaintext.inner.reads.length ≤ c.plaintext.inner.reads.length) ∨
      (c.pollRead cr room = (.ready (.ok []), c') ∧ c.incomingDecrypted ++ answerData ms = []) := by
  unfold Conn.pollRead
  rw [h.act]
  simp only
  unfold Conn.pollFillIncoming
  by_cases hd : c.incomingDecrypted = []
  · rw [if_neg (by simp [hd])]
    obtain ⟨c', g1, ⟨e1, e2, ms', es', k', ws', e3, e4⟩ | ⟨e1, e2, ms', es', k', ws', e3, e4⟩ | ⟨e1, e2, e3, e4⟩⟩ :=
      ax_fill (c.plaintext.inner.reads.length + 1) h hd (by omega)
    · rw [e1]
      exact ⟨c', .inl ⟨rfl, ms', es', k', ws', e3, by rw [e2, hd, e4], g1⟩⟩
    · rw [e1]
      refine ⟨_, .inr (.inl ⟨_, rfl, take_ne_nil e2 hroom, ms', es', k', ws',
        ⟨e3.iv, e3.act, e3.frame, e3.reads, e3.benign, e3.rst, e3.prot, e3.outer, e3.enough, e3.answer⟩, ?_, Nat.le_of_lt g1⟩)⟩
      simp only
      rw [← List.append_assoc, List.take_append_drop, e4, hd]
      rfl
    · rw [e1]
      refine ⟨{ c' with incomingDecrypted := c'.incomingDecrypted.drop (min c'.incomingDecrypted.length room) },
        .inr (.inr ⟨?_, by rw [hd, e3]; rfl⟩)⟩
      simp only [e2, List.take_nil]
  · rw [if_pos (List.length_pos_iff.mpr hd)]
    refine ⟨_, .inr (.inl ⟨_, rfl, take_ne_nil hd hroom, ms, es, k, ws,
      ⟨h.iv, h.act, h.frame, h.reads, h.benign, h.rst, h.prot, h.outer, h.enough, h.answer⟩, ?_, Nat.le_refl _⟩)⟩
    simp only
    rw [← List.append_assoc, List.take_append_drop]

/-! ### The program -/

theorem run_add {X K : Type} (cr : Crypto X K) (a b : Nat) : ∀ t : Tool X K, t.run cr (a + b) = (t.run cr a).run cr b := by
  induction a with
  | zero => intro t; rw [Nat.zero_add]; rfl
  | succ a ih => intro t; rw [Nat.succ_add]; exact ih _

theorem run_ended {X K : Type} (cr : Crypto X K) (k : Nat) (c : Conn) (l : List Shown) :
    (⟨.ended c, l⟩ : Tool X K).run cr k = ⟨.ended c, l⟩ := by
  induction k with
  | zero => rfl
  | succ k ih => exact ih

theorem run_reading {X K : Type} {cr : Crypto X K} (n : Nat) : ∀ {c : Conn} {ms : List (UInt8 × Bytes)} {es : List ReadEvent}
    {k : Nat} {ws : List WireRecord}, Ax cr c ms es k ws → ∀ (shown : List Shown),
    c.plaintext.inner.reads.length + (c.incomingDecrypted ++ answerData ms).length ≤ n →
    ∃ j c' more, (⟨.reading c, shown⟩ : Tool X K).run cr j = ⟨.ended c', shown ++ more ++ [.eof]⟩ ∧
      shownBytes more = c.incomingDecrypted ++ answerData ms ∧ .eof ∉ more := by
  induction n with
  | zero =>
    intro c ms es k ws h shown hn
    obtain ⟨c', ⟨e1, ms', es', k', ws', e2, e3, e4⟩ | ⟨d, e1, e0, ms', es', k', ws', e2, e3, e4⟩ | ⟨e1, e2⟩⟩ :=
      ax_read h bufSize (by decide)
    · omega
    · have hl := congrArg List.length e3
      have := List.length_pos_iff.mpr e0
      simp only [List.length_append] at hl hn
      omega
    · refine ⟨1, c', [], ?_, by rw [e2]; rfl, nofun⟩
      simp [Tool.run, Tool.step, e1]
  | succ n ih =>
    intro c ms es k ws h shown hn
    obtain ⟨c', ⟨e1, ms', es', k', ws', e2, e3, e4⟩ | ⟨d, e1, e0, ms', es', k', ws', e2, e3, e4⟩ | ⟨e1, e2⟩⟩ :=
      ax_read h bufSize (by decide)
    · obtain ⟨j, c2, more, i1, i2, i3⟩ := ih e2 shown (by rw [e3]; omega)
      refine ⟨j + 1, c2, more, ?_, by rw [i2, e3], i3⟩
      simp only [Tool.run, Tool.step, e1]
      exact i1
    · have hl := congrArg List.length e3
      have hp := List.length_pos_iff.mpr e0
      rw [List.length_append] at hl
      obtain ⟨j, c2, more, i1, i2, i3⟩ := ih e2 (shown ++ [.data d]) (by omega)
      refine ⟨j + 1, c2, .data d :: more, ?_, by rw [shownBytes, i2, e3], by simpa using i3⟩
      simp only [Tool.run, Tool.step, e1]
      rw [if_neg (by omega), i1]
      simp
    · refine ⟨1, c', [], ?_, by rw [e2]; rfl, nofun⟩
      simp [Tool.run, Tool.step, e1]

theorem pollFlush_writeState (p : PlaintextStream) (r : Poll (Except TlsErr Unit)) (p' : PlaintextStream)
    (h : p.pollFlush = (r, p')) (hr : ∀ e, r ≠ .ready (.error e)) : p'.writeState = p.writeState := by
  unfold PlaintextStream.pollFlush at h
  generalize writeLoop p.inner.writes p.outgoing p.inner.sent = P at h
  obtain ⟨_ | (e | _), ws, o, sent⟩ := P
  · cases h; rfl
  · cases h; exact absurd rfl (hr _)
  · simp only at h
    split at h <;> cases h
    all_goals first | rfl | exact absurd rfl (hr _)

theorem step_flushing {X K : Type} {cr : Crypto X K} {c : Conn} (m k : Nat) (hw : c.plaintext.writeState = .active)
    (ht : WillTake c.plaintext.inner.writes (c.plaintext.outgoing.length + m)) (hf : WillFlush c.plaintext.inner.flushes (k + 1)) :
    ∃ p', p'.writeState = .active ∧ p'.receiver = c.plaintext.receiver ∧ p'.inner.reads = c.plaintext.inner.reads ∧
      ((c.pollFlushEncrypted = (.ready (.ok ()), { c with plaintext := p' }) ∧ p'.outgoing = [] ∧ WillTake p'.inner.writes m ∧
          WillFlush p'.inner.flushes k) ∨
        (c.pollFlushEncrypted = (.pending, { c with plaintext := p' }) ∧ WillTake p'.inner.writes (p'.outgoing.length + m) ∧
          WillFlush p'.inner.flushes (k + 1) ∧ p'.answers < c.plaintext.answers)) := by
  obtain ⟨r1, r2⟩ := pollFlush_rx c.plaintext
  unfold Conn.pollFlushEncrypted
  rcases willTake_flush c.plaintext m k ht hf with ⟨p', e1, e2, e3, e4, e5⟩ | ⟨p', e1, e2, e3, e4⟩
  all_goals
    have hw' := (pollFlush_writeState _ _ _ e1 nofun).trans hw
    rw [e1] at r1 r2 ⊢
  · exact ⟨p', hw', r1, r2, .inl ⟨rfl, e2, e3, e4⟩⟩
  · exact ⟨p', hw', r1, r2, .inr ⟨rfl, e2, e3, e4⟩⟩

theorem run_flushing {X K : Type} {cr : Crypto X K} (n : Nat) : ∀ {c : Conn}, c.plaintext.writeState = .active →
    WillTake c.plaintext.inner.writes (c.plaintext.outgoing.length + 0) → WillFlush c.plaintext.inner.flushes (0 + 1) →
    c.plaintext.answers < n →
    ∃ j c', (⟨.flushing c, []⟩ : Tool X K).run cr j = ⟨.reading c', []⟩ ∧ c'.rx = c.rx := by
  induction n with
  | zero => intro c _ _ _ hn; omega
  | succ n ih =>
    intro c hw ht hf hn
    obtain ⟨p', hw', r1, r2, ⟨e1, e2, e3, e4⟩ | ⟨e1, e2, e3, e4⟩⟩ := step_flushing (cr := cr) 0 0 hw ht hf
    · refine ⟨1, { c with plaintext := p' }, ?_, ?_⟩
      · simp only [Tool.run, Tool.step, Conn.pollFlush, hw, e1]
      · simp only [Conn.rx, r1, r2]
    · obtain ⟨j, c', i1, i2⟩ := ih (c := { c with plaintext := p' }) hw' e2 e3 (by simp only; omega)
      refine ⟨j + 1, c', ?_, ?_⟩
      · simp only [Tool.run, Tool.step, Conn.pollFlush, hw, e1]
        exact i1
      · rw [i2]; simp only [Conn.rx, r1, r2]

theorem run_writing {X K : Type} {cr : Crypto X K} (hcw : cr.Works) (hc : cr.Correct) (data : Bytes) (hd : data ≠ [])
    (hlen : data.length ≤ 2 ^ 14) (n : Nat) : ∀ {c : Conn}, c.plaintext.writeState = .active →
    c.seqenc.trafficSecrets.client.writeKey.length = aeadKeyLen c.seqenc.trafficSecrets.client.aeadAlg →
    c.seqenc.trafficSecrets.client.writeIv.length = 12 →
    WillTake c.plaintext.inner.writes (c.plaintext.outgoing.length + 16645) → WillFlush c.plaintext.inner.flushes (1 + 1) →
    c.plaintext.answers < n →
    ∃ j c', (⟨.writing c data, []⟩ : Tool X K).run cr j = ⟨.reading c', []⟩ ∧ c'.rx = c.rx := by
  induction n with
  | zero => intro c _ _ _ _ _ hn; omega
  | succ n ih =>
    intro c hw hk hiv ht hf hn
    obtain ⟨p', hw', r1, r2, ⟨e1, e2, e3, e4⟩ | ⟨e1, e2, e3, e4⟩⟩ := step_flushing (cr := cr) 16645 1 hw ht hf
    · obtain ⟨p2, g1, g2, g3, g4⟩ := encryptRecord_go hcw hc p' data c.seqenc.trafficSecrets.client hk hiv c.seqenc.clientSequenceNo
        .applicationData hlen
      have hw2 : p2.writeState = .active := by
        obtain ⟨_, _, _, _, _, _, hp, _⟩ := encryptRecord_ok cr hc _ hiv _ _ _ _ _ g1
        rw [hp]; exact hw'
      have hmin : min data.length maxPlaintextRecordSize = data.length := by
        unfold maxPlaintextRecordSize; omega
      have hwrite : c.pollWrite cr data = (.ready (.ok data.length), { c with plaintext := p2, seqenc := { c.seqenc with clientSequenceNo := c.seqenc.clientSequenceNo + 1 } }) := by
        unfold Conn.pollWrite
        simp only [hw, e1, hmin, List.take_length, Conn.appendRecord, g1]
      obtain ⟨j, c', i1, i2⟩ := run_flushing (X := X) (K := K) (cr := cr) (p2.answers + 1)
        (c := { c with plaintext := p2, seqenc := { c.seqenc with clientSequenceNo := c.seqenc.clientSequenceNo + 1 } }) hw2
        (by
          simp only
          rw [g2]
          refine willTake_mono e3 ?_
          rw [e2] at g4
          simp only [List.length_nil] at g4
          omega) (by simp only; rw [g2]; exact e4) (Nat.lt_succ_self _)
      refine ⟨j + 2, c', ?_, ?_⟩
      · have h0 : data.length ≠ 0 := fun hh => hd (List.eq_nil_of_length_eq_zero hh)
        simp only [Tool.run, Tool.step, hwrite, if_neg hd, if_neg h0, List.drop_length, if_true]
        exact i1
      · rw [i2]; simp only [Conn.rx, g2, g3, r1, r2]
    · obtain ⟨j, c', i1, i2⟩ := ih (c := { c with plaintext := p' }) hw' hk hiv e2 e3 (by simp only; omega)
      refine ⟨j + 1, c', ?_, ?_⟩
      · have hp : c.pollWrite cr data = (.pending, { c with plaintext := p' }) := by
          unfold Conn.pollWrite
          simp only [hw, e1]
        simp only [Tool.run, Tool.step, hp, if_neg hd]
        exact i1
      · rw [i2]; simp only [Conn.rx, r1, r2]

theorem run_connecting {X K : Type} (cr : Crypto X K) (conn : Conn) (k : Nat) : ∀ (s : ECState X K),
    (∀ j, j < k → (establishPoll cr (pollTimes cr j s)).1 = .pending) →
    (establishPoll cr (pollTimes cr k s)).1 = .ready (.ok conn) →
    (⟨.connecting s, []⟩ : Tool X K).run cr (k + 1) = ⟨.writing conn request, []⟩ := by
  induction k with
  | zero =>
    intro s _ h
    simp only [pollTimes] at h
    simp only [Tool.run, Tool.step]
    generalize establishPoll cr s = P at h
    obtain ⟨r, s'⟩ := P
    simp only at h
    subst h
    rfl
  | succ k ih =>
    intro s h1 h2
    have h0 := h1 0 (by omega)
    simp only [pollTimes] at h0
    have hi := ih (establishPoll cr s).2 (fun j hj => h1 (j + 1) (by omega)) h2
    rw [Tool.run]
    simp only [Tool.step]
    generalize establishPoll cr s = P at h0 hi
    obtain ⟨r, s'⟩ := P
    simp only at h0
    subst h0
    exact hi

theorem request_ne : request ≠ [] := by unfold request; decide

theorem request_length : request.length ≤ 2 ^ 14 := by unfold request; decide

end Ngfs.Tls
