import Verif.Lemmas.TlsRead
import Verif.Props.TlsConn

/-!
C28 (end of stream), C56 (flush makes progress), C57 (errors are permanent), C58 (no waiting for what is
already there), C60 (integrity of what is read).
-/
namespace Ngfs.Tls

/-! ## C60: integrity of the read stream -/

/-- C60. For every history of calls and every behaviour of the transport, forged and damaged bytes included:
the bytes given to the reader, followed by those decrypted and not yet read, are exactly the application data
of records that authenticate under the peer's key with the consecutive numbers `n`, `n+1`, `n+2`, ...; these records
stand in this order among those that arrived; and nothing is accepted after "close notify". -/
theorem C60_read_stream {X K : Type} (cr : Crypto X K) (c : Conn)
    (hiv : c.seqenc.trafficSecrets.server.writeIv.length = 12) (hact : c.readState = .active)
    (hfresh : c.incomingDecrypted = []) (ops : List ConnOp) :
    ∃ all taken msgs, Received cr c (connRun cr c ops).2 all taken msgs ∧
      readBytes (connRun cr c ops).1 ++ (connRun cr c ops).2.incomingDecrypted = appData msgs ∧
      (∀ m ∈ msgs.dropLast, ¬ IsCloseNotify m) := by
  obtain ⟨msgs, h, _, _⟩ := readInv_run cr c hiv ops c [] [] (readInv_init cr c (by rw [hact]; simp))
  obtain ⟨all, taken, hr⟩ := h.received
  have hd := h.data
  rw [hfresh] at hd
  exact ⟨all, taken, msgs, hr, by simpa using hd, h.last⟩

/-- Records sealed by the toy cipher for `exampleConn`. -/
def toyRecord (n : Nat) (typ : ContentType) (data : Bytes) : Bytes :=
  (encryptRecord toyCrypto (.new ⟨[], [], [], [], []⟩ .new) data typ
    ⟨[], .aes128Gcm, List.replicate 16 5, List.replicate 12 5⟩ n).2.outgoing

example : readBytes (connRun toyCrypto
      (exampleConn [.ready (toyRecord 0 .applicationData [1, 2, 3]), .pending, .ready ((toyRecord 1 .applicationData [4]).take 7),
        .ready ((toyRecord 1 .applicationData [4]).drop 7)])
      [.read 2, .read 10, .read 10, .read 10, .read 10]).1 = [1, 2, 3, 4] := by
  decide +kernel

/-! ## C28: end of stream -/

/-- C28: end of stream (a successful read of nothing, although there was room) is reported only if
the peer's authenticated "close notify" is among the records that arrived. -/
def C28_statement : Prop :=
  ∀ (X K : Type) (cr : Crypto X K) (c : Conn) (ops : List ConnOp) (room : Nat),
    cr.Correct → c.seqenc.trafficSecrets.server.writeIv.length = 12 →
    c.readState = .active → c.incomingDecrypted = [] → 0 < room →
    .read room (.ready (.ok [])) ∈ (connRun cr c ops).1 →
    ∃ (w : WireRecord) (pre post content : Bytes) (n : Nat),
      c.plaintext.receiver.incoming ++ readData c.plaintext.inner.reads = pre ++ w.bytes ++ post ∧
      Protects cr c.seqenc.trafficSecrets.server n w 21 content ∧ IsCloseNotify (21, content)

/-- The code does not satisfy C28: an empty application data record, which TLS 1.3 allows, is reported as end of stream. -/
theorem C28_false : ¬ C28_statement := by
  intro h
  have hmem : ConnEvent.read 1 (.ready (.ok [])) ∈
      (connRun toyCrypto (exampleConn [.ready (toyRecord 0 .applicationData [])]) [.read 1]).1 := by
    have e : ((exampleConn [.ready (toyRecord 0 .applicationData [])]).pollRead toyCrypto 1).1 = .ready (.ok []) := by rfl
    simp only [connRun, ConnOp.step, e, List.mem_singleton]
  obtain ⟨w, pre, post, content, n, h1, ⟨pad, h2⟩, _, l, rest, h3⟩ :=
    h Unit Unit toyCrypto _ [.read 1] 1 toyCrypto_correct rfl rfl rfl (by omega) hmem
  have hl := congrArg List.length h1
  have e : ((exampleConn [.ready (toyRecord 0 .applicationData [])]).plaintext.receiver.incoming ++
    readData (exampleConn [.ready (toyRecord 0 .applicationData [])]).plaintext.inner.reads).length = 22 := by decide +kernel
  rw [e] at hl
  simp only [List.length_append, WireRecord.bytes_length] at hl
  simp only at h3
  subst h3
  simp only [toyCrypto] at h2
  split at h2
  · simp only [Option.some.injEq] at h2
    have := congrArg List.length h2
    simp only [List.length_append, List.length_take, List.length_cons, List.length_nil] at this
    omega
  · cases h2

/-- C28, what holds: end of stream is reported only if one of the records accepted (all authenticated, in
order) was "close notify" or was an empty application data record. So nothing that happens to the transport
(end, errors, forged bytes) is ever reported as end of stream. Missing from C28: the second case. -/
theorem C28_end_of_stream_partial {X K : Type} (cr : Crypto X K) (c : Conn)
    (hiv : c.seqenc.trafficSecrets.server.writeIv.length = 12) (hact : c.readState = .active)
    (ops : List ConnOp) (room : Nat) (hroom : 0 < room)
    (h : .read room (.ready (.ok [])) ∈ (connRun cr c ops).1) :
    ∃ all taken msgs, Received cr c (connRun cr c ops).2 all taken msgs ∧
      ∃ m ∈ msgs, IsCloseNotify m ∨ m = (23, []) := by
  obtain ⟨msgs, hi, he, _⟩ := readInv_run cr c hiv ops c [] [] (readInv_init cr c (by rw [hact]; simp))
  obtain ⟨all, taken, hr⟩ := hi.received
  exact ⟨all, taken, msgs, hr, he ⟨room, hroom, h⟩⟩

/-- C28: if the transport ends and what is left over is not a whole record, the reader gets an error. -/
theorem C28_truncation_is_an_error_partial {X K : Type} (cr : Crypto X K) (c : Conn) (room : Nat) (es : List ReadEvent)
    (hact : c.readState = .active) (hnone : c.incomingDecrypted = [])
    (hr : c.plaintext.receiver.readState = .active) (hend : c.plaintext.inner.reads = .ready [] :: es)
    (hcut : (∃ w : WireRecord, w.Legal ∧ ∃ cut, cut < w.bytes.length ∧ c.plaintext.receiver.incoming = w.bytes.take cut)) :
    ∃ e, (c.pollRead cr room).1 = .ready (.error e) := by
  obtain ⟨w, hw, cut, hcut, hinc⟩ := hcut
  unfold Conn.pollRead
  rw [hact]
  simp only
  unfold Conn.pollFillIncoming
  rw [if_neg (by simp [hnone]), Conn.fillLoop]
  have hrecv : c.plaintext.pollRecv = (.ready (.ok ()),
      { c.plaintext with receiver := ⟨c.plaintext.receiver.incoming, .eof⟩, inner := { c.plaintext.inner with reads := es } }) := by
    unfold PlaintextStream.pollRecv pollReceiveAndAddData Transport.pollRead
    simp [hend, RecordReceiver.close, hr]
  rw [hrecv]
  simp only
  have hpop : ∃ res, (RecordReceiver.popRecord ⟨c.plaintext.receiver.incoming, .eof⟩).1 = .ready res ∧
      (res = .ok none ∨ res = .error .invalidPlaintextRecord) := by
    by_cases h5 : cut < 5
    · refine ⟨.ok none, ?_, .inl rfl⟩
      unfold RecordReceiver.popRecord
      rw [if_pos (by rw [hinc]; simp; omega)]
    · refine ⟨.error .invalidPlaintextRecord, ?_, .inr rfl⟩
      have := C24_truncated_record w hw cut (by omega) hcut
      rw [hinc]
      exact this
  obtain ⟨res, hpop, hres⟩ := hpop
  have hcc : ∃ r', pollReceiveRecordIgnoreCc ⟨c.plaintext.receiver.incoming, .eof⟩ = (.ready res, r') := by
    unfold pollReceiveRecordIgnoreCc
    rw [ignoreCcLoop]
    rcases hq : RecordReceiver.popRecord ⟨c.plaintext.receiver.incoming, .eof⟩ with ⟨a, r'⟩
    rw [hq] at hpop
    simp only at hpop
    subst hpop
    rcases hres with rfl | rfl <;> exact ⟨_, rfl⟩
  obtain ⟨r', hcc⟩ := hcc
  simp only [pollReceiveEncryptedMessage, hcc]
  rcases hres with rfl | rfl <;> exact ⟨_, rfl⟩

/-- Both ways to end: with "close notify" and with an empty record. -/
example : (((exampleConn [.ready (toyRecord 0 .alert [1, 0])]).pollRead toyCrypto 5).1 = .ready (.ok [])) ∧
    (((exampleConn [.ready []]).pollRead toyCrypto 5).1 = .ready (.error .unexpectedEof)) := ⟨rfl, rfl⟩

/-! ## C57: errors are permanent -/

/-- C57: once a read has failed, no later read gives data. -/
def C57_statement : Prop :=
  ∀ (X K : Type) (cr : Crypto X K) (c : Conn) (room : Nat) (e : TlsErr) (ops : List ConnOp),
    cr.Correct → (c.pollRead cr room).1 = .ready (.error e) →
    readBytes (connRun cr (c.pollRead cr room).2 ops).1 = []

/-- The code does not satisfy C57: a record that does not authenticate is an error for one read
only; if a good record follows, the next read gives its data. -/
theorem C57_false : ¬ C57_statement := by
  intro h
  have := h Unit Unit toyCrypto (exampleConn [.ready (toyRecord 7 .applicationData [1]), .ready (toyRecord 0 .applicationData [2])])
    5 .decryptionFailed [.read 5] toyCrypto_correct rfl
  revert this
  decide +kernel

/-- C57, what holds: once the connection itself is in the error state (errors of the transport, alerts,
unexpected messages, unexpected end), every later read gives the same error. Missing from C57: the
errors of the record layer and of decryption. -/
theorem C57_error_state_is_permanent_partial {X K : Type} (cr : Crypto X K) (c : Conn) (e : TlsErr)
    (h : c.readState = .error e) (ops : List ConnOp) :
    (connRun cr c ops).2.readState = .error e ∧
      ∀ room a, .read room a ∈ (connRun cr c ops).1 → a = .ready (.error e) := by
  induction ops generalizing c with
  | nil => exact ⟨h, nofun⟩
  | cons op ops ih =>
    have hstep : (op.step cr c).2.readState = .error e ∧
        ∀ room a, (op.step cr c).1 = .read room a → a = .ready (.error e) := by
      by_cases hop : ∃ room, op = .read room
      · obtain ⟨room, rfl⟩ := hop
        have e1 : c.pollRead cr room = (.ready (.error e), c) := by
          unfold Conn.pollRead; rw [h]
        simp only [ConnOp.step, e1]
        refine ⟨h, ?_⟩
        intro room' a ha
        injection ha with _ ha
        exact ha.symm
      · have hop' : ∀ room, op ≠ .read room := fun room hh => hop ⟨room, hh⟩
        obtain ⟨h1, _⟩ := step_rx cr c op hop'
        simp only [Conn.rx, Prod.mk.injEq] at h1
        refine ⟨h1.2.2.2.2.2.trans h, ?_⟩
        intro room a ha
        cases op <;> simp_all [ConnOp.step]
    obtain ⟨h1, h2⟩ := hstep
    obtain ⟨h3, h4⟩ := ih _ h1
    refine ⟨h3, ?_⟩
    intro room a hmem
    simp only [connRun, List.mem_cons] at hmem
    rcases hmem with hmem | hmem
    · exact h2 room a hmem.symm
    · exact h4 room a hmem

/-- C57: alerts and unexpected messages are of this kind. -/
example : ((exampleConn [.ready (toyRecord 0 .alert [2, 40])]).pollRead toyCrypto 5).2.readState
    = .error (.unexpectedAlert ⟨.fatal, .handshakeFailure⟩) := rfl

/-! ## C58: complete records are delivered -/

/-- C58: if a complete record with data has arrived, a read does not wait for the transport. -/
def C58_statement : Prop :=
  ∀ (X K : Type) (cr : Crypto X K) (c : Conn) (room : Nat) (w : WireRecord) (rest content : Bytes),
    cr.Correct → c.seqenc.trafficSecrets.server.writeIv.length = 12 →
    c.readState = .active → 0 < room → content ≠ [] → w.Legal → w.typ = 23 →
    c.plaintext.receiver.incoming = w.bytes ++ rest →
    Protects cr c.seqenc.trafficSecrets.server c.seqenc.serverSequenceNo w 23 content →
    (c.pollRead cr room).1 ≠ .pending

/-- The connection after two records arrived in one piece and the first one was read. -/
def twoRecords : Conn :=
  ((exampleConn [.ready (toyRecord 0 .applicationData [1] ++ toyRecord 1 .applicationData [2])]).pollRead toyCrypto 5).2

/-- The code does not satisfy C58: when two records arrive together, the first read gives the data of the
first, and the next read waits for the transport although the second record is there. If the peer waits
for an answer, both wait forever. -/
theorem C58_false : ¬ C58_statement := by
  intro h
  refine h Unit Unit toyCrypto twoRecords 5 ⟨23, 3, 3, (toyRecord 1 .applicationData [2]).drop 5⟩ [] [2]
    toyCrypto_correct rfl rfl (by omega) (by simp) ?_ rfl ?_ ⟨0, ?_⟩ ?_
  · show ((toyRecord 1 .applicationData [2]).drop 5).length ≤ _
    have : ((toyRecord 1 .applicationData [2]).drop 5).length = 18 := by decide +kernel
    omega
  · decide +kernel
  · decide +kernel
  · rfl

/-- C58, what holds: the record is delivered as soon as the transport answers anything but "pending" or an error,
even that it has ended. Missing from C58: no answer of the transport should be needed. -/
theorem C58_delivered_on_next_event_partial {X K : Type} (cr : Crypto X K) (c : Conn) (room : Nat) (w : WireRecord)
    (rest content data : Bytes) (es : List ReadEvent)
    (hiv : c.seqenc.trafficSecrets.server.writeIv.length = 12)
    (hact : c.readState = .active) (hnone : c.incomingDecrypted = []) (hw : w.Legal) (htyp : w.typ = 23)
    (hinc : c.plaintext.receiver.incoming = w.bytes ++ rest) (hread : c.plaintext.inner.reads = .ready data :: es)
    (hp : Protects cr c.seqenc.trafficSecrets.server c.seqenc.serverSequenceNo w 23 content) :
    (c.pollRead cr room).1 = .ready (.ok (content.take room)) := by
  unfold Conn.pollRead
  rw [hact]
  simp only
  unfold Conn.pollFillIncoming
  rw [if_neg (by simp [hnone]), Conn.fillLoop]
  have hrecv : ∃ r : RecordReceiver, ∃ more, r.incoming = w.bytes ++ more ∧ c.plaintext.pollRecv = (.ready (.ok ()),
      { c.plaintext with receiver := r, inner := { c.plaintext.inner with reads := es } }) := by
    unfold PlaintextStream.pollRecv pollReceiveAndAddData Transport.pollRead
    rw [hread]
    rcases data with _ | ⟨b, bs⟩
    · refine ⟨_, rest, ?_, rfl⟩
      unfold RecordReceiver.close
      split <;> exact hinc
    · exact ⟨_, rest ++ (b :: bs), by simp [RecordReceiver.appendData, hinc], rfl⟩
  obtain ⟨r, more, hr, hrecv⟩ := hrecv
  rw [hrecv]
  simp only
  have hpop := popRecord_wire w hw more r.readState
  rw [← hr] at hpop
  have hcc : pollReceiveRecordIgnoreCc r = (.ready (.ok (some w.owned)), ⟨more, r.readState⟩) := by
    unfold pollReceiveRecordIgnoreCc
    rw [ignoreCcLoop]
    have : r = ⟨r.incoming, r.readState⟩ := rfl
    rw [this, hpop]
    simp only
    rw [if_pos]
    simp [WireRecord.owned, htyp, ContentType.fromRaw]
  have hdec := decryptMessage_protects cr _ hiv _ w hw 23 (by decide) content hp
  rw [fromRaw_23] at hdec
  simp only [pollReceiveEncryptedMessage, hcc, WireRecord.owned, hdec, hnone, List.nil_append]
  congr 2
  rw [← List.take_take]
  exact List.take_of_length_le (by simp)

/-! ## C56: progress of flush -/

/-- C56: if the transport takes nothing, flush reports an error. -/
def C56_statement : Prop :=
  ∀ (p : PlaintextStream), p.outgoing ≠ [] → (∃ ws, p.inner.writes = .accept 0 :: ws) →
    ∃ e, p.pollFlush.1 = .ready (.error e)

/-- The code does not satisfy C56: it asks again. -/
theorem C56_false : ¬ C56_statement := by
  intro h
  obtain ⟨e, he⟩ := h ⟨⟨[], [.accept 0, .accept 5], [.ok], [], []⟩, .new, [1], .active, []⟩ (by simp) ⟨_, rfl⟩
  cases he

/-- It asks as often as the transport answers so: one call of flush does not end while the
transport takes nothing. -/
theorem C56_flush_spins (p : PlaintextStream) (k : Nat) (ws : List WriteEvent) (ho : p.outgoing ≠ [])
    (hw : p.inner.writes = List.replicate k (.accept 0) ++ ws) :
    p.pollFlush = PlaintextStream.pollFlush { p with inner := { p.inner with writes := ws } } := by
  have : ∀ (k : Nat) (o s : Bytes), o ≠ [] →
      writeLoop (List.replicate k (.accept 0) ++ ws) o s = writeLoop ws o s := by
    intro k
    induction k with
    | zero => intros; rfl
    | succ k ih =>
      intro o s ho
      rcases o with _ | ⟨b, bs⟩
      · exact absurd rfl ho
      · simp only [List.replicate_succ, List.cons_append]
        rw [writeLoop]
        simp only [List.drop_zero, List.take_zero, List.append_nil]
        exact ih _ _ (by simp)
  unfold PlaintextStream.pollFlush
  rw [hw, this k _ _ ho]

/-- C56, what holds: if the transport never answers zero, every answer but the last takes at least one byte, so flush
uses at most as many answers as there are bytes. -/
theorem C56_flush_progress_partial (ws : List WriteEvent) (o s : Bytes)
    (hpos : ∀ e ∈ ws, e ≠ .accept 0) :
    ws.length ≤ (writeLoop ws o s).2.1.length + o.length + 1 := by
  induction ws generalizing o s with
  | nil => simp
  | cons e ws ih =>
    rcases o with _ | ⟨b, bs⟩
    · simp [writeLoop]
    · rcases e with _ | n | k
      · simp [writeLoop]
      · rw [writeLoop]
        have hn : n ≠ 0 := fun hh => hpos (.accept n) (by simp) (by rw [hh])
        have := ih ((b :: bs).drop n) (s ++ (b :: bs).take n) (fun e he => hpos e (List.mem_cons_of_mem _ he))
        simp only [List.length_drop, List.length_cons] at this ⊢
        omega
      · simp [writeLoop]

end Ngfs.Tls
