import Verif.Lemmas.TlsReadAll
import Verif.Spec.TlsMemory

/-! Lemmas for C184: how many bytes a TLS connection keeps. -/
namespace Ngfs.Tls

theorem ProtectsAll.cons_inv {X K : Type} {cr : Crypto X K} {key : EncryptionKey} {n : Nat} {w : WireRecord} {ws : List WireRecord}
    {accs : List Bytes} (h : ProtectsAll cr key n (w :: ws) (dataMessages accs)) :
    ∃ d ds, accs = d :: ds ∧ w.Legal ∧ Protects cr key n w 23 d ∧ ProtectsAll cr key (n + 1) ws (dataMessages ds) := by
  rcases accs with _ | ⟨d, ds⟩
  · exact absurd h id
  · exact ⟨d, ds, rfl, h⟩

/-- One read when a record is complete after the next answer of the transport: the record is taken, and nothing else. -/
theorem read_takes_one {X K : Type} (cr : Crypto X K) (c : Conn) (room : Nat) (w : WireRecord) (more content data : Bytes)
    (es : List ReadEvent) (hiv : c.seqenc.trafficSecrets.server.writeIv.length = 12)
    (hact : c.readState = .active) (hnone : c.incomingDecrypted = []) (hw : w.Legal) (ho : w.Outer) (hd : data ≠ [])
    (hread : c.plaintext.inner.reads = .ready data :: es)
    (hinc : c.plaintext.receiver.incoming ++ data = w.bytes ++ more)
    (hroom : content.length ≤ room)
    (hp : Protects cr c.seqenc.trafficSecrets.server c.seqenc.serverSequenceNo w 23 content) :
    (c.pollRead cr room).1 = .ready (.ok content) ∧
    (c.pollRead cr room).2.readState = .active ∧ (c.pollRead cr room).2.incomingDecrypted = [] ∧
    (c.pollRead cr room).2.plaintext.inner.reads = es ∧ (c.pollRead cr room).2.plaintext.receiver.incoming = more ∧
    (c.pollRead cr room).2.seqenc = { c.seqenc with serverSequenceNo := c.seqenc.serverSequenceNo + 1 } ∧
    (c.pollRead cr room).2.plaintext.outgoing = c.plaintext.outgoing := by
  have hrecv : c.plaintext.pollRecv = (.ready (.ok ()), { c.plaintext with
      receiver := c.plaintext.receiver.appendData data, inner := { c.plaintext.inner with reads := es } }) := by
    unfold PlaintextStream.pollRecv pollReceiveAndAddData Transport.pollRead
    rw [hread]
    rcases data with _ | ⟨b, bs⟩
    · exact absurd rfl hd
    · rfl
  obtain ⟨raw, hm⟩ := receive_data cr (c.plaintext.receiver.appendData data) c.seqenc.serverSequenceNo
    c.seqenc.trafficSecrets.server w more content hiv hw ho hinc hp
  have hfill : c.pollFillIncoming cr = (.ready (.ok ()), { c with
      plaintext := { c.plaintext with
        receiver := ⟨more, (c.plaintext.receiver.appendData data).readState⟩, inner := { c.plaintext.inner with reads := es } }
      seqenc := { c.seqenc with serverSequenceNo := c.seqenc.serverSequenceNo + 1 }
      incomingDecrypted := content }) := by
    unfold Conn.pollFillIncoming
    rw [if_neg (by simp [hnone]), Conn.fillLoop, hrecv]
    simp only
    rw [hm]
    simp [hnone]
  have hr : c.pollRead cr room = (.ready (.ok content), { c with
      plaintext := { c.plaintext with
        receiver := ⟨more, (c.plaintext.receiver.appendData data).readState⟩, inner := { c.plaintext.inner with reads := es } }
      seqenc := { c.seqenc with serverSequenceNo := c.seqenc.serverSequenceNo + 1 }
      incomingDecrypted := [] }) := by
    unfold Conn.pollRead
    rw [hact]
    simp only
    rw [hfill]
    simp [Nat.min_eq_left hroom, hact]
  rw [hr]
  exact ⟨rfl, hact, rfl, rfl, rfl, rfl, rfl⟩

/-- Reads while the transport answers with whole groups of records: each takes one record. -/
theorem reads_take_one_each {X K : Type} (cr : Crypto X K) (room : Nat) (groups : List (List WireRecord)) :
    ∀ (c : Conn) (have_ : List WireRecord) (accs : List Bytes), c.seqenc.trafficSecrets.server.writeIv.length = 12 →
      c.readState = .active → c.incomingDecrypted = [] → c.plaintext.inner.reads = groups.map (fun g => .ready (wire g)) →
      c.plaintext.receiver.incoming = wire have_ → (∀ g ∈ groups, g ≠ []) →
      ProtectsAll cr c.seqenc.trafficSecrets.server c.seqenc.serverSequenceNo (have_ ++ groups.flatten) (dataMessages accs) →
      (∀ w ∈ have_ ++ groups.flatten, w.Outer) → (∀ d ∈ accs, d.length ≤ room) →
      (connRun cr c (List.replicate groups.length (.read room))).1 =
        (accs.take groups.length).map (fun d => .read room (.ready (.ok d))) ∧
      (connRun cr c (List.replicate groups.length (.read room))).2.plaintext.receiver.incoming =
        wire ((have_ ++ groups.flatten).drop groups.length) := by
  induction groups with
  | nil => intro c have_ accs _ _ _ _ hi _ _ _ _; simp [connRun, hi]
  | cons g groups ih =>
    intro c have_ accs hiv hact hnone hreads hinc hne hp ho hroom
    obtain ⟨w, ws, hws⟩ : ∃ w ws, have_ ++ g = w :: ws := by
      rcases hg : have_ ++ g with _ | ⟨w, ws⟩
      · exact absurd (List.append_eq_nil_iff.mp hg).2 (hne g (by simp))
      · exact ⟨w, ws, rfl⟩
    have hall : have_ ++ (g :: groups).flatten = w :: (ws ++ groups.flatten) := by
      rw [List.flatten_cons, ← List.append_assoc, hws, List.cons_append]
    rw [hall] at hp ho
    obtain ⟨d, ds, rfl, hl, hpw, hprest⟩ := hp.cons_inv
    have hgn : wire g ≠ [] := by
      rcases hg : g with _ | ⟨x, xs⟩
      · exact absurd hg (hne g (by simp))
      · intro h
        have := congrArg List.length h
        simp at this
    have hcut : c.plaintext.receiver.incoming ++ wire g = w.bytes ++ wire ws := by
      rw [hinc, ← wire_append, hws, wire_cons]
    obtain ⟨h1, h2, h3, h4, h5, h6, -⟩ := read_takes_one cr c room w (wire ws) d (wire g)
      (groups.map (fun g => .ready (wire g))) hiv hact hnone hl (ho w (by simp)) hgn (by rw [hreads]; rfl) hcut (hroom d (by simp)) hpw
    obtain ⟨i1, i2⟩ := ih (c.pollRead cr room).2 ws ds (by rw [h6]; exact hiv) h2 h3 h4 h5 (fun g hg => hne g (by simp [hg]))
      (by rw [h6]; exact hprest) (fun w hw => ho w (by simp only [List.mem_cons]; exact .inr hw)) (fun d hd => hroom d (by simp [hd]))
    simp only [List.length_cons, List.replicate_succ, connRun, ConnOp.step, List.take_succ_cons, List.map_cons]
    rw [i1, i2, h1, hall]
    exact ⟨rfl, rfl⟩

/-! ### What is kept for sending -/

theorem pollFlush_outgoing (p : PlaintextStream) : p.pollFlush.2.outgoing.length ≤ p.outgoing.length := by
  unfold PlaintextStream.pollFlush
  have h : ∀ (ws : List WriteEvent) (o s : Bytes), (writeLoop ws o s).2.2.1.length ≤ o.length := by
    intro ws
    induction ws with
    | nil => intro o s; cases o <;> simp [writeLoop]
    | cons w ws ih =>
      intro o s
      rcases o with _ | ⟨b, bs⟩
      · simp [writeLoop]
      · rcases w with _ | n | k
        · simp [writeLoop]
        · rw [writeLoop]
          exact (ih _ _).trans (by simp only [List.length_drop]; omega)
        · simp [writeLoop]
  have h1 := h p.inner.writes p.outgoing p.inner.sent
  generalize writeLoop p.inner.writes p.outgoing p.inner.sent = W at h1
  obtain ⟨res, ws, o, s⟩ := W
  rcases res with _ | (k | u)
  · exact h1
  · exact h1
  · simp only
    rcases Transport.pollFlush { p.inner with writes := ws, sent := s } with ⟨e, t⟩
    rcases e <;> exact h1

/-- What is kept for sending: one record, and after a shutdown the alert that ends the stream. -/
def OutBound (c : Conn) : Prop :=
  c.plaintext.outgoing.length ≤ 16430 ∧ (c.plaintext.writeState = .active → c.plaintext.outgoing.length ≤ 16406)

theorem outBound_flush {c : Conn} (h : OutBound c) : OutBound c.pollFlushEncrypted.2 := by
  have h1 := pollFlush_outgoing c.plaintext
  have h2 := (pollFlush_frame c.plaintext).2.2.1
  refine ⟨h1.trans h.1, fun ha => ?_⟩
  rcases h2 with h2 | h2
  · exact h1.trans (h.2 (h2.symm.trans ha))
  · simp only [Conn.pollFlushEncrypted] at ha
    rw [ha] at h2
    exact absurd h2 id

theorem appendRecord_outgoing {X K : Type} {cr : Crypto X K} (hc : cr.Correct) (c : Conn) (d : Bytes) (ct : ContentType) :
    ((c.appendRecord cr d ct).1 = .ok () ∧ (c.appendRecord cr d ct).2.plaintext.outgoing.length = c.plaintext.outgoing.length + (d.length + 22) ∧
      (c.appendRecord cr d ct).2.plaintext.writeState = c.plaintext.writeState) ∨
    (∃ e, (c.appendRecord cr d ct).1 = .error e ∧ (c.appendRecord cr d ct).2.plaintext.outgoing = c.plaintext.outgoing ∧
      (c.appendRecord cr d ct).2.plaintext.writeState = .error e) := by
  unfold Conn.appendRecord encryptRecord
  by_cases hl : d.length > maxPlaintextRecordSize
  · rw [if_pos hl]; exact .inr ⟨_, rfl, rfl, rfl⟩
  rw [if_neg hl]
  simp only [encryptTraffic]
  rcases he : cr.aeadEncrypt c.seqenc.trafficSecrets.client.aeadAlg c.seqenc.trafficSecrets.client.writeKey
    (makeNonce c.seqenc.trafficSecrets.client.writeIv c.seqenc.clientSequenceNo)
    [0x17, 0x03, 0x03, UInt8.ofNat (((d ++ [ct.toRaw]).length + c.seqenc.trafficSecrets.client.aeadAlg.tagLen) >>> 8),
      UInt8.ofNat ((d ++ [ct.toRaw]).length + c.seqenc.trafficSecrets.client.aeadAlg.tagLen)] (d ++ [ct.toRaw]) with _ | x
  · exact .inr ⟨_, rfl, rfl, rfl⟩
  · obtain ⟨-, hx⟩ := hc _ _ _ _ _ _ he
    refine .inl ⟨rfl, ?_, rfl⟩
    simp only [encodeRecord, List.length_append, hx, List.length_cons, List.length_nil, Binary.beBytes_length]
    omega

theorem outBound_finish {c : Conn} (h : OutBound c) : OutBound c.finishShutdown.2 := by
  unfold Conn.finishShutdown
  have hf := outBound_flush h
  generalize c.pollFlushEncrypted = F at hf
  obtain ⟨res, c'⟩ := F
  rcases res with _ | (e | u)
  · exact hf
  · exact hf
  · simp only at hf ⊢
    unfold Transport.pollShutdown
    rcases c'.plaintext.inner.shutdowns with _ | ⟨e, es⟩
    · exact hf
    · rcases e
      · exact hf
      · exact ⟨hf.1, nofun⟩
      · exact hf

theorem outBound_step {X K : Type} {cr : Crypto X K} (hc : cr.Correct) {c : Conn} (h : OutBound c) (op : ConnOp) :
    OutBound (op.step cr c).2 := by
  cases op with
  | read room =>
    have ht := pollRead_tx cr c room
    simp only [Conn.tx, Tx.mk.injEq] at ht
    simp only [ConnOp.step, OutBound]
    rw [show (c.pollRead cr room).2.plaintext.outgoing = c.plaintext.outgoing by tauto,
      show (c.pollRead cr room).2.plaintext.writeState = c.plaintext.writeState by tauto]
    exact h
  | write buf =>
    simp only [ConnOp.step]
    unfold Conn.pollWrite
    rcases hs : c.plaintext.writeState with _ | _ | e
    · simp only
      have hf := outBound_flush h
      have hfr := (pollFlush_frame c.plaintext).2.2.2.1
      have e1 : c.pollFlushEncrypted.1 = c.plaintext.pollFlush.1 := rfl
      have e2 : c.pollFlushEncrypted.2.plaintext = c.plaintext.pollFlush.2 := rfl
      rw [← e1, ← e2] at hfr
      generalize c.pollFlushEncrypted = F at hf hfr
      obtain ⟨res, c'⟩ := F
      rcases res with _ | (e | u)
      · exact hf
      · exact hf
      · simp only at hf hfr ⊢
        obtain ⟨ho, hst⟩ := hfr trivial
        have ha := appendRecord_outgoing hc c' (buf.take (min buf.length maxPlaintextRecordSize)) .applicationData
        generalize c'.appendRecord cr (buf.take (min buf.length maxPlaintextRecordSize)) .applicationData = A at ha
        obtain ⟨res, c''⟩ := A
        have hlen : (buf.take (min buf.length maxPlaintextRecordSize)).length ≤ 16384 := by
          simp only [List.length_take, maxPlaintextRecordSize]; omega
        rcases ha with ⟨h1, h2, h3⟩ | ⟨e, h1, h2, h3⟩
        · simp only at h1 h2 h3
          subst h1
          simp only [OutBound, h2, ho, List.length_nil]
          exact ⟨by omega, fun _ => by omega⟩
        · simp only at h1 h2 h3
          subst h1
          simp only [OutBound, h2, h3, ho, List.length_nil]
          exact ⟨by omega, nofun⟩
    · exact h
    · exact h
  | flush =>
    simp only [ConnOp.step]
    unfold Conn.pollFlush
    rcases c.plaintext.writeState with _ | _ | e
    · exact outBound_flush h
    · exact h
    · exact h
  | shutdown =>
    simp only [ConnOp.step]
    unfold Conn.pollShutdown
    rcases hs : c.plaintext.writeState with _ | _ | e
    · simp only
      unfold Conn.appendCloseNotify
      have ha := appendRecord_outgoing hc c [AlertLevel.warning.toRaw, AlertDescription.closeNotify.toRaw] .alert
      generalize c.appendRecord cr [AlertLevel.warning.toRaw, AlertDescription.closeNotify.toRaw] .alert = A at ha
      obtain ⟨res, c''⟩ := A
      have hb := h.2 hs
      rcases ha with ⟨h1, h2, h3⟩ | ⟨e, h1, h2, h3⟩
      · simp only at h1 h2 h3
        subst h1
        refine outBound_finish ⟨?_, nofun⟩
        simp only [List.length_cons, List.length_nil] at h2
        simp only [h2]
        omega
      · simp only at h1 h2 h3
        subst h1
        exact ⟨by simp only [h2]; omega, by simp only [h3]; nofun⟩
    · exact outBound_finish h
    · exact h

theorem outBound_run {X K : Type} {cr : Crypto X K} (hc : cr.Correct) (ops : List ConnOp) :
    ∀ c : Conn, OutBound c → OutBound (connRun cr c ops).2 := by
  induction ops with
  | nil => exact fun c h => h
  | cons op ops ih => exact fun c h => ih _ (outBound_step hc h op)

/-! ### What is kept of the data received -/

/-- The records are legal and take at least 1024 bytes each. -/
def BigRecords (ws : List WireRecord) : Prop := ∀ w ∈ ws, w.Legal ∧ 1024 ≤ w.bytes.length

/-- No record is taken: there is less than one. -/
theorem popRecord_wants_more {r r' : RecordReceiver} {res : Poll (Except TlsErr (Option OwnedRecord))} (h : r.popRecord = (res, r'))
    (hn : ∀ o, res ≠ .ready (.ok (some o))) {rest : Bytes} {ws : List WireRecord} (hs : r.incoming ++ rest = wire ws)
    (hl : ∀ w ∈ ws, w.Legal) : r.incoming.length < 16645 := by
  rcases ws with _ | ⟨w, ws⟩
  · have := congrArg List.length hs
    simp only [List.length_append, wire_nil, List.length_nil] at this
    omega
  rcases wire_cut w ws _ _ hs with ⟨more, h1, -⟩ | ⟨h1, -⟩
  · have hp := popRecord_wire w (hl w (by simp)) more r.readState
    rw [← h1, show (⟨r.incoming, r.readState⟩ : RecordReceiver) = r from rfl, h] at hp
    simp only [Prod.mk.injEq] at hp
    exact absurd hp.1 (hn _)
  · have := hl w (by simp)
    rw [WireRecord.bytes_length] at h1
    unfold WireRecord.Legal at this
    omega

theorem ignoreCcLoop_kept (n : Nat) : ∀ (r : RecordReceiver) (rest : Bytes) (ws : List WireRecord), r.incoming.length < n →
    r.incoming ++ rest = wire ws → BigRecords ws →
    ∃ ws', BigRecords ws' ∧ (ignoreCcLoop n r).2.incoming ++ rest = wire ws' ∧
      ((ignoreCcLoop n r).2.incoming.length + 1024 ≤ r.incoming.length ∨ (ignoreCcLoop n r).2.incoming.length < 16645) := by
  induction n with
  | zero => intro r rest ws h; omega
  | succ n ih =>
    intro r rest ws hlt hs hb
    unfold ignoreCcLoop
    rcases hp : r.popRecord with ⟨res, r'⟩
    by_cases hso : ∃ o, res = .ready (.ok (some o))
    · obtain ⟨o, rfl⟩ := hso
      obtain ⟨w, hw, hinc, ho, -⟩ := popRecord_some hp
      rcases ws with _ | ⟨w0, ws⟩
      · rw [hinc] at hs
        have := congrArg List.length hs
        simp at this
      have hs' := hs
      rw [hinc, wire_cons, List.append_assoc] at hs'
      obtain ⟨rfl, hs2⟩ := bytes_append_inj hw (hb w0 (by simp)).1 hs'
      have h1024 := (hb w (by simp)).2
      have hlen : r.incoming.length = w.bytes.length + r'.incoming.length := by rw [hinc, List.length_append]
      simp only
      by_cases hct : o.contentType ≠ .changeCipherSpec
      · rw [if_pos hct]
        exact ⟨ws, fun w hw => hb w (by simp [hw]), hs2, .inl (by simp only; omega)⟩
      · rw [if_neg hct]
        obtain ⟨ws', h1, h2, h3⟩ := ih r' rest ws (by omega) hs2 (fun w hw => hb w (by simp [hw]))
        exact ⟨ws', h1, h2, by omega⟩
    · have hn : ∀ o, res ≠ .ready (.ok (some o)) := fun o h => hso ⟨o, h⟩
      have hinc := popRecord_none hp hn
      have hsm := popRecord_wants_more hp hn hs (fun w hw => (hb w hw).1)
      have fin : ∃ ws', BigRecords ws' ∧ r'.incoming ++ rest = wire ws' ∧
          (r'.incoming.length + 1024 ≤ r.incoming.length ∨ r'.incoming.length < 16645) :=
        ⟨ws, hb, by rw [hinc]; exact hs, .inr (by rw [hinc]; exact hsm)⟩
      rcases res with _ | (e | (_ | o))
      · exact fin
      · exact fin
      · exact fin
      · exact absurd rfl (hn o)

/-- What is kept of the data received, when all records that arrive are big. -/
def InBound (b : Nat) (c : Conn) : Prop :=
  c.plaintext.receiver.incoming.length ≤ b ∧ SmallReads c.plaintext.inner.reads ∧
  ∃ ws, BigRecords ws ∧ c.plaintext.receiver.incoming ++ readData c.plaintext.inner.reads = wire ws

theorem pollRecv_small (p : PlaintextStream) (h : SmallReads p.inner.reads) :
    SmallReads p.pollRecv.2.inner.reads ∧ p.pollRecv.2.receiver.incoming.length ≤ p.receiver.incoming.length + 1024 ∧
    (p.pollRecv.1 ≠ .ready (.ok ()) → p.pollRecv.2.receiver.incoming = p.receiver.incoming) := by
  unfold PlaintextStream.pollRecv pollReceiveAndAddData Transport.pollRead
  rcases hr : p.inner.reads with _ | ⟨e, es⟩
  · simp only
    exact ⟨by rw [hr]; nofun, by omega, fun _ => trivial⟩
  · have hes : SmallReads es := fun d hd => h d (by rw [hr]; simp [hd])
    rcases e with _ | d | k
    · exact ⟨hes, by simp only; omega, fun _ => rfl⟩
    · have hd := h d (by rw [hr]; simp)
      rcases d with _ | ⟨b, bs⟩
      · refine ⟨hes, ?_, fun hh => absurd rfl hh⟩
        simp only [RecordReceiver.close]
        split <;> (first | omega | (simp only; omega))
      · refine ⟨hes, ?_, fun hh => absurd rfl hh⟩
        simp only [RecordReceiver.appendData, List.length_append]
        omega
    · exact ⟨hes, by simp only; omega, fun _ => rfl⟩

theorem receiveEncrypted_receiver {X K : Type} (cr : Crypto X K) (r : RecordReceiver) (n : Nat) (key : EncryptionKey) :
    (pollReceiveEncryptedMessage cr r n key).2.1 = (pollReceiveRecordIgnoreCc r).2 := by
  unfold pollReceiveEncryptedMessage
  rcases pollReceiveRecordIgnoreCc r with ⟨res, r'⟩
  rcases res with _ | (e | (_ | o))
  · rfl
  · rfl
  · rfl
  · simp only
    rcases decryptMessage cr n key o.raw with e | ⟨m, raw⟩ <;> rfl

theorem inBound_fill {X K : Type} (cr : Crypto X K) (b : Nat) (hb : 16644 ≤ b) (n : Nat) :
    ∀ c : Conn, InBound b c → InBound b (c.fillLoop cr n).2 := by
  induction n with
  | zero => exact fun c h => h
  | succ n ih =>
    intro c ⟨h1, h2, ws, h3, h4⟩
    unfold Conn.fillLoop
    obtain ⟨p1, p2, p3⟩ := pollRecv_small c.plaintext h2
    have p4 := pollRecv_data c.plaintext
    generalize c.plaintext.pollRecv = P at p1 p2 p3 p4
    obtain ⟨res, p⟩ := P
    simp only at p1 p2 p3 p4
    rw [h4] at p4
    rcases res with _ | (e | u)
    · exact ⟨by simp only; rw [p3 nofun]; exact h1, p1, ws, h3, p4⟩
    · exact ⟨by simp only; rw [p3 nofun]; exact h1, p1, ws, h3, p4⟩
    · simp only
      have q1 := receiveEncrypted_receiver cr p.receiver c.seqenc.serverSequenceNo c.seqenc.trafficSecrets.server
      obtain ⟨ws', q2, q3, q4⟩ := ignoreCcLoop_kept (p.receiver.incoming.length + 1) p.receiver (readData p.inner.reads) ws
        (by omega) p4 h3
      rw [show ignoreCcLoop (p.receiver.incoming.length + 1) p.receiver = pollReceiveRecordIgnoreCc p.receiver from rfl, ← q1] at q3 q4
      generalize pollReceiveEncryptedMessage cr p.receiver c.seqenc.serverSequenceNo c.seqenc.trafficSecrets.server = M at q3 q4
      obtain ⟨res, r, seqNo, raw⟩ := M
      simp only at q3 q4
      have key : ∀ (se : SequenceEncryption) (d : Bytes) (rs : ReadState), InBound b ⟨{ p with receiver := r }, se, d, rs⟩ :=
        fun se d rs => ⟨by simp only; omega, p1, ws', q2, q3⟩
      simp only
      split
      · exact key _ _ _
      · exact key _ _ _
      · exact ih _ (key _ _ _)
      · exact key _ _ _
      · split <;> exact key _ _ _
      · exact key _ _ _
      · exact key _ _ _

theorem inBound_step {X K : Type} (cr : Crypto X K) (b : Nat) (hb : 16644 ≤ b) {c : Conn} (h : InBound b c) (op : ConnOp) :
    InBound b (op.step cr c).2 := by
  by_cases hop : ∃ room, op = .read room
  · obtain ⟨room, rfl⟩ := hop
    simp only [ConnOp.step]
    unfold Conn.pollRead
    rcases c.readState with _ | _ | e
    · simp only
      have hf : InBound b (c.pollFillIncoming cr).2 := by
        unfold Conn.pollFillIncoming
        split
        · exact h
        · exact inBound_fill cr b hb _ c h
      generalize c.pollFillIncoming cr = F at hf
      obtain ⟨res, c'⟩ := F
      rcases res with _ | (e | u) <;> exact hf
    · exact h
    · exact h
  · have hr := (step_rx cr c op (fun room hh => hop ⟨room, hh⟩)).1
    simp only [Conn.rx, Prod.mk.injEq] at hr
    obtain ⟨r1, r2, -⟩ := hr
    simp only [InBound] at h ⊢
    rw [r1, r2]
    exact h

theorem inBound_run {X K : Type} (cr : Crypto X K) (b : Nat) (hb : 16644 ≤ b) (ops : List ConnOp) :
    ∀ c : Conn, InBound b c → InBound b (connRun cr c ops).2 := by
  induction ops with
  | nil => exact fun c h => h
  | cons op ops ih => exact fun c h => ih _ (inBound_step cr b hb h op)

/-! ### What is kept of the data decrypted -/

theorem fill_decrypted {X K : Type} (cr : Crypto X K) (hcr : cr.Shrinks) (n : Nat) :
    ∀ c : Conn, c.seqenc.trafficSecrets.server.writeIv.length = 12 → c.incomingDecrypted = [] →
      (c.fillLoop cr n).2.incomingDecrypted.length ≤ 16639 := by
  induction n with
  | zero => intro c _ h; simp [Conn.fillLoop, h]
  | succ n ih =>
    intro c hiv h
    unfold Conn.fillLoop
    rcases c.plaintext.pollRecv with ⟨res, p⟩
    rcases res with _ | (e | u)
    · simp [h]
    · simp [h]
    · simp only
      rcases hm : pollReceiveEncryptedMessage cr p.receiver c.seqenc.serverSequenceNo c.seqenc.trafficSecrets.server with
        ⟨res, r, seqNo, raw⟩
      simp only
      split
      · simp [h]
      · simp [h]
      · exact ih _ hiv h
      · rename_i data
        obtain ⟨all, ha, -, hc⟩ := receiveEncrypted_spec cr _ _ _ hiv hm
        rcases hc with ⟨m, pre, w, typ, hall, hres, -, -, ⟨pad, hp⟩, hmsg, -⟩ | ⟨-, -, hno, -⟩
        · simp only [Poll.ready.injEq, Except.ok.injEq, Option.some.injEq] at hres
          subst hres
          have hw := ha w (by rw [hall]; simp)
          have hlen := hcr _ _ _ _ _ _ hp
          obtain ⟨-, hd⟩ := fromRaw_appData _ _ _ _ hmsg
          unfold WireRecord.Legal at hw
          simp only [List.length_append, List.length_cons, List.length_nil] at hlen
          simp only [h, List.nil_append, hd]
          omega
        · exact absurd rfl (hno _)
      · split <;> simp [h]
      · simp [h]
      · simp [h]

def DecBound (c : Conn) : Prop := c.seqenc.trafficSecrets.server.writeIv.length = 12 ∧ c.incomingDecrypted.length ≤ 16639

theorem fill_secrets {X K : Type} (cr : Crypto X K) (n : Nat) :
    ∀ c : Conn, (c.fillLoop cr n).2.seqenc.trafficSecrets = c.seqenc.trafficSecrets := by
  induction n with
  | zero => exact fun c => rfl
  | succ n ih =>
    intro c
    unfold Conn.fillLoop
    rcases c.plaintext.pollRecv with ⟨res, p⟩
    rcases res with _ | (e | u)
    · rfl
    · rfl
    · simp only
      rcases pollReceiveEncryptedMessage cr p.receiver c.seqenc.serverSequenceNo c.seqenc.trafficSecrets.server with
        ⟨res, r, seqNo, raw⟩
      simp only
      split
      · rfl
      · rfl
      · rw [ih]
      · rfl
      · split <;> rfl
      · rfl
      · rfl

theorem decBound_step {X K : Type} (cr : Crypto X K) (hcr : cr.Shrinks) {c : Conn} (h : DecBound c) (op : ConnOp) :
    DecBound (op.step cr c).2 := by
  by_cases hop : ∃ room, op = .read room
  · obtain ⟨room, rfl⟩ := hop
    simp only [ConnOp.step]
    unfold Conn.pollRead
    rcases c.readState with _ | _ | e
    · simp only
      have hf : DecBound (c.pollFillIncoming cr).2 := by
        unfold Conn.pollFillIncoming
        split
        · exact h
        · rename_i h0
          refine ⟨by rw [fill_secrets]; exact h.1, fill_decrypted cr hcr _ c h.1 ?_⟩
          exact List.length_eq_zero_iff.mp (by omega)
      generalize c.pollFillIncoming cr = F at hf
      obtain ⟨res, c'⟩ := F
      rcases res with _ | (e | u)
      · exact hf
      · exact hf
      · exact ⟨hf.1, by simp only [List.length_drop]; exact (Nat.sub_le _ _).trans hf.2⟩
    · exact h
    · exact h
  · have hr := (step_rx cr c op (fun room hh => hop ⟨room, hh⟩)).1
    simp only [Conn.rx, Prod.mk.injEq] at hr
    simp only [DecBound] at h ⊢
    rw [show (op.step cr c).2.incomingDecrypted = c.incomingDecrypted by tauto,
      show (op.step cr c).2.seqenc.trafficSecrets.server = c.seqenc.trafficSecrets.server by tauto]
    exact h

theorem decBound_run {X K : Type} (cr : Crypto X K) (hcr : cr.Shrinks) (ops : List ConnOp) :
    ∀ c : Conn, DecBound c → DecBound (connRun cr c ops).2 := by
  induction ops with
  | nil => exact fun c h => h
  | cons op ops ih => exact fun c h => ih _ (decBound_step cr hcr h op)

/-! ### The handshake -/

theorem popRecord_pending {r r' : RecordReceiver} (h : r.popRecord = (.pending, r')) : r'.incoming.length < 16645 := by
  unfold RecordReceiver.popRecord at h
  split at h
  · split at h
    · cases h; omega
    · cases h
    · cases h
  · simp only at h
    split at h
    · cases h
    · rename_i hl
      unfold maxCiphertextRecordSize at hl
      split at h
      · split at h
        · cases h; omega
        · cases h
        · cases h
      · cases h

theorem ignoreCc_pending (n : Nat) : ∀ r : RecordReceiver, (ignoreCcLoop n r).1 = .pending →
    (ignoreCcLoop n r).2.incoming.length < 16645 := by
  induction n with
  | zero => intro r h; cases h
  | succ n ih =>
    intro r h
    unfold ignoreCcLoop at h ⊢
    rcases hp : r.popRecord with ⟨res, r'⟩
    rw [hp] at h
    rcases res with _ | (e | (_ | o))
    · exact popRecord_pending hp
    · cases h
    · cases h
    · simp only at h ⊢
      by_cases hct : o.contentType ≠ .changeCipherSpec
      · rw [if_pos hct] at h; cases h
      · rw [if_neg hct] at h ⊢
        exact ih r' h

theorem ignoreCc_le (r : RecordReceiver) : (pollReceiveRecordIgnoreCc r).2.incoming.length ≤ r.incoming.length := by
  obtain ⟨all, -, h, -⟩ := ignoreCcLoop_spec (r.incoming.length + 1) r
  have := congrArg List.length h
  rw [List.length_append] at this
  unfold pollReceiveRecordIgnoreCc
  omega

/-- A stream that keeps at most `b` bytes received. -/
def Held (b : Nat) (p : PlaintextStream) : Prop := p.receiver.incoming.length ≤ b ∧ SmallReads p.inner.reads

theorem Held.mono {b b' : Nat} {p : PlaintextStream} (h : Held b p) (hb : b ≤ b') : Held b' p := ⟨h.1.trans hb, h.2⟩

theorem Held.flush {b : Nat} {p : PlaintextStream} (h : Held b p) : Held b p.pollFlush.2 := by
  obtain ⟨h1, h2⟩ := pollFlush_rx p
  simp only [Held, h1, h2]
  exact h

theorem Held.recv {b : Nat} {p : PlaintextStream} (h : Held b p) : Held (b + 1024) p.pollRecv.2 := by
  obtain ⟨h1, h2, -⟩ := pollRecv_small p h.2
  exact ⟨h2.trans (by have := h.1; omega), h1⟩

/-- What the states of the handshake keep. -/
def HsBound {X K : Type} : ECState X K → Prop
  | .begin s => Held 0 s.plaintext
  | .afterSendClientHello s => Held 16644 s.plaintext
  | .afterReceiveServerHello s => Held 17668 s.plaintext
  | .afterReceiveServerMessages s => Held 18692 s.plaintext
  | .done c => Held 18692 c.plaintext
  | .error _ => True

/-- The same after more data was received. -/
def HsMore {X K : Type} : ECState X K → Prop
  | .afterSendClientHello s => Held 17668 s.plaintext
  | .afterReceiveServerHello s => Held 18692 s.plaintext
  | s => HsBound s

theorem receiveServer_held {X K : Type} (cr : Crypto X K) (b n : Nat) :
    ∀ s : ServerHelloState X, Held b s.plaintext → Held b (receiveServerMessages cr n s).2.plaintext ∧
      ((receiveServerMessages cr n s).1 = .pending → (receiveServerMessages cr n s).2.plaintext.receiver.incoming.length < 16645) := by
  induction n with
  | zero => exact fun s h => ⟨h, nofun⟩
  | succ n ih =>
    intro s h
    unfold receiveServerMessages
    split
    · exact ⟨h, nofun⟩
    · simp only
      have q1 := receiveEncrypted_receiver cr s.plaintext.receiver s.seqenc.serverSequenceNo s.seqenc.trafficSecrets.server
      have q2 := ignoreCc_le s.plaintext.receiver
      have q3 : (pollReceiveEncryptedMessage cr s.plaintext.receiver s.seqenc.serverSequenceNo s.seqenc.trafficSecrets.server).1 = .pending →
          (pollReceiveRecordIgnoreCc s.plaintext.receiver).2.incoming.length < 16645 := by
        intro hpend
        refine ignoreCc_pending _ _ ?_
        unfold pollReceiveEncryptedMessage pollReceiveRecordIgnoreCc at hpend
        generalize ignoreCcLoop (s.plaintext.receiver.incoming.length + 1) s.plaintext.receiver = L at hpend ⊢
        obtain ⟨res, r'⟩ := L
        rcases res with _ | (e | (_ | o))
        · rfl
        · cases hpend
        · cases hpend
        · simp only at hpend
          generalize decryptMessage cr s.seqenc.serverSequenceNo s.seqenc.trafficSecrets.server o.raw = D at hpend
          rcases D with e | ⟨m, raw⟩ <;> cases hpend
      rw [← q1] at q2 q3
      generalize pollReceiveEncryptedMessage cr s.plaintext.receiver s.seqenc.serverSequenceNo s.seqenc.trafficSecrets.server = M at q2 q3
      obtain ⟨res, r, seqNo, raw⟩ := M
      simp only at q2 q3 ⊢
      have hh : Held b { s.plaintext with receiver := r } := ⟨q2.trans h.1, h.2⟩
      split
      · exact ⟨hh, nofun⟩
      · exact ⟨hh, fun _ => q3 rfl⟩
      · split
        · exact ih _ hh
        · exact ⟨hh, nofun⟩
      · exact ⟨hh, nofun⟩
      · exact ⟨hh, nofun⟩

theorem encryptRecord_held {X K : Type} (cr : Crypto X K) (b : Nat) (p : PlaintextStream) (d : Bytes) (ct : ContentType)
    (key : EncryptionKey) (n : Nat) (h : Held b p) : Held b (encryptRecord cr p d ct key n).2 := by
  unfold encryptRecord
  split
  · exact h
  · simp only
    split <;> exact h

theorem pollStep_bound {X K : Type} (cr : Crypto X K) (s : ECState X K) (h : HsMore s) : HsBound (s.pollStep cr).2 := by
  rcases s with s | s | s | s | c | e
  · show HsBound (beginStep (K := K) (X := X) s).2
    unfold beginStep
    have hf := Held.flush h
    generalize s.plaintext.pollFlush = F at hf
    obtain ⟨res, p⟩ := F
    rcases res with _ | (e | u)
    · exact hf
    · trivial
    · exact hf.mono (by omega)
  · show HsBound (sendClientHelloStep cr s).2
    unfold sendClientHelloStep PlaintextStream.pollReceivePlaintextMessage
    have q2 := ignoreCc_le s.plaintext.receiver
    have q3 := ignoreCc_pending (s.plaintext.receiver.incoming.length + 1) s.plaintext.receiver
    rw [show ignoreCcLoop (s.plaintext.receiver.incoming.length + 1) s.plaintext.receiver = pollReceiveRecordIgnoreCc s.plaintext.receiver from rfl] at q3
    generalize pollReceiveRecordIgnoreCc s.plaintext.receiver = M at q2 q3
    obtain ⟨res, r⟩ := M
    have h1 : Held 17668 { s.plaintext with receiver := r } := ⟨q2.trans h.1, h.2⟩
    have hsh : ∀ (t : Bytes) (m : Option (Message X)),
        HsBound (onServerHello cr { s with plaintext := { s.plaintext with receiver := r }, initialTranscript := t } m) := by
      intro t m
      unfold onServerHello
      split
      · split
        · trivial
        · split
          · trivial
          · split
            · trivial
            · split
              · trivial
              · exact h1
      · trivial
      · trivial
    rcases res with _ | (e | (_ | o))
    · exact ⟨by have := q3 rfl; simp only at this ⊢; omega, h.2⟩
    · trivial
    · exact hsh s.initialTranscript none
    · simp only
      rcases Message.fromRaw cr.x509 o.fragment o.contentType with e | m
      · rcases e <;> trivial
      · exact hsh (s.initialTranscript ++ o.fragment) (some m)
  · show HsBound (receiveServerHelloStep cr s).2
    unfold receiveServerHelloStep
    have hr := receiveServer_held cr 18692 (s.plaintext.receiver.incoming.length + 1) s h
    generalize receiveServerMessages cr (s.plaintext.receiver.incoming.length + 1) s = R at hr
    obtain ⟨res, s'⟩ := R
    rcases res with _ | (e | sm)
    · exact ⟨by have := hr.2 rfl; simp only at this ⊢; omega, hr.1.2⟩
    · trivial
    · simp only
      unfold onServerMessages
      split
      · trivial
      · split
        · trivial
        · split
          · trivial
          · rename_i finBytes _
            split
            · trivial
            · rename_i p he
              have e2 := (congrArg Prod.snd he).symm
              simp only at e2
              show Held 18692 p
              rw [e2]
              exact encryptRecord_held cr 18692 _ _ _ _ _ hr.1
  · show HsBound (sendFinishedStep (K := K) (X := X) s).2
    unfold sendFinishedStep
    have hf := Held.flush h
    generalize s.plaintext.pollFlush = F at hf
    obtain ⟨res, p⟩ := F
    rcases res with _ | (e | u)
    · exact hf
    · trivial
    · exact hf
  · exact h
  · trivial

theorem recv_more {X K : Type} (s : ECState X K) (h : HsBound s) : HsMore s.recv.2 ∧ (s.recv.1 ≠ none → HsBound s.recv.2) := by
  rcases s with s | s | s | s | c | e
  · exact ⟨h, fun _ => h⟩
  · unfold ECState.recv
    simp only
    have hr := Held.recv h
    obtain ⟨q1, -, q3⟩ := pollRecv_small s.plaintext h.2
    generalize s.plaintext.pollRecv = P at hr q1 q3
    obtain ⟨res, p⟩ := P
    rcases res with _ | (e | u)
    · exact ⟨hr, fun hh => absurd rfl hh⟩
    · exact ⟨hr, fun _ => ⟨by have := q3 nofun; simp only at this ⊢; rw [this]; exact h.1, q1⟩⟩
    · exact ⟨hr, fun hh => absurd rfl hh⟩
  · unfold ECState.recv
    simp only
    have hr := Held.recv h
    obtain ⟨q1, -, q3⟩ := pollRecv_small s.plaintext h.2
    generalize s.plaintext.pollRecv = P at hr q1 q3
    obtain ⟨res, p⟩ := P
    rcases res with _ | (e | u)
    · exact ⟨hr, fun hh => absurd rfl hh⟩
    · exact ⟨hr, fun _ => ⟨by have := q3 nofun; simp only at this ⊢; rw [this]; exact h.1, q1⟩⟩
    · exact ⟨hr, fun hh => absurd rfl hh⟩
  · exact ⟨h, fun _ => h⟩
  · exact ⟨h, fun _ => h⟩
  · exact ⟨h, fun _ => h⟩

theorem establishLoop_bound {X K : Type} (cr : Crypto X K) (n : Nat) :
    ∀ s : ECState X K, HsBound s → HsBound (establishLoop cr n s).2 ∧
      (∀ c, (establishLoop cr n s).1 = .ready (.ok c) → Held 18692 c.plaintext) := by
  induction n with
  | zero =>
    intro s h
    refine ⟨by rw [establishLoop]; exact h, fun c hc => ?_⟩
    simp [establishLoop] at hc
  | succ n ih =>
    intro s h
    unfold establishLoop
    split
    · refine ⟨h, fun c hc => ?_⟩
      simp only [Poll.ready.injEq, Except.ok.injEq] at hc
      subst hc
      exact h
    · exact ⟨trivial, fun c hc => by simp at hc⟩
    · have hm := recv_more s h
      generalize s.recv = R at hm
      obtain ⟨o, s'⟩ := R
      rcases o with _ | e
      · simp only at hm ⊢
        have hb := pollStep_bound cr s' hm.1
        generalize s'.pollStep cr = Q at hb
        obtain ⟨res, s''⟩ := Q
        rcases res with _ | u
        · exact ⟨hb, fun c hc => by simp at hc⟩
        · exact ih s'' hb
      · exact ⟨hm.2 (by simp), fun c hc => by simp at hc⟩

end Ngfs.Tls
