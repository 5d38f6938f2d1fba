import Verif.Lemmas.TlsRead

/-! Lemmas for C145: reading to the end what a peer wrote before it shut down. -/
namespace Ngfs.Tls

/-- The transport says that there is nothing yet, or gives at least one byte. -/
def Benign : ReadEvent → Prop
  | .pending => True
  | .ready data => data ≠ []
  | .error _ => False

/-- The receiver has the beginning of a record and waits. -/
theorem popRecord_incomplete (w : WireRecord) (hw : w.Legal) (inc rest : Bytes) (h : inc ++ rest = w.bytes)
    (hlt : inc.length < w.bytes.length) :
    RecordReceiver.popRecord ⟨inc, .active⟩ = (.pending, ⟨inc, .active⟩) := by
  have hl : w.fragment.length < 65536 := by unfold WireRecord.Legal at hw; omega
  unfold RecordReceiver.popRecord
  by_cases h5 : inc.length < 5
  · rw [if_pos h5]
  · rw [if_neg h5]
    simp only
    have e3 : (inc.drop 3).take 2
        = [UInt8.ofNat (w.fragment.length / 256), UInt8.ofNat (w.fragment.length % 256)] := by
      have e1 : inc = w.bytes.take inc.length := by rw [← h]; simp
      rw [e1]
      obtain ⟨k, hk⟩ := Nat.exists_eq_add_of_le (Nat.le_of_not_lt h5)
      rw [hk, Nat.add_comm 5 k]
      simp [WireRecord.bytes, WireRecord.header]
    rw [WireRecord.bytes_length] at hlt
    rw [e3, beNat_two, len_two hl, if_neg, if_pos (by omega)]
    unfold WireRecord.Legal at hw; unfold maxCiphertextRecordSize; omega

/-- A sequence of records cut in two: the first record is in the first part, or the first part is a
beginning of it. -/
theorem wire_cut (w : WireRecord) (ws : List WireRecord) (inc rest : Bytes) (h : inc ++ rest = wire (w :: ws)) :
    (∃ more, inc = w.bytes ++ more ∧ more ++ rest = wire ws) ∨
    (inc.length < w.bytes.length ∧ ∃ r, inc ++ r = w.bytes) := by
  rw [wire_cons] at h
  rcases Nat.lt_or_ge inc.length w.bytes.length with hlt | hge
  · right
    refine ⟨hlt, w.bytes.drop inc.length, ?_⟩
    have : inc = w.bytes.take inc.length := by
      have := congrArg (List.take inc.length) h
      rwa [List.take_left, List.take_append_of_le_length (by omega)] at this
    conv_lhs => lhs; rw [this]
    exact List.take_append_drop _ _
  · left
    refine ⟨inc.drop w.bytes.length, ?_, ?_⟩
    · have := congrArg (List.take w.bytes.length) h
      rw [List.take_left, List.take_append_of_le_length hge] at this
      conv_lhs => rw [← List.take_append_drop w.bytes.length inc, this]
    · have := congrArg (List.drop w.bytes.length) h
      rwa [List.drop_left, List.drop_append_of_le_length hge] at this

/-- What the reader still has before it. -/
structure Rx {X K : Type} (cr : Crypto X K) (c : Conn) (accs : List Bytes) (es : List ReadEvent) (k : Nat)
    (ws : List WireRecord) : Prop where
  iv : c.seqenc.trafficSecrets.server.writeIv.length = 12
  act : c.readState = .active
  frame : c.plaintext.receiver.incoming ++ readData es = wire ws
  reads : c.plaintext.inner.reads = es ++ List.replicate k (.ready [])
  benign : ∀ e ∈ es, Benign e
  rst : c.plaintext.receiver.readState = .active ∨ (c.plaintext.receiver.readState = .eof ∧ es = [])
  prot : ProtectsAll cr c.seqenc.trafficSecrets.server c.seqenc.serverSequenceNo ws (dataMessages accs ++ [closeMessage])
  outer : ∀ w ∈ ws, w.Outer
  enough : ws.length ≤ k

theorem receive_one {X K : Type} (cr : Crypto X K) (r : RecordReceiver) (n : Nat) (key : EncryptionKey) (w : WireRecord)
    (more : Bytes) (hw : w.Legal) (ho : w.Outer) (hr : r.incoming = w.bytes ++ more) :
    pollReceiveRecordIgnoreCc r = (.ready (.ok (some w.owned)), ⟨more, r.readState⟩) := by
  have hpop := popRecord_wire w hw more r.readState
  rw [← hr] at hpop
  unfold pollReceiveRecordIgnoreCc
  rw [ignoreCcLoop]
  have : r = ⟨r.incoming, r.readState⟩ := rfl
  rw [this, hpop]
  simp only
  rw [if_pos]
  simp [WireRecord.owned, ho.1, ContentType.fromRaw]

theorem receive_data {X K : Type} (cr : Crypto X K) (r : RecordReceiver) (n : Nat) (key : EncryptionKey) (w : WireRecord)
    (more content : Bytes) (hiv : key.writeIv.length = 12) (hw : w.Legal) (ho : w.Outer) (hr : r.incoming = w.bytes ++ more)
    (hp : Protects cr key n w 23 content) :
    ∃ raw, pollReceiveEncryptedMessage cr r n key
      = (.ready (.ok (some (.applicationData content))), ⟨more, r.readState⟩, n + 1, raw) := by
  have hdec := decryptMessage_protects cr _ hiv _ w hw 23 (by decide) content hp
  rw [fromRaw_23] at hdec
  simp only [pollReceiveEncryptedMessage, receive_one cr r n key w more hw ho hr, WireRecord.owned, hdec]
  exact ⟨_, rfl⟩

theorem receive_close {X K : Type} (cr : Crypto X K) (r : RecordReceiver) (n : Nat) (key : EncryptionKey) (w : WireRecord)
    (more : Bytes) (hiv : key.writeIv.length = 12) (hw : w.Legal) (ho : w.Outer) (hr : r.incoming = w.bytes ++ more)
    (hp : Protects cr key n w 21 [1, 0]) :
    ∃ raw, pollReceiveEncryptedMessage cr r n key
      = (.ready (.ok (some (.alert ⟨.warning, .closeNotify⟩))), ⟨more, r.readState⟩, n + 1, raw) := by
  have hdec := decryptMessage_protects cr _ hiv _ w hw 21 (by decide) [1, 0] hp
  have e : Message.fromRaw cr.x509 [1, 0] (ContentType.fromRaw 21)
      = .ok (.alert ⟨.warning, .closeNotify⟩) := by
    have : Message.fromRaw cr.x509 [1, 0] (ContentType.fromRaw 21) = (Alert.fromBinary (Binary.Reader.new [1, 0])).1.map .alert := rfl
    rw [this, alert_eval]
    rfl
  rw [e] at hdec
  simp only [pollReceiveEncryptedMessage, receive_one cr r n key w more hw ho hr, WireRecord.owned, hdec]
  exact ⟨_, rfl⟩

theorem receive_wait {X K : Type} (cr : Crypto X K) (r : RecordReceiver) (n : Nat) (key : EncryptionKey) (w : WireRecord)
    (rest : Bytes) (hw : w.Legal) (hst : r.readState = .active) (h : r.incoming ++ rest = w.bytes)
    (hlt : r.incoming.length < w.bytes.length) :
    ∃ raw, pollReceiveEncryptedMessage cr r n key = (.pending, r, n, raw) := by
  have hpop := popRecord_incomplete w hw r.incoming rest h hlt
  have hcc : pollReceiveRecordIgnoreCc r = (.pending, r) := by
    unfold pollReceiveRecordIgnoreCc
    rw [ignoreCcLoop]
    have : r = ⟨r.incoming, .active⟩ := by rw [← hst]
    rw [this, hpop]
  simp only [pollReceiveEncryptedMessage, hcc]
  exact ⟨_, rfl⟩

/-- What one read brings: some bytes of what is still to come, or the end. -/
def ReadOutcome {X K : Type} (cr : Crypto X K) (c : Conn) (accs : List Bytes) (res : Poll (Except TlsErr Bytes) × Conn) : Prop :=
  (∃ accs' es' k' ws' d, Rx cr res.2 accs' es' k' ws' ∧ (∀ d ∈ accs', d ≠ []) ∧
    c.incomingDecrypted ++ accs.flatten = d ++ (res.2.incomingDecrypted ++ accs'.flatten) ∧
    ((res.1 = .pending ∧ d = []) ∨ (res.1 = .ready (.ok d) ∧ d ≠ [])) ∧
    res.2.plaintext.inner.reads.length ≤ c.plaintext.inner.reads.length ∧
    (d = [] → res.2.plaintext.inner.reads.length < c.plaintext.inner.reads.length)) ∨
  (c.incomingDecrypted = [] ∧ accs = [] ∧ res.1 = .ready (.ok []) ∧ res.2.readState = .eof)

theorem take_ne_nil {d : Bytes} {room : Nat} (hd : d ≠ []) (hroom : 0 < room) : d.take (min d.length room) ≠ [] := by
  intro e
  have h1 := congrArg List.length e
  have h2 := List.length_pos_iff.mpr hd
  rw [List.length_take] at h1
  simp only [List.length_nil] at h1
  omega

/-- The transport has answered with data, or with its end. -/
theorem rx_event {X K : Type} {cr : Crypto X K} {c : Conn} {accs : List Bytes} {w : WireRecord} {ws : List WireRecord}
    (hiv : c.seqenc.trafficSecrets.server.writeIv.length = 12) (hact : c.readState = .active)
    (hd0 : c.incomingDecrypted = [])
    (hpr : ProtectsAll cr c.seqenc.trafficSecrets.server c.seqenc.serverSequenceNo (w :: ws) (dataMessages accs ++ [closeMessage]))
    (hout : ∀ w' ∈ w :: ws, w'.Outer) (hne : ∀ d ∈ accs, d ≠ []) (room : Nat) (hroom : 0 < room)
    (r : RecordReceiver) (es : List ReadEvent) (k : Nat)
    (hfr : r.incoming ++ readData es = wire (w :: ws)) (hben : ∀ e ∈ es, Benign e)
    (hrst : r.readState = .active ∨ (r.readState = .eof ∧ es = [])) (hk : ws.length ≤ k)
    (hk1 : r.readState = .active → ws.length + 1 ≤ k)
    (hlen : es.length + k < c.plaintext.inner.reads.length)
    (hrecv : c.plaintext.pollRecv = (.ready (.ok ()), { c.plaintext with receiver := r, inner := { c.plaintext.inner with reads := es ++ List.replicate k (.ready []) } })) :
    ReadOutcome cr c accs (c.pollRead cr room) := by
  obtain ⟨hw, hwp⟩ : w.Legal ∧ True := by
    rcases accs with _ | ⟨a, accs⟩ <;> exact ⟨hpr.1, trivial⟩
  have ho : w.Outer := hout w (by simp)
  unfold Conn.pollRead
  rw [hact]
  simp only
  unfold Conn.pollFillIncoming
  rw [if_neg (by simp [hd0]), Conn.fillLoop, hrecv]
  simp only
  rcases wire_cut w ws _ _ hfr with ⟨more, hm, hmr⟩ | ⟨hlt, rest, hrest⟩
  · rcases accs with _ | ⟨a, accs⟩
    · obtain ⟨_, hp, _⟩ := hpr
      obtain ⟨raw, he⟩ := receive_close cr r c.seqenc.serverSequenceNo c.seqenc.trafficSecrets.server w more hiv hw ho hm hp
      rw [he]
      right
      refine ⟨hd0, rfl, ?_, rfl⟩
      simp [hd0]
    · obtain ⟨_, hp, hpr'⟩ := hpr
      obtain ⟨raw, he⟩ := receive_data cr r c.seqenc.serverSequenceNo c.seqenc.trafficSecrets.server w more a hiv hw ho hm hp
      rw [he]
      left
      simp only [hd0, List.nil_append]
      have ha := take_ne_nil (hne a (by simp)) hroom
      refine ⟨accs, es, k, ws, a.take (min a.length room), ⟨hiv, hact, hmr, rfl, hben, hrst, hpr', ?_, hk⟩, ?_, ?_,
        Or.inr ⟨rfl, ha⟩, ?_, fun e => absurd e ha⟩
      · exact fun v hv => hout v (by simp [hv])
      · exact fun v hv => hne v (by simp [hv])
      · rw [← List.append_assoc, List.take_append_drop]; rfl
      · simp only [List.length_append, List.length_replicate]; omega
  · have hst : r.readState = .active := by
      rcases hrst with h | ⟨_, h⟩
      · exact h
      · subst h
        have := congrArg List.length hfr
        simp only [readData, List.append_nil, wire_cons, List.length_append] at this
        omega
    obtain ⟨raw, he⟩ := receive_wait cr r c.seqenc.serverSequenceNo c.seqenc.trafficSecrets.server w rest hw hst hrest hlt
    rw [he]
    left
    simp only
    refine ⟨accs, es, k, w :: ws, [], ⟨hiv, hact, hfr, rfl, hben, hrst, hpr, hout, hk1 hst⟩, hne, rfl, Or.inl ⟨trivial, rfl⟩, ?_, fun _ => ?_⟩
    · simp only [List.length_append, List.length_replicate]; omega
    · simp only [List.length_append, List.length_replicate]; omega

/-- What one read does while there is something before the reader. -/
theorem rx_step {X K : Type} {cr : Crypto X K} {c : Conn} {accs : List Bytes} {es : List ReadEvent} {k : Nat}
    {ws : List WireRecord} (h : Rx cr c accs es k ws) (hne : ∀ d ∈ accs, d ≠ []) (room : Nat) (hroom : 0 < room) :
    ReadOutcome cr c accs (c.pollRead cr room) := by
  obtain ⟨hiv, hact, hfr, hrd, hben, hrst, hpr, hout, hk⟩ := h
  by_cases hd : c.incomingDecrypted = []
  · rcases ws with _ | ⟨w, ws⟩
    · rcases accs with _ | ⟨a, accs⟩ <;> exact absurd hpr id
    simp only [List.length_cons] at hk
    have hlen : c.plaintext.inner.reads.length = es.length + k := by rw [hrd]; simp
    rcases es with _ | ⟨e, es⟩
    · obtain ⟨k, rfl⟩ : ∃ j, k = j + 1 := ⟨k - 1, by omega⟩
      refine rx_event hiv hact hd hpr hout hne room hroom c.plaintext.receiver.close [] k ?_ nofun ?_ (by omega) ?_
        (by simp only [List.length_nil] at hlen ⊢; omega) ?_
      · rw [← hfr]; unfold RecordReceiver.close; split <;> rfl
      · right
        refine ⟨?_, rfl⟩
        unfold RecordReceiver.close
        rcases hrst with h | ⟨h, _⟩ <;> rw [h]
        exact h
      · intro h
        unfold RecordReceiver.close at h
        rcases hrst with h' | ⟨h', _⟩ <;> rw [h'] at h
        · cases h
        · rw [h'] at h; cases h
      · unfold PlaintextStream.pollRecv pollReceiveAndAddData Transport.pollRead
        rw [hrd]
        rfl
    · have hst : c.plaintext.receiver.readState = .active := by
        rcases hrst with h | ⟨_, h⟩
        · exact h
        · cases h
      have hb := hben e (by simp)
      rcases e with _ | data | x
      rotate_left
      · rcases data with _ | ⟨b, bs⟩
        · exact absurd rfl hb
        refine rx_event hiv hact hd hpr hout hne room hroom (c.plaintext.receiver.appendData (b :: bs)) es k ?_
          (fun v hv => hben v (by simp [hv])) (Or.inl hst) (by omega) (fun _ => hk)
          (by simp only [List.length_cons] at hlen; omega) ?_
        · rw [← hfr]; simp [RecordReceiver.appendData, readData]
        · unfold PlaintextStream.pollRecv pollReceiveAndAddData Transport.pollRead
          rw [hrd]
          rfl
      · exact absurd hb id
      · have hp : c.plaintext.pollRecv = (.pending, { c.plaintext with inner := { c.plaintext.inner with reads := es ++ List.replicate k (.ready []) } }) := by
          unfold PlaintextStream.pollRecv pollReceiveAndAddData Transport.pollRead
          rw [hrd]
          rfl
        unfold Conn.pollRead
        rw [hact]
        simp only
        unfold Conn.pollFillIncoming
        rw [if_neg (by simp [hd]), Conn.fillLoop, hp]
        left
        refine ⟨accs, es, k, w :: ws, [], ⟨hiv, hact, ?_, rfl, fun v hv => hben v (by simp [hv]), Or.inl hst, hpr, hout, hk⟩,
          hne, rfl, Or.inl ⟨rfl, rfl⟩, ?_, fun _ => ?_⟩
        · rw [← hfr]; rfl
        · rw [hlen]; simp
        · rw [hlen]; simp
  · unfold Conn.pollRead
    rw [hact]
    simp only
    unfold Conn.pollFillIncoming
    rw [if_pos (List.length_pos_iff.mpr hd)]
    left
    have ht := take_ne_nil hd hroom
    refine ⟨accs, es, k, ws, c.incomingDecrypted.take (min c.incomingDecrypted.length room),
      ⟨hiv, hact, hfr, hrd, hben, hrst, hpr, hout, hk⟩, hne, ?_, Or.inr ⟨rfl, ht⟩, Nat.le_refl _, fun e => absurd e ht⟩
    rw [← List.append_assoc, List.take_append_drop]

/-- The number of reads among calls. -/
def readCount : List ConnOp → Nat
  | [] => 0
  | .read _ :: ops => readCount ops + 1
  | _ :: ops => readCount ops

theorem rx_congr {X K : Type} {cr : Crypto X K} {c c' : Conn} {accs es k ws} (h : Rx cr c accs es k ws)
    (hrx : c'.rx = c.rx) : Rx cr c' accs es k ws := by
  simp only [Conn.rx, Prod.mk.injEq] at hrx
  obtain ⟨h1, h2, h3, h4, h5, h6⟩ := hrx
  exact ⟨by rw [h4]; exact h.iv, by rw [h6]; exact h.act, by rw [h1]; exact h.frame, by rw [h2]; exact h.reads, h.benign,
    by rw [h1]; exact h.rst, by rw [h4, h3]; exact h.prot, h.outer, h.enough⟩

/-- After the end: every read answers "end". -/
theorem eof_run {X K : Type} (cr : Crypto X K) (ops : List ConnOp) (c : Conn) (h : c.readState = .eof) :
    readBytes (connRun cr c ops).1 = [] ∧ (connRun cr c ops).2.readState = .eof ∧
    ∀ room a, .read room a ∈ (connRun cr c ops).1 → a = .ready (.ok []) := by
  induction ops generalizing c with
  | nil => exact ⟨rfl, h, nofun⟩
  | cons op ops ih =>
    have hs : (op.step cr c).2.readState = .eof ∧ readBytes [(op.step cr c).1] = [] ∧
        ∀ room a, (op.step cr c).1 = .read room a → a = .ready (.ok []) := by
      by_cases hr : ∃ room, op = .read room
      · obtain ⟨room, rfl⟩ := hr
        simp only [ConnOp.step, Conn.pollRead, h]
        refine ⟨trivial, rfl, fun room a e => ?_⟩
        injection e with _ e
        exact e.symm
      · obtain ⟨h1, h2⟩ := step_rx cr c op fun room e => hr ⟨room, e⟩
        refine ⟨?_, h2, fun room a e => ?_⟩
        · simp only [Conn.rx, Prod.mk.injEq] at h1
          rw [h1.2.2.2.2.2]; exact h
        · cases op with
          | read room => exact absurd ⟨room, rfl⟩ hr
          | _ => simp only [ConnOp.step] at e; cases e
    obtain ⟨h1, h2, h3⟩ := hs
    obtain ⟨i1, i2, i3⟩ := ih _ h1
    simp only [connRun]
    refine ⟨?_, i2, ?_⟩
    · rw [readBytes_one, h2, i1]; rfl
    · intro room a hm
      rcases List.mem_cons.mp hm with hm | hm
      · exact h3 room a hm.symm
      · exact i3 room a hm

theorem rx_run {X K : Type} {cr : Crypto X K} (ops : List ConnOp) (hrooms : ∀ room, .read room ∈ ops → 0 < room) :
    ∀ {c : Conn} {accs : List Bytes} {es : List ReadEvent} {k : Nat} {ws : List WireRecord}, Rx cr c accs es k ws →
    (∀ d ∈ accs, d ≠ []) →
    (∃ rest, c.incomingDecrypted ++ accs.flatten = readBytes (connRun cr c ops).1 ++ rest) ∧
    (∀ room a, .read room a ∈ (connRun cr c ops).1 → a = .pending ∨ ∃ d, a = .ready (.ok d)) ∧
    ((c.plaintext.inner.reads.length + (c.incomingDecrypted ++ accs.flatten).length < readCount ops ∨
        ∃ room, .read room (.ready (.ok [])) ∈ (connRun cr c ops).1) →
      readBytes (connRun cr c ops).1 = c.incomingDecrypted ++ accs.flatten ∧ (connRun cr c ops).2.readState = .eof) := by
  induction ops with
  | nil =>
    intro c accs es k ws h hne
    refine ⟨⟨_, rfl⟩, nofun, ?_⟩
    rintro (h | ⟨_, h⟩)
    · simp [readCount] at h
    · cases h
  | cons op ops ih =>
    intro c accs es k ws h hne
    have hro : ∀ room, .read room ∈ ops → 0 < room := fun room hm => hrooms room (by simp [hm])
    simp only [connRun]
    rw [readBytes_one]
    by_cases hr : ∃ room, op = .read room
    · obtain ⟨room, rfl⟩ := hr
      have hroom := hrooms room (by simp)
      simp only [ConnOp.step]
      rcases rx_step h hne room hroom with ⟨accs', es', k', ws', d, h1, h2, h3, h4, h5, h6⟩ | ⟨h1, h2, h3, h4⟩
      · obtain ⟨⟨rest, i1⟩, i2, i3⟩ := ih hro h1 h2
        have hb : readBytes [ConnEvent.read room (c.pollRead cr room).1] = d := by
          rcases h4 with ⟨e, hd⟩ | ⟨e, hd⟩
          · rw [e, hd]; rfl
          · rw [e]; simp [readBytes]
        rw [hb]
        refine ⟨⟨rest, by rw [h3, i1, List.append_assoc]⟩, ?_, ?_⟩
        · intro room' a hm
          rcases List.mem_cons.mp hm with hm | hm
          · injection hm with _ hm
            subst hm
            rcases h4 with ⟨e, _⟩ | ⟨e, _⟩
            · exact Or.inl e
            · exact Or.inr ⟨d, e⟩
          · exact i2 room' a hm
        · intro hor
          rw [h3]
          have := i3 (by
            rcases hor with hor | ⟨room', hor⟩
            · left
              have hl := congrArg List.length h3
              simp only [List.length_append, readCount] at hor hl ⊢
              by_cases hd : d = []
              · have := h6 hd
                subst hd
                simp only [List.length_nil] at hl
                omega
              · have := List.length_pos_iff.mpr hd
                omega
            · right
              rcases List.mem_cons.mp hor with hor | hor
              · injection hor with _ hor
                rcases h4 with ⟨e, _⟩ | ⟨e, hd⟩
                · rw [e] at hor; cases hor
                · rw [e] at hor
                  injection hor with hor
                  injection hor with hor
                  exact absurd hor.symm hd
              · exact ⟨room', hor⟩)
          exact ⟨by rw [this.1], this.2⟩
      · obtain ⟨i1, i2, i3⟩ := eof_run cr ops _ h4
        rw [h1, h2, h3, i1]
        refine ⟨⟨[], rfl⟩, ?_, fun _ => ⟨rfl, i2⟩⟩
        intro room' a hm
        rcases List.mem_cons.mp hm with hm | hm
        · injection hm with _ hm
          exact Or.inr ⟨[], hm⟩
        · exact Or.inr ⟨[], i3 room' a hm⟩
    · obtain ⟨h1, h2⟩ := step_rx cr c op fun room e => hr ⟨room, e⟩
      obtain ⟨i1, i2, i3⟩ := ih hro (rx_congr h h1) hne
      have hev : ∀ room a, (op.step cr c).1 ≠ .read room a := by
        intro room a e
        cases op with
        | read room => exact absurd ⟨room, rfl⟩ hr
        | _ => simp only [ConnOp.step] at e; cases e
      have hcount : readCount (op :: ops) = readCount ops := by
        cases op with
        | read room => exact absurd ⟨room, rfl⟩ hr
        | _ => rfl
      simp only [Conn.rx, Prod.mk.injEq] at h1
      rw [h1.2.2.2.2.1] at i1 i3
      rw [h1.2.1] at i3
      rw [h2, hcount, List.nil_append]
      refine ⟨i1, ?_, ?_⟩
      · intro room a hm
        rcases List.mem_cons.mp hm with hm | hm
        · exact absurd hm.symm (hev room a)
        · exact i2 room a hm
      · intro hor
        refine i3 (hor.imp id ?_)
        rintro ⟨room, hm⟩
        rcases List.mem_cons.mp hm with hm | hm
        · exact absurd hm.symm (hev room _)
        · exact ⟨room, hm⟩

end Ngfs.Tls
