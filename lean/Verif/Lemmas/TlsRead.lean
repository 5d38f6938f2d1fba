import Verif.Lemmas.TlsConn

/-! Facts about reading from established connections. -/
namespace Ngfs.Tls

open Ngfs.Binary

theorem contentType_cases (typ : UInt8) :
    (typ = 0 ∧ ContentType.fromRaw typ = .invalid) ∨ (typ = 20 ∧ ContentType.fromRaw typ = .changeCipherSpec) ∨
    (typ = 21 ∧ ContentType.fromRaw typ = .alert) ∨ (typ = 22 ∧ ContentType.fromRaw typ = .handshake) ∨
    (typ = 23 ∧ ContentType.fromRaw typ = .applicationData) ∨
    (typ ≠ 23 ∧ typ ≠ 21 ∧ ContentType.fromRaw typ = .unknown typ) := by
  unfold ContentType.fromRaw
  split_ifs <;> simp_all

theorem fromRaw_appData {X : Type} (x : Bytes → Option X) (content d : Bytes) (typ : UInt8)
    (h : Message.fromRaw x content (ContentType.fromRaw typ) = .ok (.applicationData d)) :
    typ = 23 ∧ d = content := by
  rcases contentType_cases typ with ⟨rfl, h1⟩ | ⟨rfl, h1⟩ | ⟨rfl, h1⟩ | ⟨rfl, h1⟩ | ⟨rfl, h1⟩ | ⟨_, _, h1⟩
  all_goals rw [h1] at h; simp only [Message.fromRaw] at h
  · cases h
  · cases h
  · rcases hq : (Alert.fromBinary (Reader.new content)).1 with e | a <;> rw [hq] at h <;> cases h
  · rcases hq : (Handshake.fromBinary x (Reader.new content)).1 with e | a <;> rw [hq] at h <;> cases h
  · cases h; exact ⟨rfl, rfl⟩
  · cases h

theorem fromRaw_23 {X : Type} (x : Bytes → Option X) (content : Bytes) :
    Message.fromRaw x content (ContentType.fromRaw 23) = .ok (.applicationData content) := rfl

theorem alert_eval (l d : UInt8) (rest : Bytes) :
    (Alert.fromBinary (Reader.new (l :: d :: rest))).1 = .ok ⟨.fromRaw l, .fromRaw d⟩ := by
  have h2 : 2 < usizeLimit := by decide
  simp [Alert.fromBinary, AlertLevel.fromBinary, AlertDescription.fromBinary, bind_def, pure_def, readU8,
    Reader.new, checkAvailable, h2]

theorem alert_shape (content : Bytes) (a : Alert) (h : (Alert.fromBinary (Reader.new content)).1 = .ok a)  :
    ∃ l d rest, content = l :: d :: rest ∧ a.description = AlertDescription.fromRaw d := by
  rcases content with _ | ⟨l, _ | ⟨d, rest⟩⟩
  · cases h
  · cases h
  · refine ⟨l, d, rest, rfl, ?_⟩
    rw [alert_eval] at h
    cases h
    rfl

theorem fromRaw_alert {X : Type} (x : Bytes → Option X) (content : Bytes) (typ : UInt8) (a : Alert)
    (h : Message.fromRaw x content (ContentType.fromRaw typ) = .ok (.alert a)) :
    typ = 21 ∧ (Alert.fromBinary (Reader.new content)).1 = .ok a := by
  rcases contentType_cases typ with ⟨rfl, h1⟩ | ⟨rfl, h1⟩ | ⟨rfl, h1⟩ | ⟨rfl, h1⟩ | ⟨rfl, h1⟩ | ⟨_, _, h1⟩
  all_goals rw [h1] at h; simp only [Message.fromRaw] at h
  · cases h
  · cases h
  · rcases hq : (Alert.fromBinary (Reader.new content)).1 with e | a' <;> rw [hq] at h <;> cases h
    exact ⟨rfl, rfl⟩
  · rcases hq : (Handshake.fromBinary x (Reader.new content)).1 with e | a <;> rw [hq] at h <;> cases h
  · cases h
  · cases h

theorem description_close (d : UInt8) : AlertDescription.fromRaw d = .closeNotify ↔ d = 0 := by
  constructor
  · intro h
    have := congrArg AlertDescription.toRaw h
    rwa [Faithful.to_from alertDescription_faithful] at this
  · rintro rfl; rfl

/-- When an alert is "close notify". -/
theorem closeNotify_iff {X : Type} (x : Bytes → Option X) (content : Bytes) (typ : UInt8) (m : Message X)
    (h : Message.fromRaw x content (ContentType.fromRaw typ) = .ok m) :
    IsCloseNotify (typ, content) ↔ ∃ a, m = .alert a ∧ a.description = .closeNotify := by
  constructor
  · rintro ⟨h1, l, rest, h2⟩
    simp only at h1 h2
    subst h1
    rw [h2] at h
    refine ⟨⟨.fromRaw l, .fromRaw 0⟩, ?_, rfl⟩
    have : Message.fromRaw x (l :: 0 :: rest) (ContentType.fromRaw 21) = (Alert.fromBinary (Reader.new (l :: 0 :: rest))).1.map .alert := rfl
    rw [this, alert_eval] at h
    cases h
    rfl
  · rintro ⟨a, rfl, ha⟩
    obtain ⟨rfl, h2⟩ := fromRaw_alert x content typ a h
    obtain ⟨l, d, rest, rfl, hd⟩ := alert_shape content a h2
    rw [ha] at hd
    have := (description_close d).mp hd.symm
    subst this
    exact ⟨rfl, l, rest, rfl⟩

/-! ### One record -/

theorem ccs_iff (t : UInt8) : ContentType.fromRaw t = .changeCipherSpec ↔ t = 20 := by
  constructor
  · intro h
    have := congrArg ContentType.toRaw h
    rwa [Faithful.to_from contentType_faithful] at this
  · rintro rfl; rfl

theorem ignoreCcLoop_spec (n : Nat) (r : RecordReceiver) :
    ∃ all : List WireRecord, (∀ w ∈ all, w.Legal) ∧ r.incoming = wire all ++ (ignoreCcLoop n r).2.incoming ∧
      (∀ o, (ignoreCcLoop n r).1 = .ready (.ok (some o)) → ∃ pre w, all = pre ++ [w] ∧ o = w.owned ∧
        w.typ ≠ 20 ∧ ∀ x ∈ pre, x.typ = 20) ∧
      ((∀ o, (ignoreCcLoop n r).1 ≠ .ready (.ok (some o))) → ∀ x ∈ all, x.typ = 20) := by
  induction n generalizing r with
  | zero => exact ⟨[], nofun, rfl, nofun, nofun⟩
  | succ n ih =>
    unfold ignoreCcLoop
    rcases hp : r.popRecord with ⟨res, r'⟩
    by_cases hs : ∃ o, res = .ready (.ok (some o))
    · obtain ⟨o, rfl⟩ := hs
      obtain ⟨w, hw, hinc, ho, _⟩ := popRecord_some hp
      simp only
      have hcc : o.contentType = .changeCipherSpec ↔ w.typ = 20 := by rw [ho]; exact ccs_iff w.typ
      by_cases hct : o.contentType ≠ .changeCipherSpec
      · rw [if_pos hct]
        refine ⟨[w], by simpa using hw, by simpa [wire] using hinc, ?_, ?_⟩
        · intro o' ho'
          simp only [Poll.ready.injEq, Except.ok.injEq, Option.some.injEq] at ho'
          exact ⟨[], w, rfl, ho'.symm.trans ho, fun hh => hct (hcc.mpr hh), nofun⟩
        · intro hno
          exact absurd rfl (hno o)
      · rw [if_neg hct]
        have hw20 : w.typ = 20 := hcc.mp (by simpa using hct)
        obtain ⟨all, h1, h2, h3, h4⟩ := ih r'
        refine ⟨w :: all, by simpa using ⟨hw, h1⟩, ?_, ?_, ?_⟩
        · rw [hinc, wire_cons, List.append_assoc, ← h2]
        · intro o' ho'
          obtain ⟨pre, v, hv, ho'', h5, h6⟩ := h3 o' ho'
          exact ⟨w :: pre, v, by simp [hv], ho'', h5, by simpa using ⟨hw20, h6⟩⟩
        · intro hno
          simpa using ⟨hw20, h4 hno⟩
    · have hn : ∀ o, res ≠ .ready (.ok (some o)) := fun o h => hs ⟨o, h⟩
      have hinc := popRecord_none hp hn
      refine ⟨[], nofun, ?_, ?_, fun _ => nofun⟩
      · rcases res with _ | (e | (_ | o))
        · simpa [wire] using hinc.symm
        · simpa [wire] using hinc.symm
        · simpa [wire] using hinc.symm
        · exact absurd rfl (hn o)
      · intro o ho
        rcases res with _ | (e | (_ | o'))
        · cases ho
        · cases ho
        · cases ho
        · exact absurd rfl (hn o')

/-- One encrypted message: what is taken off the incoming data. -/
theorem receiveEncrypted_spec {X K : Type} (cr : Crypto X K) (r : RecordReceiver) (n : Nat) (key : EncryptionKey)
    (hiv : key.writeIv.length = 12) {res r' n' raw} (h : pollReceiveEncryptedMessage cr r n key = (res, r', n', raw)) :
    ∃ all : List WireRecord, (∀ w ∈ all, w.Legal) ∧ r.incoming = wire all ++ r'.incoming ∧
      ((∃ m pre w typ, all = pre ++ [w] ∧ res = .ready (.ok (some m)) ∧ n' = n + 1 ∧ typ ≠ 0 ∧
          Protects cr key n w typ raw ∧ Message.fromRaw cr.x509 raw (ContentType.fromRaw typ) = .ok m ∧
          w.typ ≠ 20 ∧ ∀ x ∈ pre, x.typ = 20) ∨
       (n' = n ∧ raw = [] ∧ (∀ m, res ≠ .ready (.ok (some m))) ∧ (res = .pending → ∀ x ∈ all, x.typ = 20))) := by
  unfold pollReceiveEncryptedMessage pollReceiveRecordIgnoreCc at h
  obtain ⟨all, h1, h2, h3, h4⟩ := ignoreCcLoop_spec (r.incoming.length + 1) r
  rcases hp : ignoreCcLoop (r.incoming.length + 1) r with ⟨pr, r1⟩
  rw [hp] at h h2 h3 h4
  rcases pr with _ | (e | (_ | o))
  · cases h; exact ⟨all, h1, h2, .inr ⟨rfl, rfl, nofun, fun _ => h4 nofun⟩⟩
  · cases h; exact ⟨all, h1, h2, .inr ⟨rfl, rfl, nofun, nofun⟩⟩
  · cases h; exact ⟨all, h1, h2, .inr ⟨rfl, rfl, nofun, nofun⟩⟩
  · obtain ⟨pre, w, hall, rfl, h5, h6⟩ := h3 o rfl
    have hw : w.Legal := h1 w (by simp [hall])
    simp only [WireRecord.owned] at h
    rcases hd : decryptMessage cr n key w.bytes with e | ⟨m, content⟩
    · rw [hd] at h; cases h; exact ⟨all, h1, h2, .inr ⟨rfl, rfl, nofun, nofun⟩⟩
    · rw [hd] at h
      cases h
      obtain ⟨typ, ht, hprot, hm⟩ := decryptMessage_ok cr key hiv n w hw m _ hd
      exact ⟨all, h1, h2, .inl ⟨m, pre, w, typ, hall, rfl, rfl, ht, hprot, hm, h5, h6⟩⟩

theorem pollRecv_data (p : PlaintextStream) :
    p.pollRecv.2.receiver.incoming ++ readData p.pollRecv.2.inner.reads
      = p.receiver.incoming ++ readData p.inner.reads := by
  unfold PlaintextStream.pollRecv pollReceiveAndAddData Transport.pollRead
  rcases hr : p.inner.reads with _ | ⟨e, es⟩
  · simp [hr]
  · rcases e with _ | d | k
    · simp [readData]
    · rcases d with _ | ⟨b, bs⟩
      · simp [readData, RecordReceiver.close]
        split <;> rfl
      · simp [readData, RecordReceiver.appendData]
    · simp [readData]

/-! ### Histories -/

theorem appData_append (a b : List (UInt8 × Bytes)) : appData (a ++ b) = appData a ++ appData b := by
  induction a with
  | nil => rfl
  | cons m a ih => simp [appData, ih]

theorem wire_eq_nil_append (x : Bytes) : x = wire [] ++ x := by simp [wire]

/-- The state of reading after a history since `c0` in which the reader got `got`. -/
structure ReadInv {X K : Type} (cr : Crypto X K) (c0 : Conn) (got : Bytes) (msgs : List (UInt8 × Bytes)) (c : Conn) :
    Prop where
  received : ∃ all taken, Received cr c0 c all taken msgs
  secrets : c.seqenc.trafficSecrets = c0.seqenc.trafficSecrets
  seqNo : c.seqenc.serverSequenceNo = c0.seqenc.serverSequenceNo + msgs.length
  data : got ++ c.incomingDecrypted = c0.incomingDecrypted ++ appData msgs
  eof : c.readState = .eof ↔ ∃ m ∈ msgs, IsCloseNotify m
  last : ∀ m ∈ msgs.dropLast, ¬ IsCloseNotify m

theorem ReadInv.congr {X K : Type} {cr : Crypto X K} {c0 : Conn} {got msgs} {c c' : Conn}
    (h : ReadInv cr c0 got msgs c)
    (h1 : c'.plaintext.receiver.incoming ++ readData c'.plaintext.inner.reads
      = c.plaintext.receiver.incoming ++ readData c.plaintext.inner.reads)
    (h2 : c'.seqenc.trafficSecrets = c.seqenc.trafficSecrets)
    (h3 : c'.seqenc.serverSequenceNo = c.seqenc.serverSequenceNo)
    (h4 : c'.incomingDecrypted = c.incomingDecrypted) (h5 : c'.readState = .eof ↔ c.readState = .eof) :
    ReadInv cr c0 got msgs c' := by
  obtain ⟨all, taken, hr⟩ := h.received
  refine ⟨⟨all, taken, ?_, hr.legal, hr.sub, hr.auth, hr.types⟩, h2.trans h.secrets, h3.trans h.seqNo, ?_, h5.trans h.eof, h.last⟩
  · rw [hr.framed, List.append_assoc, List.append_assoc, h1]
  · rw [h4]; exact h.data

theorem sublist_mid (taken all pre : List WireRecord) (w : WireRecord) (h : taken.Sublist all) :
    (taken ++ [w]).Sublist (all ++ (pre ++ [w])) := by
  refine List.Sublist.append h ?_
  exact List.sublist_append_right pre [w]

theorem readInv_fill {X K : Type} (cr : Crypto X K) (c0 : Conn)
    (hiv : c0.seqenc.trafficSecrets.server.writeIv.length = 12) (n : Nat) :
    ∀ (c : Conn) (got : Bytes) (msgs : List (UInt8 × Bytes)), ReadInv cr c0 got msgs c → c.readState = .active →
      ∃ msgs', ReadInv cr c0 got msgs' (c.fillLoop cr n).2 ∧
        ((c.fillLoop cr n).1 = .ready (.ok ()) → c.incomingDecrypted = [] →
          (c.fillLoop cr n).2.incomingDecrypted = [] → (c.fillLoop cr n).2.readState = .eof ∨ (23, []) ∈ msgs') ∧
        (∀ m ∈ msgs, m ∈ msgs') := by
  induction n with
  | zero => exact fun c got msgs h _ => ⟨msgs, h, nofun, fun _ => id⟩
  | succ n ih =>
    intro c got msgs h hact
    have hne : ∀ e, ReadState.error e = .eof ↔ c.readState = .eof := by intro e; rw [hact]; simp
    unfold Conn.fillLoop
    have hdat := pollRecv_data c.plaintext
    rcases hp : c.plaintext.pollRecv with ⟨res, p⟩
    rw [hp] at hdat
    simp only at hdat
    rcases res with _ | (e | u)
    · exact ⟨msgs, h.congr hdat rfl rfl rfl Iff.rfl, nofun, fun _ => id⟩
    · exact ⟨msgs, h.congr hdat rfl rfl rfl (hne e), nofun, fun _ => id⟩
    · simp only
      rcases hm : pollReceiveEncryptedMessage cr p.receiver c.seqenc.serverSequenceNo
        c.seqenc.trafficSecrets.server with ⟨res, r, k, raw⟩
      obtain ⟨all', hleg, hinc, hcase⟩ := receiveEncrypted_spec cr _ _ _ (by rw [h.secrets]; exact hiv) hm
      obtain ⟨all, taken, hr⟩ := h.received
      have hframed : c0.plaintext.receiver.incoming ++ readData c0.plaintext.inner.reads
          = wire (all ++ all') ++ r.incoming ++ readData p.inner.reads := by
        rw [hr.framed, List.append_assoc, ← hdat, hinc, wire_append]
        simp
      have hleg' : ∀ w ∈ all ++ all', w.Legal := by
        intro w hw
        rcases List.mem_append.mp hw with hw | hw
        · exact hr.legal w hw
        · exact hleg w hw
      rcases hcase with ⟨m, pre, w, typ, hall, rfl, rfl, ht, hprot, hmsg, _, _⟩ | ⟨rfl, _, hno, _⟩
      · -- a message was taken
        rw [h.secrets, h.seqNo] at hprot
        have hlen : ∀ c' : Conn, c'.plaintext = { p with receiver := r } → ∃ all taken, Received cr c0 c' all taken (msgs ++ [(typ, raw)]) := by
          intro c' hc'
          refine ⟨all ++ all', taken ++ [w], ?_, hleg', ?_, ?_, ?_⟩
          · rw [hc']; exact hframed
          · rw [hall]; exact sublist_mid taken all pre w hr.sub
          · exact protectsAll_snoc hr.auth (hleg' w (by simp [hall])) hprot
          · intro m' hm'
            rcases List.mem_append.mp hm' with hm' | hm'
            · exact hr.types m' hm'
            · rw [List.mem_singleton] at hm'; rw [hm']; exact ht
        have hnoclose : ∀ m ∈ msgs, ¬ IsCloseNotify m := by
          intro m' hm' hcl
          have := h.eof.mpr ⟨m', hm', hcl⟩
          rw [hact] at this; cases this
        have hlast : ∀ m' ∈ (msgs ++ [(typ, raw)]).dropLast, ¬ IsCloseNotify m' := by
          rw [List.dropLast_concat]; exact hnoclose
        have hseq : c.seqenc.serverSequenceNo + 1 = c0.seqenc.serverSequenceNo + (msgs ++ [(typ, raw)]).length := by
          rw [h.seqNo]; simp; omega
        have hcl := closeNotify_iff cr.x509 raw typ m hmsg
        have heof : ∀ rs : ReadState, (rs = .eof ↔ IsCloseNotify (typ, raw)) →
            (rs = .eof ↔ ∃ m ∈ msgs ++ [(typ, raw)], IsCloseNotify m) := by
          intro rs hrs
          rw [hrs]
          constructor
          · intro hh; exact ⟨_, by simp, hh⟩
          · rintro ⟨m', hm', hh⟩
            rcases List.mem_append.mp hm' with hm' | hm'
            · exact absurd hh (hnoclose m' hm')
            · rw [List.mem_singleton] at hm'; rw [← hm']; exact hh
        have hmem : ∀ m' ∈ msgs, m' ∈ msgs ++ [(typ, raw)] := fun m' hm' => List.mem_append_left _ hm'
        have hdata0 : typ ≠ 23 → got ++ c.incomingDecrypted = c0.incomingDecrypted ++ appData (msgs ++ [(typ, raw)]) := by
          intro htyp
          rw [appData_append, h.data]
          simp [appData, htyp]
        have htyp23 : typ = 23 → m = .applicationData raw := by
          intro h23
          subst h23
          rw [fromRaw_23] at hmsg
          cases hmsg; rfl
        cases m with
        | invalid =>
          exact ⟨_, ⟨hlen _ rfl, h.secrets, hseq, hdata0 (fun hh => by cases htyp23 hh),
            heof _ (by simp [hcl]), hlast⟩, nofun, hmem⟩
        | changeCipherSpec =>
          exact ⟨_, ⟨hlen _ rfl, h.secrets, hseq, hdata0 (fun hh => by cases htyp23 hh),
            heof _ (by simp [hcl]), hlast⟩, nofun, hmem⟩
        | unknown code =>
          exact ⟨_, ⟨hlen _ rfl, h.secrets, hseq, hdata0 (fun hh => by cases htyp23 hh),
            heof _ (by simp [hcl]), hlast⟩, nofun, hmem⟩
        | alert a =>
          simp only
          by_cases ha : a.description = .closeNotify
          · rw [if_pos ha]
            exact ⟨_, ⟨hlen _ rfl, h.secrets, hseq, hdata0 (fun hh => by cases htyp23 hh),
              heof _ (by simp [hcl, ha]), hlast⟩, fun _ _ _ => .inl rfl, hmem⟩
          · rw [if_neg ha]
            exact ⟨_, ⟨hlen _ rfl, h.secrets, hseq, hdata0 (fun hh => by cases htyp23 hh),
              heof _ (by simp [hcl, ha]), hlast⟩, nofun, hmem⟩
        | applicationData d =>
          obtain ⟨rfl, rfl⟩ := fromRaw_appData _ _ _ _ hmsg
          refine ⟨_, ⟨hlen _ rfl, h.secrets, hseq, ?_, heof _ ?_, hlast⟩, ?_, hmem⟩
          · simp only
            rw [← List.append_assoc, h.data, appData_append]
            simp [appData]
          · simp [hcl, hact]
          · intro _ _ hd
            right
            simp only [List.append_eq_nil_iff] at hd
            rw [hd.2]; simp
        | handshake hs =>
          have hgen : ∀ rs : ReadState, rs ≠ .eof → ReadInv cr c0 got (msgs ++ [(typ, raw)])
              ⟨{ p with receiver := r }, { c.seqenc with serverSequenceNo := c.seqenc.serverSequenceNo + 1 },
                c.incomingDecrypted, rs⟩ := by
            intro rs hrs
            exact ⟨hlen _ rfl, h.secrets, hseq, hdata0 (fun hh => by cases htyp23 hh),
              heof _ (by simp [hcl, hrs]), hlast⟩
          cases hs with
          | newSessionTicket t =>
            obtain ⟨msgs', h1, h2, h3⟩ := ih _ got _ (hgen c.readState (by rw [hact]; simp)) hact
            exact ⟨msgs', h1, h2, fun m' hm' => h3 m' (hmem m' hm')⟩
          | _ => exact ⟨_, hgen _ (by simp), nofun, hmem⟩
      · -- nothing was taken
        have hrec : ∀ c' : Conn, c'.plaintext = { p with receiver := r } → ∃ all taken, Received cr c0 c' all taken msgs := by
          intro c' hc'
          refine ⟨all ++ all', taken, ?_, hleg', ?_, hr.auth, hr.types⟩
          · rw [hc']; exact hframed
          · exact hr.sub.trans (List.sublist_append_left _ _)
        have hgen : ∀ rs : ReadState, (rs = .eof ↔ c.readState = .eof) → ReadInv cr c0 got msgs
            ⟨{ p with receiver := r }, { c.seqenc with serverSequenceNo := c.seqenc.serverSequenceNo },
              c.incomingDecrypted, rs⟩ := by
          intro rs hrs
          exact ⟨hrec _ rfl, h.secrets, h.seqNo, h.data, hrs.trans h.eof, h.last⟩
        rcases res with _ | (e | (_ | m))
        · exact ⟨_, hgen _ Iff.rfl, nofun, fun _ => id⟩
        · exact ⟨_, hgen _ Iff.rfl, nofun, fun _ => id⟩
        · exact ⟨_, hgen _ (hne _), nofun, fun _ => id⟩
        · exact absurd rfl (hno m)

theorem readBytes_one (ev : ConnEvent) (rest : List ConnEvent) :
    readBytes (ev :: rest) = readBytes [ev] ++ readBytes rest := by
  cases ev with
  | read room a => rcases a with _ | (e | n) <;> simp [readBytes]
  | _ => rfl

theorem readInv_read {X K : Type} (cr : Crypto X K) (c0 : Conn)
    (hiv : c0.seqenc.trafficSecrets.server.writeIv.length = 12) (c : Conn) (got : Bytes)
    (msgs : List (UInt8 × Bytes)) (h : ReadInv cr c0 got msgs c) (room : Nat) :
    ∃ msgs', ReadInv cr c0 (got ++ readBytes [.read room (c.pollRead cr room).1]) msgs' (c.pollRead cr room).2 ∧
      ((c.pollRead cr room).1 = .ready (.ok []) → 0 < room →
        ∃ m ∈ msgs', IsCloseNotify m ∨ m = (23, [])) ∧ (∀ m ∈ msgs, m ∈ msgs') := by
  unfold Conn.pollRead
  rcases hrs : c.readState with _ | _ | e
  · simp only
    have hfill : ∃ msgs', ReadInv cr c0 got msgs' (c.pollFillIncoming cr).2 ∧
        ((c.pollFillIncoming cr).1 = .ready (.ok ()) → (c.pollFillIncoming cr).2.incomingDecrypted = [] →
          (c.pollFillIncoming cr).2.readState = .eof ∨ (23, []) ∈ msgs') ∧ (∀ m ∈ msgs, m ∈ msgs') := by
      unfold Conn.pollFillIncoming
      split
      · rename_i hpos
        exact ⟨msgs, h, fun _ hn => by simp only at hn; rw [hn] at hpos; simp at hpos, fun _ => id⟩
      · rename_i hz
        have hnil : c.incomingDecrypted = [] := by
          apply List.eq_nil_of_length_eq_zero; omega
        obtain ⟨msgs', h1, h2, h3⟩ := readInv_fill cr c0 hiv (c.plaintext.inner.reads.length + 1) c got msgs h hrs
        exact ⟨msgs', h1, fun a b => h2 a hnil b, h3⟩
    obtain ⟨msgs', h1, h2, h3⟩ := hfill
    rcases hp : c.pollFillIncoming cr with ⟨res, c'⟩
    rw [hp] at h1 h2
    simp only at h1 h2
    rcases res with _ | (e | u)
    · exact ⟨msgs', by simpa [readBytes] using h1, nofun, h3⟩
    · exact ⟨msgs', by simpa [readBytes] using h1, nofun, h3⟩
    · obtain ⟨all, taken, hr⟩ := h1.received
      refine ⟨msgs', ⟨⟨all, taken, hr.framed, hr.legal, hr.sub, hr.auth, hr.types⟩, h1.secrets, h1.seqNo, ?_, h1.eof, h1.last⟩, ?_, h3⟩
      · simp only [readBytes, List.append_nil]
        rw [List.append_assoc, List.take_append_drop]
        exact h1.data
      · intro he hroom
        simp only [Poll.ready.injEq, Except.ok.injEq] at he
        have hnil : c'.incomingDecrypted = [] := by
          rcases hd : c'.incomingDecrypted with _ | ⟨b, bs⟩
          · rfl
          · rw [hd] at he
            rcases room with _ | room
            · omega
            · simp at he
        rcases h2 rfl hnil with h2 | h2
        · obtain ⟨m, hm, hcl⟩ := h1.eof.mp h2
          exact ⟨m, hm, .inl hcl⟩
        · exact ⟨_, h2, .inr rfl⟩
  · refine ⟨msgs, by simpa [readBytes] using h, ?_, fun _ => id⟩
    intro _ _
    obtain ⟨m, hm, hcl⟩ := h.eof.mp hrs
    exact ⟨m, hm, .inl hcl⟩
  · exact ⟨msgs, by simpa [readBytes] using h, nofun, fun _ => id⟩

/-- Everything that concerns receiving. -/
def Conn.rx (c : Conn) : RecordReceiver × List ReadEvent × Nat × TrafficSecrets × Bytes × ReadState :=
  (c.plaintext.receiver, c.plaintext.inner.reads, c.seqenc.serverSequenceNo, c.seqenc.trafficSecrets,
    c.incomingDecrypted, c.readState)

theorem readInv_rx {X K : Type} {cr : Crypto X K} {c0 : Conn} {got msgs} {c c' : Conn}
    (h : ReadInv cr c0 got msgs c) (hrx : c'.rx = c.rx) : ReadInv cr c0 got msgs c' := by
  simp only [Conn.rx, Prod.mk.injEq] at hrx
  obtain ⟨h1, h2, h3, h4, h5, h6⟩ := hrx
  exact h.congr (by rw [h1, h2]) h4 h3 h5 (by rw [h6])

theorem pollFlush_rx (p : PlaintextStream) :
    p.pollFlush.2.receiver = p.receiver ∧ p.pollFlush.2.inner.reads = p.inner.reads := by
  unfold PlaintextStream.pollFlush
  rcases writeLoop p.inner.writes p.outgoing p.inner.sent with ⟨res, ws, o, s⟩
  rcases res with _ | (k | u)
  · exact ⟨rfl, rfl⟩
  · exact ⟨rfl, rfl⟩
  · simp only
    unfold Transport.pollFlush
    simp only
    rcases p.inner.flushes with _ | ⟨e, es⟩
    · exact ⟨rfl, rfl⟩
    · rcases e <;> exact ⟨rfl, rfl⟩

theorem flushEncrypted_rx (c : Conn) : c.pollFlushEncrypted.2.rx = c.rx := by
  obtain ⟨h1, h2⟩ := pollFlush_rx c.plaintext
  simp only [Conn.pollFlushEncrypted, Conn.rx, h1, h2]

theorem appendRecord_rx {X K : Type} (cr : Crypto X K) (c : Conn) (d : Bytes) (ct : ContentType) :
    (c.appendRecord cr d ct).2.rx = c.rx := by
  unfold Conn.appendRecord encryptRecord
  split <;> (rename_i h; split at h)
  · cases h
  · simp only at h
    split at h
    · cases h
    · cases h; rfl
  · cases h; rfl
  · simp only at h
    split at h
    · cases h; rfl
    · cases h

theorem finishShutdown_rx (c : Conn) : c.finishShutdown.2.rx = c.rx := by
  unfold Conn.finishShutdown
  have hf := flushEncrypted_rx c
  rcases hp : c.pollFlushEncrypted with ⟨res, c'⟩
  rw [hp] at hf
  rcases res with _ | (e | u)
  · exact hf
  · exact hf
  · simp only at hf ⊢
    rw [← hf]
    unfold Transport.pollShutdown
    rcases c'.plaintext.inner.shutdowns with _ | ⟨e, es⟩
    · rfl
    · rcases e <;> rfl

/-- Calls other than reading do not concern what is received. -/
theorem step_rx {X K : Type} (cr : Crypto X K) (c : Conn) (op : ConnOp) (h : ∀ room, op ≠ .read room) :
    (op.step cr c).2.rx = c.rx ∧ readBytes [(op.step cr c).1] = [] := by
  cases op with
  | read room => exact absurd rfl (h room)
  | write buf =>
    refine ⟨?_, rfl⟩
    simp only [ConnOp.step]
    unfold Conn.pollWrite
    rcases c.plaintext.writeState with _ | _ | e
    · simp only
      have hf := flushEncrypted_rx c
      rcases hp : c.pollFlushEncrypted with ⟨res, c'⟩
      rw [hp] at hf
      rcases res with _ | (e | u)
      · exact hf
      · exact hf
      · simp only at hf ⊢
        have ha := appendRecord_rx cr c' (buf.take (min buf.length maxPlaintextRecordSize)) .applicationData
        rcases hq : c'.appendRecord cr (buf.take (min buf.length maxPlaintextRecordSize)) .applicationData
          with ⟨res, c''⟩
        rw [hq] at ha
        rcases res <;> exact ha.trans hf
    · rfl
    · rfl
  | flush =>
    refine ⟨?_, rfl⟩
    simp only [ConnOp.step]
    unfold Conn.pollFlush
    rcases c.plaintext.writeState with _ | _ | e
    · exact flushEncrypted_rx c
    · rfl
    · rfl
  | shutdown =>
    refine ⟨?_, rfl⟩
    simp only [ConnOp.step]
    unfold Conn.pollShutdown
    rcases c.plaintext.writeState with _ | _ | e
    · simp only
      unfold Conn.appendCloseNotify
      have ha := appendRecord_rx cr c [AlertLevel.warning.toRaw, AlertDescription.closeNotify.toRaw] .alert
      rcases hq : c.appendRecord cr [AlertLevel.warning.toRaw, AlertDescription.closeNotify.toRaw] .alert
        with ⟨res, c''⟩
      rw [hq] at ha
      rcases res with e | u
      · exact ha
      · exact (finishShutdown_rx _).trans ha
    · exact finishShutdown_rx c
    · rfl

theorem readInv_run {X K : Type} (cr : Crypto X K) (c0 : Conn)
    (hiv : c0.seqenc.trafficSecrets.server.writeIv.length = 12) (ops : List ConnOp) :
    ∀ (c : Conn) (got : Bytes) (msgs : List (UInt8 × Bytes)), ReadInv cr c0 got msgs c →
      ∃ msgs', ReadInv cr c0 (got ++ readBytes (connRun cr c ops).1) msgs' (connRun cr c ops).2 ∧
        ((∃ room, 0 < room ∧ .read room (.ready (.ok [])) ∈ (connRun cr c ops).1) →
          ∃ m ∈ msgs', IsCloseNotify m ∨ m = (23, [])) ∧ (∀ m ∈ msgs, m ∈ msgs') := by
  induction ops with
  | nil => exact fun c got msgs h => ⟨msgs, by simpa [connRun, readBytes] using h, by simp [connRun], fun _ => id⟩
  | cons op ops ih =>
    intro c got msgs h
    have hstep : ∃ msgs', ReadInv cr c0 (got ++ readBytes [(op.step cr c).1]) msgs' (op.step cr c).2 ∧
        ((∃ room, 0 < room ∧ (op.step cr c).1 = .read room (.ready (.ok []))) →
          ∃ m ∈ msgs', IsCloseNotify m ∨ m = (23, [])) ∧ (∀ m ∈ msgs, m ∈ msgs') := by
      by_cases hop : ∃ room, op = .read room
      · obtain ⟨room, rfl⟩ := hop
        obtain ⟨msgs', h1, h2, h3⟩ := readInv_read cr c0 hiv c got msgs h room
        refine ⟨msgs', h1, ?_, h3⟩
        rintro ⟨room', hroom, he⟩
        simp only [ConnOp.step, ConnEvent.read.injEq] at he
        exact h2 he.2 (by omega)
      · have hop' : ∀ room, op ≠ .read room := fun room hh => hop ⟨room, hh⟩
        obtain ⟨h1, h2⟩ := step_rx cr c op hop'
        refine ⟨msgs, by rw [h2, List.append_nil]; exact readInv_rx h h1, ?_, fun _ => id⟩
        rintro ⟨room, _, he⟩
        cases op <;> simp_all [ConnOp.step]
    obtain ⟨msgs1, h1, h2, h3⟩ := hstep
    obtain ⟨msgs2, h4, h5, h6⟩ := ih _ _ _ h1
    refine ⟨msgs2, ?_, ?_, fun m hm => h6 m (h3 m hm)⟩
    · simp only [connRun]
      rw [readBytes_one, ← List.append_assoc]
      exact h4
    · rintro ⟨room, hroom, hmem⟩
      simp only [connRun, List.mem_cons] at hmem
      rcases hmem with hmem | hmem
      · obtain ⟨m, hm, hc⟩ := h2 ⟨room, hroom, hmem.symm⟩
        exact ⟨m, h6 m hm, hc⟩
      · exact h5 ⟨room, hroom, hmem⟩

theorem readInv_init {X K : Type} (cr : Crypto X K) (c0 : Conn) (h : c0.readState ≠ .eof) :
    ReadInv cr c0 [] [] c0 := by
  refine ⟨⟨[], [], by simp [wire], nofun, List.Sublist.slnil, trivial, nofun⟩, rfl, rfl, by simp [appData], ?_, nofun⟩
  simp [h]

end Ngfs.Tls
