import Verif.Lemmas.Ipfs
import Verif.Model.Ipfs
import Verif.Props.TlsAttack

/-! Lemmas for C174: what a user of a TLS connection sees of its end. -/
namespace Ngfs.Ipfs
open Tls Spec.Ipfs

/-- The receiver has met no error of the transport. -/
def Clean (r : RecordReceiver) : Prop := ∀ e, r.readState = .error e → e = .invalidPlaintextRecord

theorem popRecord_clean (r : RecordReceiver) (h : Clean r) : Clean r.popRecord.2 ∧
    ∀ e, r.popRecord.1 = .ready (.error e) → ioKind e ≠ .unexpectedEof := by
  have key : ∀ e, r.readState = .error e → ioKind e ≠ .unexpectedEof := by
    intro e he
    rw [h e he]
    exact fun hh => by cases hh
  unfold RecordReceiver.popRecord
  simp only
  split
  · split
    · exact ⟨h, fun e he => by cases he⟩
    · exact ⟨h, fun e he => by cases he⟩
    · rename_i e he
      refine ⟨h, fun e' he' => ?_⟩
      cases he'
      exact key _ he
  · split
    · refine ⟨h, fun e he => ?_⟩
      cases he
      exact fun hh => by cases hh
    · split
      · split
        · exact ⟨h, fun e he => by cases he⟩
        · refine ⟨fun e he => ?_, fun e he => ?_⟩
          · cases he; rfl
          · cases he
            exact fun hh => by cases hh
        · rename_i e he
          refine ⟨h, fun e' he' => ?_⟩
          cases he'
          exact key _ he
      · exact ⟨h, fun e he => by cases he⟩

theorem ignoreCcLoop_clean (n : Nat) : ∀ r : RecordReceiver, Clean r → Clean (ignoreCcLoop n r).2 ∧
    ∀ e, (ignoreCcLoop n r).1 = .ready (.error e) → ioKind e ≠ .unexpectedEof := by
  induction n with
  | zero =>
    intro r h
    refine ⟨h, fun e he => ?_⟩
    cases he
    exact fun hh => by cases hh
  | succ n ih =>
    intro r h
    obtain ⟨h1, h2⟩ := popRecord_clean r h
    unfold ignoreCcLoop
    generalize r.popRecord = Q at h1 h2
    obtain ⟨_ | (e | (_ | rec)), r'⟩ := Q
    · exact ⟨h1, fun e he => by cases he⟩
    · exact ⟨h1, h2⟩
    · exact ⟨h1, fun e he => by cases he⟩
    · simp only
      split
      · exact ⟨h1, fun e he => by cases he⟩
      · exact ih r' h1

theorem decryptMessage_kind {X K : Type} (cr : Crypto X K) (n : Nat) (key : EncryptionKey) (raw : Bytes) (e : TlsErr)
    (h : decryptMessage cr n key raw = .error e) : ioKind e ≠ .unexpectedEof := by
  have ht : ∀ e, decryptTraffic cr key n raw = .error e → e = .decryptionFailed := by
    intro e he
    unfold decryptTraffic at he
    split at he
    · cases he; rfl
    · split at he
      · cases he; rfl
      · split at he
        · cases he; rfl
        · split at he
          · cases he
          · cases he; rfl
  unfold decryptMessage at h
  split at h
  · rename_i e' he'
    cases h
    rw [ht _ he']
    exact fun hh => by cases hh
  · simp only at h
    split at h
    · cases h
      exact fun hh => by cases hh
    · split at h
      · cases h
      · cases h
        exact fun hh => by cases hh
      · cases h
        exact fun hh => by cases hh

theorem receive_clean {X K : Type} (cr : Crypto X K) (r : RecordReceiver) (n : Nat) (key : EncryptionKey) (h : Clean r) :
    Clean (pollReceiveEncryptedMessage cr r n key).2.1 ∧
    ∀ e, (pollReceiveEncryptedMessage cr r n key).1 = .ready (.error e) → ioKind e ≠ .unexpectedEof := by
  obtain ⟨h1, h2⟩ := ignoreCcLoop_clean (r.incoming.length + 1) r h
  unfold pollReceiveEncryptedMessage pollReceiveRecordIgnoreCc
  generalize ignoreCcLoop (r.incoming.length + 1) r = Q at h1 h2
  obtain ⟨_ | (e | (_ | rec)), r'⟩ := Q
  · exact ⟨h1, fun e he => by cases he⟩
  · refine ⟨h1, fun e he => ?_⟩
    cases he
    exact h2 _ rfl
  · exact ⟨h1, fun e he => by cases he⟩
  · simp only
    cases hd : decryptMessage cr n key rec.raw with
    | error e =>
      refine ⟨h1, fun e' he => ?_⟩
      cases he
      exact decryptMessage_kind cr n key rec.raw e hd
    | ok m => exact ⟨h1, fun e he => by cases he⟩

/-- The connection has met no error of the transport that it has forgotten. -/
def Honest (c : Conn) : Prop := c.readState = .active → Clean c.plaintext.receiver

theorem fill_honest {X K : Type} (cr : Crypto X K) (n : Nat) : ∀ c : Conn, c.readState = .active → Honest c →
    Honest (c.fillLoop cr n).2 ∧
    ∀ e, (c.fillLoop cr n).1 = .ready (.error e) → ioKind e = .unexpectedEof → (c.fillLoop cr n).2.readState = .error e := by
  induction n with
  | zero =>
    intro c _ h
    refine ⟨h, fun e he hk => ?_⟩
    cases he
    cases hk
  | succ n ih =>
    intro c ha h
    have hp : ∀ u p, c.plaintext.pollRecv = (.ready (.ok u), p) → Clean p.receiver := by
      intro u p hpr
      unfold PlaintextStream.pollRecv pollReceiveAndAddData at hpr
      generalize c.plaintext.inner.pollRead = T at hpr
      obtain ⟨_ | (_ | ⟨b, bs⟩) | k, t'⟩ := T
      · cases hpr
      · cases hpr
        intro e he
        simp only [RecordReceiver.close] at he
        have hc := h ha e
        revert he
        cases hs : c.plaintext.receiver.readState with
        | active => intro he; cases he
        | eof => intro he; rw [hs] at he; cases he
        | error e' => intro he; exact hc he
      · cases hpr
        exact h ha
      · cases hpr
    have hpend : ∀ p, c.plaintext.pollRecv = (.pending, p) → Clean p.receiver := by
      intro p hpr
      unfold PlaintextStream.pollRecv pollReceiveAndAddData at hpr
      generalize c.plaintext.inner.pollRead = T at hpr
      obtain ⟨_ | (_ | ⟨b, bs⟩) | k, t'⟩ := T
      · cases hpr
        exact h ha
      · cases hpr
      · cases hpr
      · cases hpr
    unfold Conn.fillLoop
    generalize c.plaintext.pollRecv = P at hp hpend
    obtain ⟨_ | (e | u), p⟩ := P
    · exact ⟨fun _ => hpend p rfl, fun e he => by cases he⟩
    · refine ⟨(fun hh => nomatch (show ReadState.error e = .active from hh)), fun e' he' _ => ?_⟩
      cases he'
      rfl
    · simp only
      obtain ⟨h1, h2⟩ := receive_clean cr p.receiver c.seqenc.serverSequenceNo c.seqenc.trafficSecrets.server (hp u p rfl)
      generalize pollReceiveEncryptedMessage cr p.receiver c.seqenc.serverSequenceNo c.seqenc.trafficSecrets.server = R at h1 h2
      obtain ⟨res, r, k, raw⟩ := R
      simp only at h1 h2 ⊢
      split
      · exact ⟨fun _ => h1, fun e he => by cases he⟩
      · refine ⟨fun _ => h1, fun e he hk => ?_⟩
        cases he
        exact absurd hk (h2 _ rfl)
      · exact ih _ ha fun _ => h1
      · exact ⟨fun _ => h1, fun e he => by cases he⟩
      · split
        · exact ⟨fun _ => h1, fun e he => by cases he⟩
        · refine ⟨fun _ => h1, fun e he _ => ?_⟩
          cases he
          rfl
      · refine ⟨fun _ => h1, fun e he _ => ?_⟩
        cases he
        rfl
      · refine ⟨fun _ => h1, fun e he _ => ?_⟩
        cases he
        rfl

theorem read_honest {X K : Type} (cr : Crypto X K) (c : Conn) (room : Nat) (h : Honest c) :
    Honest (c.pollRead cr room).2 ∧
    ∀ e, (c.pollRead cr room).1 = .ready (.error e) → ioKind e = .unexpectedEof → (c.pollRead cr room).2.readState = .error e := by
  unfold Conn.pollRead
  cases hs : c.readState with
  | eof => exact ⟨h, fun e he => by cases he⟩
  | error e =>
    refine ⟨h, fun e' he _ => ?_⟩
    cases he
    exact hs
  | active =>
    simp only
    have hf : Honest (c.pollFillIncoming cr).2 ∧ ∀ e, (c.pollFillIncoming cr).1 = .ready (.error e) → ioKind e = .unexpectedEof →
        (c.pollFillIncoming cr).2.readState = .error e := by
      unfold Conn.pollFillIncoming
      split
      · exact ⟨h, fun e he => by cases he⟩
      · exact fill_honest cr _ c hs h
    generalize c.pollFillIncoming cr = P at hf
    obtain ⟨_ | (e | u), c'⟩ := P
    · exact ⟨hf.1, fun e he => by cases he⟩
    · refine ⟨hf.1, fun e' he' hk => ?_⟩
      cases he'
      exact hf.2 _ rfl hk
    · exact ⟨hf.1, fun e he => by cases he⟩

theorem step_honest {X K : Type} (cr : Crypto X K) (c : Conn) (op : ConnOp) (h : Honest c) : Honest (op.step cr c).2 := by
  by_cases hr : ∃ room, op = .read room
  · obtain ⟨room, rfl⟩ := hr
    exact (read_honest cr c room h).1
  · obtain ⟨h1, -⟩ := step_rx cr c op fun room e => hr ⟨room, e⟩
    simp only [Conn.rx, Prod.mk.injEq] at h1
    intro ha
    rw [h1.1]
    exact h (h1.2.2.2.2.2.symm.trans ha)

/-- Once the connection has noted an error, nothing more is read. -/
theorem run_broken {X K : Type} (cr : Crypto X K) (e : TlsErr) (ops : List ConnOp) : ∀ c : Conn, c.readState = .error e →
    readBytes (connRun cr c ops).1 = [] := by
  induction ops with
  | nil => intro c _; rfl
  | cons op ops ih =>
    intro c h
    have hstep : (op.step cr c).2.readState = .error e ∧ ∀ es, readBytes ((op.step cr c).1 :: es) = readBytes es := by
      cases op with
      | read room =>
        simp only [ConnOp.step]
        unfold Conn.pollRead
        rw [h]
        exact ⟨h, fun es => rfl⟩
      | write buf =>
        have h1 := (step_rx cr c (.write buf) nofun).1
        simp only [Conn.rx, Prod.mk.injEq] at h1
        exact ⟨h1.2.2.2.2.2.trans h, fun es => rfl⟩
      | flush =>
        have h1 := (step_rx cr c .flush nofun).1
        simp only [Conn.rx, Prod.mk.injEq] at h1
        exact ⟨h1.2.2.2.2.2.trans h, fun es => rfl⟩
      | shutdown =>
        have h1 := (step_rx cr c .shutdown nofun).1
        simp only [Conn.rx, Prod.mk.injEq] at h1
        exact ⟨h1.2.2.2.2.2.trans h, fun es => rfl⟩
    simp only [connRun]
    rw [hstep.2]
    exact ih _ hstep.1

theorem readData_answers (evs : List ConnEvent) : readData (readAnswers evs) = readBytes evs := by
  induction evs with
  | nil => rfl
  | cons v evs ih =>
    rcases v with ⟨room, _ | (e | d)⟩ | ⟨b, x⟩ | x | x
    · simp only [readAnswers, readData, readBytes, ih]
    · simp only [readAnswers, readData, readBytes, ih]
    · simp only [readAnswers, readData, readBytes, ih]
    · simp only [readAnswers, readBytes, ih]
    · simp only [readAnswers, readBytes, ih]
    · simp only [readAnswers, readBytes, ih]

theorem content_prefix (es : List ReadEvent) : (Spec.Io.content es).1 <+: readData es := by
  induction es with
  | nil => exact List.prefix_rfl
  | cons e es ih =>
    rcases e with _ | (_ | ⟨b, d⟩) | k
    · exact ih
    · exact List.nil_prefix
    · simp only [Spec.Io.content, readData]
      exact (List.prefix_append_right_inj _).mpr ih
    · exact List.nil_prefix

theorem connRun_cons {X K : Type} (cr : Crypto X K) (c : Conn) (op : ConnOp) (ops : List ConnOp) :
    connRun cr c (op :: ops) = ((op.step cr c).1 :: (connRun cr (op.step cr c).2 ops).1, (connRun cr (op.step cr c).2 ops).2) := rfl

theorem connRun_append {X K : Type} (cr : Crypto X K) (ops : List ConnOp) : ∀ (c : Conn) (ops' : List ConnOp),
    connRun cr c (ops ++ ops') = ((connRun cr c ops).1 ++ (connRun cr (connRun cr c ops).2 ops').1,
      (connRun cr (connRun cr c ops).2 ops').2) := by
  induction ops with
  | nil => intro c ops'; rfl
  | cons op ops ih =>
    intro c ops'
    rw [List.cons_append, connRun_cons, ih, connRun_cons]
    rfl

theorem readBytes_append (a b : List ConnEvent) : readBytes (a ++ b) = readBytes a ++ readBytes b := by
  rw [← readData_answers, ← readData_answers, ← readData_answers]
  induction a with
  | nil => rfl
  | cons v a ih =>
    rcases v with ⟨room, _ | (e | d)⟩ | ⟨b', x⟩ | x | x <;> simp only [List.cons_append, readAnswers, readData, ih, List.append_assoc]

/-- Where an end, once it has been reported, is final, the answers settle. -/
theorem answers_settle {X K : Type} (cr : Crypto X K) (ops : List ConnOp) : ∀ (c : Conn), Honest c →
    (∀ op ∈ ops, ∀ room, op = .read room → 0 < room) →
    (∀ pre post room, ops = pre ++ .read room :: post → (connRun cr c (pre ++ [.read room])).1.getLast? = some (.read room (.ready (.ok []))) →
      readBytes (connRun cr (connRun cr c (pre ++ [.read room])).2 post).1 = []) →
    Settles (readAnswers (connRun cr c ops).1) := by
  induction ops with
  | nil => intro c _ _ _; trivial
  | cons op ops ih =>
    intro c hc hroom hend
    have hrest := ih (op.step cr c).2 (step_honest cr c op hc) (fun o ho => hroom o (List.mem_cons_of_mem _ ho)) (by
      intro pre post room he hl
      have := hend (op :: pre) post room (by rw [he]; rfl) (by
        rw [List.cons_append, connRun_cons]
        simp only
        rw [List.getLast?_cons, hl]
        rfl)
      rw [List.cons_append, connRun_cons] at this
      exact this)
    rw [connRun_cons]
    cases op with
    | read room =>
      have hh := read_honest cr c room hc
      have h0 := hend [] ops room rfl
      rw [List.nil_append, connRun_cons] at h0
      simp only [connRun, List.getLast?_singleton, ConnOp.step] at h0
      simp only [ConnOp.step] at hrest ⊢
      generalize c.pollRead cr room = P at hh h0 hrest
      obtain ⟨_ | (e | (_ | ⟨b, d⟩)), c'⟩ := P
      · exact hrest
      · simp only [readAnswers, Settles]
        split
        · rename_i hk
          rw [readData_answers]
          exact run_broken cr e ops _ (hh.2 e rfl hk)
        · exact hrest
      · simp only [readAnswers, Settles]
        rw [readData_answers]
        exact h0 rfl
      · exact hrest
    | write buf => exact hrest
    | flush => exact hrest
    | shutdown => exact hrest

end Ngfs.Ipfs
