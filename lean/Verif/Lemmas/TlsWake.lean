import Verif.Spec.TlsWake

/-! Lemmas for C161 and C162. -/
namespace Ngfs.Tls

theorem popRecord_waits {r : RecordReceiver} (h : r.readState ≠ .active) :
    r.popRecord.1 ≠ .pending ∧ r.popRecord.2.readState ≠ .active := by
  unfold RecordReceiver.popRecord
  rcases hr : r.readState with _ | _ | e
  · exact absurd hr h
  · dsimp only
    split
    · exact ⟨(fun hh => by cases hh), fun hh => by rw [hr] at hh; cases hh⟩
    · split
      · exact ⟨(fun hh => by cases hh), fun hh => by rw [hr] at hh; cases hh⟩
      · split
        · exact ⟨(fun hh => by cases hh), fun hh => by cases hh⟩
        · exact ⟨(fun hh => by cases hh), fun hh => by cases hh⟩
  · dsimp only
    split
    · exact ⟨(fun hh => by cases hh), fun hh => by rw [hr] at hh; cases hh⟩
    · split
      · exact ⟨(fun hh => by cases hh), fun hh => by rw [hr] at hh; cases hh⟩
      · split
        · exact ⟨(fun hh => by cases hh), fun hh => by rw [hr] at hh; cases hh⟩
        · exact ⟨(fun hh => by cases hh), fun hh => by cases hh⟩

theorem ignoreCcLoop_waits (n : Nat) : ∀ {r : RecordReceiver}, r.readState ≠ .active →
    (ignoreCcLoop n r).1 ≠ .pending ∧ (ignoreCcLoop n r).2.readState ≠ .active := by
  induction n with
  | zero => intro r h; exact ⟨(fun hh => by cases hh), h⟩
  | succ n ih =>
    intro r h
    have hp := popRecord_waits h
    unfold ignoreCcLoop
    generalize r.popRecord = q at hp
    obtain ⟨q1, q2⟩ := q
    rcases q1 with _ | (e | _ | rec)
    · exact absurd rfl hp.1
    · exact ⟨(fun hh => by cases hh), hp.2⟩
    · exact ⟨(fun hh => by cases hh), hp.2⟩
    · dsimp only
      split
      · exact ⟨(fun hh => by cases hh), hp.2⟩
      · exact ih hp.2

theorem receiveEncrypted_waits {X K : Type} (cr : Crypto X K) {r : RecordReceiver} (h : r.readState ≠ .active) (n : Nat)
    (key : EncryptionKey) :
    (pollReceiveEncryptedMessage cr r n key).1 ≠ .pending ∧
      (pollReceiveEncryptedMessage cr r n key).2.1.readState ≠ .active := by
  have hp := ignoreCcLoop_waits (r.incoming.length + 1) h
  unfold pollReceiveEncryptedMessage pollReceiveRecordIgnoreCc
  generalize ignoreCcLoop (r.incoming.length + 1) r = q at hp
  obtain ⟨q1, q2⟩ := q
  rcases q1 with _ | (e | _ | rec)
  · exact absurd rfl hp.1
  · exact ⟨(fun hh => by cases hh), hp.2⟩
  · exact ⟨(fun hh => by cases hh), hp.2⟩
  · dsimp only
    split
    · exact ⟨(fun hh => by cases hh), hp.2⟩
    · exact ⟨(fun hh => by cases hh), hp.2⟩

theorem receiveServerMessages_waits {X K : Type} (cr : Crypto X K) (n : Nat) : ∀ {s : ServerHelloState X},
    s.plaintext.receiver.readState ≠ .active → (receiveServerMessages cr n s).1 ≠ .pending := by
  induction n with
  | zero => intro s _ hh; cases hh
  | succ n ih =>
    intro s h
    unfold receiveServerMessages
    split
    · exact fun hh => by cases hh
    · have hp := receiveEncrypted_waits cr h s.seqenc.serverSequenceNo s.seqenc.trafficSecrets.server
      dsimp only
      generalize pollReceiveEncryptedMessage cr s.plaintext.receiver s.seqenc.serverSequenceNo
        s.seqenc.trafficSecrets.server = q at hp
      obtain ⟨q1, r, m, raw⟩ := q
      dsimp only at hp ⊢
      split
      · exact fun hh => by cases hh
      · exact absurd rfl hp.1
      · split
        · exact ih hp.2
        · exact fun hh => by cases hh
      · exact fun hh => by cases hh
      · exact fun hh => by cases hh

/-- After a poll for bytes, the task will be woken, or nothing more can be waited for. -/
theorem recvWakes_cases (p : PlaintextStream) (w : Wakes) :
    ((p.recvWakes w).Reader ∨ p.pollRecv.2.receiver.readState ≠ .active) ∧ w.self ≤ (p.recvWakes w).self := by
  unfold PlaintextStream.recvWakes Transport.readWakes PlaintextStream.pollRecv pollReceiveAndAddData
  rcases he : p.inner.pollRead with ⟨_ | d | k, t⟩
  · exact ⟨.inl (.inr rfl), Nat.le_refl _⟩
  · rcases d with _ | ⟨b, bs⟩
    · refine ⟨.inr ?_, Nat.le_refl _⟩
      show p.receiver.close.readState ≠ .active
      unfold RecordReceiver.close
      split
      · exact fun hh => by cases hh
      · rename_i h; exact fun hh => h hh
    · exact ⟨.inl (.inl (Nat.succ_pos _)), Nat.le_succ _⟩
  · exact ⟨.inr (fun hh => by cases hh), Nat.le_refl _⟩

theorem writeLoopWakes_self (ws : List WriteEvent) : ∀ (o : Bytes) (w : Wakes),
    (writeLoopWakes ws o w).self = w.self ∧ (writeLoopWakes ws o w).reading = w.reading := by
  induction ws with
  | nil => intro o w; cases o <;> exact ⟨rfl, rfl⟩
  | cons e ws ih =>
    intro o w
    cases o with
    | nil => cases e <;> exact ⟨rfl, rfl⟩
    | cons a as =>
      cases e with
      | pending => exact ⟨rfl, rfl⟩
      | error k => exact ⟨rfl, rfl⟩
      | accept n => exact ih _ _

theorem writeLoopWakes_pending (ws : List WriteEvent) : ∀ (o sent : Bytes) (w : Wakes),
    (writeLoop ws o sent).1 = .pending → (writeLoopWakes ws o w).writing = true := by
  induction ws with
  | nil =>
    intro o sent w h
    cases o with
    | nil => rw [writeLoop] at h; cases h
    | cons a as => rfl
  | cons e ws ih =>
    intro o sent w h
    cases o with
    | nil => rw [writeLoop] at h; cases h
    | cons a as =>
      cases e with
      | pending => rfl
      | error k => rw [writeLoop] at h; cases h
      | accept n => rw [writeLoop] at h; exact ih _ _ _ h

theorem onDone_self (w : Wakes) (e : DoneEvent) : (w.onDone e).self = w.self ∧ (w.onDone e).reading = w.reading := by
  cases e <;> exact ⟨rfl, rfl⟩

theorem flushWakes_self (p : PlaintextStream) (w : Wakes) :
    (p.flushWakes w).self = w.self ∧ (p.flushWakes w).reading = w.reading := by
  unfold PlaintextStream.flushWakes
  have h := writeLoopWakes_self p.inner.writes p.outgoing w
  dsimp only
  split
  · have h' := onDone_self (writeLoopWakes p.inner.writes p.outgoing w) p.inner.pollFlush.1
    exact ⟨h'.1.trans h.1, h'.2.trans h.2⟩
  · exact h

theorem flushWakes_pending (p : PlaintextStream) (w : Wakes) (h : p.pollFlush.1 = .pending) : (p.flushWakes w).writing = true := by
  have hw := writeLoopWakes_pending p.inner.writes p.outgoing p.inner.sent w
  unfold PlaintextStream.flushWakes
  unfold PlaintextStream.pollFlush at h
  generalize writeLoop p.inner.writes p.outgoing p.inner.sent = q at hw h ⊢
  obtain ⟨res, ws, o, sent⟩ := q
  rcases res with _ | (k | ⟨⟩)
  · exact hw rfl
  · cases h
  · dsimp only at h ⊢
    have hf : (Transport.pollFlush { p.inner with writes := ws, sent := sent }).1 = p.inner.pollFlush.1 := by
      unfold Transport.pollFlush
      dsimp only
      split <;> rfl
    generalize hq : Transport.pollFlush { p.inner with writes := ws, sent := sent } = q at h hf
    obtain ⟨e, t⟩ := q
    dsimp only at hf
    rw [← hf]
    cases e with
    | pending => rfl
    | ok => cases h
    | error k => cases h

/-! ### The handshake -/

/-- One round of the handshake. -/
theorem step_waits {X K : Type} (cr : Crypto X K) (s s1 s2 : ECState X K) (w : Wakes) (h1 : s.recv = (none, s1))
    (h2 : s1.pollStep cr = (.pending, s2)) :
    (s2.Sending → (s1.stepWakes (s.recvWakes w)).Writer) ∧ (¬ s2.Sending → (s1.stepWakes (s.recvWakes w)).Reader) := by
  cases s with
  | begin s =>
    cases h1
    unfold ECState.pollStep beginStep at h2
    dsimp only at h2
    refine ⟨fun _ => ?_, fun hs => absurd ?_ hs⟩
    · refine flushWakes_pending _ _ ?_
      rcases hq : s.plaintext.pollFlush with ⟨_ | (e | ⟨⟩), p⟩
      · rfl
      · rw [hq] at h2; cases h2
      · rw [hq] at h2; cases h2
    · rcases hq : s.plaintext.pollFlush with ⟨_ | (e | ⟨⟩), p⟩
      · rw [hq] at h2; cases h2; trivial
      · rw [hq] at h2; cases h2
      · rw [hq] at h2; cases h2
  | afterSendClientHello s =>
    have hw := recvWakes_cases s.plaintext w
    have hs1 : s1 = .afterSendClientHello { s with plaintext := s.plaintext.pollRecv.2 } := by
      unfold ECState.recv at h1
      dsimp only at h1
      generalize s.plaintext.pollRecv = q at h1
      obtain ⟨_ | (e | ⟨⟩), p⟩ := q
      · cases h1; rfl
      · cases h1
      · cases h1; rfl
    subst hs1
    unfold ECState.pollStep sendClientHelloStep PlaintextStream.pollReceivePlaintextMessage pollReceiveRecordIgnoreCc at h2
    dsimp only at h2
    rcases hw.1 with hr | hr
    · refine ⟨fun hs => ?_, fun _ => hr⟩
      generalize ignoreCcLoop (s.plaintext.pollRecv.2.receiver.incoming.length + 1) s.plaintext.pollRecv.2.receiver = q at h2
      obtain ⟨_ | (e | _ | rec), r⟩ := q
      · cases h2; exact hs.elim
      · cases h2
      · cases h2
      · dsimp only at h2
        split at h2 <;> rename_i he <;> first | (cases h2; done) | (cases he; done)
    · have hp := (ignoreCcLoop_waits (s.plaintext.pollRecv.2.receiver.incoming.length + 1) hr).1
      generalize ignoreCcLoop (s.plaintext.pollRecv.2.receiver.incoming.length + 1) s.plaintext.pollRecv.2.receiver = q at h2 hp
      obtain ⟨_ | (e | _ | rec), r⟩ := q
      · exact absurd rfl hp
      · cases h2
      · cases h2
      · dsimp only at h2
        split at h2 <;> rename_i he <;> first | (cases h2; done) | (cases he; done)
  | afterReceiveServerHello s =>
    have hw := recvWakes_cases s.plaintext w
    have hs1 : s1 = .afterReceiveServerHello { s with plaintext := s.plaintext.pollRecv.2 } := by
      unfold ECState.recv at h1
      dsimp only at h1
      generalize s.plaintext.pollRecv = q at h1
      obtain ⟨_ | (e | ⟨⟩), p⟩ := q
      · cases h1; rfl
      · cases h1
      · cases h1; rfl
    subst hs1
    unfold ECState.pollStep receiveServerHelloStep at h2
    dsimp only at h2
    rcases hw.1 with hr | hr
    · refine ⟨fun hs => ?_, fun _ => hr⟩
      generalize receiveServerMessages cr _ { s with plaintext := s.plaintext.pollRecv.2 } = q at h2
      obtain ⟨_ | (e | sm), s'⟩ := q
      · cases h2; exact hs.elim
      · cases h2
      · cases h2
    · have hp := receiveServerMessages_waits cr (s.plaintext.pollRecv.2.receiver.incoming.length + 1)
        (s := { s with plaintext := s.plaintext.pollRecv.2 }) hr
      generalize receiveServerMessages cr _ { s with plaintext := s.plaintext.pollRecv.2 } = q at h2 hp
      obtain ⟨_ | (e | sm), s'⟩ := q
      · exact absurd rfl hp
      · cases h2
      · cases h2
  | afterReceiveServerMessages s =>
    cases h1
    unfold ECState.pollStep sendFinishedStep at h2
    dsimp only at h2
    refine ⟨fun _ => ?_, fun hs => absurd ?_ hs⟩
    · refine flushWakes_pending _ _ ?_
      rcases hq : s.plaintext.pollFlush with ⟨_ | (e | ⟨⟩), p⟩
      · rfl
      · rw [hq] at h2; cases h2
      · rw [hq] at h2; cases h2
    · rcases hq : s.plaintext.pollFlush with ⟨_ | (e | ⟨⟩), p⟩
      · rw [hq] at h2; cases h2; trivial
      · rw [hq] at h2; cases h2
      · rw [hq] at h2; cases h2
  | done c => cases h1; cases h2
  | error e => cases h1; cases h2

theorem establishLoop_waits {X K : Type} (cr : Crypto X K) (n : Nat) : ∀ (s : ECState X K) (w : Wakes),
    (establishLoop cr n s).1 = .pending →
      ((establishLoop cr n s).2.Sending → (establishLoopWakes cr n s w).Writer) ∧
      (¬ (establishLoop cr n s).2.Sending → (establishLoopWakes cr n s w).Reader) := by
  induction n with
  | zero => intro s w h; cases h
  | succ n ih =>
    intro s w h
    have hstep : ∀ s1 s2, s.recv = (none, s1) → s1.pollStep cr = (.pending, s2) → _ :=
      fun s1 s2 => step_waits cr s s1 s2 w
    cases s with
    | done c => cases h
    | error e => cases h
    | _ =>
      rw [establishLoop] at h ⊢
      rw [establishLoopWakes]
      · dsimp only at h ⊢
        generalize ECState.recv _ = q at h hstep ⊢
        obtain ⟨_ | e, s1⟩ := q
        · dsimp only at h ⊢
          have hs := hstep s1
          generalize hq : s1.pollStep cr = q at h hs ⊢
          obtain ⟨_ | ⟨⟩, s2⟩ := q
          · exact hs s2 rfl rfl
          · exact ih s2 _ h
        · cases h
      all_goals (intro _ hh; cases hh)

/-! ### How often a task wakes itself -/

/-- The answers to reads that are still to come. -/
def ECState.reads {X K : Type} : ECState X K → List ReadEvent
  | .begin s => s.plaintext.inner.reads
  | .afterSendClientHello s => s.plaintext.inner.reads
  | .afterReceiveServerHello s => s.plaintext.inner.reads
  | .afterReceiveServerMessages s => s.plaintext.inner.reads
  | .done c => c.plaintext.inner.reads
  | .error _ => []

theorem recvWakes_pieces (p : PlaintextStream) (w : Wakes) :
    (p.recvWakes w).self + pieces p.pollRecv.2.inner.reads = w.self + pieces p.inner.reads := by
  unfold PlaintextStream.recvWakes Transport.readWakes PlaintextStream.pollRecv pollReceiveAndAddData Transport.pollRead
  rcases he : p.inner.reads with _ | ⟨_ | d | k, es⟩
  · dsimp only; rw [he]; rfl
  · rfl
  · rcases d with _ | ⟨b, bs⟩
    · rfl
    · show w.self + 1 + pieces es = w.self + (pieces es + 1)
      omega
  · rfl

theorem pollFlush_reads (p : PlaintextStream) : p.pollFlush.2.inner.reads = p.inner.reads := by
  unfold PlaintextStream.pollFlush
  generalize writeLoop p.inner.writes p.outgoing p.inner.sent = q
  obtain ⟨res, ws, o, sent⟩ := q
  rcases res with _ | (k | ⟨⟩)
  · rfl
  · rfl
  · unfold Transport.pollFlush
    dsimp only
    rcases p.inner.flushes with _ | ⟨_ | _ | _, _⟩ <;> rfl

theorem encryptRecord_inner {X K : Type} (cr : Crypto X K) (p : PlaintextStream) (data : Bytes) (t : ContentType)
    (key : EncryptionKey) (n : Nat) : (encryptRecord cr p data t key n).2.inner = p.inner := by
  unfold encryptRecord
  split
  · rfl
  · dsimp only
    split <;> rfl

theorem receiveServerMessages_inner {X K : Type} (cr : Crypto X K) (n : Nat) : ∀ s : ServerHelloState X,
    (receiveServerMessages cr n s).2.plaintext.inner = s.plaintext.inner := by
  induction n with
  | zero => intro s; rfl
  | succ n ih =>
    intro s
    unfold receiveServerMessages
    split
    · rfl
    · dsimp only
      split
      · rfl
      · rfl
      · split
        · exact ih _
        · rfl
      · rfl
      · rfl

theorem onServerHello_reads {X K : Type} (cr : Crypto X K) (s : EarlyState K) (m : Option (Message X)) :
    pieces (onServerHello cr s m).reads ≤ pieces s.plaintext.inner.reads := by
  unfold onServerHello
  repeat' split
  all_goals first | exact Nat.zero_le _ | exact Nat.le_refl _

theorem onServerMessages_reads {X K : Type} (cr : Crypto X K) (s : ServerHelloState X) (sm : ServerMessages X) :
    pieces (onServerMessages cr s sm : ECState X K).reads ≤ pieces s.plaintext.inner.reads := by
  unfold onServerMessages
  split
  · exact Nat.zero_le _
  · split
    · exact Nat.zero_le _
    · split
      · exact Nat.zero_le _
      · rename_i transcript cert _ _ fin _
        have h := encryptRecord_inner cr s.plaintext (cert ++ fin) .handshake s.seqenc.trafficSecrets.client
          s.seqenc.clientSequenceNo
        split
        · exact Nat.zero_le _
        · rename_i p he
          rw [he] at h
          exact Nat.le_of_eq (congrArg (fun i => pieces i.reads) h)

theorem pollStep_reads {X K : Type} (cr : Crypto X K) (s : ECState X K) :
    pieces (s.pollStep cr).2.reads ≤ pieces s.reads := by
  cases s with
  | begin s =>
    unfold ECState.pollStep beginStep
    have h := pollFlush_reads s.plaintext
    dsimp only
    generalize s.plaintext.pollFlush = q at h
    obtain ⟨_ | (e | ⟨⟩), p⟩ := q
    · exact Nat.le_of_eq (congrArg pieces h)
    · exact Nat.zero_le _
    · exact Nat.le_of_eq (congrArg pieces h)
  | afterSendClientHello s =>
    unfold ECState.pollStep sendClientHelloStep
    have h : (s.plaintext.pollReceivePlaintextMessage cr.x509 s.initialTranscript).2.1.inner = s.plaintext.inner := by
      unfold PlaintextStream.pollReceivePlaintextMessage
      split <;> rfl
    dsimp only
    generalize s.plaintext.pollReceivePlaintextMessage cr.x509 s.initialTranscript = q at h
    obtain ⟨_ | (e | m), p, t⟩ := q
    · exact Nat.le_of_eq (congrArg (fun i => pieces i.reads) h)
    · exact Nat.zero_le _
    · refine Nat.le_trans (onServerHello_reads cr _ m) ?_
      exact Nat.le_of_eq (congrArg (fun i => pieces i.reads) h)
  | afterReceiveServerHello s =>
    unfold ECState.pollStep receiveServerHelloStep
    have h := receiveServerMessages_inner cr (s.plaintext.receiver.incoming.length + 1) s
    dsimp only
    generalize receiveServerMessages cr _ s = q at h
    obtain ⟨_ | (e | m), s'⟩ := q
    · exact Nat.le_of_eq (congrArg (fun i => pieces i.reads) h)
    · exact Nat.zero_le _
    · refine Nat.le_trans (onServerMessages_reads cr s' m) ?_
      exact Nat.le_of_eq (congrArg (fun i => pieces i.reads) h)
  | afterReceiveServerMessages s =>
    unfold ECState.pollStep sendFinishedStep
    have h := pollFlush_reads s.plaintext
    dsimp only
    generalize s.plaintext.pollFlush = q at h
    obtain ⟨_ | (e | ⟨⟩), p⟩ := q
    · exact Nat.le_of_eq (congrArg pieces h)
    · exact Nat.zero_le _
    · exact Nat.le_of_eq (congrArg pieces h)
  | done c => exact Nat.le_refl _
  | error e => exact Nat.le_refl _

theorem recv_pieces {X K : Type} (s : ECState X K) (w : Wakes) :
    (s.recvWakes w).self + pieces s.recv.2.reads = w.self + pieces s.reads := by
  cases s with
  | afterSendClientHello s =>
    have h := recvWakes_pieces s.plaintext w
    unfold ECState.recv ECState.recvWakes
    dsimp only
    generalize s.plaintext.pollRecv = q at h
    obtain ⟨_ | (e | ⟨⟩), p⟩ := q <;> exact h
  | afterReceiveServerHello s =>
    have h := recvWakes_pieces s.plaintext w
    unfold ECState.recv ECState.recvWakes
    dsimp only
    generalize s.plaintext.pollRecv = q at h
    obtain ⟨_ | (e | ⟨⟩), p⟩ := q <;> exact h
  | _ => rfl

theorem stepWakes_self {X K : Type} (s : ECState X K) (w : Wakes) : (s.stepWakes w).self = w.self := by
  cases s with
  | begin s => exact (flushWakes_self s.plaintext w).1
  | afterReceiveServerMessages s => exact (flushWakes_self s.plaintext w).1
  | _ => rfl

theorem establishLoop_pieces {X K : Type} (cr : Crypto X K) (n : Nat) : ∀ (s : ECState X K) (w : Wakes),
    (establishLoopWakes cr n s w).self + pieces (establishLoop cr n s).2.reads ≤ w.self + pieces s.reads := by
  induction n with
  | zero => intro s w; exact Nat.le_refl _
  | succ n ih =>
    intro s w
    have hrecv := recv_pieces s w
    cases s with
    | done c => exact Nat.le_refl _
    | error e => exact Nat.le_refl _
    | _ =>
      rw [establishLoop, establishLoopWakes]
      · dsimp only
        generalize ECState.recv _ = q at hrecv ⊢
        obtain ⟨_ | e, s1⟩ := q
        · dsimp only at hrecv ⊢
          have h1 := pollStep_reads cr s1
          have h2 := stepWakes_self s1
          generalize s1.pollStep cr = q at h1 ⊢
          obtain ⟨_ | ⟨⟩, s2⟩ := q
          · dsimp only at h1 ⊢
            rw [h2]
            omega
          · dsimp only at h1 ⊢
            refine Nat.le_trans (ih s2 _) ?_
            rw [h2]
            omega
        · exact Nat.le_of_eq hrecv
      all_goals (intro _ hh; cases hh)

theorem selfWakes_pieces {X K : Type} (cr : Crypto X K) (n : Nat) : ∀ s : ECState X K,
    selfWakes cr n s + pieces (pollTimes cr n s).reads ≤ pieces s.reads := by
  induction n with
  | zero => intro s; simp [selfWakes, pollTimes]
  | succ n ih =>
    intro s
    have h1 := establishLoop_pieces cr 6 s .none
    have h2 := ih (establishPoll cr s).2
    have h3 : (Wakes.none).self = 0 := rfl
    unfold selfWakes pollTimes establishWakes
    unfold establishPoll at h2 ⊢
    omega

/-! ### Reading -/

theorem pieces_append (a b : List ReadEvent) : pieces (a ++ b) = pieces a + pieces b := by
  induction a with
  | nil => simp [pieces]
  | cons e a ih =>
    rcases e with _ | (_ | ⟨x, xs⟩) | k
    · exact ih
    · exact ih
    · show pieces (a ++ b) + 1 = pieces a + 1 + pieces b
      omega
    · exact ih

theorem pollRecv_answers (p : PlaintextStream) (w : Wakes) :
    ∃ es, p.inner.reads = es ++ p.pollRecv.2.inner.reads ∧ (p.recvWakes w).self = w.self + pieces es := by
  have h := recvWakes_pieces p w
  unfold PlaintextStream.pollRecv pollReceiveAndAddData Transport.pollRead at h ⊢
  rcases he : p.inner.reads with _ | ⟨_ | d | k, es⟩
  · rw [he] at h
    refine ⟨[], ?_, ?_⟩
    · dsimp only; rw [he]; rfl
    · dsimp only at h; rw [he] at h; exact h
  · rw [he] at h; exact ⟨[.pending], rfl, by have : pieces (.pending :: es) = pieces es := rfl
                                             dsimp only at h; simp only [pieces] at h ⊢; omega⟩
  · rw [he] at h
    rcases d with _ | ⟨b, bs⟩
    · exact ⟨[.ready []], rfl, by dsimp only at h; simp only [pieces] at h ⊢; omega⟩
    · exact ⟨[.ready (b :: bs)], rfl, by dsimp only at h; simp only [pieces] at h ⊢; omega⟩
  · rw [he] at h; exact ⟨[.error k], rfl, by dsimp only at h; simp only [pieces] at h ⊢; omega⟩

theorem fillLoop_wakes {X K : Type} (cr : Crypto X K) (n : Nat) : ∀ (c : Conn) (w : Wakes),
    ∃ es, c.plaintext.inner.reads = es ++ (c.fillLoop cr n).2.plaintext.inner.reads ∧
      ((c.fillLoop cr n).1 = .pending → (c.fillLoopWakes cr n w).self = w.self + pieces es + 1) ∧
      ((c.fillLoop cr n).1 ≠ .pending → (c.fillLoopWakes cr n w).self = w.self + pieces es) := by
  induction n with
  | zero => intro c w; exact ⟨[], rfl, (fun hh => by cases hh), fun _ => rfl⟩
  | succ n ih =>
    intro c w
    obtain ⟨es, h1, h2⟩ := pollRecv_answers c.plaintext w
    unfold Conn.fillLoop Conn.fillLoopWakes
    dsimp only
    generalize c.plaintext.pollRecv = q at h1 ⊢
    obtain ⟨_ | (e | ⟨⟩), p⟩ := q
    · exact ⟨es, h1, fun _ => congrArg (· + 1) h2, fun hh => absurd rfl hh⟩
    · exact ⟨es, h1, (fun hh => by cases hh), fun _ => h2⟩
    · dsimp only at h1 ⊢
      generalize pollReceiveEncryptedMessage cr p.receiver c.seqenc.serverSequenceNo c.seqenc.trafficSecrets.server = q
      obtain ⟨res, r, m, raw⟩ := q
      dsimp only
      rcases res with _ | (e | _ | msg)
      · exact ⟨es, h1, fun _ => congrArg (· + 1) h2, fun hh => absurd rfl hh⟩
      · exact ⟨es, h1, (fun hh => by cases hh), fun _ => h2⟩
      · exact ⟨es, h1, (fun hh => by cases hh), fun _ => h2⟩
      · cases msg with
        | alert a =>
          dsimp only
          split
          · exact ⟨es, h1, (fun hh => by cases hh), fun _ => h2⟩
          · exact ⟨es, h1, (fun hh => by cases hh), fun _ => h2⟩
        | handshake m =>
          cases m with
          | newSessionTicket t =>
            dsimp only
            generalize hc : ({ c with plaintext := { p with receiver := r }, seqenc := { c.seqenc with serverSequenceNo := _ } } : Conn) = c'
            obtain ⟨es', h3, h4, h5⟩ := ih c' (c.plaintext.recvWakes w)
            have hp : c'.plaintext.inner.reads = p.inner.reads := by rw [← hc]
            refine ⟨es ++ es', by rw [h1, ← hp, h3, List.append_assoc], fun hh => ?_, fun hh => ?_⟩
            · rw [h4 hh, h2, pieces_append]; omega
            · rw [h5 hh, h2, pieces_append]; omega
          | _ => exact ⟨es, h1, (fun hh => by cases hh), fun _ => h2⟩
        | _ => exact ⟨es, h1, (fun hh => by cases hh), fun _ => h2⟩

/-- A poll for bytes wakes its own task only for what it has received. -/
theorem recvWakes_piece (p : PlaintextStream) (w : Wakes) :
    p.pollRecv.1 = .pending ∧ (p.recvWakes w).reading = true ∨
      p.pollRecv.1 ≠ .pending ∧ p.pollRecv.2.receiver.readState ≠ .active ∨
      ∃ b bs, p.inner.reads = .ready (b :: bs) :: p.pollRecv.2.inner.reads := by
  unfold PlaintextStream.recvWakes Transport.readWakes PlaintextStream.pollRecv pollReceiveAndAddData Transport.pollRead
  rcases he : p.inner.reads with _ | ⟨_ | d | k, es⟩
  · exact .inl ⟨rfl, rfl⟩
  · exact .inl ⟨rfl, rfl⟩
  · rcases d with _ | ⟨b, bs⟩
    · refine .inr (.inl ⟨(fun hh => by cases hh), ?_⟩)
      show p.receiver.close.readState ≠ .active
      unfold RecordReceiver.close
      split
      · exact fun hh => by cases hh
      · rename_i h; exact fun hh => h hh
    · exact .inr (.inr ⟨b, bs, rfl⟩)
  · exact .inr (.inl ⟨(fun hh => by cases hh), (fun hh => by cases hh)⟩)

theorem fillLoop_reader {X K : Type} (cr : Crypto X K) (n : Nat) : ∀ (c : Conn) (w : Wakes),
    (c.fillLoop cr n).1 = .pending → (c.fillLoopWakes cr n w).reading = true ∨
      ∃ es, c.plaintext.inner.reads = es ++ (c.fillLoop cr n).2.plaintext.inner.reads ∧ 0 < pieces es := by
  induction n with
  | zero => intro c w h; cases h
  | succ n ih =>
    intro c w h
    have hp := recvWakes_piece c.plaintext w
    obtain ⟨es, h1, _⟩ := pollRecv_answers c.plaintext w
    unfold Conn.fillLoop at h ⊢
    unfold Conn.fillLoopWakes
    dsimp only at h ⊢
    generalize c.plaintext.pollRecv = q at h hp h1 ⊢
    obtain ⟨_ | (e | ⟨⟩), p⟩ := q
    · rcases hp with ⟨_, hp⟩ | ⟨hp, _⟩ | ⟨b, bs, hp⟩
      · exact .inl hp
      · exact absurd rfl hp
      · exact .inr ⟨[.ready (b :: bs)], hp, Nat.one_pos⟩
    · cases h
    · dsimp only at h h1 hp ⊢
      rcases hp with ⟨hp, _⟩ | ⟨_, hp⟩ | ⟨b, bs, hp⟩
      · cases hp
      · have hw := receiveEncrypted_waits cr hp c.seqenc.serverSequenceNo c.seqenc.trafficSecrets.server
        generalize pollReceiveEncryptedMessage cr p.receiver c.seqenc.serverSequenceNo c.seqenc.trafficSecrets.server = q at h hw ⊢
        obtain ⟨res, r, m, raw⟩ := q
        dsimp only at h hw ⊢
        rcases res with _ | (e | _ | msg)
        · exact absurd rfl hw.1
        · cases h
        · cases h
        · cases msg with
          | alert a =>
            dsimp only at h
            split at h <;> cases h
          | handshake m =>
            cases m with
            | newSessionTicket t =>
              dsimp only at h ⊢
              rcases ih _ (c.plaintext.recvWakes w) h with h3 | ⟨es', h3, h4⟩
              · exact .inl h3
              · exact .inr ⟨es ++ es', by rw [h1, List.append_assoc]; exact congrArg _ h3, by rw [pieces_append]; omega⟩
            | _ => cases h
          | _ => cases h
      · right
        generalize pollReceiveEncryptedMessage cr p.receiver c.seqenc.serverSequenceNo c.seqenc.trafficSecrets.server = q at h ⊢
        obtain ⟨res, r, m, raw⟩ := q
        dsimp only at h ⊢
        rcases res with _ | (e | _ | msg)
        · exact ⟨[.ready (b :: bs)], hp, Nat.one_pos⟩
        · cases h
        · cases h
        · cases msg with
          | alert a =>
            dsimp only at h
            split at h <;> cases h
          | handshake m =>
            cases m with
            | newSessionTicket t =>
              dsimp only at h ⊢
              obtain ⟨es', h3, _⟩ := fillLoop_wakes cr n
                { c with plaintext := { p with receiver := r }, seqenc := { c.seqenc with serverSequenceNo := _ } } w
              exact ⟨.ready (b :: bs) :: es', hp.trans (congrArg _ h3), Nat.succ_pos _⟩
            | _ => cases h
          | _ => cases h

end Ngfs.Tls
