import Verif.Spec.TlsRefusal
import Verif.Lemmas.TlsHonest
import Verif.Lemmas.TlsRead

/-! Facts for C202: how a refusal by the server is reported. -/
namespace Ngfs.Tls

open Ngfs.Binary

/-! ### Alerts -/

/-- The alert that a level and a code stand for. -/
def alertOf (level code : UInt8) : Alert := ⟨AlertLevel.fromRaw level, AlertDescription.fromRaw code⟩

theorem alertOf_name (level code : UInt8) : (alertOf level code).name = alertReason code := by
  have h : ∀ n : Fin 256, (Alert.mk .warning (AlertDescription.fromRaw (UInt8.ofFin n))).name = alertReason (UInt8.ofFin n) := by
    decide +kernel
  exact h code.toFin

theorem fromRaw_isAlert {X : Type} (x509 : Bytes → Option X) {level code : UInt8} {content : Bytes} (h : IsAlert level code content) :
    Message.fromRaw x509 content (ContentType.fromRaw 21) = .ok (.alert (alertOf level code)) := by
  obtain ⟨more, rfl⟩ := h
  have : Message.fromRaw x509 (level :: code :: more) (ContentType.fromRaw 21)
      = (Alert.fromBinary (Reader.new (level :: code :: more))).1.map .alert := rfl
  rw [this, alert_eval]
  rfl

/-! ### Polling until the failure -/

/-- If every step keeps an invariant under which the only end is one error, the polls end with this error. -/
theorem establishLoop_fails {X K : Type} {cr : Crypto X K} {G : ECState X K → Prop} {e : TlsErr}
    (hdone : ∀ c, ¬ G (.done c)) (herr : ∀ e', G (.error e') → e' = e)
    (hstep : ∀ s, s.rank ≠ 0 → G s → ∃ s1 r s2, s.recv = (none, s1) ∧ s1.pollStep cr = (r, s2) ∧ G s2 ∧
      ((r = .ready () ∧ s2.rank < s.rank ∧ s2.answers ≤ s.answers) ∨ (r = .pending ∧ s2.answers < s.answers)))
    (n : Nat) : ∀ {s : ECState X K}, s.rank < n → G s →
    (∃ s', establishLoop cr n s = (.ready (.error e), s')) ∨
    (∃ s', establishLoop cr n s = (.pending, s') ∧ G s' ∧ s'.answers < s.answers) := by
  induction n with
  | zero => intro s hn; omega
  | succ n ih =>
    intro s hn h
    by_cases hrank : s.rank = 0
    · cases s with
      | done c => exact absurd h (hdone c)
      | error e' => left; exact ⟨.error e', by rw [establishLoop, herr e' h]⟩
      | _ => simp [ECState.rank] at hrank
    · obtain ⟨s1, r, s2, e1, e2, hgood, hcase⟩ := hstep s hrank h
      have e : establishLoop cr (n + 1) s = (match r with
          | .ready () => establishLoop cr n s2
          | .pending => (.pending, s2)) := by
        cases s with
        | done c => exact absurd rfl hrank
        | error e => exact absurd rfl hrank
        | _ =>
          rw [establishLoop] <;> first | (rw [e1]; simp only [e2]; rcases r with _ | u <;> rfl) | (intro _ hh; cases hh)
      rw [e]
      rcases hcase with ⟨rfl, hlt, hle⟩ | ⟨rfl, hlt⟩
      · rcases ih (by omega) hgood with ⟨s', a1⟩ | ⟨s', a1, a2, a3⟩
        · left; exact ⟨s', a1⟩
        · right; exact ⟨s', a1, a2, by omega⟩
      · right; exact ⟨s2, rfl, hgood, hlt⟩

theorem pollTimes_fails {X K : Type} {cr : Crypto X K} {G : ECState X K → Prop} {e : TlsErr}
    (hdone : ∀ c, ¬ G (.done c)) (herr : ∀ e', G (.error e') → e' = e)
    (hstep : ∀ s, s.rank ≠ 0 → G s → ∃ s1 r s2, s.recv = (none, s1) ∧ s1.pollStep cr = (r, s2) ∧ G s2 ∧
      ((r = .ready () ∧ s2.rank < s.rank ∧ s2.answers ≤ s.answers) ∨ (r = .pending ∧ s2.answers < s.answers)))
    (n : Nat) : ∀ {s : ECState X K}, s.answers ≤ n → G s →
    ∃ k, k ≤ n ∧ (establishPoll cr (pollTimes cr k s)).1 = .ready (.error e) ∧
      (∀ j, j < k → (establishPoll cr (pollTimes cr j s)).1 = .pending) := by
  induction n with
  | zero =>
    intro s hn h
    rcases establishLoop_fails hdone herr hstep 6 (s := s) (by cases s <;> simp [ECState.rank]) h with ⟨s', a1⟩ | ⟨s', a1, a2, a3⟩
    · exact ⟨0, Nat.le_refl _, by rw [pollTimes, establishPoll, a1], by intro j hj; omega⟩
    · omega
  | succ n ih =>
    intro s hn h
    rcases establishLoop_fails hdone herr hstep 6 (s := s) (by cases s <;> simp [ECState.rank]) h with ⟨s', a1⟩ | ⟨s', a1, a2, a3⟩
    · exact ⟨0, Nat.zero_le _, by rw [pollTimes, establishPoll, a1], by intro j hj; omega⟩
    · obtain ⟨k, b1, b2, b3⟩ := ih (s := s') (by omega) a2
      have e : (establishPoll cr s).2 = s' := by rw [establishPoll, a1]
      refine ⟨k + 1, by omega, by rw [pollTimes, e]; exact b2, ?_⟩
      intro j hj
      cases j with
      | zero => rw [pollTimes, establishPoll, a1]
      | succ j => rw [pollTimes, e]; exact b3 j (by omega)

/-! ### The steps up to the answer to the hello -/

/-- A run that will be refused: `F` is about the records that will come, `S` about the state after the server's hello. -/
def Refused {X K : Type} (privateKey : K) (ch : Bytes) (F : List WireRecord → Prop) (S : ServerHelloState X → Prop)
    (e : TlsErr) (sp : Spare) : ECState X K → Prop
  | .begin s => s.privateKey = privateKey ∧ s.initialTranscript = ch ∧
      WillTake s.plaintext.inner.writes (s.plaintext.outgoing.length + 0) ∧ WillFlush s.plaintext.inner.flushes (0 + 1) ∧
      ∃ all n, Remains sp s.plaintext all n ∧ F (all.filter fun x => x.typ != 20)
  | .afterSendClientHello s => s.privateKey = privateKey ∧ s.initialTranscript = ch ∧
      ∃ all n, Remains sp s.plaintext all n ∧ F (all.filter fun x => x.typ != 20)
  | .afterReceiveServerHello s => S s
  | .error e' => e' = e
  | _ => False

/-- The steps keep this, if the first record that counts can be read and leads on, and the steps after it do. -/
theorem refused_step {X K : Type} {cr : Crypto X K} {privateKey : K} {ch : Bytes} {F : List WireRecord → Prop}
    {S : ServerHelloState X → Prop} {e : TlsErr} {sp : Spare}
    (hF : ∀ l, F l → ∃ w ws m, l = w :: ws ∧ Message.fromRaw cr.x509 w.fragment (ContentType.fromRaw w.typ) = .ok m ∧
      ∀ (s : EarlyState K) all' n, s.privateKey = privateKey → s.initialTranscript = ch ++ w.fragment →
        Remains sp s.plaintext all' n → all'.filter (fun x => x.typ != 20) = ws →
        Refused privateKey ch F S e sp (onServerHello cr s (some m)) ∧ (onServerHello cr s (some m)).rank ≤ 2 ∧
        (onServerHello cr s (some m)).answers ≤ s.plaintext.answers)
    (hS : ∀ s, S s → ∃ s1 r s2, (ECState.afterReceiveServerHello s : ECState X K).recv = (none, s1) ∧
      s1.pollStep cr = (r, s2) ∧ Refused privateKey ch F S e sp s2 ∧
      ((r = .ready () ∧ s2.rank < 2 ∧ s2.answers ≤ s.plaintext.answers) ∨ (r = .pending ∧ s2.answers < s.plaintext.answers)))
    (s : ECState X K) (hrank : s.rank ≠ 0) (h : Refused privateKey ch F S e sp s) :
    ∃ s1 r s2, s.recv = (none, s1) ∧ s1.pollStep cr = (r, s2) ∧ Refused privateKey ch F S e sp s2 ∧
      ((r = .ready () ∧ s2.rank < s.rank ∧ s2.answers ≤ s.answers) ∨ (r = .pending ∧ s2.answers < s.answers)) := by
  cases s with
  | begin s =>
    obtain ⟨h1, h2, h3, h4, all, n, hrem, h6⟩ := h
    obtain ⟨r1, r2⟩ := pollFlush_rx s.plaintext
    rcases willTake_flush s.plaintext 0 0 h3 h4 with ⟨p', e1, e2, e3, e4, e5⟩ | ⟨p', e1, e2, e3, e4⟩
    · rw [e1] at r1 r2
      refine ⟨.begin s, .ready (), .afterSendClientHello { s with plaintext := p' }, rfl,
        by simp only [ECState.pollStep, beginStep, e1], ?_, .inl ⟨rfl, by simp [ECState.rank], e5⟩⟩
      exact ⟨h1, h2, all, n, remains_of_rx hrem r1 r2, h6⟩
    · rw [e1] at r1 r2
      refine ⟨.begin s, .pending, .begin { s with plaintext := p' }, rfl,
        by simp only [ECState.pollStep, beginStep, e1], ?_, .inr ⟨rfl, e4⟩⟩
      exact ⟨h1, h2, e2, e3, all, n, remains_of_rx hrem r1 r2, h6⟩
  | afterSendClientHello s =>
    obtain ⟨h1, h2, all, n0, hrem, hf⟩ := h
    obtain ⟨p1, hrecv, hrem1, q1, q2, q3, q4⟩ := remains_recv hrem
    have er : (ECState.afterSendClientHello s : ECState X K).recv = (none, .afterSendClientHello { s with plaintext := p1 }) := by
      rcases hrecv with hrecv | hrecv <;> simp only [ECState.recv, hrecv]
    rw [er]
    have hle : p1.answers ≤ s.plaintext.answers := by
      rcases q4 with q4 | ⟨rfl, _⟩ <;> omega
    obtain ⟨n, hremn⟩ : ∃ n, Remains sp p1 all n := by
      rcases hrem1 with hrem1 | ⟨hrem1, _⟩
      · exact ⟨_, hrem1⟩
      · exact ⟨_, hrem1⟩
    obtain ⟨w0, ws, m, hl, hm, hnext⟩ := hF _ hf
    obtain ⟨r', all', hrem', _, ⟨hpop, hlt, hf'⟩ | ⟨hpop, hf', hne, hnoteof⟩⟩ := remains_receive hremn w0 ws hl
    · have em : p1.pollReceivePlaintextMessage cr.x509 s.initialTranscript
          = (.ready (.ok (some m)), { p1 with receiver := r' }, ch ++ w0.fragment) := by
        unfold PlaintextStream.pollReceivePlaintextMessage
        simp only [hpop, WireRecord.owned, hm, h2]
      obtain ⟨g1, g2, g3⟩ := hnext { s with plaintext := { p1 with receiver := r' }, initialTranscript := ch ++ w0.fragment }
        all' n h1 rfl hrem' hf'
      refine ⟨_, .ready (), _, rfl, by simp only [ECState.pollStep, sendClientHelloStep, em], g1, .inl ⟨rfl, ?_, ?_⟩⟩
      · simp only [ECState.rank] at g2 ⊢; omega
      · exact Nat.le_trans g3 hle
    · have em : p1.pollReceivePlaintextMessage cr.x509 s.initialTranscript
          = (.pending, { p1 with receiver := r' }, ch) := by
        unfold PlaintextStream.pollReceivePlaintextMessage
        simp only [hpop, h2]
      refine ⟨_, .pending, .afterSendClientHello { s with plaintext := { p1 with receiver := r' }, initialTranscript := ch }, rfl,
        ?_, ?_, .inr ⟨rfl, ?_⟩⟩
      · simp only [ECState.pollStep, sendClientHelloStep, em]
      · exact ⟨h1, rfl, all', n, hrem', by rw [hf', ← hl]; exact hf⟩
      · rcases q4 with q4 | ⟨rfl, q4⟩
        · exact q4
        · exact absurd q4 hne
  | afterReceiveServerHello s => exact hS s h
  | afterReceiveServerMessages s => exact h.elim
  | done c => exact h.elim
  | error e => exact absurd rfl hrank

/-! ### An alert within the flight -/

/-- The state while a flight is received that will be broken off by an alert: `hs` has been received, `todo` will be, and
`later` will not. -/
structure HsStop {X K : Type} (cr : Crypto X K) (ch : Bytes) (f : Flight X) (ciphers : Ciphers) (keys : TrafficSecrets)
    (reqs : List (Handshake X × Bytes)) (sp : Spare) (level code : UInt8) (hs todo later : List (Handshake X × Bytes))
    (s : ServerHelloState X) : Prop where
  seq : s.seqenc = ⟨0, hs.length, keys, ciphers⟩
  transcript : s.transcript = ch ++ f.shRaw ++ rawsOf hs
  split : hs ++ (todo ++ later) = f.msgs reqs
  short : later ≠ []
  state : StateInv (cr.hash ciphers.hashAlg) (ch ++ f.shRaw) hs s.cstate
  remains : ∃ all n ws1 w ws2 content, Remains sp s.plaintext all n ∧ all.filter (fun x => x.typ != 20) = ws1 ++ w :: ws2 ∧
    ProtectsAll cr keys.server hs.length ws1 (todo.map fun m => (22, m.2)) ∧
    Protects cr keys.server (hs.length + todo.length) w 21 content ∧ IsAlert level code content

theorem receive_stop {X K : Type} (cr : Crypto X K) {ch : Bytes} {f : Flight X} {ciphers : Ciphers}
    {keys : TrafficSecrets} {reqs : List (Handshake X × Bytes)} {sp : Spare} {level code : UInt8}
    (hiv : keys.server.writeIv.length = 12) (hr : IsReqs reqs) (hparse : ∀ m ∈ f.msgs reqs, Parses cr m.2 m.1)
    (later : List (Handshake X × Bytes)) (todo : List (Handshake X × Bytes)) :
    ∀ (hs : List (Handshake X × Bytes)) (s : ServerHelloState X) (fuel : Nat),
      HsStop cr ch f ciphers keys reqs sp level code hs todo later s → s.plaintext.receiver.incoming.length < fuel →
      (∃ s', receiveServerMessages cr fuel s = (.ready (.error (.unexpectedMessage (alertReason code))), s')) ∨
      (∃ hs' todo' s', receiveServerMessages cr fuel s = (.pending, s') ∧
        HsStop cr ch f ciphers keys reqs sp level code hs' todo' later s' ∧ s'.plaintext.inner = s.plaintext.inner ∧
        s.plaintext.inner.reads ≠ []) := by
  have hpend : ∀ (hs todo : List (Handshake X × Bytes)) (s : ServerHelloState X) (fuel : Nat) r' all' n ws1 w ws2 content,
      HsStop cr ch f ciphers keys reqs sp level code hs todo later s →
      (∀ sm, s.cstate ≠ .receivedFinished sm) →
      pollReceiveRecordIgnoreCc s.plaintext.receiver = (.pending, r') →
      Remains sp { s.plaintext with receiver := r' } all' n → all'.filter (fun x => x.typ != 20) = ws1 ++ w :: ws2 →
      ProtectsAll cr keys.server hs.length ws1 (todo.map fun m => (22, m.2)) →
      Protects cr keys.server (hs.length + todo.length) w 21 content → IsAlert level code content →
      ∃ s', receiveServerMessages cr (fuel + 1) s = (.pending, s') ∧
        HsStop cr ch f ciphers keys reqs sp level code hs todo later s' ∧ s'.plaintext.inner = s.plaintext.inner := by
    intro hs todo s fuel r' all' n ws1 w ws2 content h hnf hpop hrem' hf' hp1 hp2 hal
    have hseq : s.seqenc.serverSequenceNo = hs.length := by rw [h.seq]
    have hrecv : pollReceiveEncryptedMessage (X := X) cr s.plaintext.receiver s.seqenc.serverSequenceNo s.seqenc.trafficSecrets.server
        = (.pending, r', hs.length, []) := by
      simp only [pollReceiveEncryptedMessage, hpop, hseq]
    refine ⟨{ s with
          plaintext := { s.plaintext with receiver := r' }
          seqenc := { s.seqenc with serverSequenceNo := hs.length }
          transcript := s.transcript ++ [] }, ?_, ?_, rfl⟩
    · rw [receiveServerMessages]
      split
      · rename_i sm hsm; exact absurd hsm (hnf sm)
      · rw [hrecv]
    · refine ⟨?_, ?_, h.split, h.short, h.state, all', n, ws1, w, ws2, content, hrem', hf', hp1, hp2, hal⟩
      · simp [h.seq]
      · simp [h.transcript]
  induction todo with
  | nil =>
    intro hs s fuel h hfuel
    cases fuel with
    | zero => omega
    | succ fuel =>
    obtain ⟨all, n, ws1, w, ws2, content, hrem, hws, hprot, hp, hal⟩ := h.remains
    obtain rfl : ws1 = [] := by
      cases ws1 with
      | nil => rfl
      | cons _ _ => exact absurd hprot (by simp [ProtectsAll])
    rw [List.nil_append] at hws
    obtain ⟨m, later', hlater⟩ : ∃ m l, later = m :: l := by
      cases hl : later with
      | nil => exact absurd hl h.short
      | cons m l => exact ⟨m, l, rfl⟩
    have hsplit : hs ++ (m.1, m.2) :: later' = f.msgs reqs := by
      have := h.split
      rw [hlater] at this
      exact this
    obtain ⟨hnf, -⟩ := next_ok hr h.state hsplit []
    have hserver : s.seqenc.trafficSecrets.server = keys.server := by rw [h.seq]
    have hseq : s.seqenc.serverSequenceNo = hs.length := by rw [h.seq]
    have hw : w.Legal := hrem.legal w (by
      have : w ∈ all.filter (fun x => x.typ != 20) := by rw [hws]; simp
      exact (List.mem_filter.mp this).1)
    obtain ⟨r', all', hrem', hrs, ⟨hpop, hlt, hf'⟩ | ⟨hpop, hf', hne, _⟩⟩ := remains_receive hrem w ws2 hws
    · left
      have hdec := decryptMessage_protects cr keys.server hiv hs.length w hw 21 (by decide) content hp
      rw [fromRaw_isAlert cr.x509 hal] at hdec
      have hrecv : pollReceiveEncryptedMessage cr s.plaintext.receiver s.seqenc.serverSequenceNo s.seqenc.trafficSecrets.server
          = (.ready (.ok (some (.alert (alertOf level code)))), r', hs.length + 1, content) := by
        rw [hserver, hseq]
        simp only [pollReceiveEncryptedMessage, hpop, WireRecord.owned, hdec]
      rw [receiveServerMessages]
      split
      · rename_i sm hsm; exact absurd hsm (hnf sm)
      · rw [hrecv]
        simp only [Message.name, alertOf_name]
        exact ⟨_, rfl⟩
    · right
      obtain ⟨s', e1, e2, e3⟩ := hpend hs [] s fuel r' all' n [] w ws2 content h hnf hpop hrem' hf' trivial hp hal
      exact ⟨hs, [], s', e1, e2, e3, hne⟩
  | cons m todo ih =>
    intro hs s fuel h hfuel
    cases fuel with
    | zero => omega
    | succ fuel =>
    obtain ⟨m, raw⟩ := m
    obtain ⟨all, n, ws1, wa, ws2, content, hrem, hws, hprot, hpa, hal⟩ := h.remains
    rcases ws1 with _ | ⟨w, ws⟩
    · exact absurd hprot (by simp [ProtectsAll])
    have hprot0 := hprot
    obtain ⟨hw, hp, hprot'⟩ := hprot
    rw [List.cons_append] at hws
    have hserver : s.seqenc.trafficSecrets.server = keys.server := by rw [h.seq]
    have hseq : s.seqenc.serverSequenceNo = hs.length := by rw [h.seq]
    have halg : s.seqenc.ciphers.hashAlg = ciphers.hashAlg := by rw [h.seq]
    obtain ⟨hnf, c', hstep⟩ := next_ok (todo := todo ++ later) hr h.state h.split (cr.hash s.seqenc.ciphers.hashAlg s.transcript)
    obtain ⟨r', all', hrem', hrs, ⟨hpop, hlt, hf'⟩ | ⟨hpop, hf', hne, _⟩⟩ := remains_receive hrem w _ hws
    · have hdec := decryptMessage_protects cr keys.server hiv hs.length w hw 22 (by decide) raw hp
      have h22 : ContentType.fromRaw 22 = .handshake := rfl
      have hpm : Parses cr raw m := hparse (m, raw) (by rw [← h.split]; simp)
      rw [h22, show Message.fromRaw cr.x509 raw .handshake = .ok (.handshake m) from hpm] at hdec
      have hrecv : pollReceiveEncryptedMessage cr s.plaintext.receiver s.seqenc.serverSequenceNo s.seqenc.trafficSecrets.server
          = (.ready (.ok (some (.handshake m))), r', hs.length + 1, raw) := by
        rw [hserver, hseq]
        simp only [pollReceiveEncryptedMessage, hpop, WireRecord.owned, hdec]
      have e : receiveServerMessages cr (fuel + 1) s = receiveServerMessages cr fuel
          { s with
            plaintext := { s.plaintext with receiver := r' }
            seqenc := { s.seqenc with serverSequenceNo := hs.length + 1 }
            transcript := s.transcript ++ raw
            cstate := c' } := by
        rw [receiveServerMessages]
        split
        · rename_i sm hsm; exact absurd hsm (hnf sm)
        · rw [hrecv]
          simp only [hstep]
      rw [e]
      refine ih (hs ++ [(m, raw)]) _ fuel ?_ (by simp only; omega)
      refine ⟨?_, ?_, ?_, h.short, ?_, all', n, ws, wa, ws2, content, hrem', hf', ?_, ?_, hal⟩
      · simp [h.seq]
      · simp [h.transcript, rawsOf]
      · simpa using h.split
      · rw [halg, h.transcript] at hstep
        exact stateInv_step h.state hstep
      · simpa using hprot'
      · have hl : (hs ++ [(m, raw)]).length + todo.length = hs.length + ((m, raw) :: todo).length := by simp; omega
        rw [hl]; exact hpa
    · right
      obtain ⟨s', e1, e2, e3⟩ := hpend hs ((m, raw) :: todo) s fuel r' all' n (w :: ws) wa ws2 content h hnf hpop hrem' hf'
        hprot0 hpa hal
      exact ⟨hs, (m, raw) :: todo, s', e1, e2, e3, hne⟩

/-- The server's hello is taken. -/
theorem onServerHello_agreed {X K : Type} {cr : Crypto X K} (hw : cr.Works) (hx : cr.Expands) {privateKey : K} {ch shRaw : Bytes}
    {sh : ServerHello} {ciphers : Ciphers} {hsSecret : Bytes} {hsServer : EncryptionKey}
    (hagreed : Agreed cr sh shRaw privateKey ch ciphers hsSecret hsServer)
    (hone : ∀ s1 s2, Extension.keyShareServerHello ⟨.x25519, s1⟩ ∈ sh.extensions →
      Extension.keyShareServerHello ⟨.x25519, s2⟩ ∈ sh.extensions → s1 = s2)
    (s : EarlyState K) (hk : s.privateKey = privateKey) (ht : s.initialTranscript = ch ++ shRaw) :
    ∃ keys, keys.server = hsServer ∧
      onServerHello cr s (some (.handshake (.serverHello sh))) = .afterReceiveServerHello
        { config := s.config, plaintext := s.plaintext, seqenc := ⟨0, 0, keys, ciphers⟩,
          transcript := s.initialTranscript, prk := hsSecret, cstate := .receivedServerHello } := by
  obtain ⟨share, dhe, hmem, hagree, salt, hsalt, hsec⟩ := hagreed.shared
  have hci : Ciphers.fromServerHello sh = .ok ciphers := by
    unfold Ciphers.fromServerHello
    rcases hagreed.suite with ⟨h1, rfl⟩ | ⟨h1, rfl⟩ <;> rw [h1]
  have hsh : sharedSecret cr s.privateKey sh = some dhe := by
    unfold sharedSecret
    rw [serverKeyShare_unique hmem hone, hk]
    exact hagree
  rw [← zeroPrk_eq] at hsalt
  have hprk : derivedPrk cr ciphers.hashAlg (zeroPrk cr ciphers.hashAlg) dhe = .ok hsSecret := by
    rw [derivedPrk_some hsalt, hsec]
  obtain ⟨keys, hkeys⟩ := trafficSecrets_some hw hx ciphers (ch ++ shRaw) hsSecret "hs"
    (by rw [hsec]; exact (hw.extract _ _ _).ge)
  obtain ⟨-, h2⟩ := trafficSecrets_ok hkeys
  have e2 : ascii "s " ++ ascii "hs" ++ ascii " traffic" = labelServerHs := by decide
  rw [e2] at h2
  refine ⟨keys, isTrafficKey_unique h2 hagreed.key, ?_⟩
  unfold onServerHello
  rw [ht]
  simp only [hci, hsh, hprk, hkeys]

/-! ### An alert on a connection -/

/-- If the next record is not there yet, the transport will bring something. -/
theorem receive_pending_ready {sp : Spare} {p : PlaintextStream} {all : List WireRecord} {n : Nat} (h : Remains sp p all n)
    (w : WireRecord) (ws : List WireRecord) (hf : all.filter (fun x => x.typ != 20) = w :: ws) {r' : RecordReceiver}
    (hpop : pollReceiveRecordIgnoreCc p.receiver = (.pending, r')) : ∃ d, ReadEvent.ready d ∈ p.inner.reads := by
  obtain ⟨es, k, h1, h2, h3, h4, h5⟩ := h.brings
  have hst : p.receiver.readState = .active ∨ readData es = [] := by
    rcases h4 with h4 | ⟨_, rfl⟩
    · exact .inl h4
    · exact .inr rfl
  have hd : ∀ es : List ReadEvent, readData es ≠ [] → ∃ d, ReadEvent.ready d ∈ es := by
    intro es
    induction es with
    | nil => intro hh; exact absurd rfl hh
    | cons x es ih =>
      intro hh
      cases x with
      | ready d => exact ⟨d, by simp⟩
      | _ =>
        obtain ⟨d, hd⟩ := ih (by simpa [readData] using hh)
        exact ⟨d, by simp [hd]⟩
  unfold pollReceiveRecordIgnoreCc at hpop
  rcases ignoreCcLoop_go all (p.receiver.incoming.length + 1) p.receiver (readData es) sp.rest w ws h.legal hf h3 hst (by omega) with
    ⟨inc, all', e1, _⟩ | ⟨inc, all', e1, e3, e4, e5, e6⟩
  · rw [e1] at hpop
    simp at hpop
  · obtain ⟨d, hd⟩ := hd es e6
    exact ⟨d, by rw [h1]; simp [hd]⟩

theorem pollRecv_pending_ready {p p' : PlaintextStream} (h : p.pollRecv = (.pending, p')) {d : Bytes}
    (hd : ReadEvent.ready d ∈ p.inner.reads) : ReadEvent.ready d ∈ p'.inner.reads := by
  unfold PlaintextStream.pollRecv pollReceiveAndAddData Transport.pollRead at h
  rcases hr : p.inner.reads with _ | ⟨x, xs⟩
  · rw [hr] at hd; cases hd
  · rw [hr] at hd
    simp only [hr] at h
    rcases x with _ | data | kk
    · simp only [Prod.mk.injEq] at h
      obtain ⟨_, rfl⟩ := h
      simpa using hd
    · rcases data with _ | ⟨b, bs⟩ <;> simp at h
    · simp at h

/-- A read of a connection whose next record is an alert. -/
theorem pollRead_alert {X K : Type} (cr : Crypto X K) (c : Conn) (room : Nat) (level code : UInt8) (hcode : code ≠ 0)
    (hact : c.readState = .active) (hempty : c.incomingDecrypted = []) (hiv : c.seqenc.trafficSecrets.server.writeIv.length = 12)
    (sp : Spare) (all : List WireRecord) (n : Nat) (hrem : Remains sp c.plaintext all n) (w : WireRecord) (ws : List WireRecord)
    (hf : all.filter (fun x => x.typ != 20) = w :: ws) (content : Bytes)
    (hp : Protects cr c.seqenc.trafficSecrets.server c.seqenc.serverSequenceNo w 21 content) (hal : IsAlert level code content)
    (hready : ∃ d, ReadEvent.ready d ∈ c.plaintext.inner.reads) :
    (∃ c', c.pollRead cr room = (.ready (.error (.unexpectedAlert (alertOf level code))), c') ∧
      c'.readState = .error (.unexpectedAlert (alertOf level code))) ∨
    (∃ c' all' n', c.pollRead cr room = (.pending, c') ∧ c'.readState = .active ∧ c'.incomingDecrypted = [] ∧
      c'.seqenc = c.seqenc ∧ Remains sp c'.plaintext all' n' ∧ all'.filter (fun x => x.typ != 20) = w :: ws ∧
      c'.plaintext.inner.reads.length < c.plaintext.inner.reads.length ∧ ∃ d, ReadEvent.ready d ∈ c'.plaintext.inner.reads) := by
  obtain ⟨p1, hrecv, hrem1, q1, q2, q3, q4⟩ := remains_recv hrem
  obtain ⟨n', hremn⟩ : ∃ n, Remains sp p1 all n := by
    rcases hrem1 with hrem1 | ⟨hrem1, _⟩
    · exact ⟨_, hrem1⟩
    · exact ⟨_, hrem1⟩
  obtain ⟨d, hd⟩ := hready
  have hreads : p1.inner.reads.length < c.plaintext.inner.reads.length := by
    rcases q4 with q4 | ⟨_, q4⟩
    · simp only [PlaintextStream.answers, q1, q2] at q4
      omega
    · rw [q4] at hd; cases hd
  have hfill : c.pollFillIncoming cr = c.fillLoop cr (c.plaintext.inner.reads.length + 1) := by
    unfold Conn.pollFillIncoming
    rw [if_neg (by rw [hempty]; simp)]
  rcases hrecv with hrecv | hrecv
  · right
    refine ⟨{ c with plaintext := p1 }, all, n', ?_, hact, hempty, rfl, hremn, hf, hreads, d, pollRecv_pending_ready hrecv hd⟩
    simp only [Conn.pollRead, hact, hfill, Conn.fillLoop, hrecv]
  · have hw : w.Legal := hrem.legal w (by
      have : w ∈ all.filter (fun x => x.typ != 20) := by rw [hf]; simp
      exact (List.mem_filter.mp this).1)
    obtain ⟨r', all', hrem', hrs, ⟨hpop, hlt, hf'⟩ | ⟨hpop, hf', hne, _⟩⟩ := remains_receive hremn w ws hf
    · left
      have hdec := decryptMessage_protects cr _ hiv _ w hw 21 (by decide) content hp
      rw [fromRaw_isAlert cr.x509 hal] at hdec
      have hm : pollReceiveEncryptedMessage cr p1.receiver c.seqenc.serverSequenceNo c.seqenc.trafficSecrets.server
          = (.ready (.ok (some (.alert (alertOf level code)))), r', c.seqenc.serverSequenceNo + 1, content) := by
        simp only [pollReceiveEncryptedMessage, hpop, WireRecord.owned, hdec]
      have hd : ¬ (alertOf level code).description = .closeNotify := fun hh => hcode ((description_close code).mp hh)
      simp only [Conn.pollRead, hact, hfill, Conn.fillLoop, hrecv, hm, if_neg hd]
      exact ⟨_, rfl, rfl⟩
    · right
      have hm : pollReceiveEncryptedMessage (X := X) cr p1.receiver c.seqenc.serverSequenceNo c.seqenc.trafficSecrets.server
          = (.pending, r', c.seqenc.serverSequenceNo, []) := by
        simp only [pollReceiveEncryptedMessage, hpop]
      refine ⟨{ c with plaintext := { p1 with receiver := r' } }, all', n', ?_, hact, hempty, rfl, hrem', hf', hreads,
        (receive_pending_ready hremn w ws hf hpop :)⟩
      simp only [Conn.pollRead, hact, hfill, Conn.fillLoop, hrecv, hm]

end Ngfs.Tls
