import Verif.Lemmas.TlsForeign
import Verif.Lemmas.TlsRefusal

/-! Facts for C202: the reason of an alert is reported only if such an alert arrived. -/
namespace Ngfs.Tls

open Ngfs.Binary

/-! ### Names -/

theorem name_alert {X : Type} {m : Message X} {code : UInt8} (h : m.name = alertReason code) : ∃ a, m = .alert a := by
  have key : ∀ n : Fin 256, alertReason (UInt8.ofFin n) ∉ ["Invalid", "ChangeCipherSpec", "ApplicationData", "Unknown",
    "Handshake.ClientHello", "Handshake.ServerHello", "Handshake.EndOfEarlyData", "Handshake.EncryptedExtensions",
    "Handshake.CertificateRequest", "Handshake.Certificate", "Handshake.CertificateVerify", "Handshake.Finished",
    "Handshake.NewSessionTicket", "Handshake.KeyUpdate", "Handshake.Unknown"] := by decide +kernel
  have hk := key code.toFin
  change alertReason code ∉ _ at hk
  rw [← h] at hk
  cases m with
  | alert a => exact ⟨a, rfl⟩
  | handshake g => exfalso; clear h; cases g <;> simp [Message.name, Handshake.name] at hk
  | _ => exfalso; simp [Message.name] at hk

/-- Whose alert it was. -/
theorem alert_arrives {X : Type} (x : Bytes → Option X) {content : Bytes} {typ : UInt8} {m : Message X} {code : UInt8}
    (h : Message.fromRaw x content (ContentType.fromRaw typ) = .ok m) (hn : m.name = alertReason code) :
    typ = 21 ∧ ∃ level code', IsAlert level code' content ∧ alertReason code' = alertReason code := by
  obtain ⟨a, rfl⟩ := name_alert hn
  obtain ⟨rfl, h2⟩ := fromRaw_alert x content typ a h
  obtain ⟨l, d, more, rfl, -⟩ := alert_shape content a h2
  refine ⟨rfl, l, d, ⟨more, rfl⟩, ?_⟩
  rw [alert_eval] at h2
  cases h2
  rw [← hn, ← alertOf_name l d]
  rfl

/-! ### Errors that are not named -/

/-- Errors that stand for a message of the server. -/
def FromPeer (e : TlsErr) : Prop := (∃ nm, e = .unexpectedMessage nm) ∨ ∃ a, e = .unexpectedAlert a

/-- The receiver does not remember this error. -/
def RecordReceiver.Calm (e0 : TlsErr) (r : RecordReceiver) : Prop := r.readState ≠ .error e0

theorem popRecord_calm {e0 : TlsErr} (he0 : FromPeer e0) {r : RecordReceiver} (h : r.Calm e0) :
    r.popRecord.1 ≠ .ready (.error e0) ∧ r.popRecord.2.Calm e0 := by
  have hs : ∀ e, r.readState = .error e → e ≠ e0 := by
    rintro e he rfl; exact h he
  rcases he0 with ⟨nm, rfl⟩ | ⟨a, rfl⟩
  all_goals
    unfold RecordReceiver.popRecord
    split
    · rcases hr : r.readState with _ | _ | e
      · exact ⟨nofun, h⟩
      · exact ⟨nofun, h⟩
      · exact ⟨by simpa using hs e hr, h⟩
    · simp only
      split
      · exact ⟨nofun, h⟩
      · split
        · rcases hr : r.readState with _ | _ | e
          · exact ⟨nofun, h⟩
          · exact ⟨nofun, nofun⟩
          · exact ⟨by simpa using hs e hr, h⟩
        · exact ⟨nofun, h⟩

theorem ignoreCcLoop_calm {e0 : TlsErr} (he0 : FromPeer e0) (n : Nat) : ∀ {r : RecordReceiver}, r.Calm e0 →
    (ignoreCcLoop n r).1 ≠ .ready (.error e0) ∧ (ignoreCcLoop n r).2.Calm e0 := by
  induction n with
  | zero => intro r h; rcases he0 with ⟨nm, rfl⟩ | ⟨a, rfl⟩ <;> exact ⟨nofun, h⟩
  | succ n ih =>
    intro r h
    obtain ⟨h1, h2⟩ := popRecord_calm he0 h
    unfold ignoreCcLoop
    rcases hp : r.popRecord with ⟨res, r'⟩
    rw [hp] at h1 h2
    rcases res with _ | (e | (_ | o))
    · exact ⟨nofun, h2⟩
    · exact ⟨h1, h2⟩
    · exact ⟨nofun, h2⟩
    · simp only
      split
      · exact ⟨nofun, h2⟩
      · exact ih h2

theorem decryptMessage_calm {X K : Type} {e0 : TlsErr} (he0 : FromPeer e0) (cr : Crypto X K) (n : Nat) (key : EncryptionKey)
    (raw : Bytes) : decryptMessage cr n key raw ≠ .error e0 := by
  have h1 : decryptTraffic cr key n raw ≠ .error e0 := by
    unfold decryptTraffic
    rcases he0 with ⟨nm, rfl⟩ | ⟨a, rfl⟩
    all_goals
      repeat' split
      all_goals exact nofun
  unfold decryptMessage
  split
  · rename_i e he
    intro hh
    cases hh
    exact h1 he
  · simp only
    rcases he0 with ⟨nm, rfl⟩ | ⟨a, rfl⟩
    all_goals
      repeat' split
      all_goals exact nofun

theorem receiveEncrypted_calm {X K : Type} {e0 : TlsErr} (he0 : FromPeer e0) (cr : Crypto X K) (r : RecordReceiver) (n : Nat)
    (key : EncryptionKey) (hr : r.Calm e0) : (pollReceiveEncryptedMessage cr r n key).1 ≠ .ready (.error e0) ∧
      (pollReceiveEncryptedMessage cr r n key).2.1.Calm e0 := by
  unfold pollReceiveEncryptedMessage pollReceiveRecordIgnoreCc
  obtain ⟨h5, h6⟩ := ignoreCcLoop_calm he0 (r.incoming.length + 1) hr
  rcases hp : ignoreCcLoop (r.incoming.length + 1) r with ⟨pr, r1⟩
  rw [hp] at h5 h6
  rcases pr with _ | (e | (_ | o))
  · exact ⟨nofun, h6⟩
  · refine ⟨?_, h6⟩
    intro he; cases he; exact h5 rfl
  · exact ⟨nofun, h6⟩
  · simp only
    rcases hd : decryptMessage cr n key o.raw with e | ⟨m, content⟩
    · refine ⟨?_, h6⟩
      intro he; cases he; exact decryptMessage_calm he0 _ _ _ _ hd
    · exact ⟨nofun, h6⟩

theorem pollRecv_calm {e0 : TlsErr} (he0 : FromPeer e0) {p : PlaintextStream} (h : p.receiver.Calm e0) :
    p.pollRecv.1 ≠ .ready (.error e0) ∧ p.pollRecv.2.receiver.Calm e0 := by
  unfold PlaintextStream.pollRecv pollReceiveAndAddData Transport.pollRead
  rcases hr : p.inner.reads with _ | ⟨e, es⟩
  · exact ⟨nofun, h⟩
  · rcases e with _ | d | k
    · exact ⟨nofun, h⟩
    · rcases d with _ | ⟨b, bs⟩
      · refine ⟨nofun, ?_⟩
        simp only [RecordReceiver.close]
        split
        · exact nofun
        · exact h
      · exact ⟨nofun, h⟩
    · rcases he0 with ⟨nm, rfl⟩ | ⟨a, rfl⟩ <;> exact ⟨nofun, nofun⟩

theorem pollFlush_calm {nm : String} (p : PlaintextStream) : p.pollFlush.1 ≠ .ready (.error (.unexpectedMessage nm)) := by
  unfold PlaintextStream.pollFlush
  rcases writeLoop p.inner.writes p.outgoing p.inner.sent with ⟨res, ws, o, s⟩
  rcases res with _ | (k | u)
  · exact nofun
  · exact nofun
  · simp only
    unfold Transport.pollFlush
    simp only
    rcases p.inner.flushes with _ | ⟨e, es⟩
    · exact nofun
    · rcases e <;> exact nofun

/-! ### The handshake -/

/-- Such an alert arrived. -/
def Told {X K : Type} (cr : Crypto X K) (privateKey : K) (ch total : Bytes) (code : UInt8) : Prop :=
  ∃ code', alertReason code' = alertReason code ∧ AlertArrived cr privateKey ch total code'

theorem onHashAndHandshake_error {X : Type} {c : ClientState X} {thash : Bytes} {h : Handshake X} {e : TlsErr}
    (hst : c.onHashAndHandshake thash h = .error e) : e = .unexpectedMessage h.name := by
  unfold ClientState.onHashAndHandshake at hst
  split at hst <;> (try split at hst) <;> first | exact (Except.error.inj hst).symm | (cases hst; done)

theorem handshakeMessages_told {X K : Type} (cr : Crypto X K) (hx : cr.Expands) (config : ClientConfig) (privateKey : K)
    (total ch shRaw : Bytes) (sh : ServerHello) (code : UInt8) (n : Nat) :
    ∀ (hs : List (Handshake X × Bytes)) (s : ServerHelloState X), HsInv cr config privateKey total ch shRaw sh hs s →
      s.plaintext.receiver.Calm (.unexpectedMessage (alertReason code)) →
      ((receiveServerMessages cr n s).1 = .ready (.error (.unexpectedMessage (alertReason code))) →
        Told cr privateKey ch total code) ∧
      (receiveServerMessages cr n s).2.plaintext.receiver.Calm (.unexpectedMessage (alertReason code)) := by
  induction n with
  | zero => intro hs s _ h; exact ⟨nofun, h⟩
  | succ n ih =>
    intro hs s hi hsd
    by_cases hfin : ∃ sm, s.cstate = .receivedFinished sm
    · obtain ⟨sm, hsm⟩ := hfin
      have e : receiveServerMessages cr (n + 1) s = (.ready (.ok sm), s) := by
        rw [receiveServerMessages, hsm]
      rw [e]
      exact ⟨nofun, hsd⟩
    · have hiv := isTrafficKey_iv hx hi.agreed.key
      obtain ⟨hcalm, hr⟩ := receiveEncrypted_calm (.inl ⟨_, rfl⟩) cr s.plaintext.receiver s.seqenc.serverSequenceNo
        s.seqenc.trafficSecrets.server hsd
      rcases hm : pollReceiveEncryptedMessage cr s.plaintext.receiver s.seqenc.serverSequenceNo
        s.seqenc.trafficSecrets.server with ⟨res, r, k, raw⟩
      rw [hm] at hcalm hr
      simp only at hcalm hr
      obtain ⟨all, hleg, hinc, hcase⟩ := receiveEncrypted_spec cr _ _ _ hiv hm
      have e : receiveServerMessages cr (n + 1) s =
          (let s1 : ServerHelloState X := { s with
              plaintext := { s.plaintext with receiver := r }
              seqenc := { s.seqenc with serverSequenceNo := k }
              transcript := s.transcript ++ raw }
            match (generalizing := false) res with
            | .ready (.error e) => (.ready (.error e), s1)
            | .pending => (.pending, s1)
            | .ready (.ok (some (.handshake h))) =>
              match s1.cstate.onHashAndHandshake (cr.hash s.seqenc.ciphers.hashAlg s.transcript) h with
              | .ok c => receiveServerMessages cr n { s1 with cstate := c }
              | .error e => (.ready (.error e), s1)
            | .ready (.ok (some m)) => (.ready (.error (.unexpectedMessage m.name)), s1)
            | .ready (.ok none) => (.ready (.error .unexpectedEof), s1)) := by
        rw [receiveServerMessages]
        split
        · rename_i sm hsm; exact absurd ⟨sm, hsm⟩ hfin
        · rw [hm]
          rcases res with _ | (e | (_ | m)) <;> rfl
      rw [e]
      clear e
      rcases hcase with ⟨m, pre, w, typ, hall, rfl, rfl, ht, hprot, hmsg, hw20, hpre⟩ | ⟨rfl, rfl, hno, hpend⟩
      · have told : m.name = alertReason code → Told cr privateKey ch total code := by
          intro hn
          obtain ⟨rfl, level, code', hal, hcode⟩ := alert_arrives cr.x509 hmsg hn
          refine ⟨code', hcode, .inr ?_⟩
          obtain ⟨w0, ws, all0, hl0, hf0, ht0, h20, hfr, hws⟩ := hi.arrived
          refine ⟨shRaw, sh, s.seqenc.ciphers, s.prk, s.seqenc.trafficSecrets.server, hs.map Prod.snd, w0, w, ws,
            all0 ++ all, r.incoming ++ readData s.plaintext.inner.reads, raw, level, hi.parses, hi.agreed, ?_, ?_, ?_, h20, hfr,
            hws, ?_, hal⟩
          · intro x hx
            rcases List.mem_append.mp hx with hx | hx
            · exact hl0 x hx
            · exact hleg x hx
          · rw [List.filter_append, hf0, hall, filter_ccs _ _ hpre hw20]
          · rw [ht0, wire_append]
            simp [PlaintextStream.unread, hinc]
          · rw [hi.serverSeq] at hprot
            simpa using hprot
        cases m with
        | handshake h =>
          obtain ⟨rfl, hparse⟩ := fromRaw_handshake cr.x509 raw typ h hmsg
          simp only
          rcases hst : s.cstate.onHashAndHandshake (cr.hash s.seqenc.ciphers.hashAlg s.transcript) h with e | c
          · refine ⟨?_, hr⟩
            intro hh
            have he : e = .unexpectedMessage (alertReason code) := by simpa using hh
            have hn := onHashAndHandshake_error hst
            rw [he] at hn
            exact told (TlsErr.unexpectedMessage.inj hn).symm
          · simp only
            refine ih (hs ++ [(h, raw)]) _ ?_ hr
            refine ⟨hi.config_eq, hi.parses, hi.agreed, hi.clientKey, hi.clientSeq, ?_, ?_, ?_, ?_, ?_, hi.active, hi.seals, hi.sent⟩
            · simp [hi.serverSeq]
            · obtain ⟨w0, ws, all0, hl0, hf0, ht0, h20, hfr, hws⟩ := hi.arrived
              refine ⟨w0, ws ++ [w], all0 ++ all, ?_, ?_, ?_, h20, hfr, ?_⟩
              · intro x hx
                rcases List.mem_append.mp hx with hx | hx
                · exact hl0 x hx
                · exact hleg x hx
              · rw [List.filter_append, hf0, hall, filter_ccs _ _ hpre hw20]; simp
              · rw [ht0, wire_append]
                simp [PlaintextStream.unread, hinc]
              · rw [List.map_append, List.map_append]
                refine protectsAll_snoc hws (hleg w (by simp [hall])) ?_
                rw [hi.serverSeq] at hprot
                simpa using hprot
            · simp [hi.transcript, rawsOf]
            · intro p hp
              rcases List.mem_append.mp hp with hp | hp
              · exact hi.parsed p hp
              · rw [List.mem_singleton] at hp; subst hp; exact hparse
            · rw [hi.transcript] at hst
              exact stateInv_step hi.state hst
        | _ =>
          refine ⟨?_, hr⟩
          intro hh
          simp only [Poll.ready.injEq, Except.error.injEq, TlsErr.unexpectedMessage.injEq] at hh
          exact told hh
      · rcases res with _ | (e | (_ | m))
        · exact ⟨nofun, hr⟩
        · refine ⟨?_, hr⟩
          intro hh
          exact absurd (by simpa using hh) hcalm
        · exact ⟨nofun, hr⟩
        · exact absurd rfl (hno m)

/-- The error has its reason, and the receiver does not remember another. -/
def ECState.Told {X K : Type} (cr : Crypto X K) (privateKey : K) (total ch : Bytes) (code : UInt8) : ECState X K → Prop
  | .begin s => s.plaintext.receiver.Calm (.unexpectedMessage (alertReason code))
  | .afterSendClientHello s => s.plaintext.receiver.Calm (.unexpectedMessage (alertReason code))
  | .afterReceiveServerHello s => s.plaintext.receiver.Calm (.unexpectedMessage (alertReason code))
  | .afterReceiveServerMessages s => s.plaintext.receiver.Calm (.unexpectedMessage (alertReason code))
  | .done _ => True
  | .error e => e = .unexpectedMessage (alertReason code) → Tls.Told cr privateKey ch total code

theorem recv_told {X K : Type} {cr : Crypto X K} {privateKey : K} {total ch : Bytes} {code : UInt8} {s : ECState X K}
    (h : s.Told cr privateKey total ch code) : s.recv.1 ≠ some (.unexpectedMessage (alertReason code)) ∧
      s.recv.2.Told cr privateKey total ch code := by
  cases s with
  | afterSendClientHello s =>
    simp only [ECState.recv]
    obtain ⟨h1, h2⟩ := pollRecv_calm (.inl ⟨_, rfl⟩) (p := s.plaintext) h
    rcases hp : s.plaintext.pollRecv with ⟨res, p⟩
    rw [hp] at h1 h2
    rcases res with _ | (e | u)
    · exact ⟨nofun, h2⟩
    · exact ⟨by simpa using h1, h2⟩
    · exact ⟨nofun, h2⟩
  | afterReceiveServerHello s =>
    simp only [ECState.recv]
    obtain ⟨h1, h2⟩ := pollRecv_calm (.inl ⟨_, rfl⟩) (p := s.plaintext) h
    rcases hp : s.plaintext.pollRecv with ⟨res, p⟩
    rw [hp] at h1 h2
    rcases res with _ | (e | u)
    · exact ⟨nofun, h2⟩
    · exact ⟨by simpa using h1, h2⟩
    · exact ⟨nofun, h2⟩
  | _ => exact ⟨nofun, h⟩

theorem onServerHello_told {X K : Type} (cr : Crypto X K) (s : EarlyState K) (m : Option (Message X)) (privateKey : K)
    (total ch : Bytes) (code : UInt8) (hs : s.plaintext.receiver.Calm (.unexpectedMessage (alertReason code)))
    (hm : ∀ m', m = some m' → m'.name = alertReason code → Told cr privateKey ch total code) :
    (onServerHello cr s m).Told cr privateKey total ch code := by
  unfold onServerHello
  split
  · split
    · rename_i e he
      intro hh
      subst hh
      exfalso
      unfold Ciphers.fromServerHello at he
      split at he <;> cases he
    split
    · exact nofun
    split
    · rename_i e he
      intro hh
      subst hh
      exact absurd he (derivedPrk_calm rfl _ _ _ _)
    split
    · rename_i e he
      intro hh
      subst hh
      exact absurd he (trafficSecrets_calm rfl _ _ _ _ _)
    · exact hs
  · rename_i m' _
    intro hh
    exact hm m' rfl (by simpa using hh)
  · exact nofun

theorem sendClientHelloStep_told {X K : Type} (cr : Crypto X K) {config : ClientConfig} {privateKey : K} {total ch : Bytes}
    {code : UInt8} (s : EarlyState K) (h : EarlyInv config privateKey total ch s)
    (hs : s.plaintext.receiver.Calm (.unexpectedMessage (alertReason code))) :
    (sendClientHelloStep (X := X) cr s).2.Told cr privateKey total ch code := by
  unfold sendClientHelloStep PlaintextStream.pollReceivePlaintextMessage pollReceiveRecordIgnoreCc
  obtain ⟨all, hleg, hinc, hsome, hnone⟩ := ignoreCcLoop_spec (s.plaintext.receiver.incoming.length + 1) s.plaintext.receiver
  obtain ⟨h5, h6⟩ := ignoreCcLoop_calm (.inl ⟨_, rfl⟩) (s.plaintext.receiver.incoming.length + 1) hs
  obtain ⟨all0, hall0, htot⟩ := h.arrived
  rcases hp : ignoreCcLoop (s.plaintext.receiver.incoming.length + 1) s.plaintext.receiver with ⟨res, r⟩
  rw [hp] at hinc hsome hnone h5 h6
  simp only at hinc hsome hnone h5 h6
  have htot' : total = wire (all0 ++ all) ++ (r.incoming ++ readData s.plaintext.inner.reads) := by
    rw [htot, wire_append, PlaintextStream.unread, hinc]; simp
  have hlegal : ∀ w ∈ all0 ++ all, w.Legal := by
    intro w hw
    rcases List.mem_append.mp hw with hw | hw
    · exact (hall0 w hw).1
    · exact hleg w hw
  rcases res with _ | (e | (_ | record))
  · exact h6
  · rintro rfl
    exact absurd rfl h5
  · simp only
    exact onServerHello_told cr { s with plaintext := { s.plaintext with receiver := r }, initialTranscript := s.initialTranscript }
      none _ _ _ _ h6 nofun
  · simp only
    rcases hm : Message.fromRaw cr.x509 record.fragment record.contentType with e | m
    · cases e <;> exact nofun
    · refine onServerHello_told cr _ (some m) _ _ _ _ h6 ?_
      rintro m' hm' hn
      cases hm'
      obtain ⟨pre, w, rfl, rfl, hw20, hpre⟩ := hsome record rfl
      obtain ⟨h21, level, code', hal, hcode⟩ := alert_arrives cr.x509 hm hn
      refine ⟨code', hcode, .inl ⟨w, all0 ++ (pre ++ [w]), r.incoming ++ readData s.plaintext.inner.reads, level, hlegal, ?_,
        htot', h21, hal⟩⟩
      rw [List.filter_append, filter_ccs_nil _ (fun x hx => (hall0 x hx).2), filter_ccs _ _ hpre hw20]
      rfl

theorem onServerMessages_told {X K : Type} (cr : Crypto X K) {code : UInt8}
    (hv : ∀ a b, cr.verifyCertificate a b ≠ .error (.unexpectedMessage (alertReason code)))
    (privateKey : K) (total ch : Bytes) (s : ServerHelloState X) (sm : ServerMessages X)
    (hsd : s.plaintext.receiver.Calm (.unexpectedMessage (alertReason code))) :
    ECState.Told cr privateKey total ch code (onServerMessages cr s sm) := by
  unfold onServerMessages
  split
  · rename_i e he
    rintro rfl
    exact absurd he (computeApplicationSecrets_calm rfl hv _ _ _ _ _)
  split
  · rename_i e he
    rintro rfl
    exact absurd he (clientCertificateBytes_calm rfl _ _ _ _)
  split
  · rename_i e he
    rintro rfl
    exact absurd he (clientFinishedBytes_calm rfl _ _ _ _)
  rename_i certBytes _ _ fin _
  have h1 := encryptRecord_calm (e0 := .unexpectedMessage (alertReason code)) rfl cr s.plaintext (certBytes ++ fin) .handshake
    s.seqenc.trafficSecrets.client s.seqenc.clientSequenceNo
  obtain ⟨_, h2, _⟩ := encryptRecord_noCrash cr s.plaintext (certBytes ++ fin) .handshake s.seqenc.trafficSecrets.client
    s.seqenc.clientSequenceNo
  rcases he : encryptRecord cr s.plaintext (certBytes ++ fin) .handshake s.seqenc.trafficSecrets.client
    s.seqenc.clientSequenceNo with ⟨res, p⟩
  rw [he] at h1 h2
  simp only at h2
  rcases res with e | u
  · rintro rfl
    exact absurd rfl h1
  · show p.receiver.Calm _
    rw [h2]; exact hsd

theorem pollStep_told {X K : Type} {cr : Crypto X K} (hx : cr.Expands) {code : UInt8}
    (hv : ∀ a b, cr.verifyCertificate a b ≠ .error (.unexpectedMessage (alertReason code)))
    {config : ClientConfig} {privateKey : K} {total ch : Bytes} {s : ECState X K}
    (h : EcInv cr config privateKey total ch s) (hs : s.Told cr privateKey total ch code) :
    (s.pollStep cr).2.Told cr privateKey total ch code := by
  cases s with
  | begin s =>
    simp only [ECState.pollStep, beginStep]
    obtain ⟨hr1, _⟩ := pollFlush_rx s.plaintext
    have hf := pollFlush_calm (nm := alertReason code) s.plaintext
    rcases hp : s.plaintext.pollFlush with ⟨res, p⟩
    rw [hp] at hr1 hf
    simp only at hr1
    have hs' : p.receiver.Calm (.unexpectedMessage (alertReason code)) := by rw [hr1]; exact hs
    rcases res with _ | (e | u)
    · exact hs'
    · rintro rfl; exact absurd rfl hf
    · exact hs'
  | afterSendClientHello s => exact sendClientHelloStep_told (X := X) cr s h hs
  | afterReceiveServerHello s =>
    obtain ⟨shRaw, sh, ms, h⟩ := h
    simp only [ECState.pollStep, receiveServerHelloStep]
    obtain ⟨h3, h4⟩ := handshakeMessages_told cr hx config privateKey total ch shRaw sh code
      (s.plaintext.receiver.incoming.length + 1) ms s h hs
    rcases hp : receiveServerMessages cr (s.plaintext.receiver.incoming.length + 1) s with ⟨res, s'⟩
    rw [hp] at h3 h4
    rcases res with _ | (e | sm)
    · exact h4
    · rintro rfl; exact h3 rfl
    · exact onServerMessages_told cr hv _ _ _ s' sm h4
  | afterReceiveServerMessages s =>
    simp only [ECState.pollStep, sendFinishedStep]
    obtain ⟨hr1, _⟩ := pollFlush_rx s.plaintext
    have hf := pollFlush_calm (nm := alertReason code) s.plaintext
    rcases hp : s.plaintext.pollFlush with ⟨res, p⟩
    rw [hp] at hr1 hf
    simp only at hr1
    have hs' : p.receiver.Calm (.unexpectedMessage (alertReason code)) := by rw [hr1]; exact hs
    rcases res with _ | (e | u)
    · exact hs'
    · rintro rfl; exact absurd rfl hf
    · trivial
  | done c => exact hs
  | error e => exact hs

theorem establishLoop_told {X K : Type} {cr : Crypto X K} (hx : cr.Expands) (hc : cr.Correct) {code : UInt8}
    (hv : ∀ a b, cr.verifyCertificate a b ≠ .error (.unexpectedMessage (alertReason code)))
    {config : ClientConfig} {privateKey : K} {total ch : Bytes} (n : Nat) : ∀ {s : ECState X K},
    EcInv cr config privateKey total ch s → s.Told cr privateKey total ch code →
    (establishLoop cr n s).2.Told cr privateKey total ch code ∧
    ((establishLoop cr n s).1 = .ready (.error (.unexpectedMessage (alertReason code))) → Told cr privateKey ch total code) := by
  induction n with
  | zero => intro s _ h; rw [establishLoop]; exact ⟨h, nofun⟩
  | succ n ih =>
    intro s h hs
    have go : ∀ s : ECState X K, EcInv cr config privateKey total ch s → s.Told cr privateKey total ch code →
        ∀ z, z = (match s.recv with
          | (some e, s) => ((.ready (.error e), s) : Poll (Except TlsErr Conn) × ECState X K)
          | (none, s) =>
            match s.pollStep cr with
            | (.ready (), s) => establishLoop cr n s
            | (.pending, s) => (.pending, s)) → z.2.Told cr privateKey total ch code ∧
          (z.1 = .ready (.error (.unexpectedMessage (alertReason code))) → Told cr privateKey ch total code) := by
      intro s h hs z hz
      have h1 := recv_inv h
      obtain ⟨g1, g2⟩ := recv_told hs
      rcases hr : s.recv with ⟨e, s1⟩
      rw [hr] at h1 g1 g2 hz
      rcases e with _ | e
      · simp only at hz h1 g2
        have h2 := pollStep_inv hx hc h1
        have k1 := pollStep_told hx hv h1 g2
        rcases hp : s1.pollStep cr with ⟨res, s2⟩
        rw [hp] at h2 k1 hz
        rcases res with _ | u
        · subst hz; exact ⟨k1, fun hh => by cases hh⟩
        · subst hz
          exact ih h2 k1
      · simp only at hz
        subst hz
        refine ⟨g2, ?_⟩
        intro hh
        cases hh
        exact absurd rfl g1
    cases s with
    | done c =>
      rw [establishLoop]
      exact ⟨hs, fun hh => by cases hh⟩
    | error e =>
      rw [establishLoop]
      refine ⟨hs, ?_⟩
      intro hh
      cases hh
      exact hs rfl
    | begin s => exact go _ h hs _ (by rw [establishLoop] <;> first | rfl | (intro _ hh; cases hh))
    | afterSendClientHello s => exact go _ h hs _ (by rw [establishLoop] <;> first | rfl | (intro _ hh; cases hh))
    | afterReceiveServerHello s => exact go _ h hs _ (by rw [establishLoop] <;> first | rfl | (intro _ hh; cases hh))
    | afterReceiveServerMessages s => exact go _ h hs _ (by rw [establishLoop] <;> first | rfl | (intro _ hh; cases hh))

theorem pollTimes_told {X K : Type} {cr : Crypto X K} (hx : cr.Expands) (hc : cr.Correct) {code : UInt8}
    (hv : ∀ a b, cr.verifyCertificate a b ≠ .error (.unexpectedMessage (alertReason code)))
    {config : ClientConfig} {privateKey : K} {total ch : Bytes} (k : Nat) : ∀ {s : ECState X K},
    EcInv cr config privateKey total ch s → s.Told cr privateKey total ch code →
    EcInv cr config privateKey total ch (pollTimes cr k s) ∧ (pollTimes cr k s).Told cr privateKey total ch code := by
  induction k with
  | zero => intro s h hs; exact ⟨h, hs⟩
  | succ k ih =>
    intro s h hs
    exact ih (establishLoop_inv hx hc 6 h).1 (establishLoop_told hx hc hv 6 h hs).1

/-! ### The connection -/

/-- The error has its reason. -/
structure ConnTold {X K : Type} (cr : Crypto X K) (c0 : Conn) (a : Alert) (c : Conn) : Prop where
  receiver : c.plaintext.receiver.Calm (.unexpectedAlert a)
  reading : c.readState = .error (.unexpectedAlert a) → AlertReceived cr c0 a

theorem fillLoop_told {X K : Type} (cr : Crypto X K) (c0 : Conn) (a : Alert)
    (hiv : c0.seqenc.trafficSecrets.server.writeIv.length = 12) (n : Nat) :
    ∀ (c : Conn) (got : Bytes) (msgs : List (UInt8 × Bytes)), ReadInv cr c0 got msgs c → c.readState = .active →
      ConnTold cr c0 a c →
      ((c.fillLoop cr n).1 = .ready (.error (.unexpectedAlert a)) → AlertReceived cr c0 a) ∧ ConnTold cr c0 a (c.fillLoop cr n).2 := by
  induction n with
  | zero => intro c got msgs _ _ h; exact ⟨nofun, h⟩
  | succ n ih =>
    intro c got msgs h hact hs
    unfold Conn.fillLoop
    have hdat := pollRecv_data c.plaintext
    obtain ⟨g1, g2⟩ := pollRecv_calm (.inr ⟨a, rfl⟩) hs.receiver
    rcases hp : c.plaintext.pollRecv with ⟨res, p⟩
    rw [hp] at hdat g1 g2
    simp only at hdat g2
    rcases res with _ | (e | u)
    · exact ⟨nofun, g2, hs.reading⟩
    · refine ⟨?_, g2, ?_⟩
      · intro hh; exact absurd hh (by simpa using g1)
      · intro hh; exact absurd hh (by simpa using g1)
    · simp only
      obtain ⟨q2, q1⟩ := receiveEncrypted_calm (.inr ⟨a, rfl⟩) cr p.receiver c.seqenc.serverSequenceNo
        c.seqenc.trafficSecrets.server g2
      rcases hm : pollReceiveEncryptedMessage cr p.receiver c.seqenc.serverSequenceNo
        c.seqenc.trafficSecrets.server with ⟨res, r, k, raw⟩
      rw [hm] at q1 q2
      simp only at q1 q2
      have hiv' : c.seqenc.trafficSecrets.server.writeIv.length = 12 := by rw [h.secrets]; exact hiv
      obtain ⟨all', hleg, hinc, hcase⟩ := receiveEncrypted_spec cr _ _ _ hiv' hm
      obtain ⟨all, taken, hr⟩ := h.received
      rcases res with _ | (e | (_ | m))
      · exact ⟨nofun, q1, hs.reading⟩
      · refine ⟨?_, q1, hs.reading⟩
        intro hh
        exact absurd (by simpa using hh) q2
      · exact ⟨nofun, q1, nofun⟩
      · rcases hcase with ⟨m', pre, w, typ, hall, hres, rfl, ht, hprot, hmsg, _, _⟩ | ⟨rfl, _, hno, _⟩
        · cases hres
          rw [h.secrets, h.seqNo] at hprot
          have hframed : c0.plaintext.receiver.incoming ++ readData c0.plaintext.inner.reads
              = wire (all ++ all') ++ r.incoming ++ readData p.inner.reads := by
            rw [hr.framed, List.append_assoc, ← hdat, hinc, wire_append]
            simp
          have hlegal : ∀ x ∈ all ++ all', x.Legal := by
            intro x hx
            rcases List.mem_append.mp hx with hx | hx
            · exact hr.legal x hx
            · exact hleg x hx
          cases m with
          | invalid => exact ⟨nofun, q1, nofun⟩
          | changeCipherSpec => exact ⟨nofun, q1, nofun⟩
          | unknown code => exact ⟨nofun, q1, nofun⟩
          | alert b =>
            simp only
            split
            · exact ⟨nofun, q1, nofun⟩
            · rename_i hncl
              have told : b = a → AlertReceived cr c0 a := by
                rintro rfl
                obtain ⟨rfl, h2⟩ := fromRaw_alert cr.x509 raw typ b hmsg
                obtain ⟨l, d, more, rfl, -⟩ := alert_shape raw b h2
                rw [alert_eval] at h2
                cases h2
                refine ⟨all ++ all', taken ++ [w], msgs, l, d, l :: d :: more, r.incoming ++ readData p.inner.reads, hlegal, ?_,
                  ?_, ?_, ⟨more, rfl⟩, ?_, rfl⟩
                · show c0.plaintext.receiver.incoming ++ readData c0.plaintext.inner.reads = _
                  rw [hframed, List.append_assoc]
                · rw [hall]; exact sublist_mid taken all pre w hr.sub
                · exact protectsAll_snoc hr.auth (hleg w (by simp [hall])) hprot
                · rintro rfl; exact hncl rfl
              exact ⟨fun hh => told (by simpa using hh), q1, fun hh => told (by simpa using hh)⟩
          | applicationData d => exact ⟨nofun, q1, hs.reading⟩
          | handshake hsm =>
            cases hsm with
            | newSessionTicket t =>
              simp only
              refine ih _ got (msgs ++ [(typ, raw)]) ?_ hact ⟨q1, hs.reading⟩
              have hnoclose : ∀ m ∈ msgs, ¬ IsCloseNotify m := by
                intro m' hm' hcl
                have := h.eof.mpr ⟨m', hm', hcl⟩
                rw [hact] at this; cases this
              have hcl := closeNotify_iff cr.x509 raw typ _ hmsg
              have h23 : typ ≠ 23 := by
                rintro rfl
                rw [fromRaw_23] at hmsg
                cases hmsg
              refine ⟨⟨all ++ all', taken ++ [w], hframed, hlegal, ?_, ?_, ?_⟩, h.secrets, ?_, ?_, ?_, ?_⟩
              · rw [hall]; exact sublist_mid taken all pre w hr.sub
              · exact protectsAll_snoc hr.auth (hleg w (by simp [hall])) hprot
              · intro m' hm'
                rcases List.mem_append.mp hm' with hm' | hm'
                · exact hr.types m' hm'
                · rw [List.mem_singleton] at hm'; rw [hm']; exact ht
              · show c.seqenc.serverSequenceNo + 1 = _
                rw [h.seqNo]; simp; omega
              · show got ++ c.incomingDecrypted = _
                rw [appData_append, h.data]
                simp [appData, h23]
              · show c.readState = .eof ↔ _
                rw [hact]
                constructor
                · nofun
                · rintro ⟨m', hm', hh⟩
                  exfalso
                  rcases List.mem_append.mp hm' with hm' | hm'
                  · exact hnoclose m' hm' hh
                  · rw [List.mem_singleton] at hm'
                    subst hm'
                    obtain ⟨a, ha, _⟩ := hcl.mp hh
                    cases ha
              · rw [List.dropLast_concat]; exact hnoclose
            | _ => exact ⟨nofun, q1, nofun⟩
        · exact absurd rfl (hno m)

theorem read_told {X K : Type} (cr : Crypto X K) (c0 : Conn) (a : Alert)
    (hiv : c0.seqenc.trafficSecrets.server.writeIv.length = 12) (c : Conn) (got : Bytes)
    (msgs : List (UInt8 × Bytes)) (h : ReadInv cr c0 got msgs c) (hs : ConnTold cr c0 a c) (room : Nat) :
    ((c.pollRead cr room).1 = .ready (.error (.unexpectedAlert a)) → AlertReceived cr c0 a) ∧
      ConnTold cr c0 a (c.pollRead cr room).2 := by
  unfold Conn.pollRead
  rcases hrs : c.readState with _ | _ | e
  · simp only
    have hfill : ((c.pollFillIncoming cr).1 = .ready (.error (.unexpectedAlert a)) → AlertReceived cr c0 a) ∧
        ConnTold cr c0 a (c.pollFillIncoming cr).2 := by
      unfold Conn.pollFillIncoming
      split
      · exact ⟨nofun, hs⟩
      · exact fillLoop_told cr c0 a hiv _ c got msgs h hrs hs
    obtain ⟨h1, h2⟩ := hfill
    rcases hp : c.pollFillIncoming cr with ⟨res, c'⟩
    rw [hp] at h1 h2
    rcases res with _ | (e | u)
    · exact ⟨nofun, h2⟩
    · exact ⟨fun hh => h1 (by simpa using hh), h2⟩
    · exact ⟨nofun, h2.receiver, h2.reading⟩
  · exact ⟨nofun, hs⟩
  · refine ⟨?_, hs⟩
    intro hh
    refine hs.reading ?_
    rw [hrs]
    simpa using hh

theorem connRun_told {X K : Type} (cr : Crypto X K) (c0 : Conn) (a : Alert)
    (hiv : c0.seqenc.trafficSecrets.server.writeIv.length = 12) (ops : List ConnOp) : ∀ (c : Conn) (got : Bytes)
    (msgs : List (UInt8 × Bytes)), ReadInv cr c0 got msgs c → ConnTold cr c0 a c →
    ∀ room, ConnEvent.read room (.ready (.error (.unexpectedAlert a))) ∈ (connRun cr c ops).1 → AlertReceived cr c0 a := by
  induction ops with
  | nil => intro c got msgs _ _ room hev; cases hev
  | cons op ops ih =>
    intro c got msgs h hs room hev
    obtain ⟨got', msgs', h3⟩ := step_readInv cr c0 hiv c got msgs h op
    by_cases hr : ∃ room, op = .read room
    · obtain ⟨room', rfl⟩ := hr
      obtain ⟨h1, h2⟩ := read_told cr c0 a hiv c got msgs h hs room'
      rcases List.mem_cons.mp hev with hev | hev
      · simp only [ConnOp.step, ConnEvent.read.injEq] at hev
        exact h1 hev.2.symm
      · exact ih _ got' msgs' h3 h2 room hev
    · have hrx := (step_rx cr c op (fun room hh => hr ⟨room, hh⟩)).1
      simp only [Conn.rx, Prod.mk.injEq] at hrx
      rcases List.mem_cons.mp hev with hev | hev
      · cases op <;> simp only [ConnOp.step] at hev <;> first | (cases hev; done) | exact absurd ⟨_, rfl⟩ hr
      · refine ih _ got' msgs' h3 ⟨?_, ?_⟩ room hev
        · unfold RecordReceiver.Calm
          rw [hrx.1]; exact hs.receiver
        · intro hh
          exact hs.reading (by simp_all)

end Ngfs.Tls
