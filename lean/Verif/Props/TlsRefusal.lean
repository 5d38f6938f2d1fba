import Verif.Lemmas.TlsRefusal
import Verif.Lemmas.TlsRefusalOnly
import Verif.Props.TlsHonest
import Verif.Props.TlsRead

/-! C202: a refusal by the server is reported with the reason that the server gave. -/
namespace Ngfs.Tls

open Ngfs.Binary

/-- C202. The reasons tell the alerts of RFC 8446 apart, from each other and from all other codes. -/
theorem C202_reasons_distinct (a : UInt8 × String) (ha : a ∈ alertReasons) (code : UInt8) :
    alertReason a.1 = "Alert." ++ a.2 ∧ (alertReason code = alertReason a.1 → code = a.1) := by
  have h : ∀ a ∈ alertReasons, alertReason a.1 = "Alert." ++ a.2 ∧
      ∀ n : Fin 256, alertReason (UInt8.ofFin n) = alertReason a.1 → UInt8.ofFin n = a.1 := by decide +kernel
  exact ⟨(h a ha).1, (h a ha).2 code.toFin⟩

/-- C202. Let the first record that counts (type other than 20, ChangeCipherSpec) in answer to the client's hello be an
alert (type 21), let the transport bring it in pieces of any sizes with pauses anywhere and never fail. Then, after at most
as many polls as the transport gives answers, connecting fails with the reason of this alert; until then it waits. -/
theorem C202_hello_refused {X K : Type} (cr : Crypto X K) (transport : Transport) (config : ClientConfig)
    (protocolNames : List String) (privateKey : K) (publicKey random sessionId ch : Bytes)
    (hch : handshakeBytes (X := X)
      (.clientHello (makeClientHello random sessionId publicKey config.serverName protocolNames)) = .ok ch)
    (total rest : Bytes) (hbring : WillBring transport.reads total)
    (all : List WireRecord) (hleg : ∀ w ∈ all, w.Legal) (htot : total = wire all ++ rest)
    (w : WireRecord) (ws : List WireRecord) (hfil : all.filter (fun w => w.typ != 20) = w :: ws) (h21 : w.typ = 21)
    (level code : UInt8) (hal : IsAlert level code w.fragment)
    (htake : WillTake transport.writes (ch.length + 5)) (hflush : WillFlush transport.flushes 1) :
    ∃ k, k ≤ transport.reads.length + transport.writes.length + transport.flushes.length ∧
      (∀ j, j < k → (establishPoll cr (pollTimes cr j
        (initialState transport config protocolNames privateKey publicKey random sessionId : ECState X K))).1 = .pending) ∧
      (establishPoll cr (pollTimes cr k
        (initialState transport config protocolNames privateKey publicKey random sessionId : ECState X K))).1
          = .ready (.error (.unexpectedMessage (alertReason code))) := by
  obtain ⟨es, n, hreads, hben, hdata⟩ := hbring
  let sp : Spare := ⟨all, rest, n, 0, 0⟩
  let F : List WireRecord → Prop := fun l => ∃ w ws, l = w :: ws ∧ w.typ = 21 ∧ IsAlert level code w.fragment
  let G : ECState X K → Prop := Refused privateKey ch F (fun _ => False) (.unexpectedMessage (alertReason code)) sp
  have hs0 : (initialState transport config protocolNames privateKey publicKey random sessionId : ECState X K)
      = .begin ⟨config, privateKey, ch,
      { PlaintextStream.new transport .new with outgoing := [] ++ encodeRecord .handshake 0x0301 ch }⟩ := by
    unfold initialState
    rw [hch]
    rfl
  have hG : G (initialState transport config protocolNames privateKey publicKey random sessionId : ECState X K) := by
    rw [hs0]
    refine ⟨rfl, rfl, ?_, hflush, all, 0, ⟨hleg, List.suffix_refl _, es, n, hreads, ?_, ?_, .inl rfl, by simp [sp]⟩, ?_⟩
    · refine willTake_mono htake ?_
      simp [encodeRecord, beBytes]
    · intro e he
      rcases hben e he with rfl | ⟨d, hd, rfl⟩
      · trivial
      · exact hd
    · show [] ++ readData es = _
      rw [List.nil_append, hdata, htot]
    · exact ⟨w, ws, hfil, h21, hal⟩
  have hans : (initialState transport config protocolNames privateKey publicKey random sessionId : ECState X K).answers
      ≤ transport.reads.length + transport.writes.length + transport.flushes.length := by
    rw [hs0]; exact Nat.le_refl _
  obtain ⟨k, h1, h2, h3⟩ := pollTimes_fails (cr := cr) (G := G) (e := .unexpectedMessage (alertReason code))
    (fun c hc => hc) (fun e' he => he) (refused_step (by
      rintro l ⟨v, vs, rfl, hv, hva⟩
      refine ⟨v, vs, .alert (alertOf level code), rfl, by rw [hv]; exact fromRaw_isAlert cr.x509 hva, ?_⟩
      intro s all' n' _ _ _ _
      refine ⟨?_, by simp [onServerHello, ECState.rank], by simp [onServerHello, ECState.answers]⟩
      show TlsErr.unexpectedMessage (alertOf level code).name = _
      rw [alertOf_name]) (fun _ h => h.elim)) _ hans hG
  exact ⟨k, h1, h3, h2⟩

/-- C202. Let the server answer the client's hello with its own hello, and then break off its flight at any point before
the end with an alert, protected as the messages are. Then connecting fails with the reason of this alert, under the same
conditions as before. Nothing is asked of the certificate, the signature or Finished. -/
theorem C202_flight_broken_off {X K : Type} (cr : Crypto X K) (hw : cr.Works) (hx : cr.Expands)
    (transport : Transport) (config : ClientConfig)
    (protocolNames : List String) (privateKey : K) (publicKey random sessionId ch : Bytes)
    (hch : handshakeBytes (X := X)
      (.clientHello (makeClientHello random sessionId publicKey config.serverName protocolNames)) = .ok ch)
    (f : Flight X) (hf : f.Legal cr) (ciphers : Ciphers) (hsSecret : Bytes) (hsServer : EncryptionKey)
    (hagreed : Agreed cr f.sh f.shRaw privateKey ch ciphers hsSecret hsServer)
    (hone : ∀ s1 s2, Extension.keyShareServerHello ⟨.x25519, s1⟩ ∈ f.sh.extensions →
      Extension.keyShareServerHello ⟨.x25519, s2⟩ ∈ f.sh.extensions → s1 = s2)
    (sent missing : List Bytes) (hsent : f.encrypted = sent ++ missing) (hmissing : missing ≠ [])
    (total rest : Bytes) (hbring : WillBring transport.reads total)
    (all : List WireRecord) (hleg : ∀ w ∈ all, w.Legal) (htot : total = wire all ++ rest)
    (w0 w : WireRecord) (ws ws' : List WireRecord) (hfil : all.filter (fun w => w.typ != 20) = w0 :: ws ++ w :: ws')
    (h22 : w0.typ = 22) (hfr : w0.fragment = f.shRaw) (hprot : ProtectsAll cr hsServer 0 ws (sent.map fun raw => (22, raw)))
    (level code : UInt8) (content : Bytes) (hpa : Protects cr hsServer sent.length w 21 content) (hal : IsAlert level code content)
    (htake : WillTake transport.writes (ch.length + 5)) (hflush : WillFlush transport.flushes 1) :
    ∃ k, k ≤ transport.reads.length + transport.writes.length + transport.flushes.length ∧
      (∀ j, j < k → (establishPoll cr (pollTimes cr j
        (initialState transport config protocolNames privateKey publicKey random sessionId : ECState X K))).1 = .pending) ∧
      (establishPoll cr (pollTimes cr k
        (initialState transport config protocolNames privateKey publicKey random sessionId : ECState X K))).1
          = .ready (.error (.unexpectedMessage (alertReason code))) := by
  obtain ⟨es, n, hreads, hben, hdata⟩ := hbring
  obtain ⟨reqs, hreqs, hraws, hparses⟩ : ∃ reqs : List (Handshake X × Bytes), IsReqs reqs ∧ reqs.map Prod.snd = f.reqRaws ∧
      ∀ m ∈ reqs, Parses cr m.2 m.1 := by
    rcases hf.req with hreq | ⟨raw, req, hreq, hp⟩
    · exact ⟨[], .inl rfl, hreq.symm, nofun⟩
    · refine ⟨[(.certificateRequest req, raw)], .inr ⟨req, raw, rfl⟩, by rw [hreq]; rfl, ?_⟩
      intro m hm
      rw [List.mem_singleton] at hm
      subst hm
      exact hp
  have hmsgs : ∀ m ∈ f.msgs reqs, Parses cr m.2 m.1 := by
    intro m hm
    simp only [Flight.msgs, List.mem_append, List.mem_cons, List.not_mem_nil, or_false] at hm
    rcases hm with (rfl | hm) | rfl | rfl | rfl
    · exact hf.ee
    · exact hparses m hm
    · exact hf.cert
    · exact hf.cv
    · exact hf.fin
  have henc : (f.msgs reqs).map Prod.snd = sent ++ missing := by
    rw [← hsent]
    simp [Flight.msgs, Flight.encrypted, ← hraws]
  obtain ⟨todo, later, hsplit, htodo, hlater⟩ := List.map_eq_append_iff.mp henc
  have hlen : todo.length = sent.length := by rw [← htodo, List.length_map]
  have hshort : later ≠ [] := by
    rintro rfl
    exact hmissing hlater.symm
  have hiv : hsServer.writeIv.length = 12 := isTrafficKey_iv hx hagreed.key
  let sp : Spare := ⟨all, rest, n, 0, 0⟩
  let e : TlsErr := .unexpectedMessage (alertReason code)
  let F : List WireRecord → Prop := fun l => l = w0 :: ws ++ w :: ws'
  let S : ServerHelloState X → Prop := fun s => ∃ keys hs todo', keys.server = hsServer ∧
    HsStop cr ch f ciphers keys reqs sp level code hs todo' later s
  let G : ECState X K → Prop := Refused privateKey ch F S e sp
  have hs0 : (initialState transport config protocolNames privateKey publicKey random sessionId : ECState X K)
      = .begin ⟨config, privateKey, ch,
      { PlaintextStream.new transport .new with outgoing := [] ++ encodeRecord .handshake 0x0301 ch }⟩ := by
    unfold initialState
    rw [hch]
    rfl
  have hG : G (initialState transport config protocolNames privateKey publicKey random sessionId : ECState X K) := by
    rw [hs0]
    refine ⟨rfl, rfl, ?_, hflush, all, 0, ⟨hleg, List.suffix_refl _, es, n, hreads, ?_, ?_, .inl rfl, by simp [sp]⟩, hfil⟩
    · refine willTake_mono htake ?_
      simp [encodeRecord, beBytes]
    · intro e he
      rcases hben e he with rfl | ⟨d, hd, rfl⟩
      · trivial
      · exact hd
    · show [] ++ readData es = _
      rw [List.nil_append, hdata, htot]
  have hans : (initialState transport config protocolNames privateKey publicKey random sessionId : ECState X K).answers
      ≤ transport.reads.length + transport.writes.length + transport.flushes.length := by
    rw [hs0]; exact Nat.le_refl _
  obtain ⟨k, h1, h2, h3⟩ := pollTimes_fails (cr := cr) (G := G) (e := e)
    (fun c hc => hc) (fun e' he => he) (refused_step (by
      rintro l rfl
      refine ⟨w0, ws ++ w :: ws', .handshake (.serverHello f.sh), rfl, ?_, ?_⟩
      · rw [h22, hfr]; exact hf.sh
      intro s all' n' hk ht hrem hfl
      rw [hfr] at ht
      obtain ⟨keys, k1, k2⟩ := onServerHello_agreed hw hx hagreed hone s hk ht
      rw [k2]
      refine ⟨⟨keys, [], todo, k1, rfl, by simp [ht, rawsOf], hsplit.symm, hshort, rfl, all', n', ws, w, ws', content, hrem, hfl,
        ?_, ?_, hal⟩, by simp [ECState.rank], by simp [ECState.answers]⟩
      · rw [← htodo, List.map_map] at hprot
        rw [k1]
        exact hprot
      · rw [k1, List.length_nil, Nat.zero_add, hlen]
        exact hpa)
    (by
      rintro s ⟨keys, hs, todo', k1, hst⟩
      obtain ⟨all1, n1, ws1, wa, ws2, content1, hrem, r1, r2, r3, r4⟩ := hst.remains
      obtain ⟨p1, hrecv, hrem1, q1, q2, q3, q4⟩ := remains_recv hrem
      have er : (ECState.afterReceiveServerHello s : ECState X K).recv = (none, .afterReceiveServerHello { s with plaintext := p1 }) := by
        rcases hrecv with hrecv | hrecv <;> simp only [ECState.recv, hrecv]
      rw [er]
      have hle : p1.answers ≤ s.plaintext.answers := by
        rcases q4 with q4 | ⟨rfl, _⟩ <;> omega
      obtain ⟨n2, hremn⟩ : ∃ n, Remains sp p1 all1 n := by
        rcases hrem1 with hrem1 | ⟨hrem1, _⟩
        · exact ⟨_, hrem1⟩
        · exact ⟨_, hrem1⟩
      have hst1 : HsStop cr ch f ciphers keys reqs sp level code hs todo' later { s with plaintext := p1 } :=
        ⟨hst.seq, hst.transcript, hst.split, hst.short, hst.state, all1, n2, ws1, wa, ws2, content1, hremn, r1, r2, r3, r4⟩
      rcases receive_stop cr (by rw [k1]; exact hiv) hreqs hmsgs later todo' hs { s with plaintext := p1 }
        (p1.receiver.incoming.length + 1) hst1 (Nat.lt_succ_self _) with ⟨s', e1⟩ | ⟨hs', todo1, s', e1, e2, e3, e4⟩
      · refine ⟨_, .ready (), .error e, rfl, ?_, rfl, .inl ⟨rfl, by simp [ECState.rank], by simp [ECState.answers]⟩⟩
        simp only [ECState.pollStep, receiveServerHelloStep, e1]
        rfl
      · refine ⟨_, .pending, .afterReceiveServerHello s', rfl, ?_, ⟨keys, hs', todo1, k1, e2⟩, .inr ⟨rfl, ?_⟩⟩
        · simp only [ECState.pollStep, receiveServerHelloStep, e1]
        · show s'.plaintext.answers < s.plaintext.answers
          rcases q4 with q4 | ⟨rfl, q4⟩
          · simp only [PlaintextStream.answers] at q4 ⊢
            rw [e3]
            exact q4
          · exact absurd q4 e4)) _ hans hG
  exact ⟨k, h1, h3, h2⟩

/-- C202. And only then: whatever the transport does and however often it is polled, connecting fails with the reason of an
alert only if an alert with this reason arrived, in the clear before anything else or under the key agreed on with
ServerHello. (The certificate checker, a parameter, is not to invent such an error.) -/
theorem C202_only_if_told {X K : Type} (cr : Crypto X K) (hx : cr.Expands) (hc : cr.Correct) (transport : Transport)
    (ht : transport.sent = []) (config : ClientConfig) (protocolNames : List String) (privateKey : K)
    (publicKey random sessionId : Bytes) (k : Nat) (code : UInt8)
    (hv : ∀ a b, cr.verifyCertificate a b ≠ .error (.unexpectedMessage (alertReason code)))
    (h : (establishPoll cr (pollTimes cr k
      (initialState transport config protocolNames privateKey publicKey random sessionId))).1
        = .ready (.error (.unexpectedMessage (alertReason code)))) :
    ∃ ch code', handshakeBytes (X := X)
        (.clientHello (makeClientHello random sessionId publicKey config.serverName protocolNames)) = .ok ch ∧
      alertReason code' = alertReason code ∧ AlertArrived cr privateKey ch (readData transport.reads) code' := by
  rcases hch : handshakeBytes (X := X)
      (.clientHello (makeClientHello random sessionId publicKey config.serverName protocolNames)) with e | ch
  · exfalso
    have hi : initialState (X := X) transport config protocolNames privateKey publicKey random sessionId = .error e := by
      unfold initialState; rw [hch]
    rw [hi] at h
    have hp : ∀ k, pollTimes cr k (.error e : ECState X K) = .error e := by
      intro k
      induction k with
      | zero => rfl
      | succ k ih =>
        rw [pollTimes]
        have : (establishPoll cr (.error e : ECState X K)).2 = .error e := by
          unfold establishPoll; rw [establishLoop]
        rw [this, ih]
    rw [hp, establishPoll, establishLoop] at h
    have he : e = .unexpectedMessage (alertReason code) := by simpa using h
    rw [he] at hch
    exact handshakeBytes_calm rfl _ hch
  · have hinit := initialState_inv cr transport ht config protocolNames privateKey publicKey random sessionId ch hch
    have hsd : (initialState (X := X) transport config protocolNames privateKey publicKey random sessionId).Told cr privateKey
        (readData transport.reads) ch code := by
      unfold initialState; rw [hch]
      exact (nofun : (ReadState.active : ReadState) ≠ .error (.unexpectedMessage (alertReason code)))
    obtain ⟨h1, h2⟩ := pollTimes_told hx hc hv k hinit hsd
    obtain ⟨code', h3, h4⟩ := (establishLoop_told hx hc hv 6 h1 h2).2 h
    exact ⟨ch, code', rfl, h3, h4⟩

/-- C202. Let the next record that counts on a connection be an alert other than the one that ends the data (code 0),
protected as the data is, let the transport bring it in pieces of any sizes with pauses anywhere, and let it say
something more than pauses. Then reads wait for at most as many answers as the transport gives; and after that every read
fails with this alert, its level and its code. -/
theorem C202_connection_broken_off {X K : Type} (cr : Crypto X K) (c : Conn) (hact : c.readState = .active)
    (hrec : c.plaintext.receiver.readState = .active)
    (hempty : c.incomingDecrypted = []) (hiv : c.seqenc.trafficSecrets.server.writeIv.length = 12)
    (data rest : Bytes) (hbring : WillBring c.plaintext.inner.reads data)
    (hmore : ∃ d, ReadEvent.ready d ∈ c.plaintext.inner.reads)
    (all : List WireRecord) (hleg : ∀ w ∈ all, w.Legal) (htot : c.plaintext.receiver.incoming ++ data = wire all ++ rest)
    (w : WireRecord) (ws : List WireRecord) (hfil : all.filter (fun w => w.typ != 20) = w :: ws)
    (level code : UInt8) (hcode : code ≠ 0) (content : Bytes)
    (hp : Protects cr c.seqenc.trafficSecrets.server c.seqenc.serverSequenceNo w 21 content) (hal : IsAlert level code content)
    (rooms : List Nat) :
    ∃ k, k < c.plaintext.inner.reads.length ∧ (readTimes cr c rooms).1 =
      (rooms.take k).map (fun room => .read room .pending) ++
      (rooms.drop k).map (fun room => .read room
        (.ready (.error (.unexpectedAlert ⟨AlertLevel.fromRaw level, AlertDescription.fromRaw code⟩)))) := by
  obtain ⟨es, n, hreads, hben, hdata⟩ := hbring
  have hrem : Remains ⟨all, rest, n, 0, 0⟩ c.plaintext all 0 := by
    refine ⟨hleg, List.suffix_refl _, es, n, hreads, ?_, ?_, .inl hrec, by simp⟩
    · intro e he
      rcases hben e he with rfl | ⟨d, hd, rfl⟩
      · trivial
      · exact hd
    · rw [hdata, htot]
  generalize (⟨all, rest, n, 0, 0⟩ : Spare) = sp at hrem
  have main : ∀ (rooms : List Nat) (c : Conn) (all : List WireRecord) (n : Nat), c.readState = .active →
      c.incomingDecrypted = [] → c.seqenc.trafficSecrets.server.writeIv.length = 12 → Remains sp c.plaintext all n →
      all.filter (fun w => w.typ != 20) = w :: ws →
      Protects cr c.seqenc.trafficSecrets.server c.seqenc.serverSequenceNo w 21 content →
      (∃ d, ReadEvent.ready d ∈ c.plaintext.inner.reads) →
      ∃ k, k < c.plaintext.inner.reads.length ∧ (readTimes cr c rooms).1 =
        (rooms.take k).map (fun room => .read room .pending) ++
        (rooms.drop k).map (fun room => .read room (.ready (.error (.unexpectedAlert (alertOf level code))))) := by
    intro rooms
    induction rooms with
    | nil =>
      intro c all n _ _ _ _ _ _ ⟨d, hd⟩
      exact ⟨0, List.length_pos_of_mem hd, rfl⟩
    | cons room rooms ih =>
      intro c all n hact hempty hiv hrem hfil hp hmore
      rcases pollRead_alert cr c room level code hcode hact hempty hiv sp all n hrem w ws hfil content hp hal hmore with
        ⟨c', e1, e2⟩ | ⟨c', all', n', e1, e2, e3, e4, e5, e6, e7, e8⟩
      · obtain ⟨d, hd⟩ := hmore
        refine ⟨0, List.length_pos_of_mem hd, ?_⟩
        have herr : ∀ (rooms : List Nat), (readTimes cr c' rooms).1 =
            rooms.map (fun room => .read room (.ready (.error (.unexpectedAlert (alertOf level code))))) := by
          intro rooms
          induction rooms with
          | nil => rfl
          | cons r rooms ih2 =>
            have er : c'.pollRead cr r = (.ready (.error (.unexpectedAlert (alertOf level code))), c') := by
              simp only [Conn.pollRead, e2]
            simp only [readTimes, List.map_cons, connRun, ConnOp.step, er]
            rw [← ih2]
            rfl
        simp only [readTimes, List.map_cons, connRun, ConnOp.step, e1, List.take_zero, List.drop_zero, List.map_nil, List.nil_append]
        rw [← herr]
        rfl
      · obtain ⟨k, h1, h2⟩ := ih c' all' n' e2 e3 (by rw [e4]; exact hiv) e5 e6 (by rw [e4]; exact hp) e8
        refine ⟨k + 1, by omega, ?_⟩
        simp only [readTimes, List.map_cons, connRun, ConnOp.step, e1, List.take_succ_cons, List.drop_succ_cons, List.cons_append]
        rw [← h2]
        rfl
  exact main rooms c all 0 hact hempty hiv hrem hfil hp hmore

/-! ### Examples -/

/-- C202. And only then: whatever is read, written, flushed and shut down on a connection, in any order, a read reports an
alert only if this alert arrived, protected with the key of the server and with the number that was due. -/
theorem C202_read_only_if_told {X K : Type} (cr : Crypto X K) (c : Conn) (hact : c.readState = .active)
    (hrec : ∀ e, c.plaintext.receiver.readState ≠ .error e) (hiv : c.seqenc.trafficSecrets.server.writeIv.length = 12)
    (ops : List ConnOp) (room : Nat) (a : Alert)
    (h : ConnEvent.read room (.ready (.error (.unexpectedAlert a))) ∈ (connRun cr c ops).1) : AlertReceived cr c a :=
  connRun_told cr c a hiv ops c [] [] (readInv_init cr c (by rw [hact]; nofun))
    ⟨hrec _, fun hh => by rw [hact] at hh; cases hh⟩ room h

/-- A transport of the examples: the bytes arrive in two pieces with a pause between, and the client's bytes are taken one
by one. -/
def refusalTransport (n cut : Nat) (data : Bytes) : Transport :=
  ⟨[.ready (data.take cut), .pending, .ready (data.drop cut)], List.replicate n (.accept 1), [.pending, .ok], [], []⟩

theorem refusalTransport_brings (n cut : Nat) (data : Bytes) (h1 : data.take cut ≠ []) (h2 : data.drop cut ≠ []) :
    WillBring (refusalTransport n cut data).reads data ∧ WillTake (refusalTransport n cut data).writes n ∧
      WillFlush (refusalTransport n cut data).flushes 1 := by
  refine ⟨⟨_, 0, by rw [List.replicate_zero, List.append_nil], ?_, ?_⟩, ⟨?_, ?_⟩, ⟨?_, Nat.le_refl 1⟩⟩
  · intro e he
    simp only [refusalTransport, List.mem_cons, List.not_mem_nil, or_false] at he
    rcases he with rfl | rfl | rfl
    · exact .inr ⟨_, h1, rfl⟩
    · exact .inl rfl
    · exact .inr ⟨_, h2, rfl⟩
  · simp only [refusalTransport, readData, List.append_nil]
    exact List.take_append_drop _ _
  · intro e he
    exact .inr ⟨1, by omega, List.eq_of_mem_replicate he⟩
  · simp only [refusalTransport]
    rw [List.filter_replicate]
    simp
  · simp [refusalTransport]

theorem refusal_hello : ∃ ch, handshakeBytes (X := Unit) (.clientHello (makeClientHello (List.replicate 32 1)
    (List.replicate 32 2) (List.replicate 32 8) toyConfig.serverName ["h2"])) = .ok ch := by
  have hch : (handshakeBytes (X := Unit) (.clientHello (makeClientHello (List.replicate 32 1) (List.replicate 32 2)
        (List.replicate 32 8) toyConfig.serverName ["h2"]))).toOption.isSome = true := by decide +kernel
  rcases h : handshakeBytes (X := Unit) (.clientHello (makeClientHello (List.replicate 32 1) (List.replicate 32 2)
        (List.replicate 32 8) toyConfig.serverName ["h2"])) with e | ch
  · rw [h] at hch; cases hch
  · exact ⟨ch, rfl⟩

/-- The hypotheses can be met: a ChangeCipherSpec record, then the alert 40, cut in the middle. -/
example : ∃ transport k, (establishPoll honestCrypto (pollTimes honestCrypto k (initialState (X := Unit) (K := Unit) transport
    toyConfig ["h2"] () (List.replicate 32 8) (List.replicate 32 1) (List.replicate 32 2)))).1
      = .ready (.error (.unexpectedMessage "Alert.HandshakeFailure")) := by
  obtain ⟨ch, hch⟩ := refusal_hello
  obtain ⟨h1, h2, h3⟩ := refusalTransport_brings (ch.length + 5) 8 (wire [⟨20, 3, 3, [1]⟩, ⟨21, 3, 3, [2, 40]⟩] ++ [])
    (by decide +kernel) (by decide +kernel)
  obtain ⟨k, _, _, h⟩ := C202_hello_refused honestCrypto _ toyConfig ["h2"] () (List.replicate 32 8) (List.replicate 32 1)
    (List.replicate 32 2) ch hch _ [] h1 [⟨20, 3, 3, [1]⟩, ⟨21, 3, 3, [2, 40]⟩] (by unfold WireRecord.Legal; decide +kernel) rfl
    ⟨21, 3, 3, [2, 40]⟩ [] (by decide +kernel) rfl 2 40 ⟨[], rfl⟩ h2 h3
  have hreason : alertReason 40 = "Alert.HandshakeFailure" := by decide +kernel
  rw [hreason] at h
  exact ⟨_, k, h⟩

/-- The hypotheses of `C202_only_if_told` can be met: the alert 40 in the clear. -/
example : toyCrypto.Expands ∧ toyCrypto.Correct ∧
    (∀ a b, toyCrypto.verifyCertificate a b ≠ .error (.unexpectedMessage (alertReason 40))) ∧
    (match (establishPoll toyCrypto (pollTimes toyCrypto 0 (initialState
        ⟨[.ready (encodeRecord .alert 0x0303 [2, 40])], [.accept 1000], [.ok], [], []⟩ toyConfig ["h2"] ()
        (List.replicate 32 8) (List.replicate 32 1) (List.replicate 32 2)))).1 with
      | .ready (.error e) => decide (e = .unexpectedMessage (alertReason 40))
      | _ => false) = true :=
  ⟨toyCrypto_expands, toyCrypto_correct, nofun, by decide +kernel⟩

/-- A protected alert of the examples. -/
def refusalRecord (n : Nat) (content : Bytes) : WireRecord :=
  ⟨23, 3, 3, match honestCrypto.aeadEncrypt .aes128Gcm toyHsKey.writeKey (nonceSpec toyHsKey.writeIv n)
      [23, 3, 3, UInt8.ofNat ((content.length + 17) / 256), UInt8.ofNat ((content.length + 17) % 256)] (content ++ [21]) with
    | some c => c
    | none => []⟩

/-- The records of the second example: the flight stops after its first protected message. -/
def brokenRecords : List WireRecord :=
  [⟨22, 3, 3, toyServerHello⟩, ⟨20, 3, 3, [1]⟩, honestRecord 0 toyEE, refusalRecord 1 [2, 120]]

/-- The hypotheses can be met: after EncryptedExtensions comes the alert 120. -/
example : ∃ transport k, (establishPoll honestCrypto (pollTimes honestCrypto k (initialState (X := Unit) (K := Unit) transport
    toyConfig ["h2"] () (List.replicate 32 8) (List.replicate 32 1) (List.replicate 32 2)))).1
      = .ready (.error (.unexpectedMessage "Alert.NoApplicationProtocol")) := by
  obtain ⟨ch, hch⟩ := refusal_hello
  obtain ⟨h1, h2, h3⟩ := refusalTransport_brings (ch.length + 5) 60 (wire brokenRecords ++ [])
    (by decide +kernel) (by decide +kernel)
  obtain ⟨k, _, _, h⟩ := C202_flight_broken_off honestCrypto honestCrypto_works toyCrypto_expands _ toyConfig ["h2"] ()
    (List.replicate 32 8) (List.replicate 32 1)
    (List.replicate 32 2) ch hch honestFlight honestFlight_legal ⟨.sha256, .aes128Gcm⟩ (List.replicate 32 3) toyHsKey
    (honestFlight_agreed ch) (by simp [honestFlight]) [toyEE] [toyCert, toyVerify, toyFinished 32] rfl (by simp)
    _ [] h1 brokenRecords (by unfold WireRecord.Legal; decide +kernel) rfl
    ⟨22, 3, 3, toyServerHello⟩ (refusalRecord 1 [2, 120]) [honestRecord 0 toyEE] [] (by decide +kernel) rfl rfl
    (by refine ⟨?_, ⟨0, ?_⟩, trivial⟩
        all_goals first | decide +kernel | (unfold WireRecord.Legal; decide +kernel))
    2 120 [2, 120] ⟨0, by decide +kernel⟩ ⟨[], rfl⟩ h2 h3
  have hreason : alertReason 120 = "Alert.NoApplicationProtocol" := by decide +kernel
  rw [hreason] at h
  exact ⟨_, k, h⟩

/-- A record of the third example, the alert 116. -/
def brokenRecord : WireRecord := ⟨23, 3, 3, (toyRecord 0 .alert [2, 116]).drop 5⟩

/-- The hypotheses can be met: the alert 116 arrives on a connection in two pieces. -/
example (rooms : List Nat) : ∃ k, k < 3 ∧ (readTimes toyCrypto (exampleConn [.ready (brokenRecord.bytes.take 9), .pending,
    .ready (brokenRecord.bytes.drop 9)]) rooms).1 = (rooms.take k).map (fun room => .read room .pending) ++
      (rooms.drop k).map (fun room => .read room (.ready (.error (.unexpectedAlert ⟨.fatal, .certificateRequired⟩)))) := by
  refine C202_connection_broken_off toyCrypto (exampleConn [.ready (brokenRecord.bytes.take 9), .pending,
    .ready (brokenRecord.bytes.drop 9)]) rfl rfl rfl (by decide) brokenRecord.bytes [] ⟨_, 0, (List.append_nil _).symm, ?_, ?_⟩
    ⟨brokenRecord.bytes.take 9, by simp [exampleConn, Conn.new, PlaintextStream.new]⟩ [brokenRecord]
    (by unfold WireRecord.Legal; decide +kernel) (by simp [exampleConn, Conn.new, PlaintextStream.new, RecordReceiver.new, wire])
    brokenRecord [] (by decide +kernel) 2 116 (by decide) [2, 116] ⟨0, by decide +kernel⟩ ⟨[], rfl⟩ rooms
  · intro e he
    simp only [exampleConn, Conn.new, PlaintextStream.new, List.mem_cons, List.not_mem_nil, or_false] at he
    rcases he with rfl | rfl | rfl
    · exact .inr ⟨_, by decide +kernel, rfl⟩
    · exact .inl rfl
    · exact .inr ⟨_, by decide +kernel, rfl⟩
  · simp only [exampleConn, Conn.new, PlaintextStream.new, readData, List.append_nil]
    exact List.take_append_drop _ _

/-- The hypotheses of `C202_read_only_if_told` can be met: after some data and a write, the alert 116. -/
example : (exampleConn []).readState = .active ∧ (exampleConn []).plaintext.receiver.readState = .active ∧
    ((connRun toyCrypto (exampleConn [.ready (toyRecord 0 .applicationData [1, 2, 3]),
      .ready (toyRecord 1 .alert [2, 116])]) [.read 10, .write [7], .read 10]).1.getLast?.map
        (fun | .read _ (.ready (.error e)) => decide (e = .unexpectedAlert ⟨.fatal, .certificateRequired⟩) | _ => false))
      = some true := by
  refine ⟨rfl, rfl, ?_⟩
  decide +kernel

end Ngfs.Tls
