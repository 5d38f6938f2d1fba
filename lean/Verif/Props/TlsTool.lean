import Verif.Lemmas.TlsTool
import Verif.Props.TlsAttack
import Verif.Props.X509Handshake

/-!
C150, C151: the TLS client program (`src/bin/tls_client.rs`).
-/
namespace Ngfs.Tls
open Ngfs.Spec

/-! ## C150: with whom it talks -/

/-- **C150**, the options: exactly these combinations are accepted, and they mean this. (The decoder's loops need six
iterations for a text that it accepts.) -/
theorem C150_options (n : Nat) (hn : 6 ≤ n) (files : String → Except IoKind Bytes) (opt : ToolOpt) (config : ClientConfig) :
    parseArgs n files opt = .ok config ↔
      SaysServer files opt config.serverAuth ∧ SaysClient files opt config.clientAuth ∧ config.serverName = none := by
  constructor
  · intro h
    unfold parseArgs at h
    simp only [bind, Except.bind] at h
    cases h1 : optional (readCertificate n files) opt.caCert with
    | error e => rw [h1] at h; cases h
    | ok caCert =>
    cases h2 : optional (readCertificate n files) opt.clientCert with
    | error e => rw [h1, h2] at h; cases h
    | ok clientCert =>
    cases h3 : optional (readKey n files) opt.clientKey with
    | error e => rw [h1, h2, h3] at h; cases h
    | ok clientKey =>
    rw [h1, h2, h3] at h
    simp only at h
    have hserver : SaysServer files opt (serverAuthOf caCert) := by
      rcases optional_ok.mp h1 with ⟨g1, rfl⟩ | ⟨name, a, g1, g2, rfl⟩
      · exact .inl ⟨g1, rfl⟩
      · exact .inr ⟨name, a, g1, (certificateFile_iff hn).mp g2, rfl⟩
    rcases optional_ok.mp h2 with ⟨g1, rfl⟩ | ⟨name, a, g1, g2, rfl⟩ <;>
    rcases optional_ok.mp h3 with ⟨k1, rfl⟩ | ⟨keyName, ⟨isRsa, key⟩, k1, k2, rfl⟩
    · cases h; exact ⟨hserver, .inl ⟨g1, k1, rfl⟩, rfl⟩
    · cases h
    · cases h
    · cases h
      exact ⟨hserver, .inr ⟨name, a, keyName, key, isRsa, g1, (certificateFile_iff hn).mp g2, k1, (keyFile_iff hn).mp k2, rfl⟩, rfl⟩
  · obtain ⟨clientAuth, serverAuth, serverName⟩ := config
    rintro ⟨hs, hc, hname⟩
    simp only at hs hc hname
    subst hname
    unfold parseArgs
    have h1 : ∃ caCert, optional (readCertificate n files) opt.caCert = .ok caCert ∧ serverAuth = (serverAuthOf caCert) := by
      rcases hs with ⟨g1, rfl⟩ | ⟨name, raw, g1, g2, rfl⟩
      · exact ⟨none, optional_ok.mpr (.inl ⟨g1, rfl⟩), rfl⟩
      · exact ⟨some raw, optional_ok.mpr (.inr ⟨name, raw, g1, (certificateFile_iff hn).mpr g2, rfl⟩), rfl⟩
    obtain ⟨caCert, h1, rfl⟩ := h1
    rw [h1]
    rcases hc with ⟨g1, k1, rfl⟩ | ⟨name, raw, keyName, rawKey, isRsa, g1, g2, k1, k2, rfl⟩
    · rw [optional_ok.mpr (.inl ⟨g1, rfl⟩), optional_ok.mpr (.inl ⟨k1, rfl⟩)]
      rfl
    · rw [optional_ok.mpr (.inr ⟨name, raw, g1, (certificateFile_iff hn).mpr g2, rfl⟩),
        optional_ok.mpr (.inr ⟨keyName, (isRsa, rawKey), k1, (keyFile_iff hn).mpr k2, rfl⟩)]
      rfl

/-- The program has a connection, or has printed something, only if the options were right and the handshake has yielded a
connection. -/
theorem started {X K : Type} (cr : Crypto X K) (n : Nat) (files : String → Except IoKind Bytes) (opt : ToolOpt)
    (socket : String → Except IoKind Transport) (privateKey : K) (publicKey random sessionId : Bytes) (k : Nat) (t : Tool X K)
    (ht : t = Tool.run cr k (Tool.start n files opt socket privateKey publicKey random sessionId))
    (hr : t.shown ≠ [] ∨ t.stage.conn ≠ none) :
    ∃ config transport, parseArgs n files opt = .ok config ∧ socket (opt.address.getD "localhost:443") = .ok transport ∧
      ToolInv cr (initialState transport { config with serverName := some "localhost" } ["h2", "http/1.1"] privateKey
        publicKey random sessionId) t := by
  unfold Tool.start at ht
  cases h1 : parseArgs n files opt with
  | error e =>
    rw [h1] at ht
    simp only [run_failed] at ht
    subst ht
    rcases hr with hr | hr <;> exact absurd rfl hr
  | ok config =>
    cases h2 : socket (opt.address.getD "localhost:443") with
    | error e =>
      rw [h1] at ht
      simp only [h2, run_failed] at ht
      subst ht
      rcases hr with hr | hr <;> exact absurd rfl hr
    | ok transport =>
      rw [h1] at ht
      simp only [h2] at ht
      refine ⟨config, transport, rfl, rfl, ?_⟩
      rw [ht]
      exact toolInv_run cr _ k _ ⟨⟨0, rfl⟩, rfl⟩

theorem inv_established {X K : Type} {cr : Crypto X K} {s0 : ECState X K} {t : Tool X K} (h : ToolInv cr s0 t)
    (hr : t.shown ≠ [] ∨ t.stage.conn ≠ none) : ∃ c0, Established cr s0 c0 := by
  obtain ⟨stage, shown⟩ := t
  cases stage with
  | connecting s => rcases hr with hr | hr <;> [exact absurd h.2 hr; exact absurd rfl hr]
  | writing c rest => obtain ⟨c0, _, h, _⟩ := h; exact ⟨c0, h⟩
  | flushing c => obtain ⟨c0, _, h, _⟩ := h; exact ⟨c0, h⟩
  | reading c => obtain ⟨c0, _, h, _⟩ := h; exact ⟨c0, h⟩
  | ended c => obtain ⟨c0, _, h, _⟩ := h; exact ⟨c0, h⟩
  | failed e =>
    rcases hr with hr | hr
    · rcases h with h | ⟨c0, _, _, h, _⟩
      · exact absurd h hr
      · exact ⟨c0, h⟩
    · exact absurd rfl hr

/-- **C150**. If the program has come so far as to have a connection on which it can send its request, or has printed
anything, then a file with an authority's certificate was given, and the server has shown a certificate that this
authority's key has signed, and proved with that certificate's key that this very handshake is its own. -/
theorem C150_authenticated {K : Type} (cr : Crypto X509.Certificate K) (verify : X509.SigAlg → Bytes → Bytes → Bytes → Bool)
    (hcr : Certified cr verify) (hx : cr.Expands) (hc : cr.Correct) (n : Nat) (hn : 6 ≤ n)
    (files : String → Except IoKind Bytes) (opt : ToolOpt) (socket : String → Except IoKind Transport)
    (hsocket : ∀ a transport, socket a = .ok transport → transport.sent = []) (privateKey : K)
    (publicKey random sessionId : Bytes) (k : Nat) (t : Tool X509.Certificate K)
    (ht : t = Tool.run cr k (Tool.start n files opt socket privateKey publicKey random sessionId))
    (hr : t.shown ≠ [] ∨ t.stage.conn ≠ none) :
    ∃ (name : String) (caRaw : Bytes) (ca c : X509.Certificate) (ch : Bytes) (f : Flight X509.Certificate)
      (entry : CertificateEntry X509.Certificate) (more : List (CertificateEntry X509.Certificate)) (alg : HashAlg),
      opt.caCert = some name ∧ PemFile files name "CERTIFICATE" caRaw ∧
      handshakeBytes (X := X509.Certificate)
        (.clientHello (makeClientHello random sessionId publicKey (some "localhost") ["h2", "http/1.1"])) = .ok ch ∧
      f.Legal cr ∧ f.cert.certificateList = entry :: more ∧
      X509.Certificate.fromBytes caRaw = .ok ca ∧ X509.Certificate.fromBytes entry.data = .ok c ∧
      Spec.SignedBy verify ca c entry.data ∧
      cr.sigVerify f.cv.algorithm (Spec.keyOf c) (signedContent (cr.hash alg (f.toCertificate ch))) f.cv.signature = true := by
  obtain ⟨config, transport, h1, h2, h3⟩ := started cr n files opt socket privateKey publicKey random sessionId k t ht hr
  obtain ⟨conn, k', hconn⟩ := inv_established h3 hr
  obtain ⟨hs, -, -⟩ := (C150_options n hn files opt config).mp h1
  rcases hs with ⟨-, hs⟩ | ⟨name, caRaw, g1, g2, hs⟩
  · exact absurd hconn (C29_no_trust_anchor cr hx hc transport (hsocket _ _ h2) { config with serverName := some "localhost" } _
      privateKey publicKey random sessionId k' conn hs)
  · obtain ⟨ca, c, ch, f, entry, more, a1, a2, a3, a4, a5, a6, a7⟩ := C100_handshake cr verify hcr hx hc transport (hsocket _ _ h2)
      { config with serverName := some "localhost" } caRaw hs _ privateKey publicKey random sessionId k' conn hconn
    exact ⟨name, caRaw, ca, c, ch, f, entry, more, _, g1, g2, a1, a2, a3, a4, a5, a6, a7⟩

/-! ## C151: what it shows -/

theorem waits_history {X K : Type} {cr : Crypto X K} {s0 : ECState X K} {t : Tool X K} (h : ToolInv cr s0 t) (hw : t.Waits) :
    ∃ c0 c ops, Established cr s0 c0 ∧ History cr c0 c t.shown [] ops ∧ c.plaintext.outgoing = [] := by
  obtain ⟨stage, shown⟩ := t
  have hne : shown ≠ [] ∨ ∃ c, stage = .reading c ∨ stage = .ended c := hw
  cases stage with
  | reading c => obtain ⟨c0, ops, h1, h2, h3, _⟩ := h; exact ⟨c0, c, ops, h1, h2, h3⟩
  | ended c => obtain ⟨c0, ops, h1, h2, h3, _⟩ := h; exact ⟨c0, c, ops, h1, h2, h3⟩
  | failed e =>
    rcases hne with hne | ⟨c, h' | h'⟩
    · rcases h with h | ⟨c0, c, ops, h1, h2, h3, _⟩
      · exact absurd h hne
      · exact ⟨c0, c, ops, h1, h2, h3⟩
    · cases h'
    · cases h'
  | connecting s =>
    rcases hne with hne | ⟨c, h' | h'⟩
    · exact absurd h.2 hne
    · cases h'
    · cases h'
  | writing c rest =>
    rcases hne with hne | ⟨c, h' | h'⟩
    · obtain ⟨_, _, _, _, h⟩ := h; exact absurd h hne
    · cases h'
    · cases h'
  | flushing c =>
    rcases hne with hne | ⟨c, h' | h'⟩
    · obtain ⟨_, _, _, _, h⟩ := h; exact absurd h hne
    · cases h'
    · cases h'

theorem conn_of_waits {X K : Type} {t : Tool X K} (hw : t.Waits) : t.shown ≠ [] ∨ t.stage.conn ≠ none := by
  rcases hw with h | ⟨c, h | h⟩
  · exact .inl h
  · exact .inr (by rw [h]; simp [Stage.conn])
  · exact .inr (by rw [h]; simp [Stage.conn])

/-- What the established connection of a handshake is like at its beginning. -/
theorem established_fresh {X K : Type} {cr : Crypto X K} (hx : cr.Expands) (hc : cr.Correct) {transport : Transport}
    (ht : transport.sent = []) {config : ClientConfig} {names : List String} {privateKey : K}
    {publicKey random sessionId : Bytes} {conn : Conn}
    (h : Established cr (initialState transport config names privateKey publicKey random sessionId) conn) : conn.Fresh := by
  obtain ⟨k, h⟩ := h
  obtain ⟨_, _, _, _, -, -, -, -, -, -, -, hf⟩ := C29_server_authenticated cr hx hc transport ht config names
    privateKey publicKey random sessionId k conn h
  exact hf

/-- **C151**. Once the program waits for the answer, the whole request has been given to the transport, in protected
records, and nothing else since the handshake. What it shows is application data from authentic records in order (a
beginning of what was taken in), and it reports the end of the stream only if an authentic close alert came, or an
authentic empty record. If the other end `a` of the connection made these calls, and nobody has forged its records, then
what is shown is a beginning of what `a` wrote; and if the end of the stream is reported (and `a` made no empty
writes), then `a` did shut down, and everything it wrote has been shown. -/
theorem C151_shown {X K : Type} (cr : Crypto X K) (hx : cr.Expands) (hc : cr.Correct) (n : Nat)
    (files : String → Except IoKind Bytes) (opt : ToolOpt) (socket : String → Except IoKind Transport)
    (hsocket : ∀ a transport, socket a = .ok transport → transport.sent = []) (privateKey : K)
    (publicKey random sessionId : Bytes) (k : Nat) (t : Tool X K)
    (ht : t = Tool.run cr k (Tool.start n files opt socket privateKey publicKey random sessionId)) (hw : t.Waits) :
    ∃ (config : ClientConfig) (transport : Transport) (conn now : Conn) (ws : List WireRecord) (parts : List Bytes),
      parseArgs n files opt = .ok config ∧ socket (opt.address.getD "localhost:443") = .ok transport ∧
      Established cr (initialState transport { config with serverName := some "localhost" } ["h2", "http/1.1"] privateKey
        publicKey random sessionId) conn ∧
      (now.plaintext.inner.sent = conn.plaintext.inner.sent ++ wire ws ∧
        ProtectsAll cr conn.seqenc.trafficSecrets.client 0 ws (dataMessages parts) ∧
        parts.flatten = ascii "GET / HTTP/1.1\r\nHost: localhost\r\nConnection: close\r\n\r\n") ∧
      (∃ all taken msgs, Received cr conn now all taken msgs ∧ shownBytes t.shown <+: appData msgs ∧
        (.eof ∈ t.shown → ∃ m ∈ msgs, IsCloseNotify m ∨ m = (23, []))) ∧
      ∀ (a : Conn) (ops : List ConnOp), PeerOf a conn → a.plaintext.writeState = .active →
        a.plaintext.inner.sent = [] ∧ a.plaintext.outgoing = [] →
        NotForged cr a.seqenc.trafficSecrets.client a.seqenc.clientSequenceNo
          ((connRun cr a ops).2.plaintext.inner.sent ++ (connRun cr a ops).2.plaintext.outgoing) conn.plaintext.unread →
        shownBytes t.shown <+: (accepted (connRun cr a ops).1).flatten ∧
        ((∀ d ∈ accepted (connRun cr a ops).1, d ≠ []) → .eof ∈ t.shown →
          .shutdown ∈ ops ∧ shownBytes t.shown = (accepted (connRun cr a ops).1).flatten) := by
  obtain ⟨config, transport, h1, h2, h3⟩ := started cr n files opt socket privateKey publicKey random sessionId k t ht
    (conn_of_waits hw)
  obtain ⟨conn, now, ops', h4, hh, ho⟩ := waits_history h3 hw
  have hf := established_fresh hx hc (hsocket _ _ h2) h4
  obtain ⟨ws, closed, g0, g1, g2, -⟩ := C27_write_stream cr hc conn hf.clientIv hf.writing ops'
  have hcl : closed = false := by
    cases closed with
    | false => rfl
    | true => exact absurd (g0 rfl) hh.noShutdown
  subst hcl
  rw [hh.conn, ho, hf.outgoing, List.append_nil, List.append_nil] at g1
  rw [hf.clientSeq, if_neg (by simp), List.append_nil] at g2
  obtain ⟨msgs, hi, he, -⟩ := readInv_run cr conn hf.serverIv ops' conn [] [] (readInv_init cr conn (by rw [hf.reading]; simp))
  obtain ⟨all, taken, hrec⟩ := hi.received
  rw [hh.conn] at hrec
  have hd := hi.data
  rw [hf.decrypted, List.nil_append, List.nil_append, hh.conn, ← hh.data] at hd
  have hreq := hh.request
  rw [List.append_nil] at hreq
  refine ⟨config, transport, conn, now, ws, _, h1, h2, h4, ⟨g1, g2, by rw [hreq]; unfold request; rfl⟩,
    ⟨all, taken, msgs, hrec, hd ▸ List.prefix_append _ _, fun hm => he ⟨bufSize, by decide, hh.eof hm⟩⟩, ?_⟩
  intro a ops hp hact hfresh hforged
  obtain ⟨k1, k2⟩ := C148_nobody_between cr hc a conn hp (by rw [← hp.key]; exact hf.serverIv) hact hfresh ops ops' hforged
  rw [← hh.data] at k1 k2
  exact ⟨k1, fun hne hm => k2 hne bufSize (by decide) (hh.eof hm)⟩



/-! ### The hypotheses of C150 and C151 can be met -/

def exampleOpt : ToolOpt := ⟨some "ca.pem", none, none, none⟩

def exampleFiles (raw : Bytes) (name : String) : Except IoKind Bytes :=
  if name = "ca.pem" then .ok (Pem.encodePem raw "CERTIFICATE") else .error (.other 2)

def exampleStart {X K : Type} (raw : Bytes) (key : K) (transport : Transport) : Tool X K :=
  Tool.start 6 (exampleFiles raw) exampleOpt (fun _ => .ok transport) key (List.replicate 32 8) (List.replicate 32 1)
    (List.replicate 32 2)

theorem exampleStart_eq {X K : Type} (raw : Bytes) (key : K) (transport : Transport) :
    exampleStart (X := X) raw key transport = ⟨.connecting (initialState transport ⟨.none, .certificateAuthority raw, some "localhost"⟩
      ["h2", "http/1.1"] key (List.replicate 32 8) (List.replicate 32 1) (List.replicate 32 2)), []⟩ := by
  have hp : parseArgs 6 (exampleFiles raw) exampleOpt = .ok ⟨.none, .certificateAuthority raw, none⟩ := by
    refine (C150_options 6 (by decide) _ _ _).mpr ⟨.inr ⟨"ca.pem", raw, rfl, ?_, rfl⟩, .inl ⟨rfl, rfl, rfl⟩, rfl⟩
    obtain ⟨h, body, f, h1, h2, h3, h4, h5⟩ := (Pem.C66_accepts_exactly _ _ _ 6 (by decide)).mp
      (Pem.C47_pem_round_trip raw "CERTIFICATE" (by unfold LabelText; decide +kernel) 6 (by decide)).1
    exact ⟨h, body, f, by rw [← h4]; rfl, h1, h2, h3, h5⟩
  unfold exampleStart Tool.start
  rw [hp]

/-- With the sample certificate as authority, the program gets a connection. -/
example : ((exampleStart X509.sampleBytes () (toyTransport [toyEE, certMessage, toyVerify, toyFinished 32])).run certCrypto 1).stage.conn
    ≠ none := by
  have : ((exampleStart X509.sampleBytes () (toyTransport [toyEE, certMessage, toyVerify, toyFinished 32])).run certCrypto
    1).stage.conn.isSome = true := by
    rw [exampleStart_eq]
    decide +kernel
  intro h
  rw [h] at this
  cases this

/-- The server's end of the connection, and what it does. -/
def examplePeer : Conn :=
  Conn.new (.new ⟨[], List.replicate 6 (.accept 1000), List.replicate 6 .ok, [.ok], []⟩ .new)
    ⟨0, 0, ⟨toyHsKey, toyHsKey⟩, ⟨.sha256, .aes128Gcm⟩⟩

def examplePeerOps : List ConnOp := [.write [1, 2], .write [3], .flush, .shutdown]

/-- Its records. -/
def examplePeerRecords : List WireRecord :=
  [(0, ContentType.applicationData, [1, 2]), (1, .applicationData, [3]), (2, .alert, [1, 0])].map fun p =>
    ⟨23, 3, 3, (encryptRecord toyCrypto (.new ⟨[], [], [], [], []⟩ .new) p.2.2 p.2.1 toyHsKey p.1).2.outgoing.drop 5⟩

/-- With a made-up record before the last. -/
def exampleAttacked : List WireRecord :=
  examplePeerRecords.take 2 ++ [⟨23, 3, 3, [9, 23] ++ List.replicate 16 0⟩] ++ examplePeerRecords.drop 2

/-- A transport that brings the handshake and then these records. -/
def exampleServer (ws : List WireRecord) : Transport :=
  { toyTransport [toyEE, toyCert, toyVerify, toyFinished 32] with
    reads := (toyTransport [toyEE, toyCert, toyVerify, toyFinished 32]).reads ++
      [.ready ((wire ws).take 30), .pending, .ready ((wire ws).drop 30)] ++ List.replicate 8 (.ready [])
    writes := List.replicate 40 (.accept 30), flushes := List.replicate 6 .ok }

/-- The connection that the program gets. -/
def exampleConnection (ws : List WireRecord) : Poll (Except TlsErr Conn) :=
  (establishPoll toyCrypto (initialState (X := Unit) (exampleServer ws) ⟨.none, .certificateAuthority [1], some "localhost"⟩
    ["h2", "http/1.1"] () (List.replicate 32 8) (List.replicate 32 1) (List.replicate 32 2))).1

def connectionIs (r : Poll (Except TlsErr Conn)) (unread : Bytes) : Bool :=
  match r with
  | .ready (.ok b) => decide (b.plaintext.unread = unread) &&
    decide (b.seqenc.trafficSecrets.server = examplePeer.seqenc.trafficSecrets.client) &&
    decide (b.seqenc.serverSequenceNo = 0) && decide (b.readState = .active) && decide (b.incomingDecrypted = [])
  | _ => false

/-- The program waits for the answer; without the attack it shows all and the end, with it only what is authentic. -/
example : ((exampleStart (X := Unit) [1] () (exampleServer examplePeerRecords)).run toyCrypto 20).shown
      = [.data [1, 2], .data [3], .eof] ∧
    ((exampleStart (X := Unit) [1] () (exampleServer exampleAttacked)).run toyCrypto 20).shown = [.data [1, 2], .data [3]] := by
  rw [exampleStart_eq, exampleStart_eq]
  decide +kernel

/-- The server is the other end of that connection, and nobody has forged its records. -/
example : ∃ conn, exampleConnection exampleAttacked = .ready (.ok conn) ∧ PeerOf examplePeer conn ∧
    NotForged toyCrypto examplePeer.seqenc.trafficSecrets.client examplePeer.seqenc.clientSequenceNo
      ((connRun toyCrypto examplePeer examplePeerOps).2.plaintext.inner.sent ++
        (connRun toyCrypto examplePeer examplePeerOps).2.plaintext.outgoing) conn.plaintext.unread := by
  have h : connectionIs (exampleConnection exampleAttacked) (wire exampleAttacked) = true := by decide +kernel
  generalize exampleConnection exampleAttacked = r at h
  rcases r with _ | (e | conn)
  · cases h
  · cases h
  · simp only [connectionIs, Bool.and_eq_true, decide_eq_true_eq] at h
    obtain ⟨⟨⟨⟨h1, h2⟩, h3⟩, h4⟩, h5⟩ := h
    refine ⟨conn, rfl, ⟨h2, h3, h4, h5⟩, ?_⟩
    rw [h1]
    exact notForged_of examplePeerRecords exampleAttacked (by decide +kernel) rfl (by decide +kernel) (by decide +kernel)
      (by decide +kernel)

end Ngfs.Tls
