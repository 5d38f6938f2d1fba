import Verif.Lemmas.TlsEnd
import Verif.Lemmas.TlsReadSafe
import Verif.Props.TlsConn

/-!
C144 (a successful shutdown has told the peer) and C145 (two ends of a TLS connection: what one
wrote before it shut down, the other reads, and then the end).
-/
namespace Ngfs.Tls

/-! ## C144: shutdown -/

/-- C144. For every history of calls and every behaviour of the transport: if one of the calls is a shutdown that
answered "done", then everything that was accepted has been passed to the transport, as whole records in order, and
after it one record with the alert "close notify", and nothing after that; nothing is waiting. -/
theorem C144_shutdown_tells {X K : Type} (cr : Crypto X K) (hc : cr.Correct) (c : Conn)
    (hiv : c.seqenc.trafficSecrets.client.writeIv.length = 12) (hact : c.plaintext.writeState = .active)
    (ops : List ConnOp) (hok : .shutdown (.ready (.ok ())) ∈ (connRun cr c ops).1) :
    ∃ ws : List WireRecord,
      (connRun cr c ops).2.plaintext.inner.sent = c.plaintext.inner.sent ++ c.plaintext.outgoing ++ wire ws ∧
      (connRun cr c ops).2.plaintext.outgoing = [] ∧
      ProtectsAll cr c.seqenc.trafficSecrets.client c.seqenc.clientSequenceNo ws
        (dataMessages (accepted (connRun cr c ops).1) ++ [closeMessage]) ∧
      ∀ w ∈ ws, w.Outer := by
  obtain ⟨⟨k, extra, _, h⟩, ho⟩ := shutdown_ok_run hc hiv ops c [] 0 false (sendInv_init cr c hact) hok
  obtain ⟨ws, _, h1, h2, h3⟩ := h.stream
  refine ⟨ws, ?_, ho, ?_, h3⟩
  · simp only [Conn.tx, ho, List.append_nil] at h1
    exact h1
  · simpa [Conn.tx] using h2

/-- C144: and that shutdown shut down the transport itself, which said that it was done. -/
theorem C144_transport_shut_down {X K : Type} (cr : Crypto X K) (hc : cr.Correct) (c : Conn)
    (hiv : c.seqenc.trafficSecrets.client.writeIv.length = 12) (hact : c.plaintext.writeState = .active)
    (ops : List ConnOp) (hok : (((connRun cr c ops).2.pollShutdown cr).1 = .ready (.ok ()))) :
    (connRun cr c ops).2.plaintext.inner.shutdowns
      = .ok :: ((connRun cr c ops).2.pollShutdown cr).2.plaintext.inner.shutdowns := by
  obtain ⟨closed, h, _, _⟩ := sendInv_run hc hiv ops (sendInv_init cr c hact)
  exact (sendInv_shutdown_ok hc hiv h hok).2.2.2

/-- The sending end of the examples: a transport that takes three bytes, then nothing for a while, then everything. -/
def exampleSender : Conn :=
  Conn.new (.new ⟨[], [.accept 3, .pending] ++ List.replicate 6 (.accept 1000), List.replicate 6 .ok, [.ok], []⟩ .new)
    (exampleConn []).seqenc

/-- The calls of the examples. -/
def exampleOps : List ConnOp := [.write [1, 2], .write [3], .write [3], .flush, .shutdown]

theorem exampleOps_shutdown : .shutdown (.ready (.ok ())) ∈ (connRun toyCrypto exampleSender exampleOps).1 := by
  have h : ((connRun toyCrypto exampleSender [.write [1, 2], .write [3], .write [3], .flush]).2.pollShutdown toyCrypto).1
    = .ready (.ok ()) := by decide +kernel
  simp only [exampleOps, connRun, ConnOp.step] at h ⊢
  simp [h]

example : exampleSender.plaintext.writeState = .active ∧
    .shutdown (.ready (.ok ())) ∈ (connRun toyCrypto exampleSender exampleOps).1 := ⟨rfl, exampleOps_shutdown⟩

/-! ## C145: both ends -/

/-- The transport of the reading end brings exactly these bytes, in pieces of any sizes with pauses anywhere, then
its end, and goes on saying so `k` times. -/
def Brings (reads : List ReadEvent) (data : Bytes) (k : Nat) : Prop :=
  ∃ es, reads = es ++ List.replicate k (.ready []) ∧ (∀ e ∈ es, Benign e) ∧ readData es = data

/-- A connection that has just been established and is the other end of `a`: it receives with the key with which
`a` sends, from the same record number. -/
structure PeerOf (a b : Conn) : Prop where
  key : b.seqenc.trafficSecrets.server = a.seqenc.trafficSecrets.client
  number : b.seqenc.serverSequenceNo = a.seqenc.clientSequenceNo
  active : b.readState = .active
  nothing : b.incomingDecrypted = []

/-- The same, and no bytes have come in yet. -/
structure OtherEnd (a b : Conn) : Prop extends PeerOf a b where
  receiver : b.plaintext.receiver = .new

/-- C145, at all times: whatever calls the two ends make and whatever their transports do otherwise (pauses, errors, an
early end, writes taken in part), if the bytes that arrive are a beginning of those that were sent, then the bytes read
are a beginning of those that the writes accepted. -/
theorem C145_always_a_beginning {X K : Type} (cr : Crypto X K) (hc : cr.Correct) (a b : Conn) (hab : OtherEnd a b)
    (hiv : a.seqenc.trafficSecrets.client.writeIv.length = 12) (hact : a.plaintext.writeState = .active)
    (hfresh : a.plaintext.inner.sent = [] ∧ a.plaintext.outgoing = []) (ops ops' : List ConnOp)
    (hb : readData b.plaintext.inner.reads <+: (connRun cr a ops).2.plaintext.inner.sent) :
    readBytes (connRun cr b ops').1 <+: (accepted (connRun cr a ops).1).flatten := by
  obtain ⟨ws, closed, _, h1, h2, h3⟩ := C27_write_stream cr hc a hiv hact ops
  rw [hfresh.1, hfresh.2] at h1
  obtain ⟨never, hn⟩ := hb
  have hrx : SafeRx cr b (accepted (connRun cr a ops).1) closed ws (never ++ (connRun cr a ops).2.plaintext.outgoing) := by
    refine ⟨by rw [hab.key]; exact hiv, ?_, ?_, h3⟩
    · rw [hab.receiver, ← List.append_assoc]
      show readData b.plaintext.inner.reads ++ never ++ _ = _
      rw [hn, h1]
      rfl
    · rw [hab.key, hab.number]; exact h2
  have := safe_run ops' hrx
  rwa [hab.nothing, List.nil_append] at this

/-- C145. One end makes any calls, with any behaviour of its transport, among them a shutdown that answered "done",
and makes no empty writes; the transport between the ends brings what was sent, cut in any way, and then its end. The other end makes
any calls. Then its reads never fail and give a beginning of what the first end's writes accepted; if a read answers
"end", or after enough reads, they have given exactly all of it. -/
theorem C145_end_to_end {X K : Type} (cr : Crypto X K) (hc : cr.Correct) (a b : Conn) (hab : OtherEnd a b)
    (hiv : a.seqenc.trafficSecrets.client.writeIv.length = 12) (hact : a.plaintext.writeState = .active)
    (hfresh : a.plaintext.inner.sent = [] ∧ a.plaintext.outgoing = [])
    (ops : List ConnOp) (hok : .shutdown (.ready (.ok ())) ∈ (connRun cr a ops).1)
    (hne : ∀ d ∈ accepted (connRun cr a ops).1, d ≠ [])
    (k : Nat) (hk : (accepted (connRun cr a ops).1).length + 1 ≤ k)
    (hb : Brings b.plaintext.inner.reads (connRun cr a ops).2.plaintext.inner.sent k)
    (ops' : List ConnOp) (hrooms : ∀ room, .read room ∈ ops' → 0 < room) :
    readBytes (connRun cr b ops').1 <+: (accepted (connRun cr a ops).1).flatten ∧
    (∀ room answer, .read room answer ∈ (connRun cr b ops').1 → answer = .pending ∨ ∃ d, answer = .ready (.ok d)) ∧
    ((∃ room, .read room (.ready (.ok [])) ∈ (connRun cr b ops').1) →
      readBytes (connRun cr b ops').1 = (accepted (connRun cr a ops).1).flatten) ∧
    (b.plaintext.inner.reads.length + (accepted (connRun cr a ops).1).flatten.length < readCount ops' →
      readBytes (connRun cr b ops').1 = (accepted (connRun cr a ops).1).flatten ∧
      ∀ room, ((connRun cr b ops').2.pollRead cr room).1 = .ready (.ok [])) := by
  obtain ⟨ws, h1, _, h3, h4⟩ := C144_shutdown_tells cr hc a hiv hact ops hok
  rw [hfresh.1, hfresh.2] at h1
  obtain ⟨es, hr, hben, hdata⟩ := hb
  have hlen : ∀ (n : Nat) (ws : List WireRecord) (ms : List (UInt8 × Bytes)),
      ProtectsAll cr a.seqenc.trafficSecrets.client n ws ms → ws.length = ms.length := by
    intro n ws
    induction ws generalizing n with
    | nil => intro ms h; rcases ms with _ | ⟨m, ms⟩; rfl; exact absurd h id
    | cons w ws ih =>
      intro ms h
      rcases ms with _ | ⟨m, ms⟩
      · exact absurd h id
      · simp [ih _ _ h.2.2]
  have hl := hlen _ _ _ h3
  simp only [dataMessages, List.length_append, List.length_map, List.length_cons, List.length_nil] at hl
  have hrx : Rx cr b (accepted (connRun cr a ops).1) es k ws := by
    refine ⟨by rw [hab.key]; exact hiv, hab.active, ?_, hr, hben, ?_, ?_, h4, by omega⟩
    · rw [hab.receiver, hdata, h1]; rfl
    · rw [hab.receiver]; exact Or.inl rfl
    · rw [hab.key, hab.number]; exact h3
  obtain ⟨⟨rest, i1⟩, i2, i3⟩ := rx_run ops' hrooms hrx hne
  rw [hab.nothing, List.nil_append] at i1 i3
  refine ⟨⟨rest, i1.symm⟩, i2, fun he => (i3 (Or.inr he)).1, fun hcount => ?_⟩
  obtain ⟨j1, j2⟩ := i3 (Or.inl hcount)
  refine ⟨j1, fun room => ?_⟩
  unfold Conn.pollRead
  rw [j2]

/-- The other end of the connection of the examples. -/
def exampleOther (reads : List ReadEvent) : Conn :=
  Conn.new (.new ⟨reads, [], [], [], []⟩ .new)
    ⟨0, 0, ⟨⟨[], .aes128Gcm, List.replicate 16 5, List.replicate 12 5⟩,
      ⟨[], .aes128Gcm, List.replicate 16 4, List.replicate 12 4⟩⟩, ⟨.sha256, .aes128Gcm⟩⟩

/-- What the first end sent. -/
def exampleSent : Bytes := (connRun toyCrypto exampleSender exampleOps).2.plaintext.inner.sent

/-- The transport cuts it inside the first record and inside the last one. -/
def exampleReads : List ReadEvent :=
  [.ready (exampleSent.take 3), .pending, .ready ((exampleSent.drop 3).take 60), .ready (exampleSent.drop 63)]
    ++ List.replicate 4 (.ready [])

example : accepted (connRun toyCrypto exampleSender exampleOps).1 = [[1, 2], [3]] ∧
    OtherEnd exampleSender (exampleOther exampleReads) ∧
    Brings (exampleOther exampleReads).plaintext.inner.reads exampleSent 4 ∧
    readBytes (connRun toyCrypto (exampleOther exampleReads) (List.replicate 8 (.read 1))).1 = [1, 2, 3] := by
  refine ⟨by decide +kernel, ⟨⟨rfl, rfl, rfl, rfl⟩, rfl⟩, ⟨_, rfl, ?_, by decide +kernel⟩, by decide +kernel⟩
  intro e he
  simp only [List.mem_cons, List.not_mem_nil, or_false] at he
  rcases he with rfl | rfl | rfl | rfl
  · show exampleSent.take 3 ≠ []; decide +kernel
  · trivial
  · show (exampleSent.drop 3).take 60 ≠ []; decide +kernel
  · show exampleSent.drop 63 ≠ []; decide +kernel

end Ngfs.Tls
