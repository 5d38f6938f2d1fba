import Verif.Lemmas.IpfsTls
import Verif.Lemmas.IpfsHonest

/-! C174: the negotiation of the program `ipfs` over its TLS connection, with somebody on the network. -/
namespace Ngfs.Ipfs
open Io Varint Spec Spec.Io Spec.Ipfs Tls

/-- **C174**. The program negotiates over one end of a TLS connection; somebody who does not have the keys may make up, change, repeat,
reorder and leave out what is on the way, and the network may deliver in any pieces and break at any point. If the negotiation succeeds, then
the other end itself has written to its connection, first of all, the header, a whole list with exactly the names that are printed, and
the name of the protocol. -/
theorem C174_nobody_between {X K : Type} (cr : Crypto X K) (hc : cr.Correct) (a b : Conn) (hab : PeerOf a b)
    (hiv : a.seqenc.trafficSecrets.client.writeIv.length = 12) (hact : a.plaintext.writeState = .active)
    (hfresh : a.plaintext.inner.sent = [] ∧ a.plaintext.outgoing = [])
    (hok : ∀ e, b.plaintext.receiver.readState ≠ .error e) (ops ops' : List ConnOp)
    (hf : NotForged cr a.seqenc.trafficSecrets.client a.seqenc.clientSequenceNo
      ((connRun cr a ops).2.plaintext.inner.sent ++ (connRun cr a ops).2.plaintext.outgoing) b.plaintext.unread)
    (hne : ∀ d ∈ accepted (connRun cr a ops).1, d ≠ []) (hroom : ∀ op ∈ ops', ∀ room, op = .read room → 0 < room)
    (protocol : Bytes) (names : List Bytes)
    (h : (upgrade ⟨overTls (connRun cr b ops').1, []⟩ protocol).1 = .ready (.ok names)) :
    ∃ said, Negotiation multistreamId protocol names said ∧ said <+: (accepted (connRun cr a ops).1).flatten := by
  have hset : Settles (readAnswers (connRun cr b ops').1) := by
    refine answers_settle cr ops' b (fun _ e he => (hok e he).elim) hroom ?_
    intro pre post room he hl
    have h0 : 0 < room := hroom _ (by rw [he]; simp) room rfl
    obtain ⟨-, h2⟩ := C148_nobody_between cr hc a b hab hiv hact hfresh ops (pre ++ [.read room]) hf
    obtain ⟨-, h3⟩ := h2 hne room h0 (List.mem_of_getLast? hl)
    obtain ⟨h4, -⟩ := C148_nobody_between cr hc a b hab hiv hact hfresh ops ops' hf
    rw [he, show pre ++ ConnOp.read room :: post = (pre ++ [.read room]) ++ post by simp, connRun_append] at h4
    simp only at h4
    rw [readBytes_append, h3] at h4
    have := h4.length_le
    rw [List.length_append] at this
    exact List.eq_nil_of_length_eq_zero (by omega)
  obtain ⟨said, rest, e, h1, h2, -⟩ := upgrade_ok ⟨overTls (connRun cr b ops').1, []⟩ rfl hset protocol names h
  refine ⟨said, h2, ?_⟩
  have h3 : (content (readAnswers (connRun cr b ops').1)).1 <+: readData (readAnswers (connRun cr b ops').1) := content_prefix _
  have h1' : content (readAnswers (connRun cr b ops').1) = (said ++ rest, e) := h1
  rw [h1', readData_answers] at h3
  exact (List.prefix_append said rest).trans (h3.trans (C148_nobody_between cr hc a b hab hiv hact hfresh ops ops' hf).1)

/-- What is said over TLS until the multiplexer is agreed on: a beginning of this text. -/
theorem C174_asked (t : Transport) (hsent : t.sent = []) :
    (upgrade ⟨t, []⟩ mplexProtocol).2.t.sent <+:
      "\x13/multistream/1.0.0\n\x03ls\n\x0d/mplex/6.7.0\n".toList.map (fun c => UInt8.ofNat c.toNat) := by
  obtain ⟨pre, h1, h2⟩ := upgrade_sent ⟨t, []⟩ mplexProtocol
  have h3 : framed multistreamId ++ framed lsMessage ++ framed mplexProtocol =
      "\x13/multistream/1.0.0\n\x03ls\n\x0d/mplex/6.7.0\n".toList.map (fun c => UInt8.ofNat c.toNat) := by decide +kernel
  rw [h1, hsent, ← h3]
  exact h2

example : (upgrade ⟨⟨[], [.accept 1, .accept 4], [], [], []⟩, []⟩ mplexProtocol).2.t.sent = [19, 47, 109, 117, 108] := by decide +kernel

/-- To the negotiation over TLS, bytes are taken only where the connection took that many, and flushed only where it was. -/
theorem C174_no_more_than_done (es : List ConnEvent) :
    (∀ n, .accept n ∈ (overTls es).writes → ∃ buf, .write buf (.ready (.ok n)) ∈ es) ∧
    (.ok ∈ (overTls es).flushes → .flush (.ready (.ok ())) ∈ es) := by
  show (∀ n, .accept n ∈ writeAnswers es → _) ∧ (.ok ∈ flushAnswers es → _)
  induction es with
  | nil => simp [writeAnswers, flushAnswers]
  | cons e es ih =>
    obtain ⟨h1, h2⟩ := ih
    constructor
    · intro n h
      unfold writeAnswers at h
      split at h <;> simp_all <;> grind
    · intro h
      unfold flushAnswers at h
      split at h <;> simp_all

example : (overTls [.write [1, 2] (.ready (.ok 2)), .flush (.ready (.ok ()))]).writes = [.accept 2] := rfl

/-! ### An example -/

/-- What the other end says. -/
def exampleSaid : Bytes :=
  framed multistreamId ++ ([14] ++ (framed mplexProtocol ++ framed mplexProtocol))

/-- The other end, and what it does: it writes the header, and then the rest. -/
def exampleA : Conn :=
  Conn.new (.new ⟨[], List.replicate 9 (.accept 1000), List.replicate 9 .ok, [], []⟩ .new) (exampleConn []).seqenc

@[inherit_doc exampleA] def exampleWrites : List ConnOp :=
  [.write (exampleSaid.take 20), .flush, .write (exampleSaid.drop 20), .flush]

/-- The records it sends. -/
def exampleSealed : List WireRecord :=
  [⟨23, 3, 3, exampleSaid.take 20 ++ [23] ++ List.replicate 12 4 ++ [23, 3, 3, 0]⟩,
   ⟨23, 3, 3, exampleSaid.drop 20 ++ [23] ++ List.replicate 11 4 ++ [5] ++ [23, 3, 3, 0]⟩]

/-- The end of the program. The first record arrives in two pieces with a pause between them, the second one twice, and then comes one that
somebody made up. -/
def exampleB : Conn :=
  Conn.new (.new ⟨[.ready ((wire exampleSealed).take 9), .pending, .ready (((wire exampleSealed).drop 9).take 33),
      .ready ((wire exampleSealed).drop 42), .ready (wire [exampleSealed[1]]), .ready (wire [⟨23, 3, 3, List.replicate 20 9⟩])],
    List.replicate 9 (.accept 1000), List.replicate 9 .ok, [], []⟩ .new) (exampleOther []).seqenc

/-- The calls that the program makes at its end: each message is written as its length and its contents, and flushed; the answers are read
as the code does it. -/
def exampleCalls : List ConnOp :=
  [.write [19], .write multistreamId, .flush, .read 1, .read 1, .read 1, .read 19,
   .write [3], .write lsMessage, .flush, .read 1, .read 1, .read 13,
   .write [13], .write mplexProtocol, .flush, .read 1, .read 13]

/-- All hypotheses can be met: the negotiation of the example succeeds. -/
example : PeerOf exampleA exampleB ∧ exampleA.plaintext.writeState = .active ∧
    exampleB.plaintext.receiver.readState = .active ∧
    NotForged toyCrypto exampleA.seqenc.trafficSecrets.client exampleA.seqenc.clientSequenceNo
      ((connRun toyCrypto exampleA exampleWrites).2.plaintext.inner.sent ++ (connRun toyCrypto exampleA exampleWrites).2.plaintext.outgoing)
      exampleB.plaintext.unread ∧
    (∀ d ∈ accepted (connRun toyCrypto exampleA exampleWrites).1, d ≠ []) ∧
    (∀ op ∈ exampleCalls, ∀ room, op = .read room → 0 < room) ∧
    (upgrade ⟨overTls (connRun toyCrypto exampleB exampleCalls).1, []⟩ mplexProtocol).1 = .ready (.ok [mplexProtocol]) := by
  refine ⟨⟨rfl, rfl, rfl, rfl⟩, rfl, rfl, ?_, by decide +kernel, ?_, by decide +kernel⟩
  · exact notForged_of exampleSealed (exampleSealed ++ [exampleSealed[1], ⟨23, 3, 3, List.replicate 20 9⟩]) (by decide +kernel)
      (by decide +kernel) (by decide +kernel) (by decide +kernel) (by decide +kernel)
  · intro op hop room he
    subst he
    simp only [exampleCalls, List.mem_cons, List.not_mem_nil, or_false, reduceCtorEq, false_or, ConnOp.read.injEq] at hop
    omega

end Ngfs.Ipfs
