import Verif.Props.StackServe

/-!
C217: `ipfs identify` with a node as the peer, from the stream to what is shown.
-/
namespace Ngfs.Spec.Stack
open Ngfs.Tls Ngfs.Spec.Mplex Ngfs.Spec.Handler Ngfs.Handler Ngfs.Io Ngfs.Cid Ngfs.Bitswap
open Ngfs.Spec.Io hiding End
open Ngfs.Mplex (StreamId)

/-! ### Lemmas -/

theorem serveLoop_wrote (services : List Bytes) (fuel : Nat) : ∀ (r : Reader) (s : Bytes),
    (serveLoop services fuel r).1 = .ready (.ok (some s)) →
    ∃ bs n, (serveLoop services fuel r).2.t.sent = r.t.sent ++ bs ∧ Messages bs (List.replicate n naMessage ++ [idProtocol]) := by
  induction fuel with
  | zero => intro r s h; cases h
  | succ fuel ih =>
    intro r s h
    have hr := (readOptLengthPrefixed_quiet r).1
    unfold serveLoop at h ⊢
    generalize readOptLengthPrefixed r = S at h hr
    obtain ⟨_ | (k | (_ | data)), r1⟩ := S <;> simp only at h hr ⊢
    · cases h
    · cases h
    · cases h
    · by_cases hd : data ∈ services
      · simp only [List.contains_iff_mem, hd, if_true] at h ⊢
        obtain ⟨ws, fl, pre, h1, h2, h3⟩ := request_spec r1 idProtocol
        have h1 : (request r1 idProtocol).2.t.sent = r1.t.sent ++ pre := by rw [h1]
        generalize request r1 idProtocol = Q at h h1 h3
        obtain ⟨_ | (k | ⟨⟩), r2⟩ := Q <;> simp only at h h1 h3 ⊢
        · cases h
        · cases h
        · cases h
          refine ⟨framed idProtocol ++ [], 0, ?_, .cons (framed_prefixed (by decide)) .nil⟩
          rw [h1, hr, h3 trivial, List.append_nil]
      · simp only [List.contains_iff_mem, hd, if_false] at h ⊢
        obtain ⟨ws, fl, pre, h1, h2, h3⟩ := request_spec r1 naMessage
        have h1 : (request r1 naMessage).2.t.sent = r1.t.sent ++ pre := by rw [h1]
        generalize request r1 naMessage = Q at h h1 h3
        obtain ⟨_ | (k | ⟨⟩), r2⟩ := Q <;> simp only at h h1 h3 ⊢
        · cases h
        · cases h
        · obtain ⟨bs, n, k1, k2⟩ := ih r2 s h
          refine ⟨framed naMessage ++ bs, n + 1, ?_, .cons (framed_prefixed (by decide)) k2⟩
          rw [k1, h1, hr, h3 trivial, List.append_assoc]

theorem serve_wrote (services : List Bytes) (r : Reader) (s : Bytes) (h : (serve services r).1 = .ready (.ok (some s))) :
    ∃ bs n, (serve services r).2.t.sent = r.t.sent ++ bs ∧
      Messages bs (multistreamId :: List.replicate n naMessage ++ [idProtocol]) := by
  obtain ⟨pre, h1, -, h3⟩ := select_sent r multistreamId
  unfold serve handshake at h ⊢
  generalize select r multistreamId = S at h h1 h3
  obtain ⟨_ | (k | (_ | _)), r1⟩ := S <;> simp only at h h1 h3 ⊢
  · cases h
  · cases h
  · obtain ⟨bs, n, k1, k2⟩ := serveLoop_wrote services _ r1 s h
    refine ⟨framed multistreamId ++ bs, n, ?_, .cons (framed_prefixed (by decide)) k2⟩
    rw [k1, h1, h3 _ rfl, List.append_assoc]
  · cases h

theorem identify_wrote (publicKey : Bytes) (r : Reader) (hk : publicKey.length < 2 ^ 62)
    (h : (identify publicKey r).1 = .ready (.ok ())) :
    ∃ m data, (identify publicKey r).2.1.t.sent = r.t.sent ++ m ∧ Prefixed m data ∧
      Identify.Identify.fromPb data = .ok (identifyMessage publicKey) := by
  obtain ⟨-, m, h1, h2⟩ := C125_identified publicKey r hk h
  obtain ⟨q, e0, hq⟩ : ∃ (q : Reader) (e0 : Io.End), view q = (m ++ [], e0) := by
    refine ⟨⟨⟨[.ready (m ++ [])], [], [], [], []⟩, []⟩, _, Prod.ext ?_ rfl⟩
    show (content [.ready (m ++ [])]).1 = _
    cases m ++ [] <;> simp [content]
  obtain ⟨id', g1, g2, g3, g4, g5, g6, g7, g8, g9⟩ := h2 q [] e0 hq
  have hr := C40_takes_exactly_the_message q
  unfold identifyClient at g1 g2
  generalize readOptLengthPrefixed q = S at g1 g2 hr
  obtain ⟨_ | (k | (_ | data)), r1⟩ := S <;> simp only at g1 g2 hr
  · cases g1
  · cases g1
  · cases g1
  · obtain ⟨m', rest, e, k1, k2, k3⟩ := hr data rfl
    rcases hd : Identify.Identify.fromPb data with e | x
    · simp [hd] at g1
    · simp only [hd] at g1 g2
      cases g1
      rw [k3] at g2
      cases g2
      rw [hq] at k2
      have : m = m' := by simpa using congrArg Prod.fst k2
      subst this
      refine ⟨m, data, h1, k1, ?_⟩
      rw [hd]
      obtain ⟨_, _, _, _, _, _, _⟩ := id'
      simp only at g3 g4 g5 g6 g7 g8 g9
      subst g3 g4 g5 g6 g7 g8 g9
      rfl

/-! ### C217 -/

/-- **C217**: the program runs `identify` on a stream of a multiplexer over an established TLS connection. The peer is a node with these
services and this public key: it serves the stream, starts the identify service there, and its handler ends well; what has been written
to the stream up to now is what it writes, or a part from the beginning of it. Then an identification that the program shows is the one of
this node, whatever somebody on the network does. -/
theorem C217_identified {X K : Type} (cr : Crypto X K) (hc : cr.Correct) (a b : Conn) (hab : Ends a b)
    (moves : List (Bool × Move)) (hms : Stack.Possible cr ⟨.new a, .new b⟩ moves)
    (ha : opens true moves < 2 ^ 64 - 33) (hb : opens false moves < 2 ^ 64 - 33)
    (hfa : ∀ o ∈ outIn (Stack.run cr ⟨.new a, .new b⟩ moves).a.mux.evs, o.Fits)
    (hfb : ∀ o ∈ outIn (Stack.run cr ⟨.new a, .new b⟩ moves).b.mux.evs, o.Fits) (id : StreamId)
    (w : Ipfs.World) (stream : Transport) (hs : w.stream = .ready (.ok stream))
    (hr : stream.reads = stackAnswers cr false id ⟨.new a, .new b⟩ moves) (hargs : w.args = .ok .identify)
    (services : List Bytes) (publicKey : Bytes) (hk : publicKey.length < 2 ^ 62) (node : Transport) (hn : node.sent = [])
    (hserve : (serve services ⟨node, []⟩).1 = .ready (.ok (some (nameBytes "/ipfs/id/1.0.0\n"))))
    (hident : (identify publicKey (serve services ⟨node, []⟩).2).1 = .ready (.ok ()))
    (hw : writtenTo (peerId id) (Stack.run cr ⟨.new a, .new b⟩ moves).a.mux.evs <+:
      (identify publicKey (serve services ⟨node, []⟩).2).2.1.t.sent)
    (shown : Identify.Identify) (h : (Ipfs.run w).ending = .sleeping (.identify (.ready (.ok (some shown))))) :
    shown.publicKey = ⟨.ed25519, publicKey⟩ ∧ shown.protocolVersion = "ipfs/0.1.0" ∧ shown.agentVersion = "test/0.0.0" ∧
    shown.protocols = ["/ipfs/id/1.0.0", "/ipfs/bitswap/1.2.0"] ∧ shown.listenAddrs = [[.ip4 [127, 0, 0, 1], .tcp 4001]] ∧
    shown.observedAddr = [.ip4 [127, 0, 0, 1], .tcp 4004] ∧ shown.signedPeerRecord = none := by
  obtain ⟨bs, n, h1, h2⟩ := serve_wrote services _ _ hserve
  obtain ⟨m, data, h3, h4, h5⟩ := identify_wrote publicKey _ hk hident
  rw [h3, h1, hn, List.nil_append, ← List.append_nil m] at hw
  have hm := messages_append h2 (.cons h4 .nil)
  have hp := (stack_stream cr hc a b hab moves hms ha hb hfa hfb id stream hr).trans hw
  rw [← List.append_nil (bs ++ (m ++ []))] at hp
  obtain ⟨data', more, g1, g2⟩ := identify_core w stream hs hargs _ [] _ hp hm (.inl ⟨by simp, by simp⟩) shown h
  have e2 : nameBytes "/ipfs/id/1.0.0\n" = idProtocol := by decide +kernel
  rw [e2] at g1
  have hd : data' = data := by
    cases n with
    | zero => simp at g1; exact g1.2.1.symm
    | succ n =>
      rw [List.replicate_succ] at g1
      simp only [List.cons_append, List.cons.injEq] at g1
      exact absurd g1.2.1 (by decide)
  subst hd
  rw [h5] at g2
  cases g2
  exact ⟨rfl, rfl, rfl, rfl, rfl, rfl, rfl⟩

/-! ### An example -/

/-- The stream as the node has it: the peer negotiates and asks for identification. -/
def exampleNode : Transport :=
  ⟨[.ready (framed multistreamId), .pending, .ready (framed idProtocol)], List.replicate 80 (.accept 3), [.pending, .ok, .ok, .ok], [.ok], []⟩

/-- The hypotheses of `C217_identified` about the stream and the program are met by the example for `C215_identify`, and the others by
this node: what it writes is what is written to the stream there. -/
example : exampleNode.sent = [] ∧
    (serve [idProtocol, Ipfs.bitswapName] ⟨exampleNode, []⟩).1 = .ready (.ok (some (nameBytes "/ipfs/id/1.0.0\n"))) ∧
    (identify [7, 7, 7, 7] (serve [idProtocol, Ipfs.bitswapName] ⟨exampleNode, []⟩).2).1 = .ready (.ok ()) ∧
    writtenTo (peerId (.initiator 33))
      (Stack.run toyCrypto ⟨.new exampleA, .new exampleB⟩ (exampleTalkMoves [0x80, 1] exampleSaidIdentify)).a.mux.evs <+:
      (identify [7, 7, 7, 7] (serve [idProtocol, Ipfs.bitswapName] ⟨exampleNode, []⟩).2).2.1.t.sent := by
  decide +kernel

end Ngfs.Spec.Stack
