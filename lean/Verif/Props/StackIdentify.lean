import Verif.Props.StackBitswap

/-!
C213: what the identify client shows when it runs on a multiplexed stream over TLS.
-/
namespace Ngfs.Spec.Stack
open Ngfs.Tls Ngfs.Spec.Mplex Ngfs.Spec.Handler Ngfs.Handler Ngfs.Io
open Ngfs.Spec.Io hiding End
open Ngfs.Mplex (StreamId)

/-- What the client has on its stream behind the bytes `before` begins what the peer wrote behind its `start`. -/
theorem stack_rest {X K : Type} (cr : Crypto X K) (hc : cr.Correct) (a b : Conn) (hab : Ends a b)
    (moves : List (Bool × Move)) (hms : Stack.Possible cr ⟨.new a, .new b⟩ moves)
    (ha : opens true moves < 2 ^ 64 - 33) (hb : opens false moves < 2 ^ 64 - 33)
    (hfa : ∀ o ∈ outIn (Stack.run cr ⟨.new a, .new b⟩ moves).a.mux.evs, o.Fits)
    (hfb : ∀ o ∈ outIn (Stack.run cr ⟨.new a, .new b⟩ moves).b.mux.evs, o.Fits) (id : StreamId) (r : Reader) (before : Bytes)
    (hr : view (streamOf (stackAnswers cr false id ⟨.new a, .new b⟩ moves)) = (before ++ (view r).1, (view r).2))
    (start behind : Bytes)
    (hw : writtenTo (peerId id) (Stack.run cr ⟨.new a, .new b⟩ moves).a.mux.evs = start ++ behind)
    (hl : start.length = before.length) : (view r).1 <+: behind := by
  have h1 := (C149_streams_over_tls cr hc a b hab moves hms ha hb hfa hfb id).1
  have h2 : readFrom id (Stack.run cr ⟨.new a, .new b⟩ moves).b.mux.evs = _ :=
    stackAnswers_read cr false id moves ⟨.new a, .new b⟩
  have h3 := content_prefix (stackAnswers cr false id ⟨.new a, .new b⟩ moves)
  have hv1 : (content (stackAnswers cr false id ⟨.new a, .new b⟩ moves)).1 = before ++ (view r).1 := congrArg Prod.fst hr
  have h4 : before ++ (view r).1 <+: start ++ behind := by
    rw [← hw]
    refine List.IsPrefix.trans ?_ h1
    rw [h2]
    show _ <+: [] ++ Ngfs.Mplex.readBytes _
    rw [List.nil_append, ← hv1]
    exact h3
  obtain ⟨z, hz⟩ := h4
  rw [List.append_assoc] at hz
  exact ⟨z, (List.append_inj hz hl.symm).2⟩

/-- **C213**: the identify client runs on a stream of a multiplexer over an established TLS connection, and `r` is the stream as it is
given to it, without the bytes `before` that were read to negotiate the protocol. If the peer wrote, behind as many bytes for the
negotiation, these messages to the stream (the last perhaps not completely), then an identification that is shown is the first of them. -/
theorem C213_identification_is_the_peers {X K : Type} (cr : Crypto X K) (hc : cr.Correct) (a b : Conn) (hab : Ends a b)
    (moves : List (Bool × Move)) (hms : Stack.Possible cr ⟨.new a, .new b⟩ moves)
    (ha : opens true moves < 2 ^ 64 - 33) (hb : opens false moves < 2 ^ 64 - 33)
    (hfa : ∀ o ∈ outIn (Stack.run cr ⟨.new a, .new b⟩ moves).a.mux.evs, o.Fits)
    (hfb : ∀ o ∈ outIn (Stack.run cr ⟨.new a, .new b⟩ moves).b.mux.evs, o.Fits) (id : StreamId) (r : Reader) (before : Bytes)
    (hr : view (streamOf (stackAnswers cr false id ⟨.new a, .new b⟩ moves)) = (before ++ (view r).1, (view r).2))
    (start written tail : Bytes) (sent : List Bytes)
    (hw : writtenTo (peerId id) (Stack.run cr ⟨.new a, .new b⟩ moves).a.mux.evs = start ++ (written ++ tail))
    (hl : start.length = before.length) (hs : Messages written sent) (ht : Unfinished tail) (shown : Identify.Identify)
    (h : (identifyClient r).1 = .ready (.ok (some shown))) :
    ∃ first more, sent = first :: more ∧ Identify.Identify.fromPb first = .ok shown := by
  obtain ⟨z, hz⟩ := stack_rest cr hc a b hab moves hms ha hb hfa hfb id r before hr start _ hw hl
  obtain ⟨m, data, rest, e, hv, hm, hd⟩ := ((C125_client r).1 shown).mp h
  rw [hv] at hz
  have hp : [data] <+: sent := messages_prefix (.cons hm .nil) hs ht (rest := rest ++ z) (by simpa using hz)
  obtain ⟨more, rfl⟩ := hp
  exact ⟨data, more, rfl, hd⟩

/-- **C213**: if it is a node like this one that answers, that is, its identify handler ran successfully with the public key
`publicKey` on a transport of its own, and what the handler wrote is what was written to the stream behind the negotiation, then an
identification that is shown has this key, and the versions, protocols and addresses of the node. -/
theorem C213_identified_over_tls {X K : Type} (cr : Crypto X K) (hc : cr.Correct) (a b : Conn) (hab : Ends a b)
    (moves : List (Bool × Move)) (hms : Stack.Possible cr ⟨.new a, .new b⟩ moves)
    (ha : opens true moves < 2 ^ 64 - 33) (hb : opens false moves < 2 ^ 64 - 33)
    (hfa : ∀ o ∈ outIn (Stack.run cr ⟨.new a, .new b⟩ moves).a.mux.evs, o.Fits)
    (hfb : ∀ o ∈ outIn (Stack.run cr ⟨.new a, .new b⟩ moves).b.mux.evs, o.Fits) (id : StreamId) (r : Reader) (before : Bytes)
    (hr : view (streamOf (stackAnswers cr false id ⟨.new a, .new b⟩ moves)) = (before ++ (view r).1, (view r).2))
    (publicKey : Bytes) (hk : publicKey.length < 2 ^ 62) (server : Reader)
    (hok : (identify publicKey server).1 = .ready (.ok ())) (start wrote more : Bytes)
    (hsent : (identify publicKey server).2.1.t.sent = server.t.sent ++ wrote)
    (hw : writtenTo (peerId id) (Stack.run cr ⟨.new a, .new b⟩ moves).a.mux.evs = start ++ (wrote ++ more))
    (hl : start.length = before.length) (shown : Identify.Identify)
    (h : (identifyClient r).1 = .ready (.ok (some shown))) :
    shown.publicKey = ⟨.ed25519, publicKey⟩ ∧ shown.protocolVersion = "ipfs/0.1.0" ∧ shown.agentVersion = "test/0.0.0" ∧
    shown.protocols = ["/ipfs/id/1.0.0", "/ipfs/bitswap/1.2.0"] ∧ shown.listenAddrs = [[.ip4 [127, 0, 0, 1], .tcp 4001]] ∧
    shown.observedAddr = [.ip4 [127, 0, 0, 1], .tcp 4004] ∧ shown.signedPeerRecord = none := by
  obtain ⟨z, hz⟩ := stack_rest cr hc a b hab moves hms ha hb hfa hfb id r before hr start _ hw hl
  obtain ⟨m, data, rest, e, hv, hm, hd⟩ := ((C125_client r).1 shown).mp h
  rw [hv] at hz
  obtain ⟨-, m1, h1, h2⟩ := C125_identified publicKey server hk hok
  have hm1 : m1 = wrote := List.append_cancel_left (h1.symm.trans hsent)
  subst hm1
  -- a stream with all that was written, read by the same client
  obtain ⟨q, e0, hq⟩ : ∃ (q : Reader) (e0 : Io.End), view q = (m1 ++ more, e0) := by
    refine ⟨⟨⟨[.ready (m1 ++ more)], [], [], [], []⟩, []⟩, _, Prod.ext ?_ rfl⟩
    show (content [.ready (m1 ++ more)]).1 = _
    cases m1 ++ more <;> simp [content]
  obtain ⟨id', g1, -, g⟩ := h2 _ more _ hq
  obtain ⟨m', data', rest', e', hv', hm', hd'⟩ := ((C125_client _).1 id').mp g1
  rw [hq] at hv'
  have he : m' ++ rest' = m ++ (rest ++ z) := by
    rw [← List.append_assoc, hz]; exact (congrArg Prod.fst hv').symm
  obtain ⟨-, hdd, -⟩ := prefixed_unique hm' hm he
  subst hdd
  have : shown = id' := Except.ok.inj (hd.symm.trans hd')
  subst this
  exact g

/-! ### An example -/

/-- A node with a public key of four bytes answers; its transport takes the message in two pieces. -/
def exampleServer : Reader := ⟨⟨[], [.accept 1, .pending, .accept 500], [.ok], [.ok], []⟩, []⟩

/-- What it writes. -/
def exampleAnswer : Bytes := (identify [7, 7, 7, 7] exampleServer).2.1.t.sent

/-- A negotiation of two bytes, and the answer. -/
def exampleIdentified : Bytes := [1, 9] ++ exampleAnswer

/-- The records in which the first side sends the frame that opens a stream and the one with these bytes. -/
def exampleSealedIdentified : List WireRecord :=
  [⟨23, 3, 3, [0x88, 2, 0, 23] ++ List.replicate 12 4 ++ [23, 3, 3, 0]⟩,
   ⟨23, 3, 3, [0x8a, 2, 94] ++ exampleIdentified ++ [23] ++ List.replicate 11 4 ++ [5] ++ [23, 3, 3, 0]⟩]

/-- The first side opens a stream and writes to it; the second reads from it in two pieces. -/
def exampleIdentifiedMoves : List (Bool × Move) :=
  [(true, .poll (.connect none) [.accept 100] [.ok] [.write [0x88, 2, 0], .flush]),
   (true, .poll (.write 0 exampleIdentified) [] [.ok] []),
   (true, .poll (.flush 0) [.accept 100] [.ok] [.write ([0x8a, 2, 94] ++ exampleIdentified), .flush]),
   (false, .network (.ready (wire [exampleSealedIdentified[0]]))),
   (false, .network (.ready (wire [exampleSealedIdentified[1]]))),
   (false, .read 100 .invalidData), (false, .poll .accept [] [] []),
   (false, .read 100 .invalidData), (false, .poll (.read 0 5) [] [] []), (false, .poll (.read 0 100) [] [] [])]

/-- The stream behind the negotiation. -/
def exampleClient : Reader := ⟨⟨[.ready (exampleAnswer.take 3), .ready (exampleAnswer.drop 3)], [], [], [], []⟩, []⟩

/-- These meet the hypotheses of `C213_identification_is_the_peers` and `C213_identified_over_tls`, and an identification is shown. -/
example : Stack.Possible toyCrypto ⟨.new exampleA, .new exampleB⟩ exampleIdentifiedMoves ∧
    opens true exampleIdentifiedMoves = 1 ∧ opens false exampleIdentifiedMoves = 0 ∧
    (∀ o ∈ outIn (Stack.run toyCrypto ⟨.new exampleA, .new exampleB⟩ exampleIdentifiedMoves).a.mux.evs, o.Fits) ∧
    (∀ o ∈ outIn (Stack.run toyCrypto ⟨.new exampleA, .new exampleB⟩ exampleIdentifiedMoves).b.mux.evs, o.Fits) ∧
    view (streamOf (stackAnswers toyCrypto false (.initiator 33) ⟨.new exampleA, .new exampleB⟩ exampleIdentifiedMoves)) =
      ([1, 9] ++ (view exampleClient).1, (view exampleClient).2) ∧
    writtenTo (peerId (.initiator 33)) (Stack.run toyCrypto ⟨.new exampleA, .new exampleB⟩ exampleIdentifiedMoves).a.mux.evs =
      [1, 9] ++ (exampleAnswer ++ []) ∧
    Messages exampleAnswer [exampleAnswer.drop 1] ∧ Unfinished [] ∧
    (identify [7, 7, 7, 7] exampleServer).1 = .ready (.ok ()) ∧
    (identifyClient exampleClient).1 = .ready (.ok (some (identifyMessage [7, 7, 7, 7]))) := by
  have hout : outIn (Stack.run toyCrypto ⟨.new exampleA, .new exampleB⟩ exampleIdentifiedMoves).a.mux.evs
      = [.new 33 (some []), .message (.initiator 33) exampleIdentified] := by
    have : (Stack.run toyCrypto ⟨.new exampleA, .new exampleB⟩ exampleIdentifiedMoves).a.mux.evs
        = [.opened (.receiver 33), .announced 33 [], .wrote (.receiver 33) exampleIdentified] := by
      decide +kernel
    rw [this]; rfl
  have hb : (Stack.run toyCrypto ⟨.new exampleA, .new exampleB⟩ exampleIdentifiedMoves).b.mux.evs
      = [.taken ⟨.initiator 33, .new, []⟩, .opened (.initiator 33), .taken ⟨.initiator 33, .message, exampleIdentified⟩,
        .got (.initiator 33) (exampleIdentified.take 5), .got (.initiator 33) (exampleIdentified.drop 5)] := by
    decide +kernel
  have hlen : exampleIdentified.length = 94 := by decide +kernel
  have hans : exampleAnswer = 91 :: exampleAnswer.drop 1 := by decide +kernel
  refine ⟨?_, rfl, rfl, ?_, ?_, by decide +kernel, by decide +kernel, ?_, .inl ⟨by simp, by simp⟩,
    by decide +kernel, by decide +kernel⟩
  · refine ⟨⟨by decide +kernel, by simp⟩, ⟨by decide +kernel, by simp⟩, ⟨by decide +kernel, by simp⟩, ?_, ?_, trivial,
      ⟨by decide +kernel, by simp⟩, trivial, ⟨by decide +kernel, by simp⟩, ⟨by decide +kernel, by simp⟩, trivial⟩
    · exact notForged_of exampleSealedIdentified [exampleSealedIdentified[0]] (by decide +kernel) (by decide +kernel)
        (by decide +kernel) (by decide +kernel) (by decide +kernel)
    · exact notForged_of exampleSealedIdentified exampleSealedIdentified (by decide +kernel) (by decide +kernel)
        (by decide +kernel) (by decide +kernel) (by decide +kernel)
  · rw [hout]
    intro o ho
    simp only [List.mem_cons, List.not_mem_nil, or_false] at ho
    rcases ho with rfl | rfl <;> simp [OutFrame.Fits, numOf, hlen]
  · rw [hb]; simp [outIn]
  · have := Messages.cons (b := 91 :: exampleAnswer.drop 1) (bs := []) (m := exampleAnswer.drop 1) (ms := [])
      (prefixed_short 91 _ (by decide) (by decide +kernel)) .nil
    rw [List.append_nil, ← hans] at this
    exact this

end Ngfs.Spec.Stack
