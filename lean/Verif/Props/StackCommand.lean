import Verif.Props.StackRequest
import Verif.Props.IpfsMain

/-!
C215: what a command of the IPFS program shows when its stream is one of a multiplexer over TLS.
-/
namespace Ngfs.Spec.Stack
open Ngfs.Tls Ngfs.Spec.Mplex Ngfs.Spec.Handler Ngfs.Handler Ngfs.Io Ngfs.Cid Ngfs.Bitswap
open Ngfs.Spec.Io hiding End
open Ngfs.Mplex (StreamId)

/-- The bytes of a name of ASCII characters. -/
def nameBytes (s : String) : Bytes := s.toList.map (fun c => UInt8.ofNat c.toNat)

/-! ### Lemmas -/

theorem select_took (r : Reader) (protocol : Bytes) (h : (select r protocol).1 = .ready (.ok .accepted)) :
    ∃ m rest e, Prefixed m protocol ∧ view r = (m ++ rest, e) ∧ view (select r protocol).2 = (rest, e) := by
  have hq := request_reads r protocol
  have hvq : view (request r protocol).2 = view r := by simp [view, hq.1, hq.2]
  unfold select at h ⊢
  generalize request r protocol = Q at h hvq
  obtain ⟨_ | (k | ⟨⟩), r1⟩ := Q <;> simp only at h hvq ⊢
  · cases h
  · cases h
  · have h1 := readLengthPrefixed_ok r1
    have h2 := readLengthPrefixed_snd r1
    generalize readLengthPrefixed r1 = S at h h1 h2
    obtain ⟨_ | (k | d), r2⟩ := S <;> simp only at h h1 h2 ⊢
    · cases h
    · cases h
    · by_cases hd : d = protocol
      · subst hd
        rw [if_pos rfl]
        obtain ⟨m, rest, e, g1, g2, g3⟩ := C40_takes_exactly_the_message r1 d ((h1 d).mp rfl)
        exact ⟨m, rest, e, g1, by rw [← hvq, g2], by rw [h2]; exact g3⟩
      · rw [if_neg hd] at h
        by_cases hn : d = naMessage
        · rw [if_pos hn] at h; cases h
        · rw [if_neg hn] at h; cases h

theorem negotiate_took (r : Reader) (protocol : Bytes) (h : (negotiate r protocol).1 = .ready (.ok .accepted)) :
    ∃ m1 m2 rest e, Prefixed m1 multistreamId ∧ Prefixed m2 protocol ∧ view r = (m1 ++ (m2 ++ rest), e) ∧
      view (negotiate r protocol).2 = (rest, e) := by
  have hs := select_took r multistreamId
  unfold negotiate handshake at h ⊢
  generalize select r multistreamId = S at h hs
  obtain ⟨_ | (k | (_ | _)), r1⟩ := S <;> simp only at h hs ⊢
  · cases h
  · cases h
  · obtain ⟨m1, rest1, e1, g1, g2, g3⟩ := hs trivial
    obtain ⟨m2, rest, e, k1, k2, k3⟩ := select_took r1 protocol h
    rw [g3] at k2
    cases k2
    exact ⟨m1, m2, rest, _, g1, k1, g2, k3⟩
  · cases h

theorem run_sleeping (w : Ipfs.World) (t : Ipfs.Task) (h : (Ipfs.run w).ending = .sleeping t) : (Ipfs.runCommand w).2 = .sleeping t := by
  unfold Ipfs.run at h
  cases hs : w.socket with
  | error k => rw [hs] at h; cases h
  | ok socket =>
    rw [hs] at h
    simp only at h
    generalize Ipfs.upgrade ⟨socket, []⟩ Ipfs.tlsProtocol = U at h
    obtain ⟨_ | (k | x), r⟩ := U <;> simp only at h
    · cases h
    · cases h
    · generalize w.tls r = V at h
      rcases V with _ | (k | conn) <;> simp only at h
      · cases h
      · cases h
      · generalize Ipfs.upgrade ⟨conn, []⟩ Ipfs.mplexProtocol = U2 at h
        obtain ⟨_ | (k | x), r'⟩ := U2 <;> simp only at h
        · cases h
        · cases h
        · exact h

theorem onStream_sleeping (w : Ipfs.World) (protocol : Bytes) (start : Reader → Ipfs.Task × Reader) (t : Ipfs.Task)
    (h : (Ipfs.onStream w protocol start).2 = .sleeping t) (stream : Transport) (hw : w.stream = .ready (.ok stream)) :
    (negotiate ⟨stream, []⟩ protocol).1 = .ready (.ok .accepted) ∧ (start (negotiate ⟨stream, []⟩ protocol).2).1 = t := by
  unfold Ipfs.onStream at h
  rw [hw] at h
  simp only at h
  generalize negotiate ⟨stream, []⟩ protocol = N at h
  obtain ⟨_ | (k | (_ | _)), r⟩ := N <;> simp only at h
  · cases h
  · cases h
  · exact ⟨rfl, by injection h⟩
  · cases h

/-- What is read from a stream of the multiplexer begins what the peer wrote to it. -/
theorem stack_stream {X K : Type} (cr : Crypto X K) (hc : cr.Correct) (a b : Conn) (hab : Ends a b)
    (moves : List (Bool × Move)) (hms : Stack.Possible cr ⟨.new a, .new b⟩ moves)
    (ha : opens true moves < 2 ^ 64 - 33) (hb : opens false moves < 2 ^ 64 - 33)
    (hfa : ∀ o ∈ outIn (Stack.run cr ⟨.new a, .new b⟩ moves).a.mux.evs, o.Fits)
    (hfb : ∀ o ∈ outIn (Stack.run cr ⟨.new a, .new b⟩ moves).b.mux.evs, o.Fits) (id : StreamId) (stream : Transport)
    (hr : stream.reads = stackAnswers cr false id ⟨.new a, .new b⟩ moves) :
    (view ⟨stream, []⟩).1 <+: writtenTo (peerId id) (Stack.run cr ⟨.new a, .new b⟩ moves).a.mux.evs := by
  refine stack_rest cr hc a b hab moves hms ha hb hfa hfb id ⟨stream, []⟩ [] ?_ [] _ rfl rfl
  simp [view, streamOf, hr]

theorem identify_core (w : Ipfs.World) (stream : Transport) (hs : w.stream = .ready (.ok stream)) (hargs : w.args = .ok .identify)
    (written tail : Bytes) (sent : List Bytes) (hw : (view ⟨stream, []⟩).1 <+: written ++ tail)
    (hm : Messages written sent) (ht : Unfinished tail) (shown : Identify.Identify)
    (h : (Ipfs.run w).ending = .sleeping (.identify (.ready (.ok (some shown))))) :
    ∃ data more, sent = nameBytes "/multistream/1.0.0\n" :: nameBytes "/ipfs/id/1.0.0\n" :: data :: more ∧
      Identify.Identify.fromPb data = .ok shown := by
  obtain ⟨z, hz⟩ := hw
  have h1 := run_sleeping w _ h
  simp only [Ipfs.runCommand, hargs] at h1
  obtain ⟨h2, h3⟩ := onStream_sleeping w _ _ _ h1 stream hs
  obtain ⟨m1, m2, rest, e, g1, g2, g3, g4⟩ := negotiate_took _ _ h2
  generalize negotiate ⟨stream, []⟩ idProtocol = N at h3 g4
  have h4 : (identifyClient N.2).1 = .ready (.ok (some shown)) := by
    simpa [Ipfs.identifyTask] using h3
  obtain ⟨m, data, rest', e', k1, k2, k3⟩ := ((C125_client N.2).1 shown).mp h4
  rw [g4] at k1
  cases k1
  rw [g3] at hz
  obtain ⟨more, rfl⟩ := messages_prefix (.cons g1 (.cons g2 (.cons k2 .nil))) hm ht (rest := rest' ++ z) (by simpa using hz)
  refine ⟨data, more, ?_, k3⟩
  have e1 : nameBytes "/multistream/1.0.0\n" = multistreamId := by decide +kernel
  have e2 : nameBytes "/ipfs/id/1.0.0\n" = idProtocol := by decide +kernel
  rw [e1, e2]; rfl

/-! ### C215 -/

/-- **C215**: the program runs `identify`, and the stream it gets is one of a multiplexer over an established TLS connection. If it shows
an identification, then the peer has written to this stream the name of the negotiation protocol, the name of the identify protocol, and
a message that is this identification, in this order and before anything else. -/
theorem C215_identify {X K : Type} (cr : Crypto X K) (hc : cr.Correct) (a b : Conn) (hab : Ends a b)
    (moves : List (Bool × Move)) (hms : Stack.Possible cr ⟨.new a, .new b⟩ moves)
    (ha : opens true moves < 2 ^ 64 - 33) (hb : opens false moves < 2 ^ 64 - 33)
    (hfa : ∀ o ∈ outIn (Stack.run cr ⟨.new a, .new b⟩ moves).a.mux.evs, o.Fits)
    (hfb : ∀ o ∈ outIn (Stack.run cr ⟨.new a, .new b⟩ moves).b.mux.evs, o.Fits) (id : StreamId)
    (w : Ipfs.World) (stream : Transport) (hs : w.stream = .ready (.ok stream))
    (hr : stream.reads = stackAnswers cr false id ⟨.new a, .new b⟩ moves) (hargs : w.args = .ok .identify)
    (written tail : Bytes) (sent : List Bytes)
    (hw : writtenTo (peerId id) (Stack.run cr ⟨.new a, .new b⟩ moves).a.mux.evs = written ++ tail)
    (hm : Messages written sent) (ht : Unfinished tail) (shown : Identify.Identify)
    (h : (Ipfs.run w).ending = .sleeping (.identify (.ready (.ok (some shown))))) :
    ∃ data more, sent = nameBytes "/multistream/1.0.0\n" :: nameBytes "/ipfs/id/1.0.0\n" :: data :: more ∧
      Identify.Identify.fromPb data = .ok shown := by
  have hp := stack_stream cr hc a b hab moves hms ha hb hfa hfb id stream hr
  rw [hw] at hp
  exact identify_core w stream hs hargs written tail sent hp hm ht shown h

/-- **C215**: the program runs `show`, on such a stream. Whatever state the command is in, if it has shown anything then the peer has
written to the stream the name of the negotiation protocol, the name of the bitswap protocol, and messages; the blocks that have been
shown are those in these messages, in their order, up to some block, and what has been listed are their entries. -/
theorem C215_show {X K : Type} (cr : Crypto X K) (hc : cr.Correct) (a b : Conn) (hab : Ends a b)
    (moves : List (Bool × Move)) (hms : Stack.Possible cr ⟨.new a, .new b⟩ moves)
    (ha : opens true moves < 2 ^ 64 - 33) (hb : opens false moves < 2 ^ 64 - 33)
    (hfa : ∀ o ∈ outIn (Stack.run cr ⟨.new a, .new b⟩ moves).a.mux.evs, o.Fits)
    (hfb : ∀ o ∈ outIn (Stack.run cr ⟨.new a, .new b⟩ moves).b.mux.evs, o.Fits) (id : StreamId)
    (w : Ipfs.World) (stream : Transport) (hs : w.stream = .ready (.ok stream))
    (hr : stream.reads = stackAnswers cr false id ⟨.new a, .new b⟩ moves) (cid : List Char) (hargs : w.args = .ok (.show cid))
    (written tail : Bytes) (sent : List Bytes)
    (hw : writtenTo (peerId id) (Stack.run cr ⟨.new a, .new b⟩ moves).a.mux.evs = written ++ tail)
    (hm : Messages written sent) (ht : Unfinished tail) (cid' : List Char) (state : Poll (Except Error Unit)) (log : List Event)
    (h : (Ipfs.run w).ending = .sleeping (.show cid' state log)) :
    ∃ datas more msgs shown listed, sent = nameBytes "/multistream/1.0.0\n" :: nameBytes "/ipfs/bitswap/1.2.0\n" :: datas ++ more ∧
      List.Forall₂ (fun d msg => Message.fromPb d = .ok msg) datas msgs ∧ shown <+: msgs.flatMap (·.blocks) ∧
      List.Forall₂ (Identifies w.sha256 w.blake2b256) shown (identifiers log) ∧
      listed <+: shown ∧ List.Forall₂ Lists listed (listings log) := by
  obtain ⟨z, hz⟩ := stack_stream cr hc a b hab moves hms ha hb hfa hfb id stream hr
  have h1 := run_sleeping w _ h
  simp only [Ipfs.runCommand, hargs] at h1
  obtain ⟨h2, h3⟩ := onStream_sleeping w _ _ _ h1 stream hs
  obtain ⟨m1, m2, rest, e, g1, g2, g3, g4⟩ := negotiate_took _ _ h2
  generalize negotiate ⟨stream, []⟩ Ipfs.bitswapName = N at h3 g4
  have h4 : (handle w.sha256 w.blake2b256 (some cid) N.2).2.2 = log := by
    simp only [Ipfs.showTask, Ipfs.Task.show.injEq] at h3
    exact h3.2.2
  obtain ⟨bs, rest', e', blocks, shown, listed, k1, ⟨ms, msgs, k2, k3, rfl⟩, k4, k5, k6, -, k7⟩ :=
    C121_shown w.sha256 w.blake2b256 (some cid) N.2
  rw [h4] at k5 k7
  rw [g4] at k1
  cases k1
  rw [hw, g3] at hz
  obtain ⟨more, rfl⟩ := messages_prefix (.cons g1 (.cons g2 k2)) hm ht (rest := rest' ++ z) (by simpa using hz)
  refine ⟨ms, more, msgs, shown, listed, ?_, k3, k4, k5, k6, k7⟩
  have e1 : nameBytes "/multistream/1.0.0\n" = multistreamId := by decide +kernel
  have e2 : nameBytes "/ipfs/bitswap/1.2.0\n" = Ipfs.bitswapName := by decide +kernel
  rw [e1, e2]

/-! ### Examples -/

/-- The records in which the first side sends the frame that opens a stream and the one with the bytes `said`, whose length is written
as `len`. -/
def exampleTalkSealed (len said : Bytes) : List WireRecord :=
  [⟨23, 3, 3, [0x88, 2, 0, 23] ++ List.replicate 12 4 ++ [23, 3, 3, 0]⟩,
   ⟨23, 3, 3, [0x8a, 2] ++ len ++ said ++ [23] ++ List.replicate 11 4 ++ [5] ++ [23, 3, 3, 0]⟩]

/-- The first side opens a stream and writes to it; the second reads from it in two pieces. -/
def exampleTalkMoves (len said : Bytes) : List (Bool × Move) :=
  [(true, .poll (.connect none) [.accept 200] [.ok] [.write [0x88, 2, 0], .flush]),
   (true, .poll (.write 0 said) [] [.ok] []),
   (true, .poll (.flush 0) [.accept 200] [.ok] [.write ([0x8a, 2] ++ len ++ said), .flush]),
   (false, .network (.ready (wire ((exampleTalkSealed len said).take 1)))),
   (false, .network (.ready (wire ((exampleTalkSealed len said).drop 1)))),
   (false, .read 200 .invalidData), (false, .poll .accept [] [] []),
   (false, .read 200 .invalidData), (false, .poll (.read 0 5) [] [] []), (false, .poll (.read 0 200) [] [] [])]

/-- The stream as the program has it. -/
def exampleTransport (said : Bytes) : Transport :=
  ⟨[.ready (said.take 5), .ready (said.drop 5)], List.replicate 80 (.accept 3), [.pending, .ok, .ok, .ok], [], []⟩

/-- The negotiation, and the answer of a node. -/
def exampleSaidIdentify : Bytes := framed multistreamId ++ (framed idProtocol ++ exampleAnswer)

/-- The negotiation, and a message with a block. -/
def exampleSaidBlock : Bytes := framed multistreamId ++ (framed Ipfs.bitswapName ++ (exampleBlock.drop 2).take 15)

/-- These meet the hypotheses of `C215_identify`. -/
example : Stack.Possible toyCrypto ⟨.new exampleA, .new exampleB⟩ (exampleTalkMoves [0x80, 1] exampleSaidIdentify) ∧
    opens true (exampleTalkMoves [0x80, 1] exampleSaidIdentify) = 1 ∧ opens false (exampleTalkMoves [0x80, 1] exampleSaidIdentify) = 0 ∧
    (∀ o ∈ outIn (Stack.run toyCrypto ⟨.new exampleA, .new exampleB⟩ (exampleTalkMoves [0x80, 1] exampleSaidIdentify)).a.mux.evs, o.Fits) ∧
    (∀ o ∈ outIn (Stack.run toyCrypto ⟨.new exampleA, .new exampleB⟩ (exampleTalkMoves [0x80, 1] exampleSaidIdentify)).b.mux.evs, o.Fits) ∧
    (exampleTransport exampleSaidIdentify).reads =
      stackAnswers toyCrypto false (.initiator 33) ⟨.new exampleA, .new exampleB⟩ (exampleTalkMoves [0x80, 1] exampleSaidIdentify) ∧
    writtenTo (peerId (.initiator 33)) (Stack.run toyCrypto ⟨.new exampleA, .new exampleB⟩ (exampleTalkMoves [0x80, 1] exampleSaidIdentify)).a.mux.evs =
      exampleSaidIdentify ++ [] ∧ Unfinished [] ∧
    Messages exampleSaidIdentify [multistreamId, idProtocol, exampleAnswer.drop 1] ∧
    (Ipfs.run (Ipfs.exampleWorld (.ok .identify) (exampleTransport exampleSaidIdentify))).ending =
      .sleeping (.identify (.ready (.ok (some (identifyMessage [7, 7, 7, 7]))))) := by
  have hout : outIn (Stack.run toyCrypto ⟨.new exampleA, .new exampleB⟩ (exampleTalkMoves [0x80, 1] exampleSaidIdentify)).a.mux.evs
      = [.new 33 (some []), .message (.initiator 33) exampleSaidIdentify] := by
    have : (Stack.run toyCrypto ⟨.new exampleA, .new exampleB⟩ (exampleTalkMoves [0x80, 1] exampleSaidIdentify)).a.mux.evs
        = [.opened (.receiver 33), .announced 33 [], .wrote (.receiver 33) exampleSaidIdentify] := by
      decide +kernel
    rw [this]; rfl
  have hb : (Stack.run toyCrypto ⟨.new exampleA, .new exampleB⟩ (exampleTalkMoves [0x80, 1] exampleSaidIdentify)).b.mux.evs
      = [.taken ⟨.initiator 33, .new, []⟩, .opened (.initiator 33), .taken ⟨.initiator 33, .message, exampleSaidIdentify⟩,
        .got (.initiator 33) ((exampleSaidIdentify).take 5), .got (.initiator 33) ((exampleSaidIdentify).drop 5)] := by
    decide +kernel
  have hlen : (exampleSaidIdentify).length < 1000 := by decide +kernel
  refine ⟨?_, rfl, rfl, ?_, ?_, by decide +kernel, by decide +kernel, .inl ⟨by simp, by simp⟩, ?_, ?_⟩
  · refine ⟨⟨by decide +kernel, by simp⟩, ⟨by decide +kernel, by simp⟩, ⟨by decide +kernel, by simp⟩, ?_, ?_, trivial,
      ⟨by decide +kernel, by simp⟩, trivial, ⟨by decide +kernel, by simp⟩, ⟨by decide +kernel, by simp⟩, trivial⟩
    · exact notForged_of (exampleTalkSealed [0x80, 1] exampleSaidIdentify) ((exampleTalkSealed [0x80, 1] exampleSaidIdentify).take 1) (by decide +kernel) (by decide +kernel)
        (by decide +kernel) (by decide +kernel) (by decide +kernel)
    · exact notForged_of (exampleTalkSealed [0x80, 1] exampleSaidIdentify) (exampleTalkSealed [0x80, 1] exampleSaidIdentify) (by decide +kernel) (by decide +kernel)
        (by decide +kernel) (by decide +kernel) (by decide +kernel)
  · rw [hout]
    intro o ho
    simp only [List.mem_cons, List.not_mem_nil, or_false] at ho
    rcases ho with rfl | rfl <;> simp [OutFrame.Fits, numOf] <;> omega
  · rw [hb]; simp [outIn]
  · have hans : exampleAnswer = 91 :: exampleAnswer.drop 1 := by decide +kernel
    have := Messages.cons (b := 91 :: exampleAnswer.drop 1) (bs := []) (m := exampleAnswer.drop 1) (ms := [])
      (prefixed_short 91 _ (by decide) (by decide +kernel)) .nil
    rw [List.append_nil, ← hans] at this
    exact .cons (framed_prefixed (by decide)) (.cons (framed_prefixed (by decide)) this)
  · rw [(Ipfs.run_honest _ _ _ (Ipfs.example_will _ _)).2, Ipfs.runCommand_identify _ rfl]
    have h1 : (negotiate ⟨exampleTransport exampleSaidIdentify, []⟩ idProtocol).1 = .ready (.ok .accepted) := by decide +kernel
    have h2 : (identifyClient (negotiate ⟨exampleTransport exampleSaidIdentify, []⟩ idProtocol).2).1 =
        .ready (.ok (some (identifyMessage [7, 7, 7, 7]))) := by decide +kernel
    simp only [Ipfs.onStream, Ipfs.exampleWorld]
    generalize negotiate ⟨exampleTransport exampleSaidIdentify, []⟩ idProtocol = N at h1 h2
    obtain ⟨x, r⟩ := N
    simp only at h1 h2
    subst h1
    simp only [Ipfs.identifyTask, h2]

/-- These meet the hypotheses of `C215_show`. -/
example : Stack.Possible toyCrypto ⟨.new exampleA, .new exampleB⟩ (exampleTalkMoves [56] exampleSaidBlock) ∧
    opens true (exampleTalkMoves [56] exampleSaidBlock) = 1 ∧ opens false (exampleTalkMoves [56] exampleSaidBlock) = 0 ∧
    (∀ o ∈ outIn (Stack.run toyCrypto ⟨.new exampleA, .new exampleB⟩ (exampleTalkMoves [56] exampleSaidBlock)).a.mux.evs, o.Fits) ∧
    (∀ o ∈ outIn (Stack.run toyCrypto ⟨.new exampleA, .new exampleB⟩ (exampleTalkMoves [56] exampleSaidBlock)).b.mux.evs, o.Fits) ∧
    (exampleTransport exampleSaidBlock).reads =
      stackAnswers toyCrypto false (.initiator 33) ⟨.new exampleA, .new exampleB⟩ (exampleTalkMoves [56] exampleSaidBlock) ∧
    writtenTo (peerId (.initiator 33)) (Stack.run toyCrypto ⟨.new exampleA, .new exampleB⟩ (exampleTalkMoves [56] exampleSaidBlock)).a.mux.evs =
      exampleSaidBlock ++ [] ∧ Unfinished [] ∧
    Messages exampleSaidBlock [multistreamId, Ipfs.bitswapName, (exampleBlock.drop 3).take 14] ∧
    ∃ state log, (Ipfs.run (Ipfs.exampleWorld (.ok (.show exampleWanted.toText)) (exampleTransport exampleSaidBlock))).ending =
      .sleeping (.show exampleWanted.toText state log) ∧ identifiers log = [⟨.v1, .dagPB, .sha2256, [0x0a, 2, 8, 1]⟩] := by
  have hout : outIn (Stack.run toyCrypto ⟨.new exampleA, .new exampleB⟩ (exampleTalkMoves [56] exampleSaidBlock)).a.mux.evs
      = [.new 33 (some []), .message (.initiator 33) exampleSaidBlock] := by
    have : (Stack.run toyCrypto ⟨.new exampleA, .new exampleB⟩ (exampleTalkMoves [56] exampleSaidBlock)).a.mux.evs
        = [.opened (.receiver 33), .announced 33 [], .wrote (.receiver 33) exampleSaidBlock] := by
      decide +kernel
    rw [this]; rfl
  have hb : (Stack.run toyCrypto ⟨.new exampleA, .new exampleB⟩ (exampleTalkMoves [56] exampleSaidBlock)).b.mux.evs
      = [.taken ⟨.initiator 33, .new, []⟩, .opened (.initiator 33), .taken ⟨.initiator 33, .message, exampleSaidBlock⟩,
        .got (.initiator 33) ((exampleSaidBlock).take 5), .got (.initiator 33) ((exampleSaidBlock).drop 5)] := by
    decide +kernel
  have hlen : (exampleSaidBlock).length < 1000 := by decide +kernel
  refine ⟨?_, rfl, rfl, ?_, ?_, by decide +kernel, by decide +kernel, .inl ⟨by simp, by simp⟩, ?_, ?_⟩
  · refine ⟨⟨by decide +kernel, by simp⟩, ⟨by decide +kernel, by simp⟩, ⟨by decide +kernel, by simp⟩, ?_, ?_, trivial,
      ⟨by decide +kernel, by simp⟩, trivial, ⟨by decide +kernel, by simp⟩, ⟨by decide +kernel, by simp⟩, trivial⟩
    · exact notForged_of (exampleTalkSealed [56] exampleSaidBlock) ((exampleTalkSealed [56] exampleSaidBlock).take 1) (by decide +kernel) (by decide +kernel)
        (by decide +kernel) (by decide +kernel) (by decide +kernel)
    · exact notForged_of (exampleTalkSealed [56] exampleSaidBlock) (exampleTalkSealed [56] exampleSaidBlock) (by decide +kernel) (by decide +kernel)
        (by decide +kernel) (by decide +kernel) (by decide +kernel)
  · rw [hout]
    intro o ho
    simp only [List.mem_cons, List.not_mem_nil, or_false] at ho
    rcases ho with rfl | rfl <;> simp [OutFrame.Fits, numOf] <;> omega
  · rw [hb]; simp [outIn]
  · exact .cons (framed_prefixed (by decide)) (.cons (framed_prefixed (by decide))
      (.cons (b := (exampleBlock.drop 2).take 15) (bs := []) (prefixed_short 14 _ (by decide) rfl) .nil))
  · rw [(Ipfs.run_honest _ _ _ (Ipfs.example_will _ _)).2, Ipfs.runCommand_show _ exampleWanted.toText rfl]
    have h1 : (negotiate ⟨exampleTransport exampleSaidBlock, []⟩ Ipfs.bitswapName).1 = .ready (.ok .accepted) := by decide +kernel
    have h2 : identifiers (handle _root_.id _root_.id (some exampleWanted.toText)
        (negotiate ⟨exampleTransport exampleSaidBlock, []⟩ Ipfs.bitswapName).2).2.2 =
        [⟨.v1, .dagPB, .sha2256, [0x0a, 2, 8, 1]⟩] := by decide +kernel
    simp only [Ipfs.onStream, Ipfs.exampleWorld]
    generalize negotiate ⟨exampleTransport exampleSaidBlock, []⟩ Ipfs.bitswapName = N at h1 h2
    obtain ⟨x, r⟩ := N
    simp only at h1 h2
    subst h1
    exact ⟨_, _, rfl, h2⟩

end Ngfs.Spec.Stack
