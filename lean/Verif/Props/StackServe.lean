import Verif.Props.StackCommand

/-!
C216: the services that are started on a multiplexed stream over TLS.
-/
namespace Ngfs.Spec.Stack
open Ngfs.Tls Ngfs.Spec.Mplex Ngfs.Spec.Handler Ngfs.Handler Ngfs.Io Ngfs.Cid Ngfs.Bitswap
open Ngfs.Spec.Io hiding End
open Ngfs.Mplex (StreamId)

/-! ### Lemmas -/

theorem messages_append {bs bs' : Bytes} {ms ms' : List Bytes} (h : Messages bs ms) (h' : Messages bs' ms') :
    Messages (bs ++ bs') (ms ++ ms') := by
  induction h with
  | nil => exact h'
  | cons hb _ ih => rw [List.append_assoc]; exact .cons hb ih

theorem request_view (r : Reader) (data : Bytes) : view (request r data).2 = view r := by
  have hq := request_reads r data
  simp [view, hq.1, hq.2]

theorem serveLoop_took (services : List Bytes) (fuel : Nat) : ∀ (r : Reader) (s : Bytes),
    (serveLoop services fuel r).1 = .ready (.ok (some s)) →
    ∃ bs refused m rest e, Messages bs refused ∧ (∀ x ∈ refused, x ∉ services) ∧ Prefixed m s ∧ s ∈ services ∧
      view r = (bs ++ (m ++ rest), e) ∧ view (serveLoop services fuel r).2 = (rest, e) := by
  induction fuel with
  | zero => intro r s h; cases h
  | succ fuel ih =>
    intro r s h
    have hr := C40_takes_exactly_the_message r
    unfold serveLoop at h ⊢
    generalize readOptLengthPrefixed r = S at h hr
    obtain ⟨_ | (k | (_ | data)), r1⟩ := S <;> simp only at h hr ⊢
    · cases h
    · cases h
    · cases h
    · obtain ⟨m, rest, e, g1, g2, g3⟩ := hr data rfl
      by_cases hd : data ∈ services
      · simp only [List.contains_iff_mem, hd, if_true] at h ⊢
        have hq := request_view r1 idProtocol
        generalize request r1 idProtocol = Q at h hq
        obtain ⟨_ | (k | ⟨⟩), r2⟩ := Q <;> simp only at h hq ⊢
        · cases h
        · cases h
        · cases h
          exact ⟨[], [], m, rest, e, .nil, by simp, g1, hd, g2, by rw [hq, g3]⟩
      · simp only [List.contains_iff_mem, hd, if_false] at h ⊢
        have hq := request_view r1 naMessage
        generalize request r1 naMessage = Q at h hq
        obtain ⟨_ | (k | ⟨⟩), r2⟩ := Q <;> simp only at h hq ⊢
        · cases h
        · cases h
        · obtain ⟨bs, refused, m', rest', e', k1, k2, k3, k4, k5, k6⟩ := ih r2 s h
          rw [hq, g3] at k5
          cases k5
          refine ⟨m ++ bs, data :: refused, m', rest', _, .cons g1 k1, ?_, k3, k4, by rw [g2, List.append_assoc], k6⟩
          intro x hx
          rcases List.mem_cons.mp hx with rfl | hx
          · exact hd
          · exact k2 x hx

theorem serve_took (services : List Bytes) (r : Reader) (s : Bytes) (h : (serve services r).1 = .ready (.ok (some s))) :
    ∃ bs refused rest e, Messages bs (multistreamId :: refused ++ [s]) ∧ (∀ x ∈ refused, x ∉ services) ∧ s ∈ services ∧
      view r = (bs ++ rest, e) ∧ view (serve services r).2 = (rest, e) := by
  have hs := select_took r multistreamId
  unfold serve handshake at h ⊢
  generalize select r multistreamId = S at h hs
  obtain ⟨_ | (k | (_ | _)), r1⟩ := S <;> simp only at h hs ⊢
  · cases h
  · cases h
  · obtain ⟨m1, rest1, e1, g1, g2, g3⟩ := hs trivial
    obtain ⟨bs, refused, m, rest, e, k1, k2, k3, k4, k5, k6⟩ := serveLoop_took services _ r1 s h
    rw [g3] at k5
    cases k5
    refine ⟨m1 ++ (bs ++ (m ++ [])), refused, rest, _, .cons g1 ?_, k2, k4, ?_, k6⟩
    · exact messages_append k1 (.cons k3 .nil)
    · rw [g2]; simp
  · cases h

/-! ### C216 -/

/-- **C216**: the node serves a stream of a multiplexer over an established TLS connection. If it starts a service there, then this is
one of its services, and the peer has written to the stream the name of the negotiation protocol, names that are none of its services,
and the name of this service, in this order and before anything else. -/
theorem C216_started {X K : Type} (cr : Crypto X K) (hc : cr.Correct) (a b : Conn) (hab : Ends a b)
    (moves : List (Bool × Move)) (hms : Stack.Possible cr ⟨.new a, .new b⟩ moves)
    (ha : opens true moves < 2 ^ 64 - 33) (hb : opens false moves < 2 ^ 64 - 33)
    (hfa : ∀ o ∈ outIn (Stack.run cr ⟨.new a, .new b⟩ moves).a.mux.evs, o.Fits)
    (hfb : ∀ o ∈ outIn (Stack.run cr ⟨.new a, .new b⟩ moves).b.mux.evs, o.Fits) (id : StreamId) (stream : Transport)
    (hr : stream.reads = stackAnswers cr false id ⟨.new a, .new b⟩ moves)
    (written tail : Bytes) (sent : List Bytes)
    (hw : writtenTo (peerId id) (Stack.run cr ⟨.new a, .new b⟩ moves).a.mux.evs = written ++ tail)
    (hm : Messages written sent) (ht : Unfinished tail) (services : List Bytes) (service : Bytes)
    (h : (serve services ⟨stream, []⟩).1 = .ready (.ok (some service))) :
    service ∈ services ∧ ∃ refused more, sent = nameBytes "/multistream/1.0.0\n" :: refused ++ service :: more ∧
      ∀ x ∈ refused, x ∉ services := by
  obtain ⟨z, hz⟩ := stack_stream cr hc a b hab moves hms ha hb hfa hfb id stream hr
  obtain ⟨bs, refused, rest, e, g1, g2, g3, g4, -⟩ := serve_took services _ _ h
  rw [hw, g4] at hz
  obtain ⟨more, rfl⟩ := messages_prefix g1 hm ht (rest := rest ++ z) (by simpa using hz)
  have e1 : nameBytes "/multistream/1.0.0\n" = multistreamId := by decide +kernel
  exact ⟨g3, refused, more, by rw [e1]; simp, g2⟩

/-- **C216**: and if the service is bitswap, what its handler shows of blocks is in messages that the peer wrote to the stream behind the
name of the service. -/
theorem C216_shows {X K : Type} (cr : Crypto X K) (hc : cr.Correct) (a b : Conn) (hab : Ends a b)
    (moves : List (Bool × Move)) (hms : Stack.Possible cr ⟨.new a, .new b⟩ moves)
    (ha : opens true moves < 2 ^ 64 - 33) (hb : opens false moves < 2 ^ 64 - 33)
    (hfa : ∀ o ∈ outIn (Stack.run cr ⟨.new a, .new b⟩ moves).a.mux.evs, o.Fits)
    (hfb : ∀ o ∈ outIn (Stack.run cr ⟨.new a, .new b⟩ moves).b.mux.evs, o.Fits) (id : StreamId) (stream : Transport)
    (hr : stream.reads = stackAnswers cr false id ⟨.new a, .new b⟩ moves)
    (written tail : Bytes) (sent : List Bytes)
    (hw : writtenTo (peerId id) (Stack.run cr ⟨.new a, .new b⟩ moves).a.mux.evs = written ++ tail)
    (hm : Messages written sent) (ht : Unfinished tail) (services : List Bytes) (service : Bytes)
    (h : (serve services ⟨stream, []⟩).1 = .ready (.ok (some service))) (sha256 blake2b256 : Bytes → Bytes) (log : List Event)
    (hlog : (handle sha256 blake2b256 none (serve services ⟨stream, []⟩).2).2.2 = log) :
    ∃ refused datas more msgs shown listed,
      sent = nameBytes "/multistream/1.0.0\n" :: refused ++ service :: datas ++ more ∧ (∀ x ∈ refused, x ∉ services) ∧
      List.Forall₂ (fun d msg => Message.fromPb d = .ok msg) datas msgs ∧ shown <+: msgs.flatMap (·.blocks) ∧
      List.Forall₂ (Identifies sha256 blake2b256) shown (identifiers log) ∧
      listed <+: shown ∧ List.Forall₂ Lists listed (listings log) := by
  obtain ⟨z, hz⟩ := stack_stream cr hc a b hab moves hms ha hb hfa hfb id stream hr
  obtain ⟨bs, refused, rest, e, g1, g2, g3, g4, g5⟩ := serve_took services _ _ h
  obtain ⟨bs', rest', e', blocks, shown, listed, k1, ⟨ms, msgs, k2, k3, rfl⟩, k4, k5, k6, -, k7⟩ :=
    C121_shown sha256 blake2b256 none (serve services ⟨stream, []⟩).2
  rw [hlog] at k5 k7
  rw [g5] at k1
  cases k1
  rw [hw, g4] at hz
  obtain ⟨more, rfl⟩ := messages_prefix (messages_append g1 k2) hm ht (rest := rest' ++ z) (by simpa using hz)
  have e1 : nameBytes "/multistream/1.0.0\n" = multistreamId := by decide +kernel
  exact ⟨refused, ms, more, msgs, shown, listed, by rw [e1]; simp, g2, k3, k4, k5, k6, k7⟩

/-! ### An example -/

/-- A peer that asks for a service that there is not, then for bitswap, and sends a block. -/
def exampleSaidServe : Bytes :=
  framed multistreamId ++ (framed [47, 120, 10] ++ (framed Ipfs.bitswapName ++ (exampleBlock.drop 2).take 15))

/-- These meet the hypotheses of `C216_started` and `C216_shows`. -/
example : Stack.Possible toyCrypto ⟨.new exampleA, .new exampleB⟩ (exampleTalkMoves [60] exampleSaidServe) ∧
    opens true (exampleTalkMoves [60] exampleSaidServe) = 1 ∧ opens false (exampleTalkMoves [60] exampleSaidServe) = 0 ∧
    (∀ o ∈ outIn (Stack.run toyCrypto ⟨.new exampleA, .new exampleB⟩ (exampleTalkMoves [60] exampleSaidServe)).a.mux.evs, o.Fits) ∧
    (∀ o ∈ outIn (Stack.run toyCrypto ⟨.new exampleA, .new exampleB⟩ (exampleTalkMoves [60] exampleSaidServe)).b.mux.evs, o.Fits) ∧
    (exampleTransport exampleSaidServe).reads =
      stackAnswers toyCrypto false (.initiator 33) ⟨.new exampleA, .new exampleB⟩ (exampleTalkMoves [60] exampleSaidServe) ∧
    writtenTo (peerId (.initiator 33)) (Stack.run toyCrypto ⟨.new exampleA, .new exampleB⟩ (exampleTalkMoves [60] exampleSaidServe)).a.mux.evs =
      exampleSaidServe ++ [] ∧ Unfinished [] ∧
    Messages exampleSaidServe [multistreamId, [47, 120, 10], Ipfs.bitswapName, (exampleBlock.drop 3).take 14] ∧
    (serve [idProtocol, Ipfs.bitswapName] ⟨exampleTransport exampleSaidServe, []⟩).1 = .ready (.ok (some Ipfs.bitswapName)) ∧
    identifiers (handle _root_.id _root_.id none (serve [idProtocol, Ipfs.bitswapName] ⟨exampleTransport exampleSaidServe, []⟩).2).2.2 =
      [⟨.v1, .dagPB, .sha2256, [0x0a, 2, 8, 1]⟩] := by
  have hout : outIn (Stack.run toyCrypto ⟨.new exampleA, .new exampleB⟩ (exampleTalkMoves [60] exampleSaidServe)).a.mux.evs
      = [.new 33 (some []), .message (.initiator 33) exampleSaidServe] := by
    have : (Stack.run toyCrypto ⟨.new exampleA, .new exampleB⟩ (exampleTalkMoves [60] exampleSaidServe)).a.mux.evs
        = [.opened (.receiver 33), .announced 33 [], .wrote (.receiver 33) exampleSaidServe] := by
      decide +kernel
    rw [this]; rfl
  have hb : (Stack.run toyCrypto ⟨.new exampleA, .new exampleB⟩ (exampleTalkMoves [60] exampleSaidServe)).b.mux.evs
      = [.taken ⟨.initiator 33, .new, []⟩, .opened (.initiator 33), .taken ⟨.initiator 33, .message, exampleSaidServe⟩,
        .got (.initiator 33) ((exampleSaidServe).take 5), .got (.initiator 33) ((exampleSaidServe).drop 5)] := by
    decide +kernel
  have hlen : (exampleSaidServe).length < 1000 := by decide +kernel
  refine ⟨?_, rfl, rfl, ?_, ?_, by decide +kernel, by decide +kernel, .inl ⟨by simp, by simp⟩, ?_, by decide +kernel,
    by decide +kernel⟩
  · refine ⟨⟨by decide +kernel, by simp⟩, ⟨by decide +kernel, by simp⟩, ⟨by decide +kernel, by simp⟩, ?_, ?_, trivial,
      ⟨by decide +kernel, by simp⟩, trivial, ⟨by decide +kernel, by simp⟩, ⟨by decide +kernel, by simp⟩, trivial⟩
    · exact notForged_of (exampleTalkSealed [60] exampleSaidServe) ((exampleTalkSealed [60] exampleSaidServe).take 1) (by decide +kernel) (by decide +kernel)
        (by decide +kernel) (by decide +kernel) (by decide +kernel)
    · exact notForged_of (exampleTalkSealed [60] exampleSaidServe) (exampleTalkSealed [60] exampleSaidServe) (by decide +kernel) (by decide +kernel)
        (by decide +kernel) (by decide +kernel) (by decide +kernel)
  · rw [hout]
    intro o ho
    simp only [List.mem_cons, List.not_mem_nil, or_false] at ho
    rcases ho with rfl | rfl <;> simp [OutFrame.Fits, numOf] <;> omega
  · rw [hb]; simp [outIn]
  · exact .cons (framed_prefixed (by decide)) (.cons (framed_prefixed (by decide)) (.cons (framed_prefixed (by decide))
      (.cons (b := (exampleBlock.drop 2).take 15) (bs := []) (prefixed_short 14 _ (by decide) rfl) .nil)))

end Ngfs.Spec.Stack
