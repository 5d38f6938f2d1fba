import Verif.Props.StackIdentify

/-!
C214: what arrives at the peer when a block is asked for on a multiplexed stream over TLS.
-/
namespace Ngfs.Spec.Stack
open Ngfs.Tls Ngfs.Spec.Mplex Ngfs.Spec.Handler Ngfs.Handler Ngfs.Io Ngfs.Cid
open Ngfs.Spec.Io hiding End
open Ngfs.Mplex (StreamId)

/-- **C214**: a block is asked for by the text of its identifier on a stream of a multiplexer over an established TLS connection; what
the handler wrote to its transport is what was written to the stream behind the negotiation. `q` is the stream as the peer has it behind
the negotiation. Of the messages the peer reads there, the first asks for exactly this block, and there is no other. -/
theorem C214_request_over_tls {X K : Type} (cr : Crypto X K) (hc : cr.Correct) (a b : Conn) (hab : Ends a b)
    (moves : List (Bool × Move)) (hms : Stack.Possible cr ⟨.new a, .new b⟩ moves)
    (ha : opens true moves < 2 ^ 64 - 33) (hb : opens false moves < 2 ^ 64 - 33)
    (hfa : ∀ o ∈ outIn (Stack.run cr ⟨.new a, .new b⟩ moves).a.mux.evs, o.Fits)
    (hfb : ∀ o ∈ outIn (Stack.run cr ⟨.new a, .new b⟩ moves).b.mux.evs, o.Fits) (id : StreamId) (q : Reader) (before : Bytes)
    (hr : view (streamOf (stackAnswers cr false id ⟨.new a, .new b⟩ moves)) = (before ++ (view q).1, (view q).2))
    (sha256 blake2b256 : Bytes → Bytes) (text : List Char) (c : CID) (client : Reader)
    (ht : fromText text = .ok c) (hv : ValidCid c) (hcl : c.hash.length < 2 ^ 62) (start wrote : Bytes)
    (hsent : (handle sha256 blake2b256 (some text) client).2.1.t.sent = client.t.sent ++ wrote)
    (hw : writtenTo (peerId id) (Stack.run cr ⟨.new a, .new b⟩ moves).a.mux.evs = start ++ wrote)
    (hl : start.length = before.length) (n : Nat) (ms : List Bytes) (more : List (Poll (Except IoKind (Option Bytes))))
    (h : readTimes n q = ms.map (fun m => .ready (.ok (some m))) ++ more) :
    (∀ m ∈ ms, AsksFor m c) ∧ ms.length ≤ 1 := by
  obtain ⟨z, hz⟩ := stack_rest cr hc a b hab moves hms ha hb hfa hfb id q before hr start _ hw hl
  obtain ⟨m, message, pre, hm, hask, ⟨y, hy⟩, h1, -⟩ := C120_request sha256 blake2b256 text c client ht hv hcl
  have hpre : pre = wrote := List.append_cancel_left (h1.symm.trans hsent)
  subst hpre
  obtain ⟨bs, rest, e, -, hms', hvq, -, -⟩ := Ipfs.readTimes_messages ms _ _ _ h
  rw [hvq] at hz
  have hp : ms <+: [message] := messages_prefix hms' (.cons hm .nil) (tail := []) (.inl ⟨by simp, by simp⟩) (rest := rest ++ (z ++ y)) (by
    rw [List.append_nil, List.append_nil, ← hy, ← hz]
    simp)
  refine ⟨fun x hx => ?_, by simpa using hp.length_le⟩
  have := hp.subset hx
  simp only [List.mem_singleton] at this
  subst this
  exact hask

/-! ### An example -/

/-- The block that is asked for, and the transport of the handler. -/
def exampleWanted : CID := ⟨.v1, .dagPB, .sha2256, [10, 2, 8, 1]⟩
def exampleAsking : Reader := ⟨⟨[], [.accept 1, .pending, .accept 500], [.ok], [.ok], []⟩, []⟩

/-- What the handler writes. -/
def exampleRequest : Bytes := (handle (fun x => x) (fun x => x) (some exampleWanted.toText) exampleAsking).2.1.t.sent

/-- A negotiation of two bytes, and the request. -/
def exampleRequested : Bytes := [1, 9] ++ exampleRequest

/-- The records in which the first side sends the frame that opens a stream and the one with these bytes. -/
def exampleSealedRequested : List WireRecord :=
  [⟨23, 3, 3, [0x88, 2, 0, 23] ++ List.replicate 12 4 ++ [23, 3, 3, 0]⟩,
   ⟨23, 3, 3, [0x8a, 2, 23] ++ exampleRequested ++ [23] ++ List.replicate 11 4 ++ [5] ++ [23, 3, 3, 0]⟩]

/-- The first side opens a stream and writes to it; the second reads from it in two pieces. -/
def exampleRequestedMoves : List (Bool × Move) :=
  [(true, .poll (.connect none) [.accept 100] [.ok] [.write [0x88, 2, 0], .flush]),
   (true, .poll (.write 0 exampleRequested) [] [.ok] []),
   (true, .poll (.flush 0) [.accept 100] [.ok] [.write ([0x8a, 2, 23] ++ exampleRequested), .flush]),
   (false, .network (.ready (wire [exampleSealedRequested[0]]))),
   (false, .network (.ready (wire [exampleSealedRequested[1]]))),
   (false, .read 100 .invalidData), (false, .poll .accept [] [] []),
   (false, .read 100 .invalidData), (false, .poll (.read 0 5) [] [] []), (false, .poll (.read 0 100) [] [] [])]

/-- The stream behind the negotiation. -/
def exampleAsked : Reader := ⟨⟨[.ready (exampleRequest.take 3), .ready (exampleRequest.drop 3)], [], [], [], []⟩, []⟩

/-- These meet the hypotheses of `C214_request_over_tls`, and the peer reads a message. -/
example : Stack.Possible toyCrypto ⟨.new exampleA, .new exampleB⟩ exampleRequestedMoves ∧
    opens true exampleRequestedMoves = 1 ∧ opens false exampleRequestedMoves = 0 ∧
    (∀ o ∈ outIn (Stack.run toyCrypto ⟨.new exampleA, .new exampleB⟩ exampleRequestedMoves).a.mux.evs, o.Fits) ∧
    (∀ o ∈ outIn (Stack.run toyCrypto ⟨.new exampleA, .new exampleB⟩ exampleRequestedMoves).b.mux.evs, o.Fits) ∧
    view (streamOf (stackAnswers toyCrypto false (.initiator 33) ⟨.new exampleA, .new exampleB⟩ exampleRequestedMoves)) =
      ([1, 9] ++ (view exampleAsked).1, (view exampleAsked).2) ∧
    writtenTo (peerId (.initiator 33)) (Stack.run toyCrypto ⟨.new exampleA, .new exampleB⟩ exampleRequestedMoves).a.mux.evs =
      [1, 9] ++ exampleRequest ∧
    fromText exampleWanted.toText = .ok exampleWanted ∧ ValidCid exampleWanted ∧ exampleWanted.hash.length < 2 ^ 62 ∧
    readTimes 2 exampleAsked = [exampleRequest.drop 1].map (fun m => .ready (.ok (some m))) ++ [.pending] := by
  have hout : outIn (Stack.run toyCrypto ⟨.new exampleA, .new exampleB⟩ exampleRequestedMoves).a.mux.evs
      = [.new 33 (some []), .message (.initiator 33) exampleRequested] := by
    have : (Stack.run toyCrypto ⟨.new exampleA, .new exampleB⟩ exampleRequestedMoves).a.mux.evs
        = [.opened (.receiver 33), .announced 33 [], .wrote (.receiver 33) exampleRequested] := by
      decide +kernel
    rw [this]; rfl
  have hb : (Stack.run toyCrypto ⟨.new exampleA, .new exampleB⟩ exampleRequestedMoves).b.mux.evs
      = [.taken ⟨.initiator 33, .new, []⟩, .opened (.initiator 33), .taken ⟨.initiator 33, .message, exampleRequested⟩,
        .got (.initiator 33) (exampleRequested.take 5), .got (.initiator 33) (exampleRequested.drop 5)] := by
    decide +kernel
  have hlen : exampleRequested.length = 23 := by decide +kernel
  refine ⟨?_, rfl, rfl, ?_, ?_, by decide +kernel, by decide +kernel, by decide +kernel, ⟨trivial, trivial⟩, by decide,
    by decide +kernel⟩
  · refine ⟨⟨by decide +kernel, by simp⟩, ⟨by decide +kernel, by simp⟩, ⟨by decide +kernel, by simp⟩, ?_, ?_, trivial,
      ⟨by decide +kernel, by simp⟩, trivial, ⟨by decide +kernel, by simp⟩, ⟨by decide +kernel, by simp⟩, trivial⟩
    · exact notForged_of exampleSealedRequested [exampleSealedRequested[0]] (by decide +kernel) (by decide +kernel)
        (by decide +kernel) (by decide +kernel) (by decide +kernel)
    · exact notForged_of exampleSealedRequested exampleSealedRequested (by decide +kernel) (by decide +kernel)
        (by decide +kernel) (by decide +kernel) (by decide +kernel)
  · rw [hout]
    intro o ho
    simp only [List.mem_cons, List.not_mem_nil, or_false] at ho
    rcases ho with rfl | rfl <;> simp [OutFrame.Fits, numOf, hlen]
  · rw [hb]; simp [outIn]

end Ngfs.Spec.Stack
