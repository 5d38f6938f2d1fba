import Verif.Props.StackMessages
import Verif.Props.Handler

/-!
C211: what the bitswap handler shows when it runs on a multiplexed stream over TLS.
-/
namespace Ngfs.Spec.Stack
open Ngfs.Tls Ngfs.Spec.Mplex Ngfs.Spec.Handler Ngfs.Handler Ngfs.Bitswap Ngfs.Io
open Ngfs.Spec.Io hiding End
open Ngfs.Mplex (StreamId)

/-- **C211**: the bitswap handler runs on a stream of a multiplexer over an established TLS connection. `r` is the stream as it is given
to it: what comes from the stream without the bytes `before` that were read earlier, to negotiate the protocol. If the peer wrote, behind
as many bytes for the negotiation, these messages to the stream (the last perhaps not completely), then every block whose identifier is
shown is in one of them, in their order, up to some block; and what is listed are the entries of these. So nobody without the keys
can have it show a block, and nothing from another stream is shown. -/
theorem C211_blocks_are_the_peers {X K : Type} (cr : Crypto X K) (hc : cr.Correct) (a b : Conn) (hab : Ends a b)
    (moves : List (Bool × Move)) (hms : Stack.Possible cr ⟨.new a, .new b⟩ moves)
    (ha : opens true moves < 2 ^ 64 - 33) (hb : opens false moves < 2 ^ 64 - 33)
    (hfa : ∀ o ∈ outIn (Stack.run cr ⟨.new a, .new b⟩ moves).a.mux.evs, o.Fits)
    (hfb : ∀ o ∈ outIn (Stack.run cr ⟨.new a, .new b⟩ moves).b.mux.evs, o.Fits) (id : StreamId)
    (sha256 blake2b256 : Bytes → Bytes) (want : Option (List Char)) (r : Reader) (before : Bytes)
    (hr : view (streamOf (stackAnswers cr false id ⟨.new a, .new b⟩ moves)) = (before ++ (view r).1, (view r).2))
    (start written tail : Bytes) (sent : List Bytes)
    (hw : writtenTo (peerId id) (Stack.run cr ⟨.new a, .new b⟩ moves).a.mux.evs = start ++ (written ++ tail))
    (hl : start.length = before.length) (hs : Messages written sent) (ht : Unfinished tail) :
    ∃ k msgs shown listed, List.Forall₂ (fun d msg => Message.fromPb d = .ok msg) (sent.take k) msgs ∧
      shown <+: msgs.flatMap (·.blocks) ∧
      List.Forall₂ (Identifies sha256 blake2b256) shown (identifiers (handle sha256 blake2b256 want r).2.2) ∧
      listed <+: shown ∧ List.Forall₂ Lists listed (listings (handle sha256 blake2b256 want r).2.2) := by
  have h1 := (C149_streams_over_tls cr hc a b hab moves hms ha hb hfa hfb id).1
  have h2 : readFrom id (Stack.run cr ⟨.new a, .new b⟩ moves).b.mux.evs = _ :=
    stackAnswers_read cr false id moves ⟨.new a, .new b⟩
  have h3 := content_prefix (stackAnswers cr false id ⟨.new a, .new b⟩ moves)
  have hv1 : (content (stackAnswers cr false id ⟨.new a, .new b⟩ moves)).1 = before ++ (view r).1 := congrArg Prod.fst hr
  obtain ⟨bs, rest, e, blocks, shown, listed, g1, ⟨ms, msgs, g2, g3, rfl⟩, g4, g5, g6, -, g7⟩ := C121_shown sha256 blake2b256 want r
  have h4 : before ++ (bs ++ rest) <+: start ++ (written ++ tail) := by
    rw [← hw]
    refine List.IsPrefix.trans ?_ h1
    rw [h2]
    show _ <+: [] ++ Ngfs.Mplex.readBytes _
    rw [List.nil_append, show bs ++ rest = (view r).1 by rw [g1], ← hv1]
    exact h3
  obtain ⟨z, hz⟩ := h4
  rw [List.append_assoc] at hz
  have hz := (List.append_inj hz hl.symm).2
  rw [List.append_assoc] at hz
  have hp := messages_prefix g2 hs ht hz
  refine ⟨ms.length, msgs, shown, listed, ?_, g4, g5, g6, g7⟩
  rw [← List.prefix_iff_eq_take.mp hp]
  exact g3

/-! ### An example -/

/-- A negotiation of two bytes, a message with one block, which is a directory without entries, and a byte of another message. -/
def exampleBlock : Bytes := [1, 9, 14, 0x1a, 12, 0x0a, 4, 1, 0x70, 0x12, 0x20, 0x12, 4, 0x0a, 2, 8, 1, 3]

/-- The records in which the first side sends the frame that opens a stream and the one with these bytes. -/
def exampleSealedBlock : List WireRecord :=
  [⟨23, 3, 3, [0x88, 2, 0, 23] ++ List.replicate 12 4 ++ [23, 3, 3, 0]⟩,
   ⟨23, 3, 3, [0x8a, 2, 18] ++ exampleBlock ++ [23] ++ List.replicate 11 4 ++ [5] ++ [23, 3, 3, 0]⟩]

/-- The first side opens a stream and writes to it; the second reads from it in two pieces. -/
def exampleBlockMoves : List (Bool × Move) :=
  [(true, .poll (.connect none) [.accept 100] [.ok] [.write [0x88, 2, 0], .flush]),
   (true, .poll (.write 0 exampleBlock) [] [.ok] []),
   (true, .poll (.flush 0) [.accept 100] [.ok] [.write ([0x8a, 2, 18] ++ exampleBlock), .flush]),
   (false, .network (.ready (wire [exampleSealedBlock[0]]))),
   (false, .network (.ready (wire [exampleSealedBlock[1]]))),
   (false, .read 100 .invalidData), (false, .poll .accept [] [] []),
   (false, .read 100 .invalidData), (false, .poll (.read 0 5) [] [] []), (false, .poll (.read 0 100) [] [] [])]

/-- The stream behind the negotiation. -/
def exampleRest : Reader := ⟨⟨[.ready [14, 0x1a, 12], .ready (exampleBlock.drop 5)], [], [], [], []⟩, []⟩

/-- These meet the hypotheses of `C211_blocks_are_the_peers`, and a block is shown. -/
example : Stack.Possible toyCrypto ⟨.new exampleA, .new exampleB⟩ exampleBlockMoves ∧
    opens true exampleBlockMoves = 1 ∧ opens false exampleBlockMoves = 0 ∧
    (∀ o ∈ outIn (Stack.run toyCrypto ⟨.new exampleA, .new exampleB⟩ exampleBlockMoves).a.mux.evs, o.Fits) ∧
    (∀ o ∈ outIn (Stack.run toyCrypto ⟨.new exampleA, .new exampleB⟩ exampleBlockMoves).b.mux.evs, o.Fits) ∧
    view (streamOf (stackAnswers toyCrypto false (.initiator 33) ⟨.new exampleA, .new exampleB⟩ exampleBlockMoves)) =
      ([1, 9] ++ (view exampleRest).1, (view exampleRest).2) ∧
    writtenTo (peerId (.initiator 33)) (Stack.run toyCrypto ⟨.new exampleA, .new exampleB⟩ exampleBlockMoves).a.mux.evs =
      [1, 9] ++ ((exampleBlock.drop 2).take 15 ++ [3]) ∧
    Messages ((exampleBlock.drop 2).take 15) [(exampleBlock.drop 3).take 14] ∧ Unfinished [3] ∧
    identifiers (handle id id none exampleRest).2.2 = [⟨.v1, .dagPB, .sha2256, [0x0a, 2, 8, 1]⟩] ∧
    listings (handle id id none exampleRest).2.2 = [[]] := by
  have hout : outIn (Stack.run toyCrypto ⟨.new exampleA, .new exampleB⟩ exampleBlockMoves).a.mux.evs
      = [.new 33 (some []), .message (.initiator 33) exampleBlock] := by
    have : (Stack.run toyCrypto ⟨.new exampleA, .new exampleB⟩ exampleBlockMoves).a.mux.evs
        = [.opened (.receiver 33), .announced 33 [], .wrote (.receiver 33) exampleBlock] := by
      decide +kernel
    rw [this]; rfl
  have hb : (Stack.run toyCrypto ⟨.new exampleA, .new exampleB⟩ exampleBlockMoves).b.mux.evs
      = [.taken ⟨.initiator 33, .new, []⟩, .opened (.initiator 33), .taken ⟨.initiator 33, .message, exampleBlock⟩,
        .got (.initiator 33) (exampleBlock.take 5), .got (.initiator 33) (exampleBlock.drop 5)] := by
    decide +kernel
  refine ⟨?_, rfl, rfl, ?_, ?_, by decide +kernel, by decide +kernel,
    .cons (b := (exampleBlock.drop 2).take 15) (bs := []) (prefixed_short 14 _ (by decide) rfl) .nil,
    .inr ⟨[3], [], rfl, ⟨[], 3, rfl, by simp, by decide⟩, by simp, by decide⟩, by decide +kernel, by decide +kernel⟩
  · refine ⟨⟨by decide +kernel, by simp⟩, ⟨by decide +kernel, by simp⟩, ⟨by decide +kernel, by simp⟩, ?_, ?_, trivial,
      ⟨by decide +kernel, by simp⟩, trivial, ⟨by decide +kernel, by simp⟩, ⟨by decide +kernel, by simp⟩, trivial⟩
    · exact notForged_of exampleSealedBlock [exampleSealedBlock[0]] (by decide +kernel) (by decide +kernel) (by decide +kernel)
        (by decide +kernel) (by decide +kernel)
    · exact notForged_of exampleSealedBlock exampleSealedBlock (by decide +kernel) (by decide +kernel) (by decide +kernel)
        (by decide +kernel) (by decide +kernel)
  · rw [hout]
    intro o ho
    simp only [List.mem_cons, List.not_mem_nil, or_false] at ho
    rcases ho with rfl | rfl <;> simp [OutFrame.Fits, numOf, exampleBlock]
  · rw [hb]; simp [outIn]

end Ngfs.Spec.Stack
