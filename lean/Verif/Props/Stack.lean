import Verif.Lemmas.Stack
import Verif.Props.MplexPair

/-!
C149: multiplexed streams over a TLS connection, with somebody on the network.
-/
namespace Ngfs.Spec.Stack
open Ngfs.Tls Ngfs.Spec.Mplex
open Ngfs.Mplex (StreamId)

/-- The two connections are the two ends of one that has just been established. -/
structure Ends (a b : Conn) : Prop where
  there : OtherEnd a b
  back : OtherEnd b a
  ivs : a.seqenc.trafficSecrets.client.writeIv.length = 12 ∧ b.seqenc.trafficSecrets.client.writeIv.length = 12
  active : a.plaintext.writeState = .active ∧ b.plaintext.writeState = .active
  fresh : (a.plaintext.inner.sent = [] ∧ a.plaintext.outgoing = []) ∧ (b.plaintext.inner.sent = [] ∧ b.plaintext.outgoing = [])
  quiet : a.plaintext.inner.reads = [] ∧ b.plaintext.inner.reads = []

theorem notForged_nothing {X K : Type} (cr : Crypto X K) (key : EncryptionKey) (n0 : Nat) (peer : Bytes) :
    NotForged cr key n0 peer [] := by
  intro all ws rest _ h _ _ w hw
  have := congrArg List.length h
  cases all with
  | nil => cases hw
  | cons x all =>
    simp at this
    omega

theorem dir_start {X K : Type} (cr : Crypto X K) {a b : Conn} (hab : OtherEnd a b)
    (hiv : a.seqenc.trafficSecrets.client.writeIv.length = 12) (hact : a.plaintext.writeState = .active)
    (hfresh : a.plaintext.inner.sent = [] ∧ a.plaintext.outgoing = []) (hq : b.plaintext.inner.reads = []) :
    Dir cr (Side.new a) (Side.new b) := by
  refine ⟨hab, hiv, hfresh, ⟨0, false, sendInv_init cr a hact⟩, ⟨[], readInv_init cr b (by rw [hab.active]; simp)⟩, ?_, rfl, rfl⟩
  show NotForged cr _ _ _ (readData b.plaintext.inner.reads)
  rw [hq]
  exact notForged_nothing cr _ _ _

/-- **C149**. Two multiplexers over the two ends of a TLS connection, used in any way; the network may do anything, and somebody who
does not have the keys may make up, change, repeat, reorder and leave out what is on the way. What has been read from a stream
at one side is always the beginning of what has been written to it at the other. -/
theorem C149_streams_over_tls {X K : Type} (cr : Crypto X K) (hc : cr.Correct) (a b : Conn) (hab : Ends a b)
    (ms : List (Bool × Move)) (hms : Stack.Possible cr ⟨.new a, .new b⟩ ms)
    (ha : opens true ms < 2 ^ 64 - 33) (hb : opens false ms < 2 ^ 64 - 33)
    (hfa : ∀ o ∈ outIn (Stack.run cr ⟨.new a, .new b⟩ ms).a.mux.evs, o.Fits)
    (hfb : ∀ o ∈ outIn (Stack.run cr ⟨.new a, .new b⟩ ms).b.mux.evs, o.Fits) (id : StreamId) :
    readFrom id (Stack.run cr ⟨.new a, .new b⟩ ms).b.mux.evs
      <+: writtenTo (peerId id) (Stack.run cr ⟨.new a, .new b⟩ ms).a.mux.evs ∧
    readFrom id (Stack.run cr ⟨.new a, .new b⟩ ms).a.mux.evs
      <+: writtenTo (peerId id) (Stack.run cr ⟨.new a, .new b⟩ ms).b.mux.evs := by
  obtain ⟨-, -, as, h1, h2⟩ := run_pair hc ms ⟨.new a, .new b⟩ []
    (dir_start cr hab.there hab.ivs.1 hab.active.1 hab.fresh.1 hab.quiet.2)
    (dir_start cr hab.back hab.ivs.2 hab.active.2 hab.fresh.2 hab.quiet.1) hms rfl
  have e : ∀ t, opensAt t as = opens t ms := by
    intro t
    rw [h2]
    show 0 + _ = _
    omega
  have := Ngfs.Mplex.C132_end_to_end as (by rw [e]; exact ha) (by rw [e]; exact hb) (by rw [h1]; exact hfa) (by rw [h1]; exact hfb) id
  rw [h1] at this
  exact this

/-- **C149**: a stream that one side hands out as accepted was opened by the other, and none is handed out twice: nobody without
the keys can open a stream. -/
theorem C149_accepted_was_opened {X K : Type} (cr : Crypto X K) (hc : cr.Correct) (a b : Conn) (hab : Ends a b)
    (ms : List (Bool × Move)) (hms : Stack.Possible cr ⟨.new a, .new b⟩ ms)
    (ha : opens true ms < 2 ^ 64 - 33) (hb : opens false ms < 2 ^ 64 - 33)
    (hfa : ∀ o ∈ outIn (Stack.run cr ⟨.new a, .new b⟩ ms).a.mux.evs, o.Fits)
    (hfb : ∀ o ∈ outIn (Stack.run cr ⟨.new a, .new b⟩ ms).b.mux.evs, o.Fits) (n : Nat) :
    (Stack.run cr ⟨.new a, .new b⟩ ms).b.mux.evs.count (.opened (.initiator n))
      ≤ (Stack.run cr ⟨.new a, .new b⟩ ms).a.mux.evs.count (.opened (.receiver n)) ∧
    (Stack.run cr ⟨.new a, .new b⟩ ms).a.mux.evs.count (.opened (.initiator n))
      ≤ (Stack.run cr ⟨.new a, .new b⟩ ms).b.mux.evs.count (.opened (.receiver n)) ∧
    (Stack.run cr ⟨.new a, .new b⟩ ms).a.mux.evs.count (.opened (.receiver n)) ≤ 1 ∧
    (Stack.run cr ⟨.new a, .new b⟩ ms).b.mux.evs.count (.opened (.receiver n)) ≤ 1 := by
  obtain ⟨-, -, as, h1, h2⟩ := run_pair hc ms ⟨.new a, .new b⟩ []
    (dir_start cr hab.there hab.ivs.1 hab.active.1 hab.fresh.1 hab.quiet.2)
    (dir_start cr hab.back hab.ivs.2 hab.active.2 hab.fresh.2 hab.quiet.1) hms rfl
  have e : ∀ t, opensAt t as = opens t ms := by
    intro t
    rw [h2]
    show 0 + _ = _
    omega
  have := Ngfs.Mplex.C132_accepted_was_opened as (by rw [e]; exact ha) (by rw [e]; exact hb) (by rw [h1]; exact hfa)
    (by rw [h1]; exact hfb) n
  rw [h1] at this
  exact this

/-! ### An example -/

/-- The two connections. -/
def exampleA : Conn :=
  Conn.new (.new ⟨[], List.replicate 9 (.accept 1000), List.replicate 9 .ok, [], []⟩ .new) (exampleConn []).seqenc

@[inherit_doc exampleA] def exampleB : Conn := exampleOther []

theorem example_ends : Ends exampleA exampleB :=
  ⟨⟨⟨rfl, rfl, rfl, rfl⟩, rfl⟩, ⟨⟨rfl, rfl, rfl, rfl⟩, rfl⟩, ⟨rfl, rfl⟩, ⟨rfl, rfl⟩, ⟨⟨rfl, rfl⟩, ⟨rfl, rfl⟩⟩, ⟨rfl, rfl⟩⟩

/-- The two records that the first side sends: the frame that opens a stream, and the one with three bytes. -/
def exampleSealed : List WireRecord :=
  [⟨23, 3, 3, [0x88, 2, 0, 23] ++ List.replicate 12 4 ++ [23, 3, 3, 0]⟩,
   ⟨23, 3, 3, [0x8a, 2, 3, 1, 2, 3, 23] ++ List.replicate 11 4 ++ [5] ++ [23, 3, 3, 0]⟩]

/-- The first side opens a stream and writes to it. On the network the second record arrives twice, and then one that somebody made
up; the second side accepts the stream and reads from it, and then learns that something is wrong. -/
def exampleMoves : List (Bool × Move) :=
  [(true, .poll (.connect none) [.accept 100] [.ok] [.write [0x88, 2, 0], .flush]),
   (true, .poll (.write 0 [1, 2, 3]) [] [.ok] []),
   (true, .poll (.flush 0) [.accept 100] [.ok] [.write [0x8a, 2, 3, 1, 2, 3], .flush]),
   (false, .network (.ready (wire [exampleSealed[0]]))),
   (false, .network (.ready (wire [exampleSealed[1]]))),
   (false, .network (.ready (wire [exampleSealed[1]]))),
   (false, .network (.ready (wire [⟨23, 3, 3, List.replicate 20 9⟩]))),
   (false, .read 100 .invalidData), (false, .poll .accept [] [] []),
   (false, .read 2 .invalidData), (false, .read 100 .invalidData), (false, .poll (.read 0 2) [] [] []), (false, .poll (.read 0 10) [] [] []),
   (false, .read 100 .invalidData), (false, .poll (.read 0 10) [] [] [])]

theorem example_possible : Stack.Possible toyCrypto ⟨.new exampleA, .new exampleB⟩ exampleMoves := by
  refine ⟨⟨by decide +kernel, by simp⟩, ⟨by decide +kernel, by simp⟩, ⟨by decide +kernel, by simp⟩, ?_, ?_, ?_, ?_, trivial,
    ⟨by decide +kernel, by simp⟩, trivial, trivial, ⟨by decide +kernel, by simp⟩, ⟨by decide +kernel, by simp⟩, trivial,
    ⟨by decide +kernel, by simp⟩, trivial⟩
  · exact notForged_of exampleSealed [exampleSealed[0]] (by decide +kernel) (by decide +kernel) (by decide +kernel)
      (by decide +kernel) (by decide +kernel)
  · exact notForged_of exampleSealed exampleSealed (by decide +kernel) (by decide +kernel) (by decide +kernel)
      (by decide +kernel) (by decide +kernel)
  · exact notForged_of exampleSealed (exampleSealed ++ [exampleSealed[1]]) (by decide +kernel) (by decide +kernel) (by decide +kernel)
      (by decide +kernel) (by decide +kernel)
  · exact notForged_of exampleSealed (exampleSealed ++ [exampleSealed[1], ⟨23, 3, 3, List.replicate 20 9⟩]) (by decide +kernel)
      (by decide +kernel) (by decide +kernel) (by decide +kernel) (by decide +kernel)

/-- The example meets the hypotheses of the theorems, and three bytes are read. -/
example : Ends exampleA exampleB ∧ Stack.Possible toyCrypto ⟨.new exampleA, .new exampleB⟩ exampleMoves ∧
    opens true exampleMoves = 1 ∧ opens false exampleMoves = 0 ∧
    (∀ o ∈ outIn (Stack.run toyCrypto ⟨.new exampleA, .new exampleB⟩ exampleMoves).a.mux.evs, o.Fits) ∧
    (∀ o ∈ outIn (Stack.run toyCrypto ⟨.new exampleA, .new exampleB⟩ exampleMoves).b.mux.evs, o.Fits) ∧
    readFrom (.initiator 33) (Stack.run toyCrypto ⟨.new exampleA, .new exampleB⟩ exampleMoves).b.mux.evs = [1, 2, 3] := by
  have hout : outIn (Stack.run toyCrypto ⟨.new exampleA, .new exampleB⟩ exampleMoves).a.mux.evs
      = [.new 33 (some []), .message (.initiator 33) [1, 2, 3]] := by
    have : (Stack.run toyCrypto ⟨.new exampleA, .new exampleB⟩ exampleMoves).a.mux.evs
        = [.opened (.receiver 33), .announced 33 [], .wrote (.receiver 33) [1, 2, 3]] := by
      decide +kernel
    rw [this]; rfl
  have hb : (Stack.run toyCrypto ⟨.new exampleA, .new exampleB⟩ exampleMoves).b.mux.evs
      = [.taken ⟨.initiator 33, .new, []⟩, .opened (.initiator 33),
        .taken ⟨.initiator 33, .message, [1, 2, 3]⟩, .got (.initiator 33) [1, 2], .got (.initiator 33) [3]] := by
    decide +kernel
  refine ⟨example_ends, example_possible, rfl, rfl, ?_, ?_, ?_⟩
  · rw [hout]
    intro o ho
    simp only [List.mem_cons, List.not_mem_nil, or_false] at ho
    rcases ho with rfl | rfl <;> simp [OutFrame.Fits, numOf]
  · rw [hb]; simp [outIn]
  · rw [hb]; rfl

end Ngfs.Spec.Stack
