import Verif.Props.Mplex
import Verif.Props.Stack
import Verif.Props.TlsMessages

/-!
C209: length-prefixed messages over a multiplexed stream, between two ends of a multiplexed connection and over TLS.
-/
namespace Ngfs.Spec.Stack
open Ngfs.Tls Ngfs.Spec.Mplex Ngfs.Io
open Ngfs.Spec.Io hiding End
open Ngfs.Mplex (StreamId Op Answer Event)

/-! ### What the reader of a stream gets -/

/-- An answer to a read on a stream, as the answer of the transport of whoever reads messages from it. -/
def asRead : Answer → List ReadEvent
  | .pending => [.pending]
  | .failed k => [.error k]
  | .bytes d => [.ready d]
  | _ => []

/-- The answer to a poll, if it is a read on this stream. -/
def answerTo (id : StreamId) (c : Ngfs.Mplex.Conn) (op : Op) : List ReadEvent :=
  match op with
  | .read h _ => if (c.handles[h]?).map (·.id) = some id then asRead (c.step op).1 else []
  | _ => []

/-- The answer that a happening at the first (`true`) or second end of a multiplexed connection is to a read on a stream there. -/
def pairAnswer (side : Bool) (id : StreamId) (p : Pair) : Bool × Act → List ReadEvent
  | (t, .poll op) => if t = side then answerTo id (if side then p.a else p.b).conn op else []
  | _ => []

/-- The answers to the reads on a stream at this end. -/
def pairAnswers (side : Bool) (id : StreamId) : Pair → List (Bool × Act) → List ReadEvent
  | _, [] => []
  | p, m :: ms => pairAnswer side id p m ++ pairAnswers side id (p.step m) ms

/-- The same at one of the sides of two multiplexers over TLS. -/
def stackAnswer (side : Bool) (id : StreamId) (s : Stack) : Bool × Move → List ReadEvent
  | (t, .poll op ws fs _) => if t = side then answerTo id (answers (if side then s.a else s.b).mux ws fs).conn op else []
  | _ => []

@[inherit_doc stackAnswer]
def stackAnswers {X K : Type} (cr : Crypto X K) (side : Bool) (id : StreamId) : Stack → List (Bool × Move) → List ReadEvent
  | _, [] => []
  | s, m :: ms => stackAnswer side id s m ++ stackAnswers cr side id (s.move cr m) ms

/-- A stream to read messages from that gives these answers. -/
def streamOf (es : List ReadEvent) : Reader := ⟨⟨es, [], [], [], []⟩, []⟩

/-! ### Lemmas -/

theorem step_got (id : StreamId) (c : Ngfs.Mplex.Conn) (op : Op) :
    readFrom id (c.step op).2.2 = Ngfs.Mplex.readBytes (answerTo id c op) := by
  have hno : (∀ i d, Event.got i d ∉ (c.step op).2.2) → readFrom id (c.step op).2.2 = [] := by
    intro h
    unfold readFrom
    rw [List.flatMap_eq_nil_iff]
    intro e he
    cases e with
    | got i d => exact (h i d he).elim
    | _ => rfl
  have hf := Ngfs.Mplex.C37_history_faithful c op
  have hnr : (∀ h room, op ≠ .read h room) → readFrom id (c.step op).2.2 = [] := by
    intro h
    refine hno fun i d hm => ?_
    obtain ⟨h', room, w, ho, -⟩ := hf.1 d (hf.2 i d hm)
    exact h h' room ho
  cases op with
  | read h room =>
    have htaken : ∀ fs : List Ngfs.Mplex.Frame, readFrom id (fs.map Event.taken) = [] := by
      intro fs; unfold readFrom; rw [List.flatMap_eq_nil_iff]; simp
    unfold answerTo Ngfs.Mplex.Conn.step
    cases c.poisoned with
    | true => simp [asRead, readFrom, Ngfs.Mplex.readBytes]
    | false =>
      simp only [Bool.false_eq_true, if_false]
      cases c.handles[h]? with
      | none => simp [readFrom, Ngfs.Mplex.readBytes]
      | some w =>
        simp only [Option.map_some, Option.some.injEq]
        unfold Ngfs.Mplex.Conn.read
        generalize c.shared.pollRead w.id room = P
        obtain ⟨r, m, taken⟩ := P
        rcases r with _ | (e | d)
        · simp only [htaken]
          split <;> simp [asRead, Ngfs.Mplex.readBytes]
        · simp only [htaken]
          cases e <;> split <;> simp [asRead, Ngfs.Mplex.faultAnswer, Ngfs.Mplex.readBytes]
        · simp only [Ngfs.Mplex.readFrom_append, htaken]
          by_cases hw : w.id = id <;> simp [hw, asRead, readFrom, Ngfs.Mplex.readBytes]
  | _ => exact hnr (by intro h r; simp)

theorem readBytes_append' (a b : List ReadEvent) : Ngfs.Mplex.readBytes (a ++ b) = Ngfs.Mplex.readBytes a ++ Ngfs.Mplex.readBytes b := by
  induction a with
  | nil => rfl
  | cons e a ih => cases e <;> simp [Ngfs.Mplex.readBytes, ih]

theorem act_evs (id : StreamId) (x y : End) (act : Act) : readFrom id (x.act y act).evs =
    readFrom id x.evs ++ Ngfs.Mplex.readBytes (match act with | .poll op => answerTo id x.conn op | _ => []) := by
  cases act with
  | poll op =>
    show readFrom id (x.evs ++ (x.conn.step op).2.2) = _
    rw [Ngfs.Mplex.readFrom_append, step_got]
  | deliver n =>
    show readFrom id (if (inFlight y x).take n = [] then x else x.arrive (.ready ((inFlight y x).take n))).evs = _
    split <;> simp [End.arrive, Ngfs.Mplex.readBytes]
  | _ => simp [End.act, End.arrive, End.takeWrite, End.takeFlush, Ngfs.Mplex.readBytes]

/-- What has been read from a stream is what its reads were answered with. -/
theorem pairAnswers_read (side : Bool) (id : StreamId) (ms : List (Bool × Act)) : ∀ p : Pair,
    readFrom id (if side then (ms.foldl Pair.step p).a else (ms.foldl Pair.step p).b).evs =
      readFrom id (if side then p.a else p.b).evs ++ Ngfs.Mplex.readBytes (pairAnswers side id p ms) := by
  induction ms with
  | nil => intro p; simp [pairAnswers, Ngfs.Mplex.readBytes]
  | cons m ms ih =>
    intro p
    rw [List.foldl_cons, ih, pairAnswers, readBytes_append', ← List.append_assoc]
    congr 1
    obtain ⟨t, act⟩ := m
    cases t <;> cases side <;> cases act <;> simp [pairAnswer, Pair.step, act_evs, Ngfs.Mplex.readBytes]

theorem answers_evs (x : End) (ws : List WriteEvent) (fs : List DoneEvent) : (answers x ws fs).evs = x.evs := by
  have h1 : ∀ (fs : List DoneEvent) (x : End), (fs.foldl End.takeFlush x).evs = x.evs := by
    intro fs
    induction fs with
    | nil => intro x; rfl
    | cons f fs ih => intro x; exact ih _
  have h2 : ∀ (ws : List WriteEvent) (x : End), (ws.foldl End.takeWrite x).evs = x.evs := by
    intro ws
    induction ws with
    | nil => intro x; rfl
    | cons f fs ih => intro x; exact ih _
  rw [answers, h1, h2]

theorem move_evs {X K : Type} (cr : Crypto X K) (id : StreamId) (x : Side) (m : Move) : readFrom id (x.move cr m).mux.evs =
    readFrom id x.mux.evs ++ Ngfs.Mplex.readBytes (match m with | .poll op ws fs _ => answerTo id (answers x.mux ws fs).conn op | _ => []) := by
  cases m with
  | network e => simp [Side.move, Ngfs.Mplex.readBytes]
  | poll op ws fs calls =>
    show readFrom id ((answers x.mux ws fs).evs ++ ((answers x.mux ws fs).conn.step op).2.2) = _
    rw [Ngfs.Mplex.readFrom_append, step_got, answers_evs]
  | read room k =>
    simp only [Side.move, Ngfs.Mplex.readBytes, List.append_nil]
    generalize (x.tls.pollRead cr room).1 = r
    rcases r with _ | (e | d) <;> rfl

/-- The same over TLS. -/
theorem stackAnswers_read {X K : Type} (cr : Crypto X K) (side : Bool) (id : StreamId) (ms : List (Bool × Move)) : ∀ s : Stack,
    readFrom id (if side then (s.run cr ms).a else (s.run cr ms).b).mux.evs =
      readFrom id (if side then s.a else s.b).mux.evs ++ Ngfs.Mplex.readBytes (stackAnswers cr side id s ms) := by
  induction ms with
  | nil => intro s; simp [stackAnswers, Stack.run, Ngfs.Mplex.readBytes]
  | cons m ms ih =>
    intro s
    rw [Stack.run, ih, stackAnswers, readBytes_append', ← List.append_assoc]
    congr 1
    obtain ⟨t, m⟩ := m
    cases t <;> cases side <;> cases m <;> simp [stackAnswer, Stack.move, move_evs, Ngfs.Mplex.readBytes]

theorem content_prefix (es : List ReadEvent) : (content es).1 <+: Ngfs.Mplex.readBytes es := by
  induction es with
  | nil => exact List.nil_prefix
  | cons e es ih =>
    cases e with
    | pending => exact ih
    | error k => exact List.nil_prefix
    | ready d =>
      cases d with
      | nil => exact List.nil_prefix
      | cons b d => exact (List.prefix_append_right_inj (b :: d)).mpr ih

theorem content_all (es : List ReadEvent) (h1 : ∀ k, ReadEvent.error k ∉ es) (h2 : ReadEvent.ready [] ∉ es) :
    (content es).1 = Ngfs.Mplex.readBytes es := by
  induction es with
  | nil => rfl
  | cons e es ih =>
    have ih := ih (fun k hk => h1 k (List.mem_cons_of_mem _ hk)) (fun hk => h2 (List.mem_cons_of_mem _ hk))
    cases e with
    | pending => exact ih
    | error k => exact (h1 k List.mem_cons_self).elim
    | ready d =>
      cases d with
      | nil => exact (h2 List.mem_cons_self).elim
      | cons b d => show b :: d ++ _ = b :: d ++ _; rw [ih]

/-- Bytes can be taken apart into messages in one way only. -/
theorem messages_prefix {bs : Bytes} {ms : List Bytes} (h : Messages bs ms) : ∀ {bs' tail rest : Bytes} {ms' : List Bytes},
    Messages bs' ms' → Unfinished tail → bs ++ rest = bs' ++ tail → ms <+: ms' := by
  induction h with
  | nil => intro _ _ _ _ _ _ _; exact List.nil_prefix
  | @cons b bs m ms hb h ih =>
    intro bs' tail rest ms' h' ht he
    cases h' with
    | nil =>
      rw [List.nil_append, List.append_assoc] at he
      exact (prefixed_unfinished hb (he ▸ ht)).elim
    | cons hb' h' =>
      rw [List.append_assoc, List.append_assoc] at he
      obtain ⟨-, rfl, he⟩ := prefixed_unique hb hb' he
      exact (List.cons_prefix_cons).mpr ⟨rfl, ih h' ht he⟩

theorem read_messages {es : List ReadEvent} {got written tail : Bytes} {ms sent : List Bytes} {n : Nat}
    {more : List (Poll (Except IoKind (Option Bytes)))} (hg : got = Ngfs.Mplex.readBytes es) (hp : got <+: written ++ tail)
    (hs : Messages written sent) (ht : Unfinished tail)
    (h : readTimes n (streamOf es) = ms.map (fun m => .ready (.ok (some m))) ++ more) : ms <+: sent := by
  obtain ⟨bs, rest, e, -, hm, hv, -, -⟩ := Ipfs.readTimes_messages ms _ _ _ h
  have hv1 : (content es).1 = bs ++ rest := congrArg Prod.fst hv
  have h1 := content_prefix es
  rw [hv1, ← hg] at h1
  obtain ⟨z, hz⟩ := h1.trans hp
  rw [List.append_assoc] at hz
  exact messages_prefix hm hs ht hz

/-! ### C209 -/

/-- **C209**: two multiplexers over the two ends of an established TLS connection, with somebody on the network who does not have the
keys. If one side has written messages to a stream, the last of them perhaps not completely, then the messages that are read from the
stream at the other side are the first of these, in their order, whatever happens. -/
theorem C209_messages_over_tls {X K : Type} (cr : Crypto X K) (hc : cr.Correct) (a b : Conn) (hab : Ends a b)
    (moves : List (Bool × Move)) (hms : Stack.Possible cr ⟨.new a, .new b⟩ moves)
    (ha : opens true moves < 2 ^ 64 - 33) (hb : opens false moves < 2 ^ 64 - 33)
    (hfa : ∀ o ∈ outIn (Stack.run cr ⟨.new a, .new b⟩ moves).a.mux.evs, o.Fits)
    (hfb : ∀ o ∈ outIn (Stack.run cr ⟨.new a, .new b⟩ moves).b.mux.evs, o.Fits) (id : StreamId)
    (written tail : Bytes) (sent ms : List Bytes) (n : Nat) (more : List (Poll (Except IoKind (Option Bytes))))
    (hw : writtenTo (peerId id) (Stack.run cr ⟨.new a, .new b⟩ moves).a.mux.evs = written ++ tail)
    (hs : Messages written sent) (ht : Unfinished tail)
    (h : readTimes n (streamOf (stackAnswers cr false id ⟨.new a, .new b⟩ moves)) = ms.map (fun m => .ready (.ok (some m))) ++ more) :
    ms <+: sent := by
  have h1 := (C149_streams_over_tls cr hc a b hab moves hms ha hb hfa hfb id).1
  rw [hw] at h1
  exact read_messages (stackAnswers_read cr false id moves ⟨.new a, .new b⟩) h1 hs ht h

/-- **C209**: the same in the other direction. -/
theorem C209_messages_over_tls_back {X K : Type} (cr : Crypto X K) (hc : cr.Correct) (a b : Conn) (hab : Ends a b)
    (moves : List (Bool × Move)) (hms : Stack.Possible cr ⟨.new a, .new b⟩ moves)
    (ha : opens true moves < 2 ^ 64 - 33) (hb : opens false moves < 2 ^ 64 - 33)
    (hfa : ∀ o ∈ outIn (Stack.run cr ⟨.new a, .new b⟩ moves).a.mux.evs, o.Fits)
    (hfb : ∀ o ∈ outIn (Stack.run cr ⟨.new a, .new b⟩ moves).b.mux.evs, o.Fits) (id : StreamId)
    (written tail : Bytes) (sent ms : List Bytes) (n : Nat) (more : List (Poll (Except IoKind (Option Bytes))))
    (hw : writtenTo (peerId id) (Stack.run cr ⟨.new a, .new b⟩ moves).b.mux.evs = written ++ tail)
    (hs : Messages written sent) (ht : Unfinished tail)
    (h : readTimes n (streamOf (stackAnswers cr true id ⟨.new a, .new b⟩ moves)) = ms.map (fun m => .ready (.ok (some m))) ++ more) :
    ms <+: sent := by
  have h1 := (C149_streams_over_tls cr hc a b hab moves hms ha hb hfa hfb id).2
  rw [hw] at h1
  exact read_messages (stackAnswers_read cr true id moves ⟨.new a, .new b⟩) h1 hs ht h

/-- **C209**: and the messages arrive. If the transport between two multiplexers has delivered everything, and at the other end
accepting and reading every stream have to wait, then whoever has read from the stream, without a failure and without an end, has read
all messages that were written to it. -/
theorem C209_messages_arrive (acts : List (Bool × Act))
    (ha : opensAt true acts < 2 ^ 64 - 33) (hb : opensAt false acts < 2 ^ 64 - 33)
    (hfa : ∀ o ∈ outIn (Pair.run acts).a.evs, o.Fits) (hfb : ∀ o ∈ outIn (Pair.run acts).b.evs, o.Fits)
    (hsent : (Pair.run acts).a.conn.shared.frames.outgoing = [])
    (hway : inFlight (Pair.run acts).a (Pair.run acts).b = [])
    (hconn : (Pair.run acts).b.conn.connecting = []) (hok : ∀ k, Answer.failed k ∉ (Pair.run acts).b.answers)
    (hacc : ((Pair.run acts).b.conn.step .accept).1 = .pending)
    (hread : ∀ h, (((Pair.run acts).b.conn.step .accept).2.1.step (.read h 1)).1 = .pending)
    (id : StreamId) (ho : .opened id ∈ (Pair.run acts).b.evs) (hd : .dropped id ∉ (Pair.run acts).b.evs)
    (hne : ∀ e ∈ pairAnswers false id ⟨End.new, End.new⟩ acts, e ≠ .ready [] ∧ ∀ k, e ≠ .error k)
    (sent : List Bytes) (hs : Messages (writtenTo (peerId id) (Pair.run acts).a.evs) sent) :
    readTimes sent.length (streamOf (pairAnswers false id ⟨End.new, End.new⟩ acts)) = sent.map (fun m => .ready (.ok (some m))) := by
  have h := (Ngfs.Mplex.C133_all_arrives acts ha hb hfa hfb hsent hway hconn hok hacc hread).2 id ho hd
  have h1 := pairAnswers_read false id acts ⟨End.new, End.new⟩
  have h2 := content_all _ (fun k hk => (hne _ hk).2 k rfl) (fun hk => (hne _ hk).1 rfl)
  have h3 : readFrom id (Pair.run acts).b.evs = Ngfs.Mplex.readBytes (pairAnswers false id ⟨End.new, End.new⟩ acts) := h1
  rw [← h3, h] at h2
  exact (Io.readTimes_spec hs (streamOf _) (content (pairAnswers false id ⟨End.new, End.new⟩ acts)).2 (Prod.ext h2 rfl)).1

/-! ### Examples -/

theorem prefixed_short (n : UInt8) (data : Bytes) (hn : n.toNat < 128) (hd : data.length = n.toNat) : Prefixed (n :: data) data :=
  ⟨[n], rfl, ⟨[], n, rfl, by simp, hn⟩, by simp, by simp [base128, hd]; omega⟩

theorem messages_one : Messages [1, 2] [[2]] := .cons (b := [1, 2]) (bs := []) (prefixed_short 1 [2] (by decide) rfl) .nil

theorem messages_two : Messages [1, 2, 0] [[2], []] :=
  .cons (b := [1, 2]) (bs := [0]) (prefixed_short 1 [2] (by decide) rfl)
    (.cons (b := [0]) (bs := []) (prefixed_short 0 [] (by decide) rfl) .nil)

/-- `exampleMoves` meets the hypotheses of `C209_messages_over_tls` (for those that `C149` has, see there): one message and the
beginning of another have been written, and the message is read. -/
example : writtenTo (peerId (.initiator 33)) (Stack.run toyCrypto ⟨.new exampleA, .new exampleB⟩ exampleMoves).a.mux.evs = [1, 2] ++ [3] ∧
    Messages [1, 2] [[2]] ∧ Unfinished [3] ∧
    readTimes 2 (streamOf (stackAnswers toyCrypto false (.initiator 33) ⟨.new exampleA, .new exampleB⟩ exampleMoves)) =
      [[2]].map (fun m => .ready (.ok (some m))) ++ [.ready (.error .invalidData)] := by
  refine ⟨by decide +kernel, messages_one, .inr ⟨[3], [], rfl, ⟨[], 3, rfl, by simp, by decide⟩, by simp, by decide⟩, by decide +kernel⟩

/-- Like `examplePair`, but what is written are two messages, the second of them empty. -/
def exampleActs : List (Bool × Act) :=
  [(true, .takeWrite (.accept 1)), (true, .takeWrite (.accept 100)), (true, .takeFlush .ok), (true, .poll (.connect none)),
   (true, .takeFlush .ok), (true, .poll (.write 0 [1, 2, 0])),
   (true, .takeWrite (.accept 100)), (true, .takeFlush .ok), (true, .poll (.flush 0)),
   (false, .deliver 1), (false, .poll .accept), (false, .deliver 3), (false, .poll .accept), (false, .deliver 100),
   (false, .poll (.read 0 2)), (false, .poll (.read 0 10))]

/-- `exampleActs` meets the hypotheses of `C209_messages_arrive`. -/
example : opensAt true exampleActs < 2 ^ 64 - 33 ∧ opensAt false exampleActs < 2 ^ 64 - 33 ∧
    (∀ o ∈ outIn (Pair.run exampleActs).a.evs, o.Fits) ∧ (∀ o ∈ outIn (Pair.run exampleActs).b.evs, o.Fits) ∧
    (Pair.run exampleActs).a.conn.shared.frames.outgoing = [] ∧
    inFlight (Pair.run exampleActs).a (Pair.run exampleActs).b = [] ∧
    (Pair.run exampleActs).b.conn.connecting = [] ∧ (∀ k, Answer.failed k ∉ (Pair.run exampleActs).b.answers) ∧
    ((Pair.run exampleActs).b.conn.step .accept).1 = .pending ∧
    (∀ h, (((Pair.run exampleActs).b.conn.step .accept).2.1.step (.read h 1)).1 = .pending) ∧
    .opened (.initiator 33) ∈ (Pair.run exampleActs).b.evs ∧
    .dropped (.initiator 33) ∉ (Pair.run exampleActs).b.evs ∧
    (∀ e ∈ pairAnswers false (.initiator 33) ⟨End.new, End.new⟩ exampleActs, e ≠ .ready [] ∧ ∀ k, e ≠ .error k) ∧
    Messages (writtenTo (peerId (.initiator 33)) (Pair.run exampleActs).a.evs) [[2], []] := by
  have hout : outIn (Pair.run exampleActs).a.evs = [.new 33 (some []), .message (.initiator 33) [1, 2, 0]] := by
    have : (Pair.run exampleActs).a.evs = [.opened (.receiver 33), .announced 33 [], .wrote (.receiver 33) [1, 2, 0]] := by
      decide +kernel
    rw [this]; rfl
  have hb : (Pair.run exampleActs).b.evs = [.taken ⟨.initiator 33, .new, []⟩, .opened (.initiator 33),
      .taken ⟨.initiator 33, .message, [1, 2, 0]⟩, .got (.initiator 33) [1, 2], .got (.initiator 33) [0]] := by
    decide +kernel
  have hans : (Pair.run exampleActs).b.answers = [.pending, .stream (.initiator 33), .bytes [1, 2], .bytes [0]] := by
    decide +kernel
  refine ⟨by decide, by decide, ?_, ?_, by decide +kernel, by decide +kernel, by decide +kernel, ?_, by decide +kernel,
    ?_, ?_, ?_, ?_, ?_⟩
  · rw [hout]
    intro o ho
    simp only [List.mem_cons, List.not_mem_nil, or_false] at ho
    rcases ho with rfl | rfl <;> simp [OutFrame.Fits, numOf]
  · rw [hb]; simp [outIn]
  · rw [hans]; simp
  · intro h
    have h1 : ((Pair.run exampleActs).b.conn.step .accept).2.1.handles = [⟨.initiator 33, none⟩] := by decide +kernel
    have h2 : (((Pair.run exampleActs).b.conn.step .accept).2.1.step (.read 0 1)).1 = .pending := by decide +kernel
    have h3 : ((Pair.run exampleActs).b.conn.step .accept).2.1.poisoned = false := by decide +kernel
    generalize ((Pair.run exampleActs).b.conn.step .accept).2.1 = c at h1 h2 h3 ⊢
    cases h with
    | zero => exact h2
    | succ h => simp [Ngfs.Mplex.Conn.step, h1, h3]
  · rw [hb]; simp
  · rw [hb]; simp
  · rw [show pairAnswers false (.initiator 33) ⟨End.new, End.new⟩ exampleActs = [.ready [1, 2], .ready [0]] by decide +kernel]
    simp
  · rw [show (Pair.run exampleActs).a.evs = [.opened (.receiver 33), .announced 33 [], .wrote (.receiver 33) [1, 2, 0]] by decide +kernel]
    exact messages_two

end Ngfs.Spec.Stack
