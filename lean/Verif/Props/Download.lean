import Verif.Lemmas.Download
import Verif.Lemmas.Peer
import Mathlib.Tactic.ByContra

/-! Properties of the downloader: C113-C119. -/
namespace Ngfs.Download
open Spec.Download
open Spec.Torrent (Field HandshakeWire Wire Body)
open Spec (bigEndian)

/-! ### C113: messages and pieces of data -/

/-- **C113**: whatever pieces the bytes of a connection come in, the messages are those the bytes consist of, one after the other, up to the first
that is malformed or not complete. -/
theorem C113_messages (s : Source) (ms : List Message) (ws : List Bytes) (rest : Bytes) (stop : Got Unit) (hm : List.Forall₂ Frame ms ws)
    (hb : s.bytes = ws.flatten ++ rest) (hs : Stops s.ending rest stop) (fuel count : Nat) (hf : s.bytes.length ≤ fuel) (hc : ms.length < count) :
    readMessages fuel count s = (ms, some stop) := by
  obtain ⟨n, rfl⟩ : ∃ n, count = ms.length + (n + 1) := ⟨count - ms.length - 1, by omega⟩
  obtain ⟨s', h1, h2, h3⟩ := readMessages_frames fuel hm s rest (n + 1) hb hf
  have hl := congrArg List.length hb
  simp only [List.length_append] at hl
  rw [h3, readMessages]
  rw [← h2] at hs
  generalize he : s'.ending = e at hs
  rw [← h1] at hs
  cases hs with
  | malformed hm => rw [readMessage_malformed fuel s' hm (by rw [h1]; omega)]; simp
  | broken hc =>
    generalize hb' : s'.bytes = bs at hc
    cases hc with
    | inLength h => rw [readMessage_short fuel s' (by rw [hb']; exact h), he]; simp
    | inBody hf hp => rw [readMessage_inBody fuel s' hf hb' hp (.inr (by rw [h1]; omega)), he]; simp
  | silent hc =>
    generalize hb' : s'.bytes = bs at hc
    cases hc with
    | inLength h => rw [readMessage_short fuel s' (by rw [hb']; exact h), he]; simp
    | inBody hf hp => rw [readMessage_inBody fuel s' hf hb' hp (.inr (by rw [h1]; omega)), he]; simp
  | eof h => rw [readMessage_short fuel s' h, he]; simp

/-- The messages so far, while others are still to come. -/
theorem C113_prefix (s : Source) (ms : List Message) (ws : List Bytes) (rest : Bytes) (hm : List.Forall₂ Frame ms ws)
    (hb : s.bytes = ws.flatten ++ rest) (fuel : Nat) (hf : s.bytes.length ≤ fuel) : readMessages fuel ms.length s = (ms, none) := by
  obtain ⟨s', -, -, h⟩ := readMessages_frames fuel hm s rest 0 hb hf
  simpa [readMessages] using h

/-- Every sequence of bytes can be taken apart like this. -/
theorem C113_parts (bs : Bytes) : ∃ (ms : List Message) (ws : List Bytes) (rest : Bytes), bs = ws.flatten ++ rest ∧ List.Forall₂ Frame ms ws ∧
    (CutOff rest ∨ Malformed rest) := by
  induction hn : bs.length using Nat.strongRecOn generalizing bs with
  | _ n ih =>
    by_cases h4 : bs.length < 4
    · exact ⟨[], [], bs, by simp, .nil, .inl (.inLength h4)⟩
    · obtain ⟨e1, e2⟩ := four_split bs (by omega)
      have hf : Field 4 (bigEndian (bs.take 4)) (bs.take 4) := ⟨e2, rfl⟩
      by_cases hl : (bs.drop 4).length < bigEndian (bs.take 4)
      · exact ⟨[], [], bs, by simp, .nil, .inl (by rw [e1]; exact .inBody hf hl)⟩
      · have hb : ((bs.drop 4).take (bigEndian (bs.take 4))).length = bigEndian (bs.take 4) := by
          rw [List.length_take]; omega
        generalize hbody : (bs.drop 4).take (bigEndian (bs.take 4)) = body at hb
        have e3 : bs = bs.take 4 ++ body ++ (bs.drop 4).drop (bigEndian (bs.take 4)) := by
          rw [← hbody, List.append_assoc, List.take_append_drop, List.take_append_drop]
        rw [← hb] at hf
        cases hp : parseBody body with
        | error e =>
          refine ⟨[], [], bs, by simp, .nil, .inr ?_⟩
          rw [e3]
          refine .mk hf ?_
          intro m hm
          rw [(parseBody_ok body m).2 hm] at hp
          cases hp
        | ok m =>
          have hlen := congrArg List.length e3
          simp only [List.length_append] at hlen
          obtain ⟨ms, ws, rest, g1, g2, g3⟩ := ih _ (by omega) ((bs.drop 4).drop (bigEndian (bs.take 4))) rfl
          refine ⟨m :: ms, (bs.take 4 ++ body) :: ws, rest, ?_, .cons (.mk hf ((parseBody_ok body m).1 hp)) g2, g3⟩
          conv => lhs; rw [e3, g1]
          simp

example : readMessages 20 5 ⟨[0, 0, 0, 1, 1, 0, 0, 0, 0, 0, 0, 0, 5, 4, 0, 0, 1, 0, 0, 0], [3, 1, 1, 2, 1, 9, 1], .eof⟩ =
    ([.unchoke, .keepAlive, .have 256], some (.failed .unexpectedEof)) := by decide +kernel

theorem forall₂_take {α β : Type} {R : α → β → Prop} {as : List α} {bs : List β} (n : Nat) (h : List.Forall₂ R as bs) :
    List.Forall₂ R (as.take n) (bs.take n) := by
  induction h generalizing n with
  | nil => simp
  | cons h _ ih =>
    cases n with
    | zero => exact .nil
    | succ n => exact .cons h (ih n)

/-! ### C114: the end of the connection -/

/-- When the peer closes the connection, the reader notices. -/
def C114_statement : Prop := ∀ s : Source, s.ending = .eof → ∃ fuel count e, (readMessages fuel count s).2 = some (.failed e)

/-- **C114**, what holds instead: the end is noticed if and only if it is not inside the body of a message. If it is, the reader repeats the read
that gives no bytes, without end. -/
theorem C114_exact_partial (s : Source) (he : s.ending = .eof) (ms : List Message) (ws : List Bytes) (rest : Bytes)
    (hm : List.Forall₂ Frame ms ws) (hb : s.bytes = ws.flatten ++ rest) (hr : CutOff rest) :
    (∃ fuel count e, (readMessages fuel count s).2 = some (.failed e)) ↔ rest.length < 4 := by
  constructor
  · rintro ⟨fuel, count, e, h⟩
    by_contra hl
    obtain ⟨len, n, part, hf, hp, rfl⟩ : ∃ len n part, Field 4 n len ∧ part.length < n ∧ rest = len ++ part := by
      cases hr with
      | inLength h => omega
      | inBody hf hp => exact ⟨_, _, _, hf, hp, rfl⟩
    have hle := readMessages_le (Nat.le_max_left fuel s.bytes.length) count s (by simp [h])
    rw [← hle] at h
    have hF := Nat.le_max_right fuel s.bytes.length
    generalize max fuel s.bytes.length = F at h hF
    by_cases hc : count ≤ ms.length
    · have hm' : List.Forall₂ Frame (ms.take count) (ws.take count) := by
        exact forall₂_take count hm
      have := C113_prefix s (ms.take count) (ws.take count) ((ws.drop count).flatten ++ (len ++ part)) hm'
        (by rw [← List.append_assoc, ← List.flatten_append, List.take_append_drop, hb]) F hF
      rw [List.length_take, Nat.min_eq_left hc] at this
      rw [this] at h
      simp at h
    · obtain ⟨k, rfl⟩ : ∃ k, count = ms.length + (k + 1) := ⟨count - ms.length - 1, by omega⟩
      obtain ⟨s', h1, h2, h3⟩ := readMessages_frames F hm s _ (k + 1) hb hF
      rw [h3, readMessages, readMessage_inBody F s' hf h1 hp (.inl (by rw [h2, he])), h2, he] at h
      simp at h
  · intro h
    exact ⟨s.bytes.length, ms.length + 1, .unexpectedEof, by
      rw [C113_messages s ms ws rest _ hm hb (by rw [he]; exact .eof h) _ _ (Nat.le_refl _) (by omega)]⟩

/-- **C114** does not hold: see above. -/
theorem C114_false : ¬ C114_statement := by
  intro h
  have := (C114_exact_partial ⟨[0, 0, 0, 2, 5], [], .eof⟩ rfl [] [] _ .nil rfl
    (.inBody (len := [0, 0, 0, 2]) (n := 2) (part := [5]) ⟨rfl, by decide⟩ (by decide))).1 (h _ rfl)
  exact absurd this (by decide)

example : (readMessages 9 9 ⟨[0, 0, 0, 1, 0, 0, 0], [2, 1], .eof⟩).2 = some (.failed .unexpectedEof) := by decide +kernel

/-! ### C115: what is sent -/

theorem rawMessage_eq {body w : Bytes} {m : Torrent.Message} (hw : Wire m w) (hb : Body m body) (hl : body.length < 2 ^ 32)
    (hu : ∀ b, Body m b → b = body) : rawMessage body = w := by
  cases hw with
  | keepAlive => cases hb
  | body hf hb' =>
    rename_i len b
    have := hu b hb'
    subst this
    unfold rawMessage
    rw [Nat.mod_eq_of_lt hl]
    congr 1
    refine Binary.bigEndian_inj ?_ ?_
    · rw [Binary.beBytes_length, hf.1]
    · rw [Binary.bigEndian_beBytes, hf.2, Nat.mod_eq_of_lt (by simpa using hl)]

theorem raw_interested {w : Bytes} (n : Nat) (hw : Wire .interested w) : rawMessage (WriterAction.interested.body n) = w :=
  rawMessage_eq hw (body := [2]) .interested (by decide) (by intro b hb; cases hb; rfl)

theorem raw_bitField {w : Bytes} {n : Nat} (hn : (n + 7) / 8 + 1 < 2 ^ 32) (hw : Wire (.bitField (List.replicate ((n + 7) / 8) 0)) w) :
    rawMessage (WriterAction.bitField.body n) = w := by
  refine rawMessage_eq hw (body := 5 :: List.replicate ((n + 7) / 8) 0) .bitField (by simpa using hn) (by intro b hb; cases hb; rfl)

theorem raw_request {w : Bytes} (n : Nat) (hw : Wire (.request ⟨0, 0, 16384⟩) w) : rawMessage (WriterAction.request.body n) = w := by
  refine rawMessage_eq hw (body := [6] ++ Binary.beBytes 4 0 ++ Binary.beBytes 4 0 ++ Binary.beBytes 4 (16 * 1024)) ?_ (by decide) ?_
  · exact .request ⟨rfl, by decide⟩ ⟨rfl, by decide⟩ ⟨rfl, by decide +kernel⟩
  · intro b hb
    cases hb with
    | request h1 h2 h3 =>
      rename_i f1 f2 f3
      have e1 : f1 = Binary.beBytes 4 0 := Binary.bigEndian_inj h1.1 (by rw [h1.2]; decide)
      have e2 : f2 = Binary.beBytes 4 0 := Binary.bigEndian_inj h2.1 (by rw [h2.2]; decide)
      have e3 : f3 = Binary.beBytes 4 (16 * 1024) := Binary.bigEndian_inj h3.1 (by rw [h3.2]; decide +kernel)
      rw [e1, e2, e3]
      simp

/-- The message of an action. -/
def msg (s : State) (a : WriterAction) : Bytes := rawMessage (a.body s.piecesLen)

/-- What was sent, as recorded. -/
def recorded (s : State) : Bytes :=
  (if s.sentBitfield then msg s .bitField else []) ++ (if s.interested then msg s .interested else []) ++
    (if s.activeRequest then msg s .request else [])

/-- The action follows those recorded. -/
def Due (s : State) : WriterAction → Prop
  | .bitField => s.sentBitfield = false
  | .interested => s.sentBitfield = true ∧ s.interested = false
  | .request => s.sentBitfield = true ∧ s.interested = true ∧ s.activeRequest = false

/-- The invariant of the program. -/
structure Inv (s : State) : Prop where
  order1 : s.sentBitfield = false → s.interested = false
  order2 : s.interested = false → s.activeRequest = false
  due : ∀ a, s.writer = .writing a ∨ s.writer = .marking a → Due s a
  calm : s.writer = .top ∨ s.writer = .deciding ∨ s.writer = .waiting → s.sent = recorded s
  writing : ∀ a, s.writer = .writing a → s.sent = recorded s
  marking : ∀ a, s.writer = .marking a → s.sent = recorded s ++ msg s a
  returned : s.writer = .returned → ∃ a n, s.sent = recorded s ∨ Due s a ∧ s.sent = recorded s ++ (msg s a).take n
  idle : s.writer = .waiting → s.commands = 0 → s.nextAction = none

theorem nextAction_due {s : State} {a : WriterAction} (h : s.nextAction = some a) : Due s a ∧ (a = .request → s.choked = false) := by
  unfold State.nextAction at h
  split at h
  · cases h; simp_all [Due]
  split at h
  · cases h; simp_all [Due]
  split at h
  · cases h; simp_all [Due]
  · cases h

theorem inv_init (n : Nat) : Inv (.init n) := by
  constructor <;> simp [State.init, recorded]

/-- A step that concerns only the reader and wakes the writer if there is news for it. -/
theorem inv_reader {s s' : State} (h : Inv s) (e0 : s'.piecesLen = s.piecesLen) (e1 : s'.sentBitfield = s.sentBitfield)
    (e2 : s'.interested = s.interested) (e3 : s'.activeRequest = s.activeRequest) (e4 : s'.writer = s.writer) (e5 : s'.sent = s.sent)
    (e6 : s'.choked = s.choked ∧ s.commands ≤ s'.commands ∨ 0 < s'.commands ∨ s.writer = .returned) : Inv s' := by
  have hm : ∀ a, msg s' a = msg s a := fun a => by simp [msg, e0]
  have hr : recorded s' = recorded s := by simp [recorded, hm, e1, e2, e3]
  have hd : ∀ a, Due s' a ↔ Due s a := fun a => by cases a <;> simp [Due, e1, e2, e3]
  refine ⟨?_, ?_, ?_, ?_, ?_, ?_, ?_, ?_⟩
  · rw [e1, e2]; exact h.order1
  · rw [e2, e3]; exact h.order2
  · intro a; rw [e4, hd]; exact h.due a
  · rw [e4, e5, hr]; exact h.calm
  · intro a; rw [e4, e5, hr]; exact h.writing a
  · intro a; rw [e4, e5, hr, hm]; exact h.marking a
  · simp only [e4, e5, hr, hd, hm]; exact h.returned
  · intro hw hc
    rw [e4] at hw
    rcases e6 with ⟨e6, e7⟩ | e6 | e6
    · have := h.idle hw (by omega)
      simpa [State.nextAction, e1, e2, e3, e6] using this
    · omega
    · rw [e6] at hw; cases hw

theorem inv_received {s : State} (h : Inv s) (m : Message) : Inv (s.onReceivedMessage m) := by
  have key : ∀ s' : State, s'.piecesLen = s.piecesLen → s'.sentBitfield = s.sentBitfield → s'.interested = s.interested →
      s'.activeRequest = s.activeRequest → s'.writer = s.writer → s'.sent = s.sent → Inv s'.sendCommand := by
    intro s' e0 e1 e2 e3 e4 e5
    unfold State.sendCommand
    split
    · next hw => exact inv_reader h e0 e1 e2 e3 e4 e5 (.inr (.inr (by rw [← e4, hw])))
    · exact inv_reader h e0 e1 e2 e3 e4 e5 (.inr (.inl (by simp)))
  unfold State.onReceivedMessage
  split
  · exact key _ rfl rfl rfl rfl rfl rfl
  · exact key _ rfl rfl rfl rfl rfl rfl
  · split
    · exact inv_reader h rfl rfl rfl rfl rfl rfl (.inl ⟨rfl, Nat.le_refl _⟩)
    · exact key _ rfl rfl rfl rfl rfl rfl
  · exact key _ rfl rfl rfl rfl rfl rfl

theorem inv_step {s : State} (h : Inv s) (a : Action) : Inv (s.step a) := by
  unfold State.step
  split
  · exact h
  cases a with
  | readerTop =>
    dsimp only
    split
    · exact inv_reader h rfl rfl rfl rfl rfl rfl (.inl ⟨rfl, Nat.le_refl _⟩)
    · exact h
  | received m =>
    dsimp only
    split
    · refine inv_received ?_ m
      exact inv_reader h rfl rfl rfl rfl rfl rfl (.inl ⟨rfl, Nat.le_refl _⟩)
    · exact h
  | receiveError =>
    dsimp only
    split
    · exact inv_reader h rfl rfl rfl rfl rfl rfl (.inl ⟨rfl, Nat.le_refl _⟩)
    · exact h
  | writerTop =>
    dsimp only
    split
    · next hw =>
      have hs := h.calm (.inl hw)
      refine ⟨h.order1, h.order2, ?_, fun _ => hs, ?_, ?_, ?_, ?_⟩
      · intro a ha; dsimp only at ha; split at ha <;> simp at ha
      · intro a ha; dsimp only at ha; split at ha <;> simp at ha
      · intro a ha; dsimp only at ha; split at ha <;> simp at ha
      · intro _; exact ⟨.interested, 0, .inl hs⟩
      · intro hw'; dsimp only at hw'; split at hw' <;> simp at hw'
    · exact h
  | decide =>
    dsimp only
    split
    · next hw =>
      have hs := h.calm (.inr (.inl hw))
      cases hn : s.nextAction with
      | none =>
        refine ⟨h.order1, h.order2, ?_, fun _ => hs, ?_, ?_, ?_, fun _ _ => hn⟩ <;> simp
      | some a =>
        refine ⟨h.order1, h.order2, ?_, ?_, ?_, ?_, ?_, ?_⟩
        · intro b hb
          have : a = b := by simpa using hb
          subst this
          exact (nextAction_due hn).1
        all_goals simp
        exact hs
    · exact h
  | write =>
    dsimp only
    split
    · next a hw =>
      have hs := h.writing a hw
      refine ⟨h.order1, h.order2, ?_, ?_, ?_, ?_, ?_, ?_⟩
      · intro b hb
        have : a = b := by simpa using hb
        subst this
        exact h.due a (.inl hw)
      · simp
      · simp
      · intro b hb
        have : a = b := by simpa using hb
        subst this
        show s.sent ++ msg s a = recorded s ++ msg s a
        rw [hs]
      · simp
      · simp
    · exact h
  | writeError n =>
    dsimp only
    split
    · next a hw =>
      have hs := h.writing a hw
      refine ⟨h.order1, h.order2, by simp, by simp, by simp, by simp, ?_, by simp⟩
      intro _
      refine ⟨a, n, .inr ⟨h.due a (.inl hw), ?_⟩⟩
      show s.sent ++ (msg s a).take n = recorded s ++ (msg s a).take n
      rw [hs]
    · exact h
  | mark =>
    dsimp only
    split
    · next a hw =>
      have hs := h.marking a hw
      have hd := h.due a (.inr hw)
      cases a with
      | bitField =>
        have hd1 : s.sentBitfield = false := hd
        have hd2 := h.order1 hd1
        have hd3 := h.order2 hd2
        refine ⟨by simp [State.mark], by simp [State.mark, hd3], by simp [State.mark], ?_, by simp [State.mark], by simp [State.mark],
          by simp [State.mark], by simp [State.mark]⟩
        intro _
        simpa [State.mark, recorded, hd1, hd2, hd3, msg] using hs
      | interested =>
        have hd1 : s.sentBitfield = true := hd.1
        have hd2 : s.interested = false := hd.2
        have hd3 := h.order2 hd2
        refine ⟨by simp [State.mark, hd1], by simp [State.mark], by simp [State.mark], ?_, by simp [State.mark], by simp [State.mark],
          by simp [State.mark], by simp [State.mark]⟩
        intro _
        simpa [State.mark, recorded, hd1, hd2, hd3, msg] using hs
      | request =>
        have hd1 : s.sentBitfield = true := hd.1
        have hd2 : s.interested = true := hd.2.1
        have hd3 : s.activeRequest = false := hd.2.2
        refine ⟨by simp [State.mark, hd1], by simp [State.mark, hd2], by simp [State.mark], ?_, by simp [State.mark], by simp [State.mark],
          by simp [State.mark], by simp [State.mark]⟩
        intro _
        simpa [State.mark, recorded, hd1, hd2, hd3, msg] using hs
    · exact h
  | command =>
    dsimp only
    split
    · next hw =>
      have hs := h.calm (.inr (.inr hw.1))
      refine ⟨h.order1, h.order2, by simp, fun _ => hs, by simp, by simp, by simp, by simp⟩
    · exact h

theorem inv_run {s : State} (h : Inv s) (as : List Action) : Inv (s.run as) := by
  induction as generalizing s with
  | nil => exact h
  | cons a as ih => exact ih (inv_step h a)

theorem piecesLen_step (s : State) (a : Action) : (s.step a).piecesLen = s.piecesLen := by
  unfold State.step
  split
  · rfl
  cases a <;> dsimp only
  case received m =>
    split
    · unfold State.onReceivedMessage State.sendCommand
      repeat' split
      all_goals rfl
    · rfl
  case mark =>
    split
    · next a _ => cases a <;> rfl
    · rfl
  all_goals (split <;> rfl)

theorem piecesLen_run (s : State) (as : List Action) : (s.run as).piecesLen = s.piecesLen := by
  induction as generalizing s with
  | nil => rfl
  | cons a as ih => rw [State.run, ih, piecesLen_step]

/-- The choke state is that of the messages so far. -/
def ChokedBy (ms : List Message) (s : State) : Prop := s.choked = false ↔ Unchoked ms

theorem unchoked_append (ms : List Message) (m : Message) : Unchoked (ms ++ [m]) ↔ m = .unchoke ∨ m ≠ .choke ∧ Unchoked ms := by
  constructor
  · rintro ⟨b, a, h1, h2⟩
    rcases List.eq_nil_or_concat a with rfl | ⟨a', x, rfl⟩
    · have := List.append_inj_right' h1 rfl
      left; simpa using this
    · have h3 : ms ++ [m] = (b ++ .unchoke :: a') ++ [x] := by rw [h1]; simp
      obtain ⟨h4, h5⟩ := List.append_inj' h3 rfl
      have h5 : m = x := by simpa using h5
      subst h5
      by_cases hm : m = .choke
      · simp [hm] at h2
      · exact .inr ⟨hm, b, a', h4, fun h => h2 (by simp [h])⟩
  · rintro (rfl | ⟨h1, b, a, h2, h3⟩)
    · exact ⟨ms, [], rfl, by simp⟩
    · exact ⟨b, a ++ [m], by simp [h2], by simp only [List.mem_append, List.mem_singleton, not_or]; exact ⟨h3, fun h => h1 h.symm⟩⟩

theorem heard_append (s : State) (as bs : List Action) : heard s (as ++ bs) = heard s as ++ heard (s.run as) bs := by
  induction as generalizing s with
  | nil => rfl
  | cons a as ih =>
    cases a <;> simp [heard, State.run, ih]

theorem run_append (s : State) (as bs : List Action) : s.run (as ++ bs) = (s.run as).run bs := by
  induction as generalizing s with
  | nil => rfl
  | cons a as ih => exact ih _

theorem sendCommand_choked (s : State) : s.sendCommand.choked = s.choked := by
  unfold State.sendCommand; split <;> rfl

theorem received_choked (s : State) (m : Message) :
    (s.onReceivedMessage m).choked = if m = .choke then true else if m = .unchoke then false else s.choked := by
  cases m <;> simp only [State.onReceivedMessage, sendCommand_choked]
  case bitField b => split <;> simp [sendCommand_choked]
  all_goals simp

theorem choked_step {s : State} {ms : List Message} (h : ChokedBy ms s) (a : Action) : ChokedBy (ms ++ heard s [a]) (s.step a) := by
  by_cases hp : s.panicked = true
  · have : heard s [a] = [] := by cases a <;> simp [heard, hp]
    rw [this, List.append_nil]
    simpa [State.step, hp] using h
  · have hp' : s.panicked = false := by simpa using hp
    cases a with
    | received m =>
      by_cases hr : s.reader = .reading
      · have e1 : heard s [.received m] = [m] := by simp [heard, hr, hp']
        have e2 : s.step (.received m) = { s with reader := .top }.onReceivedMessage m := by simp [State.step, hp', hr]
        rw [e1, e2]
        unfold ChokedBy
        rw [received_choked, unchoked_append]
        by_cases h1 : m = .choke
        · subst h1; simp
        · by_cases h2 : m = .unchoke
          · simp [h2]
          · simp only [h1, h2, if_false, false_or, ne_eq, not_false_eq_true, true_and]
            exact h
      · have e1 : heard s [.received m] = [] := by simp [heard, hr]
        have e2 : s.step (.received m) = s := by simp [State.step, hr]
        rw [e1, e2, List.append_nil]; exact h
    | mark =>
      have e1 : heard s [.mark] = [] := rfl
      rw [e1, List.append_nil]
      have : (s.step .mark).choked = s.choked := by
        simp only [State.step, hp', Bool.false_eq_true, if_false]
        split
        · next a _ => cases a <;> rfl
        · rfl
      unfold ChokedBy; rw [this]; exact h
    | _ =>
      simp only [heard, List.append_nil, State.step, hp', Bool.false_eq_true, if_false]
      unfold ChokedBy
      split <;> exact h

theorem choked_run {s : State} {ms : List Message} (h : ChokedBy ms s) (as : List Action) : ChokedBy (ms ++ heard s as) (s.run as) := by
  induction as generalizing s ms with
  | nil => simpa [heard, State.run] using h
  | cons a as ih =>
    have := ih (choked_step h a)
    rw [List.append_assoc] at this
    have e : heard s (a :: as) = heard s [a] ++ heard (s.step a) as := heard_append s [a] as
    rw [e]; exact this

theorem choked_init (n : Nat) : ChokedBy [] (.init n) := by
  simp only [ChokedBy, State.init, Bool.true_eq_false, false_iff]
  rintro ⟨b, a, h, -⟩
  simp at h

theorem take_prefix_append {a b : Bytes} (n : Nat) : a.take n <+: a ++ b := (List.take_prefix n a).trans (List.prefix_append a b)

theorem inv_prefix {s : State} (h : Inv s) : s.sent <+: msg s .bitField ++ msg s .interested ++ msg s .request := by
  have hr : recorded s <+: msg s .bitField ++ msg s .interested ++ msg s .request := by
    unfold recorded
    cases h1 : s.sentBitfield
    · simp [h.order1 h1, h.order2 (h.order1 h1)]
    · cases h2 : s.interested
      · simp [h.order2 h2]
      · cases h3 : s.activeRequest <;> simp
  have hd : ∀ a x, Due s a → x <+: msg s a → recorded s ++ x <+: msg s .bitField ++ msg s .interested ++ msg s .request := by
    intro a x hd hx
    unfold recorded
    cases a with
    | bitField =>
      have h1 : s.sentBitfield = false := hd
      simp only [h1, h.order1 h1, h.order2 (h.order1 h1), List.append_assoc, Bool.false_eq_true, if_false, List.nil_append]
      exact hx.trans (List.prefix_append _ _)
    | interested =>
      simp only [hd.1, hd.2, h.order2 hd.2, Bool.false_eq_true, if_true, if_false, List.append_nil, List.append_assoc]
      exact (List.prefix_append_right_inj _).2 (hx.trans (List.prefix_append _ _))
    | request =>
      simp only [hd.1, hd.2.1, hd.2.2, Bool.false_eq_true, if_true, if_false, List.append_nil, List.append_assoc]
      exact (List.prefix_append_right_inj _).2 ((List.prefix_append_right_inj _).2 hx)
  cases hw : s.writer with
  | top => rw [h.calm (.inl hw)]; exact hr
  | deciding => rw [h.calm (.inr (.inl hw))]; exact hr
  | waiting => rw [h.calm (.inr (.inr hw))]; exact hr
  | writing a => rw [h.writing a hw]; exact hr
  | marking a => rw [h.marking a hw]; exact hd a _ (h.due a (.inr hw)) (List.prefix_refl _)
  | returned =>
    obtain ⟨a, n, h1 | ⟨h1, h2⟩⟩ := h.returned hw
    · rw [h1]; exact hr
    · rw [h2]; exact hd a _ h1 (List.take_prefix _ _)

theorem msgs {n : Nat} {b i r : Bytes} (hc : Conversation n b i r) (hn : (n + 7) / 8 + 1 < 2 ^ 32) {s : State} (hs : s.piecesLen = n) :
    msg s .bitField = b ∧ msg s .interested = i ∧ msg s .request = r := by
  unfold msg
  rw [hs]
  exact ⟨raw_bitField hn hc.bitField, raw_interested n hc.interested, raw_request n hc.request⟩

/-- **C115**: whatever the peer sends and whenever, it is sent, at any time, the beginning of: that we have no piece, that we are interested,
a request for the first 16 KiB; each once. -/
theorem C115_order (n : Nat) (hn : (n + 7) / 8 + 1 < 2 ^ 32) (b i r : Bytes) (hc : Conversation n b i r) (as : List Action) :
    ((State.init n).run as).sent <+: b ++ i ++ r := by
  obtain ⟨h1, h2, h3⟩ := msgs hc hn (s := (State.init n).run as) (piecesLen_run _ _)
  have := inv_prefix (inv_run (inv_init n) as)
  rwa [h1, h2, h3] at this

/-- **C115**: the decision to send the request is made only while the peer lets us ask. -/
theorem C115_decision (n : Nat) (as : List Action) (a : Action) (h1 : ((State.init n).run as).writer ≠ .writing .request)
    (h2 : (((State.init n).run as).step a).writer = .writing .request) : Unchoked (heard (.init n) as) := by
  have hc := choked_run (choked_init n) as
  rw [List.nil_append] at hc
  refine hc.1 ?_
  generalize (State.init n).run as = s at *
  unfold State.step at h2
  split at h2
  · exact absurd h2 h1
  · cases a <;> dsimp only at h2
    case decide =>
      split at h2
      · cases hn : s.nextAction with
        | none => simp [hn] at h2
        | some a =>
          simp only [hn, WriterAt.writing.injEq] at h2
          exact (nextAction_due hn).2 h2
      · exact absurd h2 h1
    case received m =>
      split at h2
      · have : ∀ s : State, s.sendCommand.writer = s.writer := by intro s; unfold State.sendCommand; split <;> rfl
        have h3 : ({ s with reader := .top }.onReceivedMessage m).writer = s.writer := by
          unfold State.onReceivedMessage
          repeat' split
          all_goals simp [this]
        rw [h3] at h2
        exact absurd h2 h1
      · exact absurd h2 h1
    case mark =>
      split at h2
      · next a _ => cases a <;> simp [State.mark] at h2
      · exact absurd h2 h1
    all_goals
      split at h2
      · first | exact absurd h2 h1 | (simp at h2; done) | (dsimp only at h2; split at h2 <;> simp at h2)
      · exact absurd h2 h1

example : Conversation 9 [0, 0, 0, 3, 5, 0, 0] [0, 0, 0, 1, 2] [0, 0, 0, 13, 6, 0, 0, 0, 0, 0, 0, 0, 0, 0, 0, 64, 0] where
  bitField := .body (len := [0, 0, 0, 3]) ⟨rfl, by decide⟩ .bitField
  interested := .body (len := [0, 0, 0, 1]) ⟨rfl, by decide⟩ .interested
  request := .body (len := [0, 0, 0, 13]) ⟨rfl, by decide⟩
    (.request (fi := [0, 0, 0, 0]) (fs := [0, 0, 0, 0]) (fl := [0, 0, 64, 0]) ⟨rfl, by decide⟩ ⟨rfl, by decide⟩ ⟨rfl, by decide⟩)

/-! ### C116: an unchoke is not overlooked -/

theorem stuck_cases {s : State} (h : Stuck s) (hp : s.panicked = false) :
    (s.reader = .reading ∨ s.reader = .returned) ∧ (s.writer = .returned ∨ s.writer = .waiting ∧ s.commands = 0) := by
  constructor
  · cases hr : s.reader with
    | top =>
      have := congrArg State.reader (h .readerTop (by simp) (by simp))
      simp only [State.step, hp, hr, Bool.false_eq_true, if_false, if_true] at this
      split at this <;> simp at this
    | reading => simp
    | returned => simp
  · cases hw : s.writer with
    | top =>
      have := congrArg State.writer (h .writerTop (by simp) (by simp))
      simp only [State.step, hp, hw, Bool.false_eq_true, if_false, if_true] at this
      split at this <;> simp at this
    | deciding =>
      have := congrArg State.writer (h .decide (by simp) (by simp))
      simp only [State.step, hp, hw, Bool.false_eq_true, if_false, if_true] at this
      split at this <;> simp at this
    | writing a =>
      have := congrArg State.writer (h .write (by simp) (by simp))
      simp [State.step, hp, hw] at this
    | marking a =>
      have := congrArg State.writer (h .mark (by simp) (by simp))
      cases a <;> simp [State.step, hp, hw, State.mark] at this
    | waiting =>
      refine .inr ⟨rfl, ?_⟩
      by_contra hc
      have := congrArg State.writer (h .command (by simp) (by simp))
      simp [State.step, hp, hw, Nat.pos_of_ne_zero hc] at this
    | returned => simp

/-- Neither task has met an error. -/
structure Healthy (s : State) : Prop where
  connected : s.disconnect = false
  writer : s.writer ≠ .returned
  alive : s.panicked = false

theorem healthy_sendCommand {s : State} (h : Healthy s) : Healthy s.sendCommand := by
  unfold State.sendCommand
  rw [if_neg h.writer]
  exact ⟨h.connected, h.writer, h.alive⟩

theorem healthy_step {s : State} (h : Healthy s) {a : Action} (ha : Fine s.piecesLen a) : Healthy (s.step a) := by
  unfold State.step
  rw [if_neg (by simp [h.alive])]
  cases a <;> dsimp only
  case received m =>
    split
    · cases m <;> simp only [State.onReceivedMessage]
      case bitField b =>
        have : b.length = bitfieldBytesRequired s.piecesLen := ha
        rw [if_neg (by simp [this])]
        refine healthy_sendCommand ?_
        exact ⟨h.connected, h.writer, h.alive⟩
      all_goals
        refine healthy_sendCommand ?_
        exact ⟨h.connected, h.writer, h.alive⟩
    · exact h
  case mark =>
    split
    · next a _ => cases a <;> exact ⟨h.connected, by simp [State.mark], h.alive⟩
    · exact h
  case receiveError => exact ha.elim
  case writeError => exact ha.elim
  case decide =>
    split
    · refine ⟨h.connected, ?_, h.alive⟩
      dsimp only
      split <;> simp
    · exact h
  all_goals
    split
    · exact ⟨h.connected, by first | exact h.writer | simp [h.connected], h.alive⟩
    · exact h

theorem healthy_run {s : State} (h : Healthy s) {as : List Action} (ha : ∀ a ∈ as, Fine s.piecesLen a) : Healthy (s.run as) := by
  induction as generalizing s with
  | nil => exact h
  | cons a as ih =>
    refine ih (healthy_step h (ha a (by simp))) ?_
    intro b hb
    rw [piecesLen_step]
    exact ha b (by simp [hb])

/-- **C116**: when nothing happens any more until the peer does something, and nothing went wrong, both announcements are sent, and the request
too if the peer lets us ask, whenever that came. -/
theorem C116_request (n : Nat) (hn : (n + 7) / 8 + 1 < 2 ^ 32) (b i r : Bytes) (hc : Conversation n b i r) (as : List Action)
    (hf : ∀ a ∈ as, Fine n a) (hs : Stuck ((State.init n).run as)) :
    (((State.init n).run as).sent = b ++ i ∨ ((State.init n).run as).sent = b ++ i ++ r) ∧
      (Unchoked (heard (.init n) as) → ((State.init n).run as).sent = b ++ i ++ r) := by
  have hh : Healthy ((State.init n).run as) := healthy_run (s := .init n) ⟨rfl, by simp [State.init], rfl⟩ hf
  obtain ⟨h1, h2, h3⟩ := msgs hc hn (s := (State.init n).run as) (piecesLen_run _ _)
  have hi := inv_run (inv_init n) as
  have hk := choked_run (choked_init n) as
  rw [List.nil_append] at hk
  unfold ChokedBy at hk
  generalize (State.init n).run as = s at *
  rcases (stuck_cases hs hh.alive).2 with hw | ⟨hw, h0⟩
  · exact absurd hw hh.writer
  · have hid := hi.idle hw h0
    rw [hi.calm (.inr (.inr hw)), ← hk]
    unfold State.nextAction at hid
    cases e1 : s.sentBitfield
    · simp [e1] at hid
    · cases e2 : s.interested
      · simp [e1, e2] at hid
      · cases e3 : s.activeRequest
        · cases e4 : s.choked
          · simp [e1, e2, e3, e4] at hid
          · simp [recorded, e1, e2, e3, h1, h2]
        · simp [recorded, e1, e2, e3, h1, h2, h3]

/-- The actions of a writer that has done everything there is to do before the peer says anything. -/
def settle : List Action :=
  [.readerTop, .writerTop, .decide, .write, .mark, .decide, .write, .mark, .decide, .command, .writerTop, .decide]

example : (∀ a ∈ settle, Fine 9 a) ∧ Stuck ((State.init 9).run settle) := by
  refine ⟨by simp [settle, Fine], ?_⟩
  intro a h1 h2
  cases a with
  | received m => exact absurd rfl (h1 m)
  | receiveError => exact absurd rfl h2
  | _ => rfl

/-! ### C117: the end of the program -/

/-- When the connection has ended and nothing happens any more, the program has come to its end. -/
def C117_statement : Prop :=
  ∀ (n : Nat) (as bs : List Action), ((State.init n).run as).reader = .reading → ((State.init n).run as).panicked = false →
    Stuck ((State.init n).run (as ++ .receiveError :: bs)) → Finished ((State.init n).run (as ++ .receiveError :: bs))

/-- **C117** does not hold: the writer waits for a command that nobody sends, since only messages send one. -/
theorem C117_false : ¬ C117_statement := by
  intro h
  have := (h 1 settle [.readerTop] (by decide) (by decide) ?_).2.1
  · exact absurd this (by decide)
  · intro a _ _
    cases a <;> rfl

/-- The reader handles nothing more. -/
structure Over (s : State) : Prop where
  disconnect : s.disconnect = true
  reader : s.reader ≠ .reading
  alive : s.panicked = false

theorem over_step {s : State} (h : Over s) (a : Action) : Over (s.step a) := by
  unfold State.step
  rw [if_neg (by simp [h.alive])]
  cases a <;> dsimp only
  case received m => rw [if_neg h.reader]; exact h
  case receiveError => rw [if_neg h.reader]; exact h
  case mark =>
    split
    · next a _ => cases a <;> exact ⟨h.disconnect, h.reader, h.alive⟩
    · exact h
  case readerTop =>
    split
    · exact ⟨h.disconnect, by simp [h.disconnect], h.alive⟩
    · exact h
  all_goals
    split
    · exact ⟨by first | rfl | exact h.disconnect, h.reader, h.alive⟩
    · exact h

theorem over_run {s : State} (h : Over s) (as : List Action) : Over (s.run as) ∧ heard s as = [] := by
  induction as generalizing s with
  | nil => exact ⟨h, rfl⟩
  | cons a as ih =>
    obtain ⟨h1, h2⟩ := ih (over_step h a)
    refine ⟨h1, ?_⟩
    cases a <;> simp [heard, h2, h.reader]

/-- **C117**, what holds instead: after the end of the connection, or a malformed message, or a bit field of the wrong length, the reader handles
nothing more and returns. (Missing: the writer returns; see `C117_false`.) -/
theorem C117_reader_partial (n : Nat) (as bs : List Action) (a : Action) (hr : ((State.init n).run as).reader = .reading)
    (hp : ((State.init n).run as).panicked = false) (ha : a = .receiveError ∨ ∃ f, a = .received (.bitField f) ∧ f.length ≠ (n + 7) / 8) :
    heard ((State.init n).run (as ++ [a])) bs = [] ∧
      (Stuck ((State.init n).run (as ++ a :: bs)) → ((State.init n).run (as ++ a :: bs)).reader = .returned) := by
  have hn : ((State.init n).run as).piecesLen = n := piecesLen_run _ _
  have e1 : (State.init n).run (as ++ [a]) = ((State.init n).run as).step a := by rw [run_append]; rfl
  have e2 : (State.init n).run (as ++ a :: bs) = (((State.init n).run as).step a).run bs := by rw [run_append]; rfl
  rw [e1, e2]
  generalize (State.init n).run as = s at *
  have ho : Over (s.step a) := by
    rcases ha with rfl | ⟨f, rfl, hf⟩
    · simp only [State.step, hp, hr, Bool.false_eq_true, if_false, if_true]
      exact ⟨rfl, by simp, rfl⟩
    · have : f.length ≠ bitfieldBytesRequired s.piecesLen := by rw [hn]; exact hf
      have e : s.step (.received (.bitField f)) = { s with reader := .top, disconnect := true } := by
        simp [State.step, hp, hr, State.onReceivedMessage, this]
      rw [e]
      exact ⟨rfl, by simp, hp⟩
  obtain ⟨h1, h2⟩ := over_run ho bs
  refine ⟨h2, fun hs => ?_⟩
  rcases (stuck_cases hs h1.alive).1 with h3 | h3
  · exact absurd h3 h1.reader
  · exact h3

example : ((State.init 9).run settle).reader = .reading ∧ ((State.init 9).run settle).panicked = false := by decide +kernel

/-- When the connection has ended and nothing happens any more, and the program has not come to its end, it never does. -/
theorem C117_for_ever_partial (s : State) (hs : Stuck s) (hr : s.reader = .returned) (a : Action) : s.step a = s := by
  cases a with
  | received m => simp [State.step, hr]
  | receiveError => simp [State.step, hr]
  | _ => exact hs _ (by simp) (by simp)

/-! ### C118: panics -/

/-- The program does not panic. -/
def C118_statement : Prop := ∀ (n : Nat) (as : List Action), ((State.init n).run as).panicked = false

/-- **C118** does not hold: a message that arrives after sending has failed is reported to a writer that no longer exists. -/
theorem C118_false : ¬ C118_statement := by
  intro h
  exact absurd (h 1 [.readerTop, .writerTop, .decide, .writeError 0, .received .keepAlive]) (by decide)

/-- Whoever returned did so because of the connection. -/
structure Orderly (s : State) : Prop where
  alive : s.panicked = false
  writer : s.writer = .returned → s.disconnect = true
  reader : s.disconnect = true → s.reader ≠ .reading

theorem orderly_sendCommand {s : State} (h : Orderly s) (hw : s.writer ≠ .returned) : Orderly s.sendCommand := by
  unfold State.sendCommand
  rw [if_neg hw]
  exact ⟨h.alive, h.writer, h.reader⟩

theorem orderly_step {s : State} (h : Orderly s) {a : Action} (ha : ∀ k, a ≠ .writeError k) : Orderly (s.step a) := by
  unfold State.step
  rw [if_neg (by simp [h.alive])]
  cases a <;> dsimp only
  case received m =>
    split
    · next hr =>
      have hw : s.writer ≠ .returned := fun hw => h.reader (h.writer hw) hr
      cases m <;> simp only [State.onReceivedMessage]
      case bitField b =>
        split
        · exact ⟨h.alive, fun h => absurd h hw, by simp⟩
        · refine orderly_sendCommand ?_ hw
          exact ⟨h.alive, fun h => absurd h hw, by simp⟩
      all_goals
        refine orderly_sendCommand ?_ hw
        exact ⟨h.alive, fun h => absurd h hw, by simp⟩
    · exact h
  case receiveError =>
    split
    · exact ⟨h.alive, fun _ => rfl, by simp⟩
    · exact h
  case writerTop =>
    split
    · exact ⟨h.alive, by dsimp only; split <;> simp_all, h.reader⟩
    · exact h
  case readerTop =>
    split
    · refine ⟨h.alive, h.writer, ?_⟩
      intro hd
      simp only at hd
      simp [hd]
    · exact h
  case decide =>
    split
    · refine ⟨h.alive, ?_, h.reader⟩
      dsimp only
      split <;> simp
    · exact h
  case writeError k => exact absurd rfl (ha k)
  case mark =>
    split
    · next a _ => cases a <;> exact ⟨h.alive, by simp [State.mark], h.reader⟩
    · exact h
  all_goals
    split
    · exact ⟨h.alive, by simp, h.reader⟩
    · exact h

/-- **C118**, as far as it holds: it does not panic unless sending failed before. (Missing: see `C118_false`.) -/
theorem C118_no_panic_partial (n : Nat) (as : List Action) (h : ∀ k, .writeError k ∉ as) : ((State.init n).run as).panicked = false := by
  have key : ∀ (as : List Action) (s : State), Orderly s → (∀ k, .writeError k ∉ as) → Orderly (s.run as) := by
    intro as
    induction as with
    | nil => intro s hs _; exact hs
    | cons a as ih =>
      intro s hs h
      refine ih _ (orderly_step hs ?_) ?_
      · intro k hk; exact h k (by simp [hk])
      · intro k hk; exact h k (by simp [hk])
  exact (key as _ ⟨rfl, by simp [State.init], by simp [State.init]⟩ h).alive

example : (∀ k, Action.writeError k ∉ settle) ∧ ((State.init 9).run (settle ++ [.received .unchoke, .command, .writerTop, .decide, .write])).sent =
    [0, 0, 0, 3, 5, 0, 0] ++ [0, 0, 0, 1, 2] ++ [0, 0, 0, 13, 6, 0, 0, 0, 0, 0, 0, 0, 0, 0, 0, 64, 0] :=
  ⟨by simp [settle], by decide +kernel⟩

/-! ### C119: the handshake -/

/-- Messages are exchanged only with a peer that serves the same torrent. -/
def C119_statement : Prop :=
  ∀ (infoHash peerId : Bytes) (s s' : Source) (theirHash theirId : Bytes), infoHash.length = 20 → peerId.length = 20 →
    (handshake infoHash peerId s).2 = .done (theirHash, theirId) s' → theirHash = infoHash

theorem protocolName_length : protocolName.length = 19 := by decide +kernel

theorem handshakeWire_length {r h p w : Bytes} (hw : HandshakeWire r h p w) : w.length = 68 := by
  obtain ⟨h1, h2, h3, rfl⟩ := hw
  have := protocolName_length
  unfold protocolName at this
  simp only [List.length_cons, List.length_append, h1, h2, h3, this]

/-- What makes 68 bytes a handshake. -/
theorem handshakeWire_iff (w h p : Bytes) (hl : w.length = 68) : (∃ r, HandshakeWire r h p w) ↔
    w.head? = some 19 ∧ (w.drop 1).take 19 = protocolName ∧ h = (w.drop 28).take 20 ∧ p = (w.drop 48).take 20 := by
  have hn := protocolName_length
  constructor
  · rintro ⟨r, h1, h2, h3, rfl⟩
    change _ ∧ ((19 :: (protocolName ++ r ++ h ++ p)).drop 1).take 19 = protocolName ∧ h = ((19 :: (protocolName ++ r ++ h ++ p)).drop 28).take 20 ∧
      p = ((19 :: (protocolName ++ r ++ h ++ p)).drop 48).take 20
    refine ⟨rfl, ?_, ?_, ?_⟩
    · rw [List.drop_succ_cons, List.drop_zero, ← hn, List.append_assoc, List.append_assoc]; simp
    · have : 27 = (protocolName ++ r).length := by simp [hn, h1]
      rw [List.drop_succ_cons, this, List.append_assoc, List.drop_left, ← h2]; simp
    · have : 47 = (protocolName ++ r ++ h).length := by simp [hn, h1, h2]
      rw [List.drop_succ_cons, this, List.drop_left, ← h3]; simp
  · rintro ⟨h1, h2, rfl, rfl⟩
    refine ⟨(w.drop 20).take 8, by simp [hl], by simp [hl], by simp [hl], ?_⟩
    cases w with
    | nil => simp at h1
    | cons x w =>
      simp only [List.head?_cons, Option.some.injEq] at h1
      subst h1
      simp only [List.drop_succ_cons, List.drop_zero] at h2 ⊢
      rw [show utf8Encode "BitTorrent protocol" = protocolName from rfl, ← h2]
      congr 1
      simp only [List.length_cons] at hl
      have e3 : (w.drop 47).take 20 = w.drop 47 := List.take_of_length_le (by simp; omega)
      rw [e3]
      have a1 : w.take 19 ++ w.drop 19 = w := List.take_append_drop _ _
      have a2 : (w.drop 19).take 8 ++ w.drop 27 = w.drop 19 := by have := List.take_append_drop 8 (w.drop 19); rwa [List.drop_drop] at this
      have a3 : (w.drop 27).take 20 ++ w.drop 47 = w.drop 27 := by have := List.take_append_drop 20 (w.drop 27); rwa [List.drop_drop] at this
      rw [List.append_assoc, List.append_assoc, a3, a2, a1]

theorem recvHandshake_long {s : Source} {d rest : Bytes} (hb : s.bytes = d ++ rest) (hd : d.length = 68) : ∃ s', s'.bytes = rest ∧ s'.ending = s.ending ∧
    recvHandshake s = if d.head? = some 19 ∧ (d.drop 1).take 19 = protocolName then .done ((d.drop 28).take 20, (d.drop 48).take 20) s'
      else .failed .badHandshake := by
  obtain ⟨s', e1, e2, e3⟩ := readExact_done 68 s 68 [] d rest (Nat.le_refl _) hb hd
  refine ⟨s', e2, e3, ?_⟩
  unfold recvHandshake
  rw [e1]
  simp only [List.nil_append]
  by_cases h1 : d.head? = some 19 <;> by_cases h2 : (d.drop 1).take 19 = protocolName <;> simp [h1, h2]

/-- **C119**, as far as it holds: a handshake is sent, and messages are exchanged if and only if the peer sends one, in whatever pieces; the bytes
after it are the first message. Otherwise that is noticed, also if the connection ends before. (Missing: the hashes are not compared; see `C119_false`.) -/
theorem C119_handshake_partial (infoHash peerId : Bytes) (h1 : infoHash.length = 20) (h2 : peerId.length = 20) (s : Source) :
    HandshakeWire (List.replicate 8 0) infoHash peerId (handshake infoHash peerId s).1 ∧
    (∀ reserved theirHash theirId w rest, HandshakeWire reserved theirHash theirId w → s.bytes = w ++ rest →
      ∃ s', (handshake infoHash peerId s).2 = .done (theirHash, theirId) s' ∧ s'.bytes = rest ∧ s'.ending = s.ending) ∧
    (∀ theirHash theirId s', (handshake infoHash peerId s).2 = .done (theirHash, theirId) s' →
      ∃ reserved w, HandshakeWire reserved theirHash theirId w ∧ s.bytes = w ++ s'.bytes) ∧
    ((∀ reserved theirHash theirId w rest, HandshakeWire reserved theirHash theirId w → s.bytes ≠ w ++ rest) → s.ending = .eof →
      ∃ e, (handshake infoHash peerId s).2 = .failed e) := by
  refine ⟨⟨by simp, h1, h2, rfl⟩, ?_, ?_, ?_⟩
  · intro r h p w rest hw hb
    have hl := handshakeWire_length hw
    obtain ⟨g1, g2, g3, g4⟩ := (handshakeWire_iff w h p hl).1 ⟨r, hw⟩
    obtain ⟨s', e1, e2, e3⟩ := recvHandshake_long hb hl
    exact ⟨s', by rw [handshake, e3, if_pos ⟨g1, g2⟩, g3, g4], e1, e2⟩
  · intro h p s' hd
    by_cases hl : s.bytes.length < 68
    · simp only [handshake, recvHandshake, readExact_short 68 s 68 [] hl hl] at hd
      cases he : s.ending <;> simp [he] at hd
    · obtain ⟨s'', e1, e2, e3⟩ := recvHandshake_long (s := s) (d := s.bytes.take 68) (rest := s.bytes.drop 68) (by simp) (by simp; omega)
      rw [handshake, e3] at hd
      by_cases hc : (s.bytes.take 68).head? = some 19 ∧ ((s.bytes.take 68).drop 1).take 19 = protocolName
      · rw [if_pos hc] at hd
        simp only [Got.done.injEq, Prod.mk.injEq] at hd
        obtain ⟨⟨g1, g2⟩, rfl⟩ := hd
        obtain ⟨r, hw⟩ := (handshakeWire_iff (s.bytes.take 68) h p (by simp; omega)).2 ⟨hc.1, hc.2, g1.symm, g2.symm⟩
        exact ⟨r, _, hw, by rw [e1]; simp⟩
      · rw [if_neg hc] at hd; cases hd
  · intro hno he
    by_cases hl : s.bytes.length < 68
    · exact ⟨.unexpectedEof, by simp only [handshake, recvHandshake, readExact_short 68 s 68 [] hl hl, he]⟩
    · obtain ⟨s'', e1, e2, e3⟩ := recvHandshake_long (s := s) (d := s.bytes.take 68) (rest := s.bytes.drop 68) (by simp) (by simp; omega)
      refine ⟨.badHandshake, ?_⟩
      rw [handshake, e3, if_neg]
      intro hc
      obtain ⟨r, hw⟩ := (handshakeWire_iff (s.bytes.take 68) _ _ (by simp; omega)).2 ⟨hc.1, hc.2, rfl, rfl⟩
      exact hno r _ _ _ (s.bytes.drop 68) hw (by simp)

example : (handshake (List.replicate 20 1) (List.replicate 20 2)
    ⟨sendHandshake (List.replicate 20 1) (List.replicate 20 4) ++ [0, 0, 0, 0], [60, 1, 2], .eof⟩).2 =
    .done (List.replicate 20 1, List.replicate 20 4) ⟨[0, 0, 0, 0], [], .eof⟩ := by decide +kernel

/-- **C119** does not hold: the hash the peer names is printed and otherwise ignored. -/
theorem C119_false : ¬ C119_statement := by
  intro h
  have := h (List.replicate 20 1) (List.replicate 20 2) ⟨sendHandshake (List.replicate 20 3) (List.replicate 20 4), [], .silent⟩ ⟨[], [], .silent⟩
    (List.replicate 20 3) (List.replicate 20 4) (by decide) (by decide) (by decide +kernel)
  exact absurd this (by decide)

end Ngfs.Download
