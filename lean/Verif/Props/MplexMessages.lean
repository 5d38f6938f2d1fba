import Verif.Props.StackMessages
import Verif.Props.MplexFailure

/-!
C210: the end of the messages on a multiplexed stream.
-/
namespace Ngfs.Mplex
open Spec Spec.Mplex Spec.Stack Ngfs.Io
open Spec.Io hiding End

/-- The answers to the reads on a stream. -/
def connAnswers (id : StreamId) : Conn → List Op → List ReadEvent
  | _, [] => []
  | c, op :: ops => answerTo id c op ++ connAnswers id (c.step op).2.1 ops

theorem run_append' (ops ops' : List Op) : ∀ c : Conn, ((c.run (ops ++ ops')).2.1 = ((c.run ops).2.1.run ops').2.1) ∧
    (c.run (ops ++ ops')).2.2 = (c.run ops).2.2 ++ ((c.run ops).2.1.run ops').2.2 := by
  induction ops with
  | nil => intro c; exact ⟨rfl, rfl⟩
  | cons op ops ih =>
    intro c
    obtain ⟨h1, h2⟩ := ih (c.step op).2.1
    refine ⟨h1, ?_⟩
    show (c.step op).2.2 ++ ((c.step op).2.1.run (ops ++ ops')).2.2 = ((c.step op).2.2 ++ ((c.step op).2.1.run ops).2.2) ++ _
    rw [h2, List.append_assoc]
    rfl

theorem connAnswers_mem (id : StreamId) (e : ReadEvent) (ops : List Op) : ∀ c : Conn, e ∈ connAnswers id c ops →
    ∃ before h room w after, ops = before ++ .read h room :: after ∧ (c.run before).2.1.handles[h]? = some w ∧ w.id = id ∧
      e ∈ asRead ((c.run before).2.1.step (.read h room)).1 := by
  induction ops with
  | nil => intro c h; cases h
  | cons op ops ih =>
    intro c he
    rcases List.mem_append.mp he with he | he
    · cases op with
      | read h room =>
        unfold answerTo at he
        simp only at he
        split at he
        · rename_i hw
          cases hc : c.handles[h]? with
          | none => rw [hc] at hw; cases hw
          | some w =>
            rw [hc] at hw
            exact ⟨[], h, room, w, ops, rfl, hc, by simpa using hw, he⟩
        · cases he
      | _ => cases he
    · obtain ⟨before, h, room, w, after, h1, h2, h3, h4⟩ := ih _ he
      exact ⟨op :: before, h, room, w, after, by rw [h1]; rfl, h2, h3, h4⟩

theorem content_end' (es : List ReadEvent) : ((content es).2 = .eof → .ready [] ∈ es) ∧
    ∀ k, (content es).2 = .error k → .error k ∈ es := by
  induction es with
  | nil => exact ⟨nofun, nofun⟩
  | cons e es ih =>
    cases e with
    | pending => exact ⟨fun h => List.mem_cons_of_mem _ (ih.1 h), fun k h => List.mem_cons_of_mem _ (ih.2 k h)⟩
    | error k => refine ⟨nofun, fun k h => by cases h; exact List.mem_cons_self⟩
    | ready d =>
      cases d with
      | nil => exact ⟨fun _ => List.mem_cons_self, nofun⟩
      | cons b d => exact ⟨fun h => List.mem_cons_of_mem _ (ih.1 h), fun k h => List.mem_cons_of_mem _ (ih.2 k h)⟩

/-- **C210**, as claimed: whoever reads messages from a stream is told that there are no more only if the peer has closed the stream,
or the connection below has ended, and not in the middle of a frame. -/
def C210_statement : Prop :=
  ∀ (t : Transport) (ops : List Op) (id : StreamId) (n : Nat) (ms : List Bytes), connects ops < 2 ^ 64 - 33 →
    (∀ h room, .read h room ∈ ops → 0 < room) →
    readTimes n (streamOf (connAnswers id (Conn.new t) ops)) = ms.map (fun m => .ready (.ok (some m))) ++ [.ready (.ok none)] →
    (∃ d, ⟨id, .close, d⟩ ∈ takenIn ((Conn.new t).run ops).2.2) ∨
    ∃ before, before <+: ops ∧ Ended t ((Conn.new t).run before).2.1 ∧ ((Conn.new t).run before).2.1.shared.frames.incoming = []

/-- **C210** is false: the connection below is cut in the middle of a frame. The multiplexer reports this, but the reader of messages
takes it for the end. -/
theorem C210_false : ¬ C210_statement := by
  intro h
  have := h ⟨[.ready [8, 0, 10, 2, 1, 7], .ready [10, 2, 1], .ready []], [], [], [], []⟩ [.accept, .read 0 5, .read 0 5] (.initiator 1) 2 [[7]]
    (by decide) (by simp) (by decide +kernel)
  rcases this with ⟨d, hd⟩ | ⟨before, hb, hend, hinc⟩
  · rw [show takenIn ((Conn.new ⟨[.ready [8, 0, 10, 2, 1, 7], .ready [10, 2, 1], .ready []], [], [], [], []⟩).run
      [.accept, .read 0 5, .read 0 5]).2.2 = [⟨.initiator 1, .new, []⟩, ⟨.initiator 1, .message, [1, 7]⟩] by decide +kernel] at hd
    simp at hd
  · have hl := hb.length_le
    have hb := List.prefix_iff_eq_take.mp hb
    generalize before.length = l at hl hb
    subst hb
    obtain ⟨used, hu, hm⟩ := hend
    have key : ∀ l ≤ 3, (((Conn.new ⟨[.ready [8, 0, 10, 2, 1, 7], .ready [10, 2, 1], .ready []], [], [], [], []⟩).run
        (([.accept, .read 0 5, .read 0 5] : List Op).take l)).2.1.shared.frames.incoming ≠ []) ∨
        .ready [] ∈ ((Conn.new ⟨[.ready [8, 0, 10, 2, 1, 7], .ready [10, 2, 1], .ready []], [], [], [], []⟩).run
          (([.accept, .read 0 5, .read 0 5] : List Op).take l)).2.1.shared.frames.transport.reads := by
      decide +kernel
    rcases key l hl with hk | hk
    · exact hk hinc
    · have hc := congrArg (List.count (ReadEvent.ready [])) hu
      rw [List.count_append] at hc
      have h1 := List.count_pos_iff.mpr hm
      have h2 := List.count_pos_iff.mpr hk
      have h3 : List.count (ReadEvent.ready []) [.ready [8, 0, 10, 2, 1, 7], .ready [10, 2, 1], .ready []] = 1 := by decide
      simp only at hc
      omega

/-- **C210**, partial: the end is reported only if the peer has closed the stream or has sent a frame without data for it (C71), if the
connection below has ended at the end of a frame, or if it has failed with "unexpected end of file" or was cut in the middle of a
frame. Missing: the second and the last cases (`C71_false`, `C210_false`). -/
theorem C210_end_partial (t : Transport) (ops : List Op) (id : StreamId) (n : Nat) (ms : List Bytes) (hn : connects ops < 2 ^ 64 - 33)
    (hroom : ∀ h room, .read h room ∈ ops → 0 < room)
    (h : readTimes n (streamOf (connAnswers id (Conn.new t) ops)) = ms.map (fun m => .ready (.ok (some m))) ++ [.ready (.ok none)]) :
    (∃ f ∈ takenIn ((Conn.new t).run ops).2.2, f.streamId = id ∧ (f.op = .close ∨ f.data = [])) ∨
    (∃ before, before <+: ops ∧ Ended t ((Conn.new t).run before).2.1 ∧ ((Conn.new t).run before).2.1.shared.frames.incoming = []) ∨
    ReadEvent.error .unexpectedEof ∈ t.reads ∨ CutOff t := by
  obtain ⟨bs, rest, e, r', -, hv, hv', hl⟩ := Ipfs.readTimes_messages ms _ _ _ h
  have hend : (readOptLengthPrefixed r').1 = .ready (.ok none) := by
    generalize n - ms.length = k at hl
    cases k with
    | zero => cases hl
    | succ k =>
      rw [readTimes] at hl
      injection hl
  have he : (content (connAnswers id (Conn.new t) ops)).2 = e := congrArg Prod.snd hv
  rw [C205_end_partial, hv'] at hend
  rcases hend with hend | hend
  · cases hend
    obtain ⟨before, h, room, w, after, h1, h2, h3, h4⟩ := connAnswers_mem id _ ops _ ((content_end' _).1 he)
    have hans : (((Conn.new t).run before).2.1.step (.read h room)).1 = .bytes [] := by
      generalize (((Conn.new t).run before).2.1.step (.read h room)).1 = a at h4
      cases a <;> simp [asRead] at h4
      rw [h4]
    have hev := run_append' before (.read h room :: after) (Conn.new t)
    have hst := run_append' before [.read h room] (Conn.new t)
    rcases C71_end_partial t before h room w (by
        have : connects before ≤ connects ops := by rw [h1]; simp [connects]
        omega) h2 (hroom h room (by rw [h1]; simp)) hans with ⟨g1, g2⟩ | ⟨f, g1, g2, g3⟩
    · refine .inr (.inl ⟨before ++ [.read h room], ⟨after, by rw [h1]; simp⟩, ?_, ?_⟩)
      · rw [hst.1]; exact g1
      · rw [hst.1]; exact g2
    · refine .inl ⟨f, ?_, by rw [g2, h3], g3⟩
      have g1 := List.mem_of_getLast? g1
      rw [h1, hev.2]
      show f ∈ takenIn (_ ++ ((((Conn.new t).run before).2.1.step (.read h room)).2.2 ++ _))
      rw [← List.append_assoc]
      unfold takenIn at g1 ⊢
      rw [List.filterMap_append]
      exact List.mem_append_left _ g1
  · cases hend
    obtain ⟨before, h, room, w, after, h1, h2, h3, h4⟩ := connAnswers_mem id _ ops _ ((content_end' _).2 _ he)
    have hans : (((Conn.new t).run before).2.1.step (.read h room)).1 = .failed .unexpectedEof := by
      generalize (((Conn.new t).run before).2.1.step (.read h room)).1 = a at h4
      cases a <;> simp [asRead] at h4
      rw [h4]
    rcases C204_only t before _ _ hans with g | ⟨-, g⟩ | ⟨g, -⟩
    · exact .inr (.inr (.inl g))
    · exact .inr (.inr (.inr g))
    · cases g

/-- Two messages, cut by frames and by reads, and then the peer closes the stream. -/
example : connects [.accept, .read 0 1, .read 0 1, .read 0 9, .read 0 9, .read 0 9] < 2 ^ 64 - 33 ∧
    readTimes 3 (streamOf (connAnswers (.initiator 1)
      (Conn.new ⟨[.ready [8, 0, 10, 3, 2, 7], .pending, .ready [8, 10, 2, 1, 9, 12, 0]], [], [], [], []⟩)
      [.accept, .read 0 1, .read 0 1, .read 0 9, .read 0 9, .read 0 9])) =
    [[7, 8], [9]].map (fun m => .ready (.ok (some m))) ++ [.ready (.ok none)] := by
  refine ⟨by decide, by decide +kernel⟩

end Ngfs.Mplex
