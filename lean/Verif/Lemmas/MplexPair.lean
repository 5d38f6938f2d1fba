import Verif.Lemmas.MplexConn
import Verif.Spec.MplexPair

/-! Lemmas for two connected multiplexers: what a poll does to the table of streams, and how the frames
of one end arrive at the other. -/
namespace Ngfs.Mplex
open Ngfs.Spec Ngfs.Spec.Mplex

/-- Is a frame that opens `id` waiting to be accepted? -/
def slotNew (m : Shared) (id : StreamId) : Nat :=
  match m.incoming with
  | some f => if f.op = .new ∧ f.streamId = id then 1 else 0
  | none => 0

/-- How many frames open `id`. -/
def countNew (id : StreamId) (fs : List Frame) : Nat :=
  fs.countP fun f => f.op = .new ∧ f.streamId = id

theorem countNew_append (id : StreamId) (a b : List Frame) : countNew id (a ++ b) = countNew id a + countNew id b :=
  List.countP_append

theorem countNew_cons (id : StreamId) (f : Frame) (fs : List Frame) :
    countNew id (f :: fs) = countNew id fs + if f.op = .new ∧ f.streamId = id then 1 else 0 := by
  simp [countNew, List.countP_cons]

theorem slotNew_unwanted {m : Shared} (h : m.frameWanted = false) (id : StreamId) : slotNew m id = 0 := by
  unfold Shared.frameWanted at h
  unfold slotNew
  cases hi : m.incoming with
  | none => rfl
  | some f =>
    simp only [hi] at h ⊢
    split at h
    · cases h
    · rename_i hne
      rw [if_neg (by rintro ⟨h1, -⟩; exact hne h1)]

/-- Frames that open streams stay in the slot: filling it takes such a frame only as the last one, and
only if none was there. -/
theorem fillLoop_new (fuel : Nat) : ∀ (m : Shared),
    (∀ id, slotNew (fillLoop fuel m).2.1 id = slotNew m id + countNew id (fillLoop fuel m).2.2) ∧
    (∀ pre f post, (fillLoop fuel m).2.2 = pre ++ f :: post → ∀ id, slotNew m id + countNew id pre = 0) := by
  induction fuel with
  | zero => intro m; exact ⟨fun id => rfl, by intro pre f post h; simp [fillLoop] at h⟩
  | succ fuel ih =>
    intro m
    rw [fillLoop]
    by_cases hc : m.closed = true
    · rw [if_pos hc]; exact ⟨fun id => rfl, by intro pre f post h; simp at h⟩
    · rw [if_neg hc]
      cases hw : m.frameWanted with
      | true => exact ⟨fun id => rfl, by intro pre f post h; simp at h⟩
      | false =>
        simp only [Bool.false_eq_true, if_false]
        have h0 := slotNew_unwanted hw
        generalize m.frames.pollReadFrame = P
        obtain ⟨r, fs⟩ := P
        rcases r with _ | (_ | (_ | f))
        · exact ⟨fun id => by rw [h0]; rfl, by intro pre f post h; simp at h⟩
        · exact ⟨fun id => by rw [h0]; rfl, by intro pre f post h; simp at h⟩
        · exact ⟨fun id => by rw [h0]; rfl, by intro pre f post h; simp at h⟩
        · simp only
          obtain ⟨h1, h2⟩ := ih { m with incoming := some f, frames := fs }
          generalize fillLoop fuel { m with incoming := some f, frames := fs } = R at h1 h2
          obtain ⟨r, m', taken⟩ := R
          simp only at h1 h2 ⊢
          refine ⟨fun id => ?_, ?_⟩
          · rw [h1, h0, countNew_cons]; simp only [slotNew]; omega
          · intro pre g post h id
            cases pre with
            | nil => rw [h0]; rfl
            | cons g' pre =>
              simp only [List.cons_append, List.cons.injEq] at h
              obtain ⟨rfl, h⟩ := h
              have := h2 pre g post h id
              simp only [slotNew] at this
              rw [h0, countNew_cons]; omega

theorem pollFill_new (m : Shared) :
    (∀ id, slotNew m.pollFill.2.1 id = slotNew m id + countNew id m.pollFill.2.2) ∧
    (∀ pre f post, m.pollFill.2.2 = pre ++ f :: post → ∀ id, slotNew m id + countNew id pre = 0) :=
  fillLoop_new _ m

/-- The streams that belong to this end's user: handed out, or being opened. -/
def Conn.own (c : Conn) : List StreamId := c.handles.map Handle.id ++ c.connecting

/-- What a poll adds to the history after the frames it takes. -/
inductive Tail (c c' : Conn) : List Event → Prop
  | quiet : c'.shared.nextStreamNum = c.shared.nextStreamNum → Tail c c' []
  | accepted (n : Nat) : c'.shared.nextStreamNum = c.shared.nextStreamNum → Tail c c' [.opened (.initiator n)]
  | opened (name : Bytes) : c'.shared.nextStreamNum = c.shared.nextStreamNum + 1 →
      Tail c c' [.opened (.receiver c.shared.nextStreamNum), .announced c.shared.nextStreamNum name]
  | got (id : StreamId) (d : Bytes) : id ∈ c.own → c'.shared.nextStreamNum = c.shared.nextStreamNum → Tail c c' [.got id d]
  | wrote (id : StreamId) (d : Bytes) : id ∈ c.own → c'.shared.nextStreamNum = c.shared.nextStreamNum →
      Tail c c' [.wrote id d]
  | shut (id : StreamId) : id ∈ c.own → c'.shared.nextStreamNum = c.shared.nextStreamNum → Tail c c' [.shut id]
  | dropped (id : StreamId) : id ∈ c.own → c'.shared.nextStreamNum = c.shared.nextStreamNum →
      Tail c c' [.dropped id]

/-- What a poll does. -/
structure Shape (c c' : Conn) (ev : List Event) (fs : List Frame) (tail : List Event) : Prop where
  ev : ev = fs.map .taken ++ tail
  before : ∀ pre f post, fs = pre ++ f :: post → ∀ id, slotNew c.shared id + countNew id pre = 0
  slot : (∀ n, slotNew c'.shared (.initiator n) + tail.count (.opened (.initiator n)) =
      slotNew c.shared (.initiator n) + countNew (.initiator n) fs) ∨
    ∃ n, .initiator n ∈ c.own ∧ 1 ≤ slotNew c.shared (.initiator n) + countNew (.initiator n) fs
  own : ∀ x ∈ c'.own, x ∈ c.own ∨ .opened x ∈ tail
  tail : Tail c c' tail

theorem shape_same (c c' : Conn) (h1 : c'.shared.nextStreamNum = c.shared.nextStreamNum)
    (h2 : c'.shared.incoming = c.shared.incoming) (h3 : ∀ x ∈ c'.own, x ∈ c.own) : Shape c c' [] [] [] :=
  ⟨rfl, by simp, .inl fun n => by simp [slotNew, h2, countNew], fun x hx => .inl (h3 x hx), .quiet h1⟩

theorem pollDrain_conn (c : Conn) (id : StreamId) :
    (c.finishConnect id).2.1.shared.incoming = c.shared.incoming ∧
    (c.finishConnect id).2.1.shared.nextStreamNum = c.shared.nextStreamNum ∧
    (∀ w ∈ (c.finishConnect id).2.1.handles, w ∈ c.handles ∨ w.id = id) ∧
    (c.finishConnect id).2.1.connecting = c.connecting := by
  unfold Conn.finishConnect
  generalize c.shared.frames.pollDrain = P
  obtain ⟨r, fs⟩ := P
  rcases r with _ | (_ | _)
  · exact ⟨rfl, rfl, fun w hw => .inl hw, rfl⟩
  · exact ⟨rfl, rfl, fun w hw => .inl hw, rfl⟩
  · refine ⟨rfl, rfl, fun w hw => ?_, rfl⟩
    rcases List.mem_append.mp hw with h | h
    · exact .inl h
    · right; rw [List.mem_singleton] at h; rw [h]

theorem drain_same (c : Conn) (i : Nat) (w : Handle) (hw : c.handles[i]? = some w) :
    (c.drain i w).2.shared.incoming = c.shared.incoming ∧
    (c.drain i w).2.shared.nextStreamNum = c.shared.nextStreamNum ∧
    (c.drain i w).2.connecting = c.connecting ∧
    (∀ x ∈ (c.drain i w).2.handles, x.id ∈ c.handles.map Handle.id) := by
  have hself : ∀ x ∈ c.handles, x.id ∈ c.handles.map Handle.id := fun x hx => List.mem_map_of_mem hx
  unfold Conn.drain
  cases w.writeError with
  | some k => exact ⟨rfl, rfl, rfl, hself⟩
  | none =>
    simp only
    generalize c.shared.frames.pollDrain = P
    obtain ⟨r, fs⟩ := P
    rcases r with _ | (_ | _)
    · exact ⟨rfl, rfl, rfl, hself⟩
    · refine ⟨rfl, rfl, rfl, fun x hx => ?_⟩
      rcases List.mem_or_eq_of_mem_set hx with h | h
      · exact hself x h
      · rw [h]; exact hself w (List.mem_of_getElem? hw)
    · exact ⟨rfl, rfl, rfl, hself⟩

theorem own_handle {c : Conn} {i : Nat} {w : Handle} (hw : c.handles[i]? = some w) : w.id ∈ c.own :=
  List.mem_append_left _ (List.mem_map_of_mem (List.mem_of_getElem? hw))

theorem step_shape {t : Transport} {c : Conn} {evs : List Event} (h : Inv t c.shared evs) (op : Op)
    (hn : c.shared.nextStreamNum + connects [op] < 2 ^ 64) :
    ∃ fs tail, Shape c (c.step op).2.1 (c.step op).2.2 fs tail := by
  unfold Conn.step
  cases c.poisoned with
  | true => exact ⟨[], [], shape_same c c rfl rfl fun x hx => hx⟩
  | false =>
    simp only [Bool.false_eq_true, if_false]
    have none_case : ∃ fs tail, Shape c c [] fs tail := ⟨[], [], shape_same c c rfl rfl fun x hx => hx⟩
    cases op with
    | accept =>
      obtain ⟨hs1, hs2⟩ := pollFill_new c.shared
      obtain ⟨hst, -⟩ := pollFill_step c.shared h.closed
      have hinv := fill_inv h
      have hnext := hst.next
      simp only [Conn.accept, Shared.pollAcceptId]
      generalize c.shared.pollFill = P at hs1 hs2 hinv hnext
      obtain ⟨r, m', taken⟩ := P
      simp only at hs1 hs2 hinv hnext
      have quiet : ∀ c' : Conn, c'.shared = m' → c'.handles = c.handles → c'.connecting = c.connecting →
          ∃ fs tail, Shape c c' (taken.map .taken) fs tail := by
        intro c' e1 e2 e3
        refine ⟨taken, [], by simp, hs2, .inl fun n => ?_, fun x hx => .inl ?_, .quiet (by rw [e1, hnext])⟩
        · rw [e1, hs1]; simp
        · simpa [Conn.own, e2, e3] using hx
      rcases r with _ | (e | _)
      · exact quiet _ rfl rfl rfl
      · exact quiet _ rfl rfl rfl
      · simp only
        cases hi : m'.incoming with
        | none => exact quiet _ rfl rfl rfl
        | some f =>
          simp only
          by_cases ho : f.op = .new
          · simp only [ho, if_true]
            obtain ⟨k, hk⟩ := inv_newInit hinv hi ho
            rw [hk]
            refine ⟨taken, [.opened (.initiator k)], rfl, hs2, .inl fun n => ?_, ?_, .accepted k ?_⟩
            · rw [← hs1]
              simp only [slotNew, hi, ho, hk, true_and, Shared.wantAnotherFrame, Shared.add, Nat.zero_add]
              by_cases e : StreamId.initiator k = .initiator n
              · rw [e]; simp
              · simp [e]
            · intro x hx
              simp only [Conn.own, List.map_append, List.map_cons, List.map_nil, List.mem_append, List.mem_singleton,
                Event.opened.injEq] at hx ⊢
              tauto
            · exact hnext
          · simp only [ho, if_false]
            exact quiet _ rfl rfl rfl
    | connect name =>
      simp only [Conn.connect]
      have hone : connects [.connect name] = 1 := rfl
      rw [hone] at hn
      obtain ⟨h1, h2, -⟩ := connect_inv h name hn
      have hinc : (c.shared.appendNew name).2.incoming = c.shared.incoming := rfl
      generalize c.shared.appendNew name = P at h1 h2 hinc
      obtain ⟨id, m⟩ := P
      simp only at h1 h2 hinc ⊢
      subst h1
      obtain ⟨g1, g2, g3, g4⟩ := pollDrain_conn { c with shared := m } (.receiver c.shared.nextStreamNum)
      generalize ({ c with shared := m } : Conn).finishConnect (.receiver c.shared.nextStreamNum) = Q at g1 g2 g3 g4
      obtain ⟨a, c', fin⟩ := Q
      simp only at g1 g2 g3 g4 ⊢
      refine ⟨[], _, rfl, by simp, .inl fun n => ?_, ?_, ?_⟩
      · simp [slotNew, g1, hinc, countNew]
      · intro x hx
        simp only [Conn.own, List.mem_append, List.mem_map] at hx ⊢
        have : x = .receiver c.shared.nextStreamNum ∨ x ∈ c.own := by
          rcases hx with ⟨w, hw, rfl⟩ | hx
          · rcases g3 w hw with h | h
            · right; exact List.mem_append_left _ (List.mem_map_of_mem h)
            · exact .inl h
          · rw [g4] at hx
            cases fin
            · simp only [Bool.false_eq_true, if_false, List.mem_append, List.mem_singleton] at hx
              rcases hx with h | h
              · right; exact List.mem_append_right _ h
              · exact .inl h
            · right; exact List.mem_append_right _ hx
        rcases this with rfl | h
        · right; simp
        · left; simpa [Conn.own] using h
      · exact .opened (name.getD []) (g2.trans h2)
    | reconnect k =>
      simp only [Conn.reconnect]
      cases hk : c.connecting[k]? with
      | none => exact none_case
      | some id =>
        simp only
        obtain ⟨g1, g2, g3, g4⟩ := pollDrain_conn c id
        generalize c.finishConnect id = Q at g1 g2 g3 g4
        obtain ⟨a, c', fin⟩ := Q
        simp only at g1 g2 g3 g4 ⊢
        refine ⟨[], [], shape_same _ _ g2 g1 ?_⟩
        intro x hx
        simp only [Conn.own, List.mem_append, List.mem_map] at hx ⊢
        rcases hx with ⟨w, hw, rfl⟩ | hx
        · rcases g3 w hw with h | h
          · exact .inl ⟨w, h, rfl⟩
          · right; rw [h]; exact List.mem_of_getElem? hk
        · rw [g4] at hx
          right
          cases fin
          · exact hx
          · exact List.mem_of_mem_eraseIdx hx
    | read i room =>
      simp only
      cases hw : c.handles[i]? with
      | none => exact none_case
      | some w =>
        obtain ⟨hs1, hs2⟩ := pollFill_new c.shared
        obtain ⟨hst, -⟩ := pollFill_step c.shared h.closed
        have hnext := hst.next
        simp only [Conn.read, Shared.pollRead]
        generalize c.shared.pollFill = P at hs1 hs2 hnext
        obtain ⟨r, m', taken⟩ := P
        simp only at hs1 hs2 hnext
        have quiet : ∀ c' : Conn, c'.shared = m' → c'.handles = c.handles → c'.connecting = c.connecting →
            ∃ fs tail, Shape c c' (taken.map .taken) fs tail := by
          intro c' e1 e2 e3
          refine ⟨taken, [], by simp, hs2, .inl fun n => ?_, fun x hx => .inl ?_, .quiet (by rw [e1, hnext])⟩
          · rw [e1, hs1]; simp
          · simpa [Conn.own, e2, e3] using hx
        have got : ∀ (c' : Conn) (d : Bytes), c'.shared.nextStreamNum = m'.nextStreamNum →
            (∀ id, slotNew c'.shared id = slotNew m' id ∨ (id = w.id ∧ slotNew m' id = 1)) →
            c'.handles = c.handles → c'.connecting = c.connecting →
            ∃ fs tail, Shape c c' (taken.map .taken ++ [.got w.id d]) fs tail := by
          intro c' d e0 e1 e2 e3
          refine ⟨taken, [.got w.id d], rfl, hs2, ?_, fun x hx => .inl ?_, .got _ _ (own_handle hw) (by rw [e0, hnext])⟩
          · by_cases hbad : ∃ n, .initiator n = w.id ∧ slotNew m' (.initiator n) = 1
            · obtain ⟨n, h1, h2⟩ := hbad
              right
              exact ⟨n, by rw [h1]; exact own_handle hw, by rw [← hs1, h2]⟩
            · left
              intro n
              rcases e1 (.initiator n) with h | ⟨h1, h2⟩
              · rw [h, hs1]; simp
              · exact (hbad ⟨n, h1, h2⟩).elim
          · simpa [Conn.own, e2, e3] using hx
        rcases r with _ | (e | _)
        · exact quiet _ rfl rfl rfl
        · exact quiet _ rfl rfl rfl
        · simp only
          cases hi : m'.incoming with
          | none => exact got _ _ rfl (fun id => .inl rfl) rfl rfl
          | some f =>
            simp only
            by_cases hid : f.streamId = w.id
            · simp only [hid, if_true]
              have hempty : ∀ id, slotNew m'.wantAnotherFrame id = slotNew m' id ∨ (id = w.id ∧ slotNew m' id = 1) := by
                intro id
                simp only [slotNew, Shared.wantAnotherFrame, hi]
                by_cases h1 : f.op = .new ∧ f.streamId = id
                · right; exact ⟨by rw [← h1.2, hid], by rw [if_pos h1]⟩
                · left; rw [if_neg h1]
              by_cases ho : f.op = .close
              · simp only [ho, if_true]
                exact got _ _ rfl hempty rfl rfl
              · simp only [ho, if_false]
                cases (f.data.drop (min f.data.length room)).isEmpty with
                | true => exact got _ _ rfl hempty rfl rfl
                | false =>
                  simp only [Bool.false_eq_true, if_false]
                  exact got _ _ rfl (fun id => .inl (by simp [slotNew, hi, hid])) rfl rfl
            · simp only [hid, if_false]
              exact quiet _ rfl rfl rfl
    | write i data =>
      simp only
      cases hw : c.handles[i]? with
      | none => exact none_case
      | some w =>
        simp only [Conn.write]
        obtain ⟨g1, g2, g3, g4⟩ := drain_same c i w hw
        generalize c.drain i w = P at g1 g2 g3 g4
        obtain ⟨r, c'⟩ := P
        simp only at g1 g2 g3 g4 ⊢
        have own : ∀ x ∈ c'.own, x ∈ c.own := by
          intro x hx
          simp only [Conn.own, List.mem_append, List.mem_map] at hx ⊢
          rcases hx with ⟨w', hw', rfl⟩ | hx
          · exact .inl (List.mem_map.mp (g4 w' hw'))
          · right; rwa [g3] at hx
        rcases r with _ | (_ | _)
        · exact ⟨[], [], shape_same _ _ g2 g1 own⟩
        · exact ⟨[], [], shape_same _ _ g2 g1 own⟩
        · exact ⟨[], _, rfl, by simp, .inl fun n => by simp [slotNew, g1, countNew], fun x hx => .inl (own x hx),
            .wrote _ _ (own_handle hw) g2⟩
    | flush i =>
      simp only
      cases hw : c.handles[i]? with
      | none => exact none_case
      | some w =>
        simp only [Conn.flush]
        obtain ⟨g1, g2, g3, g4⟩ := drain_same c i w hw
        generalize c.drain i w = P at g1 g2 g3 g4
        obtain ⟨r, c'⟩ := P
        simp only at g1 g2 g3 g4 ⊢
        have own : ∀ x ∈ c'.own, x ∈ c.own := by
          intro x hx
          simp only [Conn.own, List.mem_append, List.mem_map] at hx ⊢
          rcases hx with ⟨w', hw', rfl⟩ | hx
          · exact .inl (List.mem_map.mp (g4 w' hw'))
          · right; rwa [g3] at hx
        rcases r with _ | (_ | _) <;> exact ⟨[], [], shape_same _ _ g2 g1 own⟩
    | shutdown i =>
      simp only
      cases hw : c.handles[i]? with
      | none => exact none_case
      | some w =>
        simp only [Conn.shutdown]
        obtain ⟨g1, g2, g3, g4⟩ := drain_same c i w hw
        generalize c.drain i w = P at g1 g2 g3 g4
        obtain ⟨r, c'⟩ := P
        simp only at g1 g2 g3 g4 ⊢
        have own : ∀ x ∈ c'.own, x ∈ c.own := by
          intro x hx
          simp only [Conn.own, List.mem_append, List.mem_map] at hx ⊢
          rcases hx with ⟨w', hw', rfl⟩ | hx
          · exact .inl (List.mem_map.mp (g4 w' hw'))
          · right; rwa [g3] at hx
        rcases r with _ | (_ | _)
        · exact ⟨[], [], shape_same _ _ g2 g1 own⟩
        · exact ⟨[], [], shape_same _ _ g2 g1 own⟩
        · refine ⟨[], _, rfl, by simp, .inl fun n => by simp [slotNew, g1, countNew], fun x hx => .inl ?_,
            .shut _ (own_handle hw) g2⟩
          simp only [Conn.own, List.mem_append, List.mem_map] at hx
          rcases hx with ⟨w', hw', rfl⟩ | hx
          · rcases List.mem_or_eq_of_mem_set hw' with h | h
            · exact own _ (List.mem_append_left _ (List.mem_map_of_mem h))
            · rw [h]; show w.id ∈ c.own; exact own_handle hw
          · exact own _ (List.mem_append_right _ hx)
    | dropReader i =>
      simp only
      cases hw : c.handles[i]? with
      | none => exact none_case
      | some w =>
        exact ⟨[], _, rfl, by simp, .inl fun n => by simp [slotNew, countNew, Shared.removeReader], fun x hx => .inl hx,
          .dropped _ (own_handle hw) rfl⟩

end Ngfs.Mplex
