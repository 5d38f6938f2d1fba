import Verif.Model.Chat
import Verif.Spec.Chat
import Verif.Lemmas.Pem

/-! Invariants of the chat server. -/
namespace Ngfs.Chat
open Spec.Chat

/-! ### Lists of announcements by sender -/

theorem saidBy_append (j : Nat) (a b : Talk) : saidBy j (a ++ b) = saidBy j a ++ saidBy j b := by simp [saidBy]

theorem saidBy_single (j k : Nat) (d : Bytes) : saidBy j [(k, d)] = if k = j then [d] else [] := by
  by_cases h : k = j <;> simp [saidBy, h]

/-- Everything in the queue. -/
def texts : List WriterMessage → Bytes
  | [] => []
  | .write d :: q => d ++ texts q
  | .close :: q => texts q

theorem texts_append (a b : List WriterMessage) : texts (a ++ b) = texts a ++ texts b := by
  induction a with
  | nil => rfl
  | cons m a ih => cases m <;> simp [texts, ih]

/-- What is in the queue before the first `Close`. -/
def textsToClose : List WriterMessage → Bytes
  | [] => []
  | .write d :: q => d ++ textsToClose q
  | .close :: _ => []

/-- What the writer still has to write of the message it took. -/
def rest : WriterState → Bytes
  | .writing r => r
  | _ => []

def bytesOf (q : Talk) : Bytes := (q.map (·.2)).flatten

theorem bytesOf_append (a b : Talk) : bytesOf (a ++ b) = bytesOf a ++ bytesOf b := by simp [bytesOf]

theorem textsToClose_write {q : List WriterMessage} (t : Bytes) :
    textsToClose (q ++ [.write t]) = if .close ∈ q then textsToClose q else textsToClose q ++ t := by
  induction q with
  | nil => simp [textsToClose]
  | cons m q ih =>
    cases m with
    | close => simp [textsToClose]
    | write d =>
      simp only [List.cons_append, textsToClose, ih, List.mem_cons, reduceCtorEq, false_or]
      split <;> simp

theorem textsToClose_close {q : List WriterMessage} (h : .close ∉ q) : textsToClose (q ++ [.close]) = texts q := by
  induction q with
  | nil => rfl
  | cons m q ih =>
    cases m with
    | close => simp at h
    | write d => simp only [List.cons_append, textsToClose, texts]; rw [ih (by simpa using h)]

/-! ### One connection -/

/-- The announcement that is about to be made. -/
def pending (lossy : Bytes → String) (i : Nat) : ReaderState → List Bytes
  | .received d => [announcement lossy i d]
  | _ => []

structure Local (lossy : Bytes → String) (i : Nat) (c : Conn) : Prop where
  fresh : c.reader = .starting → c = .new
  reads : c.published ++ pending lossy i c.reader = c.reads.map (announcement lossy i)
  sent : c.sent <+: bytesOf c.queued
  bytes : c.writer ≠ .finished → c.sent ++ rest c.writer ++ texts c.queue = bytesOf c.queued
  noMark : c.mark = none → .close ∉ c.queue ∧ (c.writer = .finished → c.failed = true)
  unclosed : c.reader ≠ .finished → c.mark = none
  closed : c.reader = .finished → c.mark = none → c.writer = .finished
  someMark : ∀ m, c.mark = some m → m ≤ c.queued.length ∧
    (c.writer ≠ .finished → .close ∈ c.queue ∧ c.sent ++ rest c.writer ++ textsToClose c.queue = bytesOf (c.queued.take m)) ∧
    (c.writer = .finished → c.failed = false → c.sent = bytesOf (c.queued.take m))
  ok : c.failed = true → c.writer = .finished

theorem Local.new (lossy : Bytes → String) (i : Nat) : Local lossy i .new := by
  constructor <;> simp [Conn.new, pending, rest, texts, bytesOf]

theorem Local.send {lossy : Bytes → String} {i : Nat} {c : Conn} (h : Local lossy i c) (hr : c.reader ≠ .starting) (j : Nat) (t : Bytes) :
    Local lossy i (c.send j t) := by
  by_cases hw : c.writer = .finished
  · simpa [Conn.send, hw] using h
  · simp only [Conn.send, hw, if_false]
    refine ⟨fun h' => absurd h' hr, h.reads, ?_, ?_, ?_, h.unclosed, h.closed, ?_, h.ok⟩
    · simp only [bytesOf_append]
      exact h.sent.trans (List.prefix_append _ _)
    · intro _
      simp only [bytesOf_append, texts_append, ← h.bytes hw]
      simp [texts, bytesOf]
    · intro hm
      exact ⟨by simpa using (h.noMark hm).1, (h.noMark hm).2⟩
    · intro m hm
      obtain ⟨h1, h2, h3⟩ := h.someMark m hm
      refine ⟨by simp; omega, ?_, fun h' => absurd h' hw⟩
      intro _
      obtain ⟨h4, h5⟩ := h2 hw
      refine ⟨by simp [h4], ?_⟩
      simp only [textsToClose_write, h4, if_true, h5, List.take_append_of_le_length h1]

theorem Local.close {lossy : Bytes → String} {i : Nat} {c : Conn} (h : Local lossy i c) (hr : c.reader = .closing) :
    Local lossy i { c with reader := .finished }.close := by
  have hm := h.unclosed (by rw [hr]; simp)
  have hreads := h.reads
  rw [hr] at hreads
  by_cases hw : c.writer = .finished
  · simp only [Conn.close, hw, if_true]
    exact ⟨by simp, by simpa [pending] using hreads, h.sent, by simp, fun _ => ⟨(h.noMark hm).1, fun _ => (h.noMark hm).2 hw⟩, by simp, by simp,
      by simp [hm], by simp⟩
  · simp only [Conn.close, hw, if_false]
    refine ⟨by simp, by simpa [pending] using hreads, h.sent, ?_, by simp, by simp, by simp, ?_, h.ok⟩
    · intro _
      simp only [texts_append, ← h.bytes hw]
      simp [texts]
    · intro m h'
      simp only [Option.some.injEq] at h'
      subst h'
      refine ⟨Nat.le_refl _, fun _ => ⟨by simp, ?_⟩, fun h' => absurd h' hw⟩
      simp only [textsToClose_close (h.noMark hm).1, List.take_length, h.bytes hw]

theorem State.conn_set (s : State) (i : Nat) (c : Conn) (j : Nat) : (s.set i c).conn j = if j = i then c else s.conn j := rfl

theorem Local.set {lossy : Bytes → String} {s : State} (h : ∀ i, Local lossy i (s.conn i)) {i : Nat} {c : Conn} (hc : Local lossy i c) :
    ∀ j, Local lossy j ((s.set i c).conn j) := by
  intro j
  rw [State.conn_set]
  split
  · subst_vars; exact hc
  · exact h j

/-! ### The list of connections -/

structure Listed (s : State) : Prop where
  nodup : s.connlist.Nodup
  mem : ∀ i ∈ s.connlist, (s.conn i).reader ≠ .starting
  live : ∀ i, (s.conn i).reader ≠ .starting → ¬ ((s.conn i).reader = .finished ∧ (s.conn i).writer = .finished) → i ∈ s.connlist
  targets : ∀ j t ts, (s.conn j).reader = .sending t ts → ts.Nodup ∧ ∀ i ∈ ts, (s.conn i).reader ≠ .starting

/-- The announcement by `j` that is on its way to `i`. -/
def inflight (s : State) (j i : Nat) : List Bytes :=
  match (s.conn j).reader with
  | .sending t ts => if i ∈ ts then [t] else []
  | _ => []

theorem Conn.send_reader (c : Conn) (j : Nat) (t : Bytes) : (c.send j t).reader = c.reader := by
  unfold Conn.send; split <;> rfl

theorem Conn.send_writer (c : Conn) (j : Nat) (t : Bytes) : (c.send j t).writer = c.writer := by
  unfold Conn.send; split <;> rfl

theorem Conn.send_published (c : Conn) (j : Nat) (t : Bytes) : (c.send j t).published = c.published := by
  unfold Conn.send; split <;> rfl

theorem Conn.send_reads (c : Conn) (j : Nat) (t : Bytes) : (c.send j t).reads = c.reads := by
  unfold Conn.send; split <;> rfl

theorem Conn.close_reader (c : Conn) : c.close.reader = c.reader := by
  unfold Conn.close; split <;> rfl

theorem Conn.close_writer (c : Conn) : c.close.writer = c.writer := by
  unfold Conn.close; split <;> rfl

theorem Conn.close_queued (c : Conn) : c.close.queued = c.queued := by
  unfold Conn.close; split <;> rfl

theorem Conn.close_published (c : Conn) : c.close.published = c.published := by
  unfold Conn.close; split <;> rfl

theorem Conn.close_reads (c : Conn) : c.close.reads = c.reads := by
  unfold Conn.close; split <;> rfl

theorem Local.step {lossy : Bytes → String} {s : State} (h : ∀ i, Local lossy i (s.conn i)) (hl : Listed s) (a : Action) :
    ∀ i, Local lossy i ((s.step lossy a).conn i) := by
  cases a with
  | accept => exact h
  | join i =>
    simp only [State.step]
    split
    · rename_i hc
      have := (h i).fresh hc.2
      refine Local.set h ?_
      rw [this]
      constructor <;> simp [Conn.new, pending, rest, texts, bytesOf]
    · exact h
  | recv i data =>
    simp only [State.step]
    split
    · rename_i hc
      have hi := h i
      have h1 := hi.reads
      have h2 := hi.unclosed (by rw [hc.1]; simp)
      rw [hc.1] at h1
      refine Local.set h ⟨by simp, ?_, hi.sent, hi.bytes, hi.noMark, fun _ => h2, by simp, hi.someMark, hi.ok⟩
      simp only [List.map_append, ← h1]
      simp [pending]
    · exact h
  | recvEnd i =>
    simp only [State.step]
    split
    · rename_i hc
      have hi := h i
      have h1 := hi.reads
      have h2 := hi.unclosed (by rw [hc]; simp)
      rw [hc] at h1
      exact Local.set h ⟨by simp, h1, hi.sent, hi.bytes, hi.noMark, fun _ => h2, by simp, hi.someMark, hi.ok⟩
    · exact h
  | list i =>
    simp only [State.step]
    split
    · rename_i data hc
      have hi := h i
      have h1 := hi.reads
      have h2 := hi.unclosed (by rw [hc]; simp)
      rw [hc] at h1
      refine Local.set h ⟨by simp, ?_, hi.sent, hi.bytes, hi.noMark, fun _ => h2, by simp, hi.someMark, hi.ok⟩
      simp only [← h1]
      simp [pending]
    · exact h
  | push i =>
    simp only [State.step]
    split
    · rename_i t hc
      have hi := h i
      have h1 := hi.reads
      have h2 := hi.unclosed (by rw [hc]; simp)
      rw [hc] at h1
      exact Local.set h ⟨by simp, h1, hi.sent, hi.bytes, hi.noMark, fun _ => h2, by simp, hi.someMark, hi.ok⟩
    · rename_i text t ts hc
      have hi := h i
      have h1 := hi.reads
      have h2 := hi.unclosed (by rw [hc]; simp)
      have h3 := (hl.targets _ _ _ hc).2 t (by simp)
      rw [hc] at h1
      have hs := Local.set h (i := i) (c := { s.conn i with reader := .sending text ts })
        ⟨by simp, h1, hi.sent, hi.bytes, hi.noMark, fun _ => h2, by simp, hi.someMark, hi.ok⟩
      refine Local.set hs (Local.send (hs t) ?_ i text)
      rw [State.conn_set]
      split
      · simp
      · exact h3
    · exact h
  | close i =>
    simp only [State.step]
    split
    · rename_i hc
      exact Local.set h ((h i).close hc)
    · exact h
  | pop i =>
    simp only [State.step]
    split
    · rename_i hw
      have hi := h i
      have hb := hi.bytes (by rw [hw]; simp)
      have hf : (s.conn i).failed = false := by
        cases hf : (s.conn i).failed
        · rfl
        · have := hi.ok hf; rw [hw] at this; simp at this
      split
      · rename_i d q hq
        rw [hw, hq] at hb
        refine Local.set h ⟨?_, hi.reads, hi.sent, ?_, ?_, hi.unclosed, ?_, ?_, ?_⟩
        · intro h'
          have := hi.fresh h'
          rw [this] at hq
          simp [Conn.new] at hq
        · intro _
          rw [← hb]; simp [rest, texts]
        · intro hm
          have := hi.noMark hm
          rw [hq] at this
          exact ⟨by simpa using this.1, by simp⟩
        · intro h1 h2
          have := hi.closed h1 h2
          rw [hw] at this; simp at this
        · intro m hm
          obtain ⟨h1, h2, h3⟩ := hi.someMark m hm
          refine ⟨h1, fun _ => ?_, by simp⟩
          obtain ⟨h4, h5⟩ := h2 (by rw [hw]; simp)
          rw [hq] at h4
          refine ⟨by simpa using h4, ?_⟩
          rw [hw, hq] at h5
          simp only
          rw [← h5]; simp [rest, textsToClose]
        · simp [hf]
      · rename_i q hq
        rw [hw, hq] at hb
        refine Local.set h ⟨?_, hi.reads, hi.sent, by simp, ?_, hi.unclosed, by simp, ?_, by simp⟩
        · intro h'
          have := hi.fresh h'
          rw [this] at hq
          simp [Conn.new] at hq
        · intro hm
          have := (hi.noMark hm).1
          rw [hq] at this
          simp at this
        · intro m hm
          obtain ⟨h1, h2, h3⟩ := hi.someMark m hm
          refine ⟨h1, by simp, fun _ _ => ?_⟩
          obtain ⟨h4, h5⟩ := h2 (by rw [hw]; simp)
          rw [hw, hq] at h5
          simp only
          rw [← h5]; simp [rest, textsToClose]
      · exact h
    · exact h
  | write i n =>
    simp only [State.step]
    split
    · rename_i r hw
      have hi := h i
      have hb := hi.bytes (by rw [hw]; simp)
      rw [hw] at hb
      have hns : (s.conn i).reader ≠ .starting := by
        intro h'
        have := hi.fresh h'
        rw [this] at hw
        simp [Conn.new] at hw
      have hf : (s.conn i).failed = false := by
        cases hf : (s.conn i).failed
        · rfl
        · have := hi.ok hf; rw [hw] at this; simp at this
      have key : ∀ w : WriterState, w ≠ .finished → rest w = r.drop n →
          Local lossy i { s.conn i with sent := (s.conn i).sent ++ r.take n, writer := w } := by
        intro w hw' hr
        have hs : ∀ x, (s.conn i).sent ++ r.take n ++ rest w ++ x = (s.conn i).sent ++ r ++ x := by
          intro x
          rw [hr, List.append_assoc (s.conn i).sent, List.take_append_drop]
        refine ⟨fun h' => absurd h' hns, hi.reads, ?_, ?_, ?_, hi.unclosed, ?_, ?_, ?_⟩
        · refine ⟨r.drop n ++ texts (s.conn i).queue, ?_⟩
          rw [← hb, ← List.append_assoc, ← hr, hs]; rfl
        · intro _
          simp only [hs]
          exact hb
        · intro hm
          exact ⟨(hi.noMark hm).1, fun h' => absurd h' hw'⟩
        · intro h1 h2
          have := hi.closed h1 h2
          rw [hw] at this; simp at this
        · intro m hm
          obtain ⟨h1, h2, h3⟩ := hi.someMark m hm
          refine ⟨h1, fun _ => ?_, fun h' => absurd h' hw'⟩
          obtain ⟨h4, h5⟩ := h2 (by rw [hw]; simp)
          rw [hw] at h5
          refine ⟨h4, ?_⟩
          simp only [hs]
          exact h5
        · simp [hf]
      split
      · rename_i he
        exact Local.set h (key .waiting (by simp) (by simp only [rest]; exact (List.isEmpty_iff.1 he).symm))
      · exact Local.set h (key (.writing (r.drop n)) (by simp) rfl)
    · exact h
  | writeError i =>
    simp only [State.step]
    split
    · rename_i r hw
      have hi := h i
      have hns : (s.conn i).reader ≠ .starting := by
        intro h'
        have := hi.fresh h'
        rw [this] at hw
        simp [Conn.new] at hw
      refine Local.set h ⟨fun h' => absurd h' hns, hi.reads, hi.sent, by simp, ?_, hi.unclosed, by simp, ?_, by simp⟩
      · intro hm
        exact ⟨(hi.noMark hm).1, by simp⟩
      · intro m hm
        exact ⟨(hi.someMark m hm).1, by simp, by simp⟩
    · exact h
  | leave i =>
    simp only [State.step]
    split <;> exact h

/-- The list changes only with `join` and `leave`. -/
theorem Listed.of_same {s s' : State} (h : Listed s) (hc : s'.connlist = s.connlist)
    (hr : ∀ i, (s'.conn i).reader = .starting ↔ (s.conn i).reader = .starting)
    (hd : ∀ i, (s.conn i).reader = .finished ∧ (s.conn i).writer = .finished → (s'.conn i).reader = .finished ∧ (s'.conn i).writer = .finished)
    (ht : ∀ j t ts, (s'.conn j).reader = .sending t ts → ts.Nodup ∧ ∀ i ∈ ts, (s.conn i).reader ≠ .starting) : Listed s' := by
  refine ⟨hc ▸ h.nodup, ?_, ?_, ?_⟩
  · intro i hi
    rw [hc] at hi
    rw [ne_eq, hr]; exact h.mem i hi
  · intro i h1 h2
    rw [hc]
    rw [ne_eq, hr] at h1
    exact h.live i h1 (fun h' => h2 (hd i h'))
  · intro j t ts hj
    obtain ⟨h1, h2⟩ := ht j t ts hj
    refine ⟨h1, fun i hi => ?_⟩
    rw [ne_eq, hr]; exact h2 i hi

/-- One connection changes. -/
theorem Listed.of_set {s : State} (h : Listed s) {i : Nat} {c : Conn}
    (hr : c.reader = .starting ↔ (s.conn i).reader = .starting)
    (hd : (s.conn i).reader = .finished ∧ (s.conn i).writer = .finished → c.reader = .finished ∧ c.writer = .finished)
    (ht : ∀ t ts, c.reader = .sending t ts → ts.Nodup ∧ ∀ i ∈ ts, (s.conn i).reader ≠ .starting) : Listed (s.set i c) := by
  refine h.of_same rfl ?_ ?_ ?_
  · intro j
    rw [State.conn_set]
    split
    · subst_vars; exact hr
    · rfl
  · intro j
    rw [State.conn_set]
    split
    · subst_vars; exact hd
    · exact id
  · intro j t ts
    rw [State.conn_set]
    split
    · exact ht t ts
    · exact h.targets j t ts

theorem Listed.step {lossy : Bytes → String} {s : State} (h : Listed s) (hL : ∀ i, Local lossy i (s.conn i)) (a : Action) :
    Listed (s.step lossy a) := by
  cases a with
  | accept => exact ⟨h.nodup, h.mem, h.live, h.targets⟩
  | join i =>
    simp only [State.step]
    split
    · rename_i hc
      have hn : i ∉ s.connlist := fun hi => h.mem i hi hc.2
      refine ⟨?_, ?_, ?_, ?_⟩
      · exact List.nodup_append.2 ⟨h.nodup, by simp, by intro a ha b hb; simp at hb; subst hb; rintro rfl; exact hn ha⟩
      · intro j hj
        simp only [State.conn_set]
        split
        · simp
        · simp only [List.mem_append, List.mem_singleton] at hj
          exact h.mem j (hj.resolve_right (by assumption))
      · intro j
        simp only [State.conn_set]
        split
        · subst_vars; simp
        · intro h1 h2
          exact List.mem_append_left _ (h.live j h1 h2)
      · intro j t ts
        simp only [State.conn_set]
        split
        · simp
        · intro hj
          obtain ⟨h1, h2⟩ := h.targets j t ts hj
          refine ⟨h1, fun k hk => ?_⟩
          split
          · simp
          · exact h2 k hk
    · exact h
  | recv i data =>
    simp only [State.step]
    split
    · rename_i hc
      exact h.of_set (by simp [hc.1]) (by simp [hc.1]) (by simp)
    · exact h
  | recvEnd i =>
    simp only [State.step]
    split
    · rename_i hc
      exact h.of_set (by simp [hc]) (by simp [hc]) (by simp)
    · exact h
  | list i =>
    simp only [State.step]
    split
    · rename_i data hc
      refine h.of_set (by simp [hc]) (by simp [hc]) ?_
      intro t ts ht
      simp only [ReaderState.sending.injEq] at ht
      rw [← ht.2]
      exact ⟨h.nodup, h.mem⟩
    · exact h
  | push i =>
    simp only [State.step]
    split
    · rename_i t hc
      exact h.of_set (by simp [hc]) (by simp [hc]) (by simp)
    · rename_i text t ts hc
      obtain ⟨h1, h2⟩ := h.targets _ _ _ hc
      have h3 : Listed (s.set i { s.conn i with reader := .sending text ts }) := by
        refine h.of_set (by simp [hc]) (by simp [hc]) ?_
        intro t' ts' ht
        simp only [ReaderState.sending.injEq] at ht
        rw [← ht.2]
        exact ⟨(List.nodup_cons.1 h1).2, fun k hk => h2 k (by simp [hk])⟩
      refine h3.of_set (by simp [Conn.send_reader]) (by simp [Conn.send_reader, Conn.send_writer]) ?_
      intro t' ts' ht
      rw [Conn.send_reader] at ht
      exact h3.targets t t' ts' ht
    · exact h
  | close i =>
    simp only [State.step]
    split
    · rename_i hc
      refine h.of_set (by simp [hc, Conn.close_reader]) (by simp [hc]) ?_
      simp [Conn.close_reader]
    · exact h
  | pop i =>
    simp only [State.step]
    split
    · rename_i hw
      split
      · exact h.of_set (by simp) (by simp [hw]) (h.targets i)
      · exact h.of_set (by simp) (by simp [hw]) (h.targets i)
      · exact h
    · exact h
  | write i n =>
    simp only [State.step]
    split
    · rename_i r hw
      split
      · exact h.of_set (by simp) (by simp [hw]) (h.targets i)
      · exact h.of_set (by simp) (by simp [hw]) (h.targets i)
    · exact h
  | writeError i =>
    simp only [State.step]
    split
    · rename_i r hw
      exact h.of_set (by simp) (by simp [hw]) (h.targets i)
    · exact h
  | leave i =>
    simp only [State.step]
    split
    · rename_i hc
      refine ⟨h.nodup.erase _, fun j hj => h.mem j (List.mem_of_mem_erase hj), ?_, h.targets⟩
      intro j h1 h2
      refine (List.mem_erase_of_ne ?_).2 (h.live j h1 h2)
      rintro rfl
      exact h2 hc
    · exact h

/-! ### What one action does to announcements -/

/-- An action makes an announcement, or puts one into one queue, or does nothing with announcements. -/
theorem step_shape (lossy : Bytes → String) (s : State) (a : Action) :
    (∃ j d, (s.conn j).reader = .received d ∧
      (∀ m, ((s.step lossy a).conn m).queued = (s.conn m).queued ∧ ((s.step lossy a).conn m).writer = (s.conn m).writer) ∧
      (∀ m, m ≠ j → (s.step lossy a).conn m = s.conn m) ∧
      ((s.step lossy a).conn j).published = (s.conn j).published ++ [announcement lossy j d] ∧
      ((s.step lossy a).conn j).reader = .sending (announcement lossy j d) s.connlist) ∨
    (∃ j t k ts, (s.conn j).reader = .sending t (k :: ts) ∧ ((s.step lossy a).conn j).reader = .sending t ts ∧
      (∀ m, m ≠ j → ((s.step lossy a).conn m).reader = (s.conn m).reader) ∧
      (∀ m, ((s.step lossy a).conn m).published = (s.conn m).published ∧ ((s.step lossy a).conn m).writer = (s.conn m).writer) ∧
      (∀ m, ((s.step lossy a).conn m).queued =
        if m = k ∧ (s.conn m).writer ≠ .finished then (s.conn m).queued ++ [(j, t)] else (s.conn m).queued)) ∨
    ((∀ m, ((s.step lossy a).conn m).queued = (s.conn m).queued ∧ ((s.step lossy a).conn m).published = (s.conn m).published) ∧
      (∀ j i, inflight (s.step lossy a) j i = inflight s j i) ∧
      (∀ j t ts, ((s.step lossy a).conn j).reader = .sending t ts → (s.conn j).reader = .sending t ts)) := by
  have nothing : ∀ s' : State, (∀ m, (s'.conn m).queued = (s.conn m).queued ∧ (s'.conn m).published = (s.conn m).published ∧
        ((s'.conn m).reader = (s.conn m).reader ∨ (∀ t ts, (s'.conn m).reader ≠ .sending t ts) ∧
          ∀ t ts, (s.conn m).reader = .sending t ts → ts = [])) →
      ((∀ m, (s'.conn m).queued = (s.conn m).queued ∧ (s'.conn m).published = (s.conn m).published) ∧
      (∀ j i, inflight s' j i = inflight s j i) ∧
      (∀ j t ts, (s'.conn j).reader = .sending t ts → (s.conn j).reader = .sending t ts)) := by
    intro s' h
    refine ⟨fun m => ⟨(h m).1, (h m).2.1⟩, ?_, ?_⟩
    · intro j i
      rcases (h j).2.2 with h1 | ⟨h1, h2⟩
      · simp only [inflight, h1]
      · have e1 : inflight s' j i = [] := by
          unfold inflight
          split
          · rename_i heq; exact absurd heq (h1 _ _)
          · rfl
        have e2 : inflight s j i = [] := by
          simp only [inflight]
          split
          · rename_i heq; rw [h2 _ _ heq]; simp
          · rfl
        rw [e1, e2]
    · intro j t ts hj
      rcases (h j).2.2 with h1 | ⟨h1, -⟩
      · rwa [h1] at hj
      · exact absurd hj (h1 _ _)
  have one : ∀ (i : Nat) (c : Conn), c.queued = (s.conn i).queued → c.published = (s.conn i).published →
      (c.reader = (s.conn i).reader ∨ (∀ t ts, c.reader ≠ .sending t ts) ∧ ∀ t ts, (s.conn i).reader = .sending t ts → ts = []) →
      ∀ m, ((s.set i c).conn m).queued = (s.conn m).queued ∧ ((s.set i c).conn m).published = (s.conn m).published ∧
        (((s.set i c).conn m).reader = (s.conn m).reader ∨ (∀ t ts, ((s.set i c).conn m).reader ≠ .sending t ts) ∧
          ∀ t ts, (s.conn m).reader = .sending t ts → ts = []) := by
    intro i c h1 h2 h3 m
    simp only [State.conn_set]
    split
    · subst_vars; exact ⟨h1, h2, h3⟩
    · exact ⟨rfl, rfl, .inl rfl⟩
  cases a with
  | accept => exact .inr (.inr (nothing _ (fun _ => ⟨rfl, rfl, .inl rfl⟩)))
  | join i =>
    simp only [State.step]
    split
    · rename_i hc
      refine .inr (.inr (nothing _ ?_))
      exact one i { s.conn i with reader := .waiting } rfl rfl (.inr ⟨by simp, by simp [hc.2]⟩)
    · exact .inr (.inr (nothing _ (fun _ => ⟨rfl, rfl, .inl rfl⟩)))
  | recv i data =>
    simp only [State.step]
    split
    · rename_i hc
      exact .inr (.inr (nothing _ (one i _ rfl rfl (.inr ⟨by simp, by simp [hc.1]⟩))))
    · exact .inr (.inr (nothing _ (fun _ => ⟨rfl, rfl, .inl rfl⟩)))
  | recvEnd i =>
    simp only [State.step]
    split
    · rename_i hc
      exact .inr (.inr (nothing _ (one i _ rfl rfl (.inr ⟨by simp, by simp [hc]⟩))))
    · exact .inr (.inr (nothing _ (fun _ => ⟨rfl, rfl, .inl rfl⟩)))
  | list i =>
    simp only [State.step]
    split
    · rename_i data hc
      refine .inl ⟨i, data, hc, ?_, ?_, ?_, ?_⟩
      · intro m; clear nothing one; simp only [State.conn_set]; split <;> simp_all
      · intro m hm; simp [State.conn_set, hm]
      · simp [State.conn_set]
      · simp [State.conn_set]
    · exact .inr (.inr (nothing _ (fun _ => ⟨rfl, rfl, .inl rfl⟩)))
  | push i =>
    simp only [State.step]
    split
    · rename_i t hc
      refine .inr (.inr (nothing _ (one i _ rfl rfl (.inr ⟨by simp, ?_⟩))))
      intro t ts h
      rw [hc] at h
      simp only [ReaderState.sending.injEq] at h
      exact h.2.symm
    · rename_i text t ts hc
      refine .inr (.inl ⟨i, text, t, ts, hc, ?_, ?_, ?_, ?_⟩)
      · simp only [State.conn_set]
        split
        · subst_vars; simp [Conn.send_reader]
        · simp
      · intro m hm
        simp only [State.conn_set]
        split
        · subst_vars; simp [Conn.send_reader, hm]
        · simp [hm]
      · intro m
        clear nothing one
        simp only [State.conn_set]
        by_cases h1 : m = t
        · subst h1
          by_cases h2 : m = i
          · subst h2; simp [Conn.send_published, Conn.send_writer]
          · simp [Conn.send_published, Conn.send_writer, h2]
        · by_cases h2 : m = i
          · subst h2; simp [h1]
          · simp [h1, h2]
      · intro m
        simp only [State.conn_set]
        by_cases h1 : m = t
        · subst h1
          by_cases h2 : m = i
          · subst h2
            by_cases h3 : (s.conn m).writer = .finished <;> simp [Conn.send, h3]
          · by_cases h3 : (s.conn m).writer = .finished <;> simp [Conn.send, h3, h2]
        · by_cases h2 : m = i
          · subst h2; simp [h1]
          · simp [h1, h2]
    · exact .inr (.inr (nothing _ (fun _ => ⟨rfl, rfl, .inl rfl⟩)))
  | close i =>
    simp only [State.step]
    split
    · rename_i hc
      refine .inr (.inr (nothing _ (one i _ ?_ ?_ (.inr ⟨?_, by simp [hc]⟩))))
      · simp [Conn.close_queued]
      · simp [Conn.close_published]
      · simp [Conn.close_reader]
    · exact .inr (.inr (nothing _ (fun _ => ⟨rfl, rfl, .inl rfl⟩)))
  | pop i =>
    simp only [State.step]
    split
    · split
      · exact .inr (.inr (nothing _ (one i _ rfl rfl (.inl rfl))))
      · exact .inr (.inr (nothing _ (one i _ rfl rfl (.inl rfl))))
      · exact .inr (.inr (nothing _ (fun _ => ⟨rfl, rfl, .inl rfl⟩)))
    · exact .inr (.inr (nothing _ (fun _ => ⟨rfl, rfl, .inl rfl⟩)))
  | write i n =>
    simp only [State.step]
    split
    · split
      · exact .inr (.inr (nothing _ (one i _ rfl rfl (.inl rfl))))
      · exact .inr (.inr (nothing _ (one i _ rfl rfl (.inl rfl))))
    · exact .inr (.inr (nothing _ (fun _ => ⟨rfl, rfl, .inl rfl⟩)))
  | writeError i =>
    simp only [State.step]
    split
    · exact .inr (.inr (nothing _ (one i _ rfl rfl (.inl rfl))))
    · exact .inr (.inr (nothing _ (fun _ => ⟨rfl, rfl, .inl rfl⟩)))
  | leave i =>
    simp only [State.step]
    split <;> exact .inr (.inr (nothing _ (fun _ => ⟨rfl, rfl, .inl rfl⟩)))

/-- Nobody starts again, and what is done stays done. -/
def Later (c c' : Conn) : Prop :=
  (c.reader ≠ .starting → c'.reader ≠ .starting) ∧ (c.writer = .finished → c'.writer = .finished) ∧
    (c.failed = true → c'.failed = true) ∧ (c.reader = .finished → c'.reader = .finished)

theorem Later.refl (c : Conn) : Later c c := ⟨id, id, id, id⟩

theorem Later.trans {a b c : Conn} (h1 : Later a b) (h2 : Later b c) : Later a c :=
  ⟨h2.1 ∘ h1.1, h2.2.1 ∘ h1.2.1, h2.2.2.1 ∘ h1.2.2.1, h2.2.2.2 ∘ h1.2.2.2⟩

theorem Later.set {s : State} {k : Nat} {c : Conn} (h : Later (s.conn k) c) (i : Nat) : Later (s.conn i) ((s.set k c).conn i) := by
  rw [State.conn_set]
  split
  · subst_vars; exact h
  · exact .refl _

theorem Later.send (c : Conn) (j : Nat) (t : Bytes) : Later c (c.send j t) := by
  unfold Conn.send
  split
  · exact .refl _
  · exact ⟨id, id, id, id⟩

theorem step_mono (lossy : Bytes → String) (s : State) (a : Action) (i : Nat) : Later (s.conn i) ((s.step lossy a).conn i) := by
  cases a with
  | accept => exact .refl _
  | join k =>
    simp only [State.step]
    split
    · rename_i hc
      exact Later.set (c := { s.conn k with reader := .waiting }) ⟨by simp, id, id, by simp [hc.2]⟩ i
    · exact .refl _
  | recv k data =>
    simp only [State.step]
    split
    · rename_i hc; refine Later.set ?_ i; exact ⟨by simp, id, id, by simp [hc.1]⟩
    · exact .refl _
  | recvEnd k =>
    simp only [State.step]
    split
    · rename_i hc; refine Later.set ?_ i; exact ⟨by simp, id, id, by simp [hc]⟩
    · exact .refl _
  | list k =>
    simp only [State.step]
    split
    · rename_i hc; refine Later.set ?_ i; exact ⟨by simp, id, id, by simp [hc]⟩
    · exact .refl _
  | push k =>
    simp only [State.step]
    split
    · rename_i hc; refine Later.set ?_ i; exact ⟨by simp, id, id, by simp [hc]⟩
    · rename_i text t ts hc
      have h1 : ∀ i, Later (s.conn i) ((s.set k { s.conn k with reader := .sending text ts }).conn i) :=
        Later.set ⟨by simp, id, id, by simp [hc]⟩
      exact (h1 i).trans (Later.set (Later.send _ _ _) i)
    · exact .refl _
  | close k =>
    simp only [State.step]
    split
    · rename_i hc
      refine Later.set ?_ i
      unfold Conn.close
      split
      · exact ⟨by simp, id, id, by simp⟩
      · exact ⟨by simp, id, id, by simp⟩
    · exact .refl _
  | pop k =>
    simp only [State.step]
    split
    · rename_i hw
      split
      · refine Later.set ?_ i; exact ⟨id, by simp [hw], id, id⟩
      · refine Later.set ?_ i; exact ⟨id, by simp, id, id⟩
      · exact .refl _
    · exact .refl _
  | write k n =>
    simp only [State.step]
    split
    · rename_i hw
      split
      · refine Later.set ?_ i; exact ⟨id, by simp [hw], id, id⟩
      · refine Later.set ?_ i; exact ⟨id, by simp [hw], id, id⟩
    · exact .refl _
  | writeError k =>
    simp only [State.step]
    split
    · refine Later.set ?_ i; exact ⟨id, by simp, by simp, id⟩
    · exact .refl _
  | leave k =>
    simp only [State.step]
    split <;> exact .refl _

/-! ### All together -/

theorem announcement_ne (lossy : Bytes → String) (i : Nat) (d : Bytes) : announcement lossy i d ≠ [] := by
  intro h
  have h2 := congrArg List.length h
  simp only [announcement, utf8Encode, String.toByteArray_append, ByteArray.data_append, Array.toList_append, List.length_append,
    List.length_nil] at h2
  have : ("\n".toByteArray.data.toList).length = 1 := by decide
  omega

/-- What holds in every state that can be reached. -/
structure Inv (lossy : Bytes → String) (s : State) : Prop where
  each : ∀ i, Local lossy i (s.conn i)
  listed : Listed s
  order : ∀ i j, ((s.conn i).writer ≠ .finished → saidBy j (s.conn i).queued ++ inflight s j i <:+ (s.conn j).published) ∧
    saidBy j (s.conn i).queued <:+: (s.conn j).published

/-- For a connection in the list that can still write, an announcement is either on its way or in the queue. -/
theorem grow {lossy : Bytes → String} {s : State} (hl : Listed s) (a : Action) {i : Nat} (hi : i ∈ s.connlist)
    (hw : ((s.step lossy a).conn i).writer ≠ .finished) (j : Nat) :
    ∃ new, ((s.step lossy a).conn j).published = (s.conn j).published ++ new ∧
      saidBy j ((s.step lossy a).conn i).queued ++ inflight (s.step lossy a) j i = saidBy j (s.conn i).queued ++ inflight s j i ++ new := by
  rcases step_shape lossy s a with ⟨k, d, h1, h2, h3, h4, h5⟩ | ⟨k, t, m, ts, h1, h2, h3, h4, h5⟩ | ⟨h1, h2, -⟩
  · by_cases hk : j = k
    · subst hk
      refine ⟨_, h4, ?_⟩
      rw [(h2 i).1]
      simp [inflight, h5, h1, hi]
    · refine ⟨[], by rw [h3 j hk]; simp, ?_⟩
      rw [(h2 i).1]
      simp [inflight, h3 j hk]
  · refine ⟨[], by rw [(h4 j).1]; simp, ?_⟩
    rw [(h4 i).2] at hw
    rw [h5 i, List.append_nil]
    by_cases hk : j = k
    · subst hk
      have hn := (hl.targets _ _ _ h1).1
      by_cases hm : i = m
      · subst hm
        have : i ∉ ts := (List.nodup_cons.1 hn).1
        simp [hw, inflight, h1, h2, this, saidBy_append, saidBy_single]
      · simp [hm, inflight, h1, h2]
    · have e : inflight (s.step lossy a) j i = inflight s j i := by simp only [inflight, h3 j hk]
      rw [e]
      by_cases hm : i = m
      · subst hm
        simp [hw, saidBy_append, saidBy_single, Ne.symm hk]
      · simp [hm]
  · refine ⟨[], by rw [(h1 j).2]; simp, ?_⟩
    rw [(h1 i).1, h2, List.append_nil]

theorem published_mono (lossy : Bytes → String) (s : State) (a : Action) (j : Nat) :
    (s.conn j).published <+: ((s.step lossy a).conn j).published := by
  rcases step_shape lossy s a with ⟨k, d, h1, h2, h3, h4, h5⟩ | ⟨k, t, m, ts, h1, h2, h3, h4, h5⟩ | ⟨h1, h2, -⟩
  · by_cases hk : j = k
    · subst hk; rw [h4]; exact List.prefix_append _ _
    · rw [h3 j hk]
  · rw [(h4 j).1]
  · rw [(h1 j).2]

/-- What was read stays read. -/
theorem reads_mono (lossy : Bytes → String) (s : State) (a : Action) (j : Nat) :
    (s.conn j).reads <+: ((s.step lossy a).conn j).reads := by
  have one : ∀ (s : State) (k : Nat) (c : Conn), (s.conn k).reads <+: c.reads → ∀ j, (s.conn j).reads <+: ((s.set k c).conn j).reads := by
    intro s k c h j
    rw [State.conn_set]
    split
    · subst_vars; exact h
    · exact List.prefix_rfl
  cases a with
  | accept => exact List.prefix_rfl
  | join i =>
    simp only [State.step]
    split
    · exact one s i { s.conn i with reader := .waiting } List.prefix_rfl j
    · exact List.prefix_rfl
  | recv i data =>
    simp only [State.step]
    split
    · exact one s i _ (List.prefix_append _ _) j
    · exact List.prefix_rfl
  | recvEnd i =>
    simp only [State.step]
    split
    · exact one s i { s.conn i with reader := .closing } List.prefix_rfl j
    · exact List.prefix_rfl
  | list i =>
    simp only [State.step]
    split
    · refine one s i _ ?_ j; exact List.prefix_rfl
    · exact List.prefix_rfl
  | push i =>
    simp only [State.step]
    split
    · refine one s i _ ?_ j; exact List.prefix_rfl
    · rename_i text t ts hc
      refine (one s i { s.conn i with reader := .sending text ts } List.prefix_rfl j).trans (one _ t _ ?_ j)
      rw [Conn.send_reads]
    · exact List.prefix_rfl
  | close i =>
    simp only [State.step]
    split
    · refine one s i _ ?_ j
      rw [Conn.close_reads]
    · exact List.prefix_rfl
  | pop i =>
    simp only [State.step]
    split
    · split
      · refine one s i _ ?_ j; exact List.prefix_rfl
      · refine one s i _ ?_ j; exact List.prefix_rfl
      · exact List.prefix_rfl
    · exact List.prefix_rfl
  | write i n =>
    simp only [State.step]
    split
    · split
      · refine one s i _ ?_ j; exact List.prefix_rfl
      · refine one s i _ ?_ j; exact List.prefix_rfl
    · exact List.prefix_rfl
  | writeError i =>
    simp only [State.step]
    split
    · refine one s i _ ?_ j; exact List.prefix_rfl
    · exact List.prefix_rfl
  | leave i =>
    simp only [State.step]
    split <;> exact List.prefix_rfl

theorem Inv.init (lossy : Bytes → String) : Inv lossy .init := by
  refine ⟨fun i => .new lossy i, ⟨by simp [State.init], by simp [State.init], ?_, ?_⟩, ?_⟩
  · intro i h; simp [State.init, Conn.new] at h
  · intro j t ts h; simp [State.init, Conn.new] at h
  · intro i j
    simp [State.init, Conn.new, inflight, saidBy]

theorem Inv.inflight_fresh {lossy : Bytes → String} {s : State} (h : Inv lossy s) {i : Nat} (hi : (s.conn i).reader = .starting) (j : Nat) :
    inflight s j i = [] := by
  unfold inflight
  split
  · rename_i t ts heq
    have := (h.listed.targets _ _ _ heq).2 i
    rw [if_neg (fun h' => this h' hi)]
  · rfl

theorem Inv.step {lossy : Bytes → String} {s : State} (h : Inv lossy s) (a : Action) : Inv lossy (s.step lossy a) := by
  have hL := Local.step h.each h.listed a
  have hl := h.listed.step h.each a
  refine ⟨hL, hl, fun i j => ?_⟩
  have hm := step_mono lossy s a i
  by_cases hw : ((s.step lossy a).conn i).writer = .finished
  · refine ⟨fun h' => absurd hw h', ?_⟩
    by_cases hw0 : (s.conn i).writer = .finished
    · -- it was done already: nothing reaches the queue
      have e : ((s.step lossy a).conn i).queued = (s.conn i).queued := by
        rcases step_shape lossy s a with ⟨k, d, h1, h2, h3, h4, h5⟩ | ⟨k, t, m, ts, h1, h2, h3, h4, h5⟩ | ⟨h1, h2, -⟩
        · exact (h2 i).1
        · rw [h5 i]; simp [hw0]
        · exact (h1 i).1
      rw [e]
      exact ((h.order i j).2).trans (published_mono lossy s a j).isInfix
    · -- it ends now
      have e : ((s.step lossy a).conn i).queued = (s.conn i).queued := by
        rcases step_shape lossy s a with ⟨k, d, h1, h2, h3, h4, h5⟩ | ⟨k, t, m, ts, h1, h2, h3, h4, h5⟩ | ⟨h1, h2, -⟩
        · exact (h2 i).1
        · rw [(h4 i).2] at hw; exact absurd hw hw0
        · exact (h1 i).1
      rw [e]
      exact ((h.order i j).2).trans (published_mono lossy s a j).isInfix
  · have hw0 : (s.conn i).writer ≠ .finished := fun h' => hw (hm.2.1 h')
    have key : saidBy j ((s.step lossy a).conn i).queued ++ inflight (s.step lossy a) j i <:+ ((s.step lossy a).conn j).published := by
      by_cases hs : (s.conn i).reader = .starting
      · -- nothing is meant for it yet
        have hq : (s.conn i).queued = [] := by rw [(h.each i).fresh hs]; rfl
        have hni : i ∉ s.connlist := fun h' => h.listed.mem i h' hs
        have e : ((s.step lossy a).conn i).queued = [] ∧ inflight (s.step lossy a) j i = [] := by
          rcases step_shape lossy s a with ⟨k, d, h1, h2, h3, h4, h5⟩ | ⟨k, t, m, ts, h1, h2, h3, h4, h5⟩ | ⟨h1, h2, -⟩
          · refine ⟨by rw [(h2 i).1, hq], ?_⟩
            by_cases hk : j = k
            · subst hk; simp [inflight, h5, hni]
            · have := h.inflight_fresh hs j
              simp only [inflight, h3 j hk] at this ⊢
              exact this
          · have hn := (h.listed.targets _ _ _ h1).2 i
            have him : i ≠ m := by rintro rfl; exact hn (by simp) hs
            have hit : i ∉ ts := fun h' => hn (by simp [h']) hs
            refine ⟨by rw [h5 i]; simp [him, hq], ?_⟩
            by_cases hk : j = k
            · subst hk; simp [inflight, h2, hit]
            · have := h.inflight_fresh hs j
              simp only [inflight, h3 j hk] at this ⊢
              exact this
          · exact ⟨by rw [(h1 i).1, hq], by rw [h2, h.inflight_fresh hs j]⟩
        rw [e.1, e.2]
        exact List.nil_suffix
      · have hi := h.listed.live i hs (fun h' => hw0 h'.2)
        obtain ⟨new, h1, h2⟩ := grow h.listed a hi hw j
        rw [h1, h2]
        obtain ⟨x, hx⟩ := (h.order i j).1 hw0
        exact ⟨x, by simp only [← hx, List.append_assoc]⟩
    exact ⟨fun _ => key, (List.prefix_append _ _).isInfix.trans key.isInfix⟩

/-- Whoever has started was accepted. -/
theorem step_started (lossy : Bytes → String) (s : State) (a : Action) (h : ∀ i, s.next ≤ i → (s.conn i).reader = .starting) :
    ∀ i, (s.step lossy a).next ≤ i → ((s.step lossy a).conn i).reader = .starting := by
  have one : ∀ (s s' : State) (k : Nat) (c : Conn), s'.next = s.next → s'.conn = (s.set k c).conn →
      (∀ i, s.next ≤ i → (s.conn i).reader = .starting) → (s.next ≤ k → c.reader = .starting) →
      ∀ i, s'.next ≤ i → (s'.conn i).reader = .starting := by
    intro s s' k c h1 h2 h h3 i hi
    rw [h1] at hi
    rw [h2, State.conn_set]
    split
    · subst_vars; exact h3 hi
    · exact h i hi
  have no : ∀ {k : Nat} {r : ReaderState}, (s.conn k).reader = r → r ≠ .starting → ¬ s.next ≤ k := by
    intro k r h1 h2 h3
    exact h2 (h1 ▸ h k h3)
  cases a with
  | accept => exact fun i hi => h i (by simp only [State.step] at hi; omega)
  | join k =>
    simp only [State.step]
    split
    · rename_i hc
      exact one s _ k { s.conn k with reader := .waiting } rfl rfl h (fun h' => absurd hc.1 (by omega))
    · exact h
  | recv k data =>
    simp only [State.step]
    split
    · rename_i hc
      exact one s _ k _ rfl rfl h (fun h' => absurd h' (no hc.1 (by simp)))
    · exact h
  | recvEnd k =>
    simp only [State.step]
    split
    · rename_i hc
      exact one s _ k _ rfl rfl h (fun h' => absurd h' (no hc (by simp)))
    · exact h
  | list k =>
    simp only [State.step]
    split
    · rename_i hc
      exact one s _ k _ rfl rfl h (fun h' => absurd h' (no hc (by simp)))
    · exact h
  | push k =>
    simp only [State.step]
    split
    · rename_i hc
      exact one s _ k _ rfl rfl h (fun h' => absurd h' (no hc (by simp)))
    · rename_i text t ts hc
      have h1 := one s (s.set k { s.conn k with reader := .sending text ts }) k _ rfl rfl h (fun h' => absurd h' (no hc (by simp)))
      refine one (s.set k { s.conn k with reader := .sending text ts }) _ t _ rfl rfl h1 (fun h' => ?_)
      rw [Conn.send_reader]
      exact h1 t h'
    · exact h
  | close k =>
    simp only [State.step]
    split
    · rename_i hc
      exact one s _ k _ rfl rfl h (fun h' => absurd h' (no hc (by simp)))
    · exact h
  | pop k =>
    simp only [State.step]
    split
    · split
      · exact one s _ k _ rfl rfl h (h k)
      · exact one s _ k _ rfl rfl h (h k)
      · exact h
    · exact h
  | write k n =>
    simp only [State.step]
    split
    · split
      · exact one s _ k _ rfl rfl h (h k)
      · exact one s _ k _ rfl rfl h (h k)
    · exact h
  | writeError k =>
    simp only [State.step]
    split
    · exact one s _ k _ rfl rfl h (h k)
    · exact h
  | leave k =>
    simp only [State.step]
    split <;> exact h

theorem run_started (lossy : Bytes → String) (as : List Action) : ∀ s : State, (∀ i, s.next ≤ i → (s.conn i).reader = .starting) →
    ∀ i, (s.run lossy as).next ≤ i → ((s.run lossy as).conn i).reader = .starting := by
  induction as with
  | nil => exact fun s h => h
  | cons a as ih => exact fun s h => ih _ (step_started lossy s a h)

theorem Inv.run {lossy : Bytes → String} (as : List Action) : ∀ {s : State}, Inv lossy s → Inv lossy (s.run lossy as) := by
  induction as with
  | nil => exact id
  | cons a as ih => exact fun h => ih (h.step a)

theorem run_mono (lossy : Bytes → String) (as : List Action) : ∀ (s : State) (i : Nat), Later (s.conn i) ((s.run lossy as).conn i) := by
  induction as with
  | nil => exact fun s i => .refl _
  | cons a as ih => exact fun s i => (step_mono lossy s a i).trans (ih _ i)

/-- From one state to a later one. -/
theorem grow_run {lossy : Bytes → String} (as : List Action) : ∀ {s : State}, Inv lossy s → ∀ {i : Nat}, i ∈ s.connlist →
    ((s.run lossy as).conn i).writer ≠ .finished → ∀ j,
    ∃ new, ((s.run lossy as).conn j).published = (s.conn j).published ++ new ∧
      saidBy j ((s.run lossy as).conn i).queued ++ inflight (s.run lossy as) j i = saidBy j (s.conn i).queued ++ inflight s j i ++ new := by
  induction as with
  | nil => intro s _ i _ _ j; exact ⟨[], by simp [State.run], by simp [State.run]⟩
  | cons a as ih =>
    intro s h i hi hw j
    simp only [State.run] at hw ⊢
    have hw1 : ((s.step lossy a).conn i).writer ≠ .finished := fun h' => hw ((run_mono lossy as _ i).2.1 h')
    obtain ⟨n1, h1, h2⟩ := grow h.listed a hi hw1 j
    have hi1 := (h.step a).listed.live i ((step_mono lossy s a i).1 (h.listed.mem i hi)) (fun h' => hw1 h'.2)
    obtain ⟨n2, h3, h4⟩ := ih (h.step a) hi1 hw j
    exact ⟨n1 ++ n2, by rw [h3, h1, List.append_assoc], by rw [h4, h2, List.append_assoc]⟩

/-! ### The format of an announcement -/

theorem utf8Encode_append (a b : String) : utf8Encode (a ++ b) = utf8Encode a ++ utf8Encode b := by
  simp [utf8Encode]

theorem escapeChars_eq (cs : List Char) : ['"'] ++ escapeChars cs ++ ['"'] = quoted cs := by
  have : escapeChars cs = cs.flatMap (fun c => match c with | '"' => ['\\', '"'] | '\r' => ['\\', 'r'] | '\n' => ['\\', 'n'] | c => [c]) := by
    induction cs with
    | nil => rfl
    | cons c cs ih =>
      rw [escapeChars, List.flatMap_cons, ih]
      congr 1
      split
      · subst_vars; rfl
      · split
        · subst_vars; rfl
        · split
          · subst_vars; rfl
          · split <;> simp_all
  rw [this]; rfl

theorem announcement_eq (lossy : Bytes → String) (j : Nat) (d : Bytes) : announcement lossy j d = line j (lossy d) := by
  simp only [announcement, line, utf8Encode_append, escapeString, ← escapeChars_eq]
  congr 1

/-- A byte below 128 stands for itself wherever it occurs. -/
theorem low_byte (c : Char) (b : UInt8) (hb : b.toNat < 128) (h : b ∈ String.utf8EncodeChar c) : c.toNat = b.toNat := by
  have e : c.toNat = c.val.toNat := rfl
  have hn : ∀ n, n < 256 → (UInt8.ofNat n).toNat = n := fun n hn => by simp; omega
  unfold String.utf8EncodeChar at h
  simp only at h
  split at h
  · simp only [List.mem_singleton, Nat.toUInt8] at h
    rw [h, hn _ (by omega), e]
  · exfalso
    split at h
    · simp only [List.mem_cons, List.not_mem_nil, or_false, Nat.toUInt8] at h
      rcases h with h | h <;> rw [h, hn _ (by omega)] at hb <;> omega
    · split at h
      · simp only [List.mem_cons, List.not_mem_nil, or_false, Nat.toUInt8] at h
        rcases h with h | h | h <;> rw [h, hn _ (by omega)] at hb <;> omega
      · simp only [List.mem_cons, List.not_mem_nil, or_false, Nat.toUInt8] at h
        rcases h with h | h | h | h <;> rw [h, hn _ (by omega)] at hb <;> omega

theorem isDigit_range {c : Char} (h : c.isDigit = true) : 48 ≤ c.toNat ∧ c.toNat ≤ 57 := by
  simp only [Char.isDigit, Bool.and_eq_true, decide_eq_true_eq] at h
  exact h

theorem digits_bytes (cs : List Char) (h : ∀ c ∈ cs, c.isDigit = true) :
    cs.flatMap String.utf8EncodeChar = cs.map (fun c => UInt8.ofNat c.toNat) := by
  induction cs with
  | nil => rfl
  | cons c cs ih =>
    have := isDigit_range (h c (by simp))
    rcases Multibase.utf8_first c with ⟨-, h2⟩ | ⟨h1, -⟩
    · rw [List.flatMap_cons, h2, ih (fun c hc => h c (by simp [hc]))]; rfl
    · omega

/-- The bytes of a number. -/
def numberBytes (j : Nat) : Bytes := (Nat.toDigits 10 j).map (fun c => UInt8.ofNat c.toNat)

theorem numberBytes_digit (j : Nat) : ∀ b ∈ numberBytes j, 48 ≤ b.toNat ∧ b.toNat ≤ 57 := by
  intro b hb
  obtain ⟨c, h1, rfl⟩ := List.mem_map.1 hb
  have := isDigit_range (Nat.isDigit_of_mem_toDigits (by omega) (by omega) h1)
  have e : (UInt8.ofNat c.toNat).toNat = c.toNat := by simp; omega
  omega

theorem numberBytes_value (j : Nat) : (numberBytes j).foldl (fun n b => 10 * n + (b.toNat - 48)) 0 = j := by
  have h := @Nat.ofDigitChars_ten_toDigits j
  have hd : ∀ c ∈ Nat.toDigits 10 j, c.isDigit = true := fun c hc => Nat.isDigit_of_mem_toDigits (by omega) (by omega) hc
  rw [Nat.ofDigitChars] at h
  conv_rhs => rw [← h]
  rw [numberBytes, List.foldl_map]
  generalize Nat.toDigits 10 j = cs at hd
  generalize 0 = n
  induction cs generalizing n with
  | nil => rfl
  | cons c cs ih =>
    rw [List.foldl_cons, List.foldl_cons, ih (fun c hc => hd c (by simp [hc]))]
    have := isDigit_range (hd c (by simp))
    have e : (UInt8.ofNat c.toNat).toNat = c.toNat := by simp; omega
    rw [e]; rfl

theorem number_eq (j : Nat) : utf8Encode (toString j) = numberBytes j := by
  rw [Nat.toString_eq_ofList_toDigits, Pem.utf8Encode_ofList, Multibase.asBytes, digits_bytes]
  · rfl
  · exact fun c hc => Nat.isDigit_of_mem_toDigits (by omega) (by omega) hc

theorem line_eq (j : Nat) (t : String) :
    line j t = utf8Encode "Received from " ++ (numberBytes j ++ (58 :: 32 :: utf8Encode (String.ofList (quoted t.toList)))) ++ [10] := by
  rw [line, number_eq]
  have : utf8Encode ": " = [58, 32] := by decide
  rw [this]; simp

theorem quoted_no_newline (cs : List Char) : '\n' ∉ quoted cs := by
  simp only [quoted, List.mem_append, List.mem_singleton, List.mem_flatMap, not_or, not_exists, not_and]
  refine ⟨⟨by decide, ?_⟩, by decide⟩
  intro c _
  split
  · decide
  · decide
  · decide
  · rename_i h
    simp only [List.mem_singleton]
    exact fun h' => h h'.symm

/-- A line has one line end, its last byte. -/
theorem line_newline (j : Nat) (t : String) : ∃ body, line j t = body ++ [10] ∧ 10 ∉ body := by
  refine ⟨_, line_eq j t, ?_⟩
  simp only [List.mem_append, List.mem_cons, not_or]
  refine ⟨by decide, ?_, by decide, by decide, ?_⟩
  · intro h
    have := numberBytes_digit j _ h
    simp at this
  · rw [Pem.utf8Encode_ofList, Multibase.asBytes, List.mem_flatMap]
    rintro ⟨c, hc, h⟩
    have := low_byte c 10 (by decide) h
    have : c = '\n' := by
      apply Char.ext; apply UInt32.toNat_inj.mp; exact this
    subst this
    exact quoted_no_newline _ hc

theorem senderOf_line (j : Nat) (t : String) : senderOf (line j t) = j := by
  have e : (line j t).drop 14 = numberBytes j ++ (58 :: 32 :: (utf8Encode (String.ofList (quoted t.toList)) ++ [10])) := by
    rw [line_eq]
    have : (utf8Encode "Received from ").length = 14 := by decide
    simp only [List.append_assoc, ← this, List.drop_left, List.cons_append]
  have e2 : ((line j t).drop 14).takeWhile (fun b => 48 ≤ b.toNat ∧ b.toNat ≤ 57) = numberBytes j := by
    rw [e, List.takeWhile_append_of_pos]
    · simp
    · intro b hb
      simpa using numberBytes_digit j b hb
  rw [senderOf, e2, numberBytes_value]

theorem cut_body (body bs : Bytes) (h : 10 ∉ body) : cut (body ++ [10] ++ bs) = ((body ++ [10]) :: (cut bs).1, (cut bs).2) := by
  induction body with
  | nil => simp [cut]
  | cons b body ih =>
    simp only [List.mem_cons, not_or] at h
    have := ih h.2
    simp only [List.append_assoc, List.cons_append, List.nil_append] at this ⊢
    rw [cut, if_neg (fun h' => h.1 h'.symm), this]

theorem cut_none (bs : Bytes) (h : 10 ∉ bs) : cut bs = ([], bs) := by
  induction bs with
  | nil => rfl
  | cons b bs ih =>
    simp only [List.mem_cons, not_or] at h
    rw [cut, if_neg (fun h' => h.1 h'.symm), ih h.2]

/-- Cutting a prefix of what is seen of a conversation gives the first lines of it and the start of the next. -/
theorem cut_prefix (text : Bytes → String) (q : Talk) : ∀ bs, bs <+: seen text q →
    ∃ q1 q2, q = q1 ++ q2 ∧ (cut bs).1 = q1.map (fun x => line x.1 (text x.2)) ∧
      ((cut bs).2 = [] ∨ ∃ x q3, q2 = x :: q3 ∧ (cut bs).2 <+: line x.1 (text x.2)) := by
  induction q with
  | nil =>
    intro bs h
    have : bs = [] := by simpa [seen] using h
    subst this
    exact ⟨[], [], rfl, rfl, .inl rfl⟩
  | cons x q ih =>
    intro bs h
    have hs : seen text (x :: q) = line x.1 (text x.2) ++ seen text q := rfl
    obtain ⟨body, h1, h2⟩ := line_newline x.1 (text x.2)
    rw [hs] at h
    by_cases hl : (line x.1 (text x.2)).length ≤ bs.length
    · obtain ⟨bs', rfl⟩ := List.prefix_of_prefix_length_le (List.prefix_append _ _) h hl
      obtain ⟨q1, q2, h3, h4, h5⟩ := ih bs' ((List.prefix_append_right_inj _).1 h)
      refine ⟨x :: q1, q2, by rw [h3]; rfl, ?_, ?_⟩
      · rw [h1, cut_body _ _ h2, ← h1, h4]; rfl
      · rw [h1, cut_body _ _ h2]; exact h5
    · have hp : bs <+: line x.1 (text x.2) := List.prefix_of_prefix_length_le h (List.prefix_append _ _) (by omega)
      have hn : 10 ∉ bs := by
        have hb : bs <+: body := by
          refine List.prefix_of_prefix_length_le hp (by rw [h1]; exact List.prefix_append _ _) ?_
          have := congrArg List.length h1
          simp at this; omega
        exact fun h' => h2 (hb.subset h')
      rw [cut_none bs hn]
      exact ⟨[], x :: q, rfl, rfl, .inr ⟨x, q, rfl, hp⟩⟩

end Ngfs.Chat
