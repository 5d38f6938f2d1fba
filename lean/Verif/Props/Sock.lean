import Verif.Model.Sock
import Verif.Lemmas.Io

/-! Properties of the small socket programs: C167, C168, C169. -/
namespace Ngfs.Sock
open Io Spec.Io

/-- The number of bytes that the printed lines account for. -/
def accounted (lines : List Line) : Nat := (lines.map fun | .bytes n => n | _ => 0).sum

/-- The data shown, in order. -/
def shown (lines : List Line) : Bytes := lines.flatMap fun | .text d => d | _ => []

/-- What the lines say about the end: nothing yet, the end of the data, or an error. -/
def ending (lines : List Line) : End :=
  match lines.getLast? with
  | some .eof => .eof
  | some (.error k) => .error k
  | _ => .silent

theorem ending_cons_bytes (n : Nat) (lines : List Line) : ending (.bytes n :: lines) = ending lines := by
  unfold ending
  cases lines with
  | nil => rfl
  | cons l ls => simp

theorem ending_cons_text (d : Bytes) (lines : List Line) : ending (.text d :: lines) = ending lines := by
  unfold ending
  cases lines with
  | nil => rfl
  | cons l ls => simp

/-! ### C167: what is received is reported -/

/-- Whatever the peer sends in whatever pieces: the sizes that `sock` prints add up to what was sent, and the end that it prints is the end
that there was. -/
def C167_statement : Prop :=
  ∀ (opt : Opt) (stream : Transport), accounted (processConnection opt stream).1 = (content stream.reads).1.length ∧
    ending (processConnection opt stream).1 = (content stream.reads).2

/-- **C167** does not hold: with `--read-buf-size 0` the end is reported at once. -/
theorem C167_false : ¬ C167_statement := by
  intro h
  have := (h ⟨.read, some 0⟩ ⟨[.ready [1, 2], .pending], [], [], [], []⟩).2
  exact absurd this (by decide)

theorem readLoop_spec (size : Nat) (hs : 0 < size) (fuel : Nat) : ∀ r : Reader, r.limits = [] → scriptSize r.t.reads < fuel →
    accounted (readLoop size fuel r).1 = (content r.t.reads).1.length ∧ ending (readLoop size fuel r).1 = (content r.t.reads).2 ∧
      (∀ n, Line.bytes n ∈ (readLoop size fuel r).1 → 0 < n) := by
  induction fuel with
  | zero => intro r _ h; omega
  | succ fuel ih =>
    intro r hl hf
    have hv : view r = content r.t.reads := by simp [view, hl]
    have hr := read_spec (scriptSize r.t.reads + 1) r size hs (.inl (by omega))
    unfold readLoop
    generalize r.read (scriptSize r.t.reads + 1) size = P at hr
    obtain ⟨x, r1⟩ := P
    rcases x with _ | (k | d)
    · simp only at hr ⊢
      rw [hv] at hr
      rw [hr]; exact ⟨rfl, rfl, by simp⟩
    · simp only at hr ⊢
      rw [hv] at hr
      rw [hr]; exact ⟨rfl, rfl, by simp⟩
    · cases d with
      | nil =>
        simp only at hr ⊢
        rw [hv] at hr
        rw [hr]; exact ⟨rfl, rfl, by simp⟩
      | cons b d =>
        simp only at hr ⊢
        obtain ⟨bs, e, h1, h2⟩ := hr.view
        have hl1 : r1.limits = [] := by rw [hr.limits, hl]; rfl
        have hv1 : view r1 = content r1.t.reads := by simp [view, hl1]
        have hsz := hr.size
        simp only [List.length_cons] at hsz
        obtain ⟨g1, g2, g3⟩ := ih r1 hl1 (by omega)
        rw [hv] at h1
        rw [hv1] at h2
        rw [h2] at g1 g2
        refine ⟨?_, ?_, ?_⟩
        · rw [h1]; simp only [accounted, List.map_cons, List.sum_cons, List.length_append] at g1 ⊢; rw [g1]
        · rw [h1, ending_cons_bytes, g2]
        · intro n hn
          simp only [List.mem_cons, Line.bytes.injEq] at hn
          rcases hn with hn | hn
          · rw [hn]; simp
          · exact g3 n hn

/-- What holds: with every other size of the buffer. -/
theorem C167_partial (opt : Opt) (hs : opt.readBufSize ≠ some 0) (stream : Transport) :
    accounted (processConnection opt stream).1 = (content stream.reads).1.length ∧
    ending (processConnection opt stream).1 = (content stream.reads).2 := by
  have h0 : 0 < opt.readBufSize.getD 4096 := by
    rcases opt with ⟨m, _ | n⟩
    · simp
    · simp at hs ⊢; omega
  obtain ⟨h1, h2, -⟩ := readLoop_spec _ h0 (scriptSize stream.reads + 1) ⟨stream, []⟩ rfl (by simp)
  exact ⟨h1, h2⟩

example : (processConnection ⟨.read, some 2⟩ ⟨[.ready [1, 2, 3], .pending, .ready [4], .ready []], [], [], [], []⟩).1 =
    [.bytes 2, .bytes 1, .bytes 1, .eof] := by decide

theorem connectionReader_spec (fuel : Nat) : ∀ r : Reader, r.limits = [] → scriptSize r.t.reads < fuel →
    shown (connectionReader fuel r) = (content r.t.reads).1 ∧ accounted (connectionReader fuel r) = (content r.t.reads).1.length ∧
      ending (connectionReader fuel r) = (content r.t.reads).2 := by
  induction fuel with
  | zero => intro r _ h; omega
  | succ fuel ih =>
    intro r hl hf
    have hv : view r = content r.t.reads := by simp [view, hl]
    have hr := read_spec (scriptSize r.t.reads + 1) r 1024 (by omega) (.inl (by omega))
    unfold connectionReader
    generalize r.read (scriptSize r.t.reads + 1) 1024 = P at hr
    obtain ⟨x, r1⟩ := P
    rcases x with _ | (k | d)
    · simp only at hr ⊢
      rw [hv] at hr
      rw [hr]; exact ⟨rfl, rfl, rfl⟩
    · simp only at hr ⊢
      rw [hv] at hr
      rw [hr]; exact ⟨rfl, rfl, rfl⟩
    · cases d with
      | nil =>
        simp only at hr ⊢
        rw [hv] at hr
        rw [hr]; exact ⟨rfl, rfl, rfl⟩
      | cons b d =>
        simp only at hr ⊢
        obtain ⟨bs, e, h1, h2⟩ := hr.view
        have hl1 : r1.limits = [] := by rw [hr.limits, hl]; rfl
        have hv1 : view r1 = content r1.t.reads := by simp [view, hl1]
        have hsz := hr.size
        simp only [List.length_cons] at hsz
        obtain ⟨g0, g1, g2⟩ := ih r1 hl1 (by omega)
        rw [hv] at h1
        rw [hv1] at h2
        rw [h2] at g0 g1 g2
        refine ⟨?_, ?_, ?_⟩
        · rw [h1]; simp only [shown, List.flatMap_cons, List.nil_append] at g0 ⊢; rw [g0]
        · rw [h1]; simp only [accounted, List.map_cons, List.sum_cons, List.length_append] at g1 ⊢; rw [g1]; omega
        · rw [h1, ending_cons_bytes, ending_cons_text, g2]

/-- `iotest` shows all the data that it is sent, in order, the sizes add up, and it reports the end that there was. -/
theorem C167_iotest (stream : Transport) :
    shown (process stream).1 = (content stream.reads).1 ∧ accounted (process stream).1 = (content stream.reads).1.length ∧
      ending (process stream).1 = (content stream.reads).2 :=
  connectionReader_spec (scriptSize stream.reads + 1) ⟨stream, []⟩ rfl (by simp)

example : (process ⟨[.ready [72, 105], .pending, .ready [33], .error .brokenPipe], [.accept 99], [], [], []⟩) =
    ([.bytes 2, .text [72, 105], .bytes 1, .text [33], .error .brokenPipe], welcome) := by decide

/-! ### C168: the mode is followed -/

/-- `sock` in mode `echo` sends back what it gets, as far as the peer takes it: if all writing succeeds, what was read is what was sent. -/
def C168_statement : Prop :=
  ∀ (opt : Opt) (stream : Transport), opt.mode = .echo → opt.readBufSize ≠ some 0 →
    (∀ w ∈ stream.writes, w = .accept (content stream.reads).1.length) → (content stream.reads).1.length < stream.writes.length →
    (processConnection opt stream).2.sent = stream.sent ++ (content stream.reads).1

/-- **C168** does not hold: the mode is not looked at, nothing is ever sent. -/
theorem C168_false : ¬ C168_statement := by
  intro h
  have := h ⟨.echo, none⟩ ⟨[.ready [7], .ready []], [.accept 1, .accept 1], [], [], []⟩ rfl (by decide) (by decide) (by decide)
  exact absurd this (by decide +kernel)

theorem pollRead_same (r : Reader) (room : Nat) :
    (r.pollRead room).2.t.sent = r.t.sent ∧ (r.pollRead room).2.t.writes = r.t.writes := by
  obtain ⟨t, ls⟩ := r
  unfold Reader.pollRead
  dsimp only
  by_cases h0 : List.foldr min room ls = 0
  · rw [if_pos h0]; exact ⟨rfl, rfl⟩
  · rw [if_neg h0]
    rcases t with ⟨reads, writes, fl, sh, sent⟩
    cases reads with
    | nil => exact ⟨rfl, rfl⟩
    | cons e es => cases e <;> exact ⟨rfl, rfl⟩

theorem read_same (fuel : Nat) : ∀ (r : Reader) (room : Nat),
    (r.read fuel room).2.t.sent = r.t.sent ∧ (r.read fuel room).2.t.writes = r.t.writes := by
  induction fuel with
  | zero => intro r room; exact ⟨rfl, rfl⟩
  | succ fuel ih =>
    intro r room
    have hp := pollRead_same r room
    unfold Reader.read
    generalize r.pollRead room = P at hp
    obtain ⟨ev, r1⟩ := P
    cases ev with
    | pending =>
      have := ih r1 room
      exact ⟨this.1.trans hp.1, this.2.trans hp.2⟩
    | error k => exact hp
    | ready d => exact hp

theorem readLoop_same (size fuel : Nat) : ∀ r : Reader,
    (readLoop size fuel r).2.t.sent = r.t.sent ∧ (readLoop size fuel r).2.t.writes = r.t.writes := by
  induction fuel with
  | zero => intro r; exact ⟨rfl, rfl⟩
  | succ fuel ih =>
    intro r
    have hp := read_same (scriptSize r.t.reads + 1) r size
    unfold readLoop
    generalize r.read (scriptSize r.t.reads + 1) size = P at hp
    obtain ⟨x, r1⟩ := P
    rcases x with _ | (k | (_ | ⟨b, d⟩))
    · exact hp
    · exact hp
    · exact hp
    · have := ih r1
      exact ⟨this.1.trans hp.1, this.2.trans hp.2⟩

/-- What holds: in mode `read`, which is the only one that is carried out, nothing is sent and the peer is not asked to take anything;
and the other modes do the same. -/
theorem C168_read_partial (opt : Opt) (stream : Transport) :
    (processConnection opt stream).2.sent = stream.sent ∧ (processConnection opt stream).2.writes = stream.writes ∧
      ∀ mode, processConnection { opt with mode := mode } stream = processConnection opt stream := by
  obtain ⟨h1, h2⟩ := readLoop_same (opt.readBufSize.getD 4096) (scriptSize stream.reads + 1) ⟨stream, []⟩
  exact ⟨h1, h2, fun mode => rfl⟩

/-! ### C169: messages are sent whole -/

/-- A peer that takes everything in the end, in whatever pieces, gets the whole message of `iotest`, and the whole message of `client` if
that reports success. -/
def C169_statement : Prop :=
  ∀ ws : List WriteEvent, (∀ w ∈ ws, w = .pending ∨ ∃ n, 0 < n ∧ w = .accept n) → 24 ≤ (ws.filter (· ≠ .pending)).length →
    connectionWriter ws = welcome ∧ ((client ws).2 = some true → (client ws).1 = hello)

/-- **C169** does not hold: `write` may take a part, and what is left is not sent. -/
theorem C169_false : ¬ C169_statement := by
  intro h
  have := h (List.replicate 24 (.accept 1)) (fun w hw => .inr ⟨1, by omega, List.eq_of_mem_replicate hw⟩) (by decide)
  exact absurd this.1 (by decide)

theorem write_spec (ws : List WriteEvent) (data : Bytes) :
    (write ws data).2.2 <+: data ∧
    (∀ n, (write ws data).1 = .ready (.ok n) → n = (write ws data).2.2.length) ∧
    (∀ k, (write ws data).1 = .ready (.error k) → (write ws data).2.2 = []) ∧
    ((write ws data).1 = .pending → (write ws data).2.2 = []) ∧
    ((∀ w ∈ ws, w = .pending ∨ ∃ n, data.length ≤ n ∧ w = .accept n) → (write ws data).1 = .pending ∨ (write ws data).2.2 = data) := by
  induction ws with
  | nil => exact ⟨List.nil_prefix, by simp [write], by simp [write], fun _ => rfl, fun _ => .inl rfl⟩
  | cons w ws ih =>
    cases w with
    | pending =>
      obtain ⟨a, b, c, d, e⟩ := ih
      exact ⟨a, b, c, d, fun h => e fun w hw => h w (List.mem_cons_of_mem _ hw)⟩
    | accept n =>
      refine ⟨List.take_prefix _ _, by simp [write], by simp [write], by simp [write], fun h => .inr ?_⟩
      rcases h _ (List.mem_cons_self ..) with h | ⟨m, hm, h⟩
      · cases h
      · cases h; exact List.take_of_length_le hm
    | error k =>
      refine ⟨List.nil_prefix, by simp [write], fun _ _ => rfl, by simp [write], fun h => ?_⟩
      rcases h _ (List.mem_cons_self ..) with h | ⟨m, hm, h⟩ <;> cases h

/-- What holds: what is sent is a beginning of the message, and all of it if the peer takes at least that much at once; and `client` that
reports a failure has sent nothing; and a write that fails is reported. -/
theorem C169_partial (ws : List WriteEvent) :
    connectionWriter ws <+: welcome ∧ (client ws).1 <+: hello ∧ ((client ws).2 = some false → (client ws).1 = []) ∧
    ((∀ w ∈ ws, w = .pending ∨ ∃ n, 24 ≤ n ∧ w = .accept n) → (∃ w ∈ ws, w ≠ .pending) →
      connectionWriter ws = welcome ∧ client ws = (hello, some true)) ∧
    (∀ n k rest, ws = List.replicate n .pending ++ .error k :: rest → client ws = ([], some false)) := by
  have hw := write_spec ws welcome
  have hh := write_spec ws hello
  have hp : ∀ (ws : List WriteEvent) (data : Bytes), (write ws data).1 = .pending → ∀ w ∈ ws, w = .pending := by
    intro ws data
    induction ws with
    | nil => simp
    | cons w ws ih =>
      cases w with
      | pending => intro h w hw; rcases List.mem_cons.1 hw with h' | h'
                   · exact h'
                   · exact ih h w h'
      | accept n => intro h; simp [write] at h
      | error k => intro h; simp [write] at h
  have he : ∀ n k rest, write (List.replicate n .pending ++ .error k :: rest) hello = (.ready (.error k), rest, []) := by
    intro n k rest
    induction n with
    | zero => rfl
    | succ n ih => exact ih
  refine ⟨hw.1, ?_, ?_, ?_, fun n k rest e => by rw [client, e, he]⟩
  · unfold client
    have := hh.1
    generalize write ws hello = P at this
    obtain ⟨x, y, z⟩ := P
    rcases x with _ | (k | n) <;> exact this
  · unfold client
    have := hh.2.2.1
    generalize write ws hello = P at this
    obtain ⟨x, y, z⟩ := P
    rcases x with _ | (k | n)
    · simp
    · exact fun _ => this k rfl
    · simp
  · rintro h1 ⟨w, hwm, hne⟩
    constructor
    · exact (hw.2.2.2.2 h1).resolve_left fun h => hne (hp _ _ h w hwm)
    · have hs := (hh.2.2.2.2 fun w hw => (h1 w hw).imp_right fun ⟨n, hn, e⟩ => ⟨n, by simp [hello]; omega, e⟩).resolve_left
        fun h => hne (hp _ _ h w hwm)
      have h3 := hh.2.2.1
      have h4 : (write ws hello).1 ≠ .pending := fun h => hne (hp _ _ h w hwm)
      unfold client
      generalize write ws hello = P at hs h3 h4
      obtain ⟨x, y, z⟩ := P
      simp only at hs
      subst hs
      rcases x with _ | (k | n)
      · exact absurd rfl h4
      · exact absurd (h3 k rfl) (by simp [hello])
      · rfl

example : client [.pending, .accept 4, .accept 99] = ([104, 101, 108, 108], some true) := by decide

end Ngfs.Sock
