import Verif.Lemmas.Mplex
import Verif.Spec.MplexMemory

/-! Lemmas for C185: the bytes that a multiplexed connection keeps. -/
namespace Ngfs.Mplex
open Spec Spec.Mplex

theorem isFrame_data {b : Bytes} {f : Frame} (h : IsFrame b f) : f.data.length ≤ b.length := by
  obtain ⟨num, flag, payload, ⟨x, l, rfl, -⟩, rfl⟩ := h
  simp only [List.length_append]
  split
  · simp
  · omega

/-- Taking a frame off the beginning of a sequence of frames. -/
theorem shortFrames_frame {n : Nat} {b rest : Bytes} {f : Frame} (h : ShortFrames n (b ++ rest)) (hf : IsFrame b f) :
    b.length ≤ n ∧ ShortFrames n rest := by
  obtain ⟨ext, bl, he, hb⟩ := h
  cases bl with
  | nil =>
    have := isFrame_length hf
    have hl := congrArg List.length he
    simp only [List.length_append, List.flatten_nil, List.length_nil] at hl
    omega
  | cons a bl =>
    obtain ⟨h1, g, hg⟩ := hb a (by simp)
    have he' : b ++ (rest ++ ext) = a ++ bl.flatten := by simpa using he
    have h2 := (isFrame_unique hf hg he').2
    have h3 : b = a := List.append_cancel_right (h2 ▸ he')
    exact ⟨h3 ▸ h1, ext, bl, h2, fun c hc => hb c (by simp [hc])⟩

/-- As long as no frame is complete there is less than one frame. -/
theorem shortFrames_none {n : Nat} {bs more : Bytes} (h : ShortFrames n (bs ++ more)) (hn : nextFrame bs = .ok none) :
    bs.length ≤ n := by
  obtain ⟨ext, bl, he, hb⟩ := h
  cases bl with
  | nil =>
    have hl := congrArg List.length he
    simp only [List.length_append, List.flatten_nil, List.length_nil] at hl
    omega
  | cons a bl =>
    obtain ⟨h1, g, hg⟩ := hb a (by simp)
    by_contra hlt
    have he' : bs ++ (more ++ ext) = a ++ bl.flatten := by simpa using he
    have hp : a <+: bs := by
      have h2 : a <+: bs ++ (more ++ ext) := he' ▸ List.prefix_append a _
      exact List.prefix_of_prefix_length_le h2 (List.prefix_append bs _) (by omega)
    obtain ⟨r, hr⟩ := hp
    have := (nextFrame_some_iff bs g r).mpr ⟨a, hr.symm, hg⟩
    rw [hn] at this
    cases this

/-- The buffer of received bytes. -/
def BufBound (n : Nat) (incoming : Bytes) (reads : List ReadEvent) : Prop :=
  incoming.length ≤ n + 1024 ∧ SmallReads reads ∧ ShortFrames n (incoming ++ readBytes reads)

theorem smallReads_tail {e : ReadEvent} {es : List ReadEvent} (h : SmallReads (e :: es)) : SmallReads es :=
  fun d hd => h d (List.mem_cons_of_mem _ hd)

theorem readyFrame_bound {n : Nat} {inc inc' : Bytes} {eof : Bool} {reads : List ReadEvent} {r : Except Fault (Option Frame)}
    (hb : BufBound n inc reads) (h : readyFrame inc eof = some (r, inc')) :
    BufBound n inc' reads ∧ ∀ f, r = .ok (some f) → f.data.length ≤ n := by
  unfold readyFrame at h
  split at h
  · cases h; exact ⟨hb, nofun⟩
  · rename_i f rest hn
    cases h
    obtain ⟨b, hbs, hf⟩ := (nextFrame_some_iff inc f inc').mp hn
    obtain ⟨h1, h2, h3⟩ := hb
    rw [hbs, List.append_assoc] at h3
    have := shortFrames_frame h3 hf
    refine ⟨⟨?_, h2, this.2⟩, ?_⟩
    · rw [hbs, List.length_append] at h1; omega
    · intro g hg
      cases hg
      have := isFrame_data hf
      omega
  · split at h
    · split at h
      · cases h; exact ⟨hb, nofun⟩
      · cases h; exact ⟨hb, nofun⟩
    · cases h

theorem readFrameLoop_bound (n : Nat) (reads : List ReadEvent) : ∀ (inc : Bytes) (eof : Bool), BufBound n inc reads →
    BufBound n (readFrameLoop reads inc eof).2.2.1 (readFrameLoop reads inc eof).2.1 ∧
    ∀ f, (readFrameLoop reads inc eof).1 = .ready (.ok (some f)) → f.data.length ≤ n := by
  induction reads with
  | nil =>
    intro inc eof hb
    unfold readFrameLoop
    split
    · rename_i h
      have := readyFrame_bound hb h
      exact ⟨this.1, fun f hf => this.2 f (by cases hf; rfl)⟩
    · exact ⟨hb, nofun⟩
  | cons e es ih =>
    intro inc eof hb
    unfold readFrameLoop
    split
    · rename_i h
      have := readyFrame_bound hb h
      exact ⟨this.1, fun f hf => this.2 f (by cases hf; rfl)⟩
    · rename_i h
      have hnone : nextFrame inc = .ok none := (readyFrame_none h).1
      obtain ⟨h1, h2, h3⟩ := hb
      have hlen := shortFrames_none h3 hnone
      split
      · exact ⟨⟨h1, smallReads_tail h2, h3⟩, nofun⟩
      · exact ⟨⟨h1, smallReads_tail h2, h3⟩, nofun⟩
      · rename_i d
        have hd := h2 d (by simp)
        split
        · rename_i hemp
          refine ih inc true ⟨h1, smallReads_tail h2, ?_⟩
          rw [List.isEmpty_iff.mp hemp] at h3
          exact h3
        · refine ih (inc ++ d) eof ⟨by rw [List.length_append]; omega, smallReads_tail h2, ?_⟩
          rw [List.append_assoc]
          exact h3

/-- The connection keeps no more than one frame with its reader, and less than another with one answer of the transport. -/
def KeepBound (n : Nat) (m : Shared) : Prop :=
  BufBound n m.frames.incoming m.frames.transport.reads ∧ ∀ f, m.incoming = some f → f.data.length ≤ n

theorem fillLoop_bound (n fuel : Nat) : ∀ m : Shared, KeepBound n m → KeepBound n (fillLoop fuel m).2.1 := by
  induction fuel with
  | zero => exact fun m h => h
  | succ fuel ih =>
    intro m h
    unfold fillLoop
    split
    · exact h
    split
    · exact h
    have hr := readFrameLoop_bound n m.frames.transport.reads m.frames.incoming m.frames.readEof h.1
    have hp := pollReadFrame_eq m.frames
    have h1 : BufBound n m.frames.pollReadFrame.2.incoming m.frames.pollReadFrame.2.transport.reads := by
      unfold FrameStream.pollReadFrame; exact hr.1
    have h2 : ∀ f, m.frames.pollReadFrame.1 = .ready (.ok (some f)) → f.data.length ≤ n := by
      unfold FrameStream.pollReadFrame; exact hr.2
    generalize m.frames.pollReadFrame = T at h1 h2 ⊢
    obtain ⟨r, fs⟩ := T
    match r, h2 with
    | .pending, _ => exact ⟨h1, nofun⟩
    | .ready (.error e), _ => exact ⟨h1, nofun⟩
    | .ready (.ok none), _ => exact ⟨h1, nofun⟩
    | .ready (.ok (some f)), h2 =>
      have := ih { m with incoming := some f, frames := fs } ⟨h1, fun g hg => by cases hg; exact h2 f rfl⟩
      exact this

theorem pollDrain_same (s : FrameStream) : s.pollDrain.2.incoming = s.incoming ∧ s.pollDrain.2.transport.reads = s.transport.reads := by
  unfold FrameStream.pollDrain Transport.pollFlush
  cases writeLoop s.transport.writes s.outgoing s.transport.sent with
  | mk r w =>
    obtain ⟨ws, out, sent⟩ := w
    match r with
    | .pending => exact ⟨rfl, rfl⟩
    | .ready (.error k) => exact ⟨rfl, rfl⟩
    | .ready (.ok ()) =>
      simp only
      cases s.transport.flushes with
      | nil => exact ⟨rfl, rfl⟩
      | cons e es => cases e <;> exact ⟨rfl, rfl⟩

theorem keepBound_drain {n : Nat} {m : Shared} (h : KeepBound n m) : KeepBound n { m with frames := m.frames.pollDrain.2 } := by
  have := pollDrain_same m.frames
  exact ⟨by simp only; rw [this.1, this.2]; exact h.1, h.2⟩

theorem keepBound_finish {n : Nat} {c : Conn} (h : KeepBound n c.shared) (id : StreamId) : KeepBound n (c.finishConnect id).2.1.shared := by
  have hd := keepBound_drain h
  unfold Conn.finishConnect
  generalize c.shared.frames.pollDrain = T at hd ⊢
  obtain ⟨r, fs⟩ := T
  match r with
  | .pending => exact hd
  | .ready (.error k) => exact hd
  | .ready (.ok ()) => exact hd

theorem keepBound_drainConn {n : Nat} {c : Conn} (h : KeepBound n c.shared) (i : Nat) (w : Handle) : KeepBound n (c.drain i w).2.shared := by
  have hd := keepBound_drain h
  unfold Conn.drain
  split
  · exact h
  generalize c.shared.frames.pollDrain = T at hd ⊢
  obtain ⟨r, fs⟩ := T
  match r with
  | .pending => exact hd
  | .ready (.error k) => exact hd
  | .ready (.ok ()) => exact hd

theorem keepBound_step {n : Nat} {c : Conn} (h : KeepBound n c.shared) (op : Op) : KeepBound n (c.step op).2.1.shared := by
  have hf : KeepBound n c.shared.pollFill.2.1 := fillLoop_bound n _ _ h
  unfold Conn.step
  split
  · exact h
  match op with
  | .accept =>
    show KeepBound n c.accept.2.1.shared
    unfold Conn.accept Shared.pollAcceptId
    generalize c.shared.pollFill = T at hf ⊢
    obtain ⟨r, m, taken⟩ := T
    match r with
    | .pending => exact hf
    | .ready (.error k) => exact hf
    | .ready (.ok ()) =>
      simp only at hf ⊢
      cases hi : m.incoming with
      | none => exact hf
      | some f =>
        simp only
        split
        · rename_i hx; split at hx <;> cases hx
          · exact hf
        · rename_i hx; split at hx <;> cases hx
        · rename_i hx; split at hx <;> cases hx
        · rename_i hx; split at hx <;> cases hx
          · exact ⟨hf.1, nofun⟩
  | .connect name =>
    show KeepBound n (c.connect name).2.1.shared
    unfold Conn.connect
    have h1 : KeepBound n (c.shared.appendNew name).2 := by
      unfold Shared.appendNew FrameStream.appendNew FrameStream.appendFrame Shared.add
      simp only
      cases name <;> exact h
    have := keepBound_finish (c := { c with shared := (c.shared.appendNew name).2 }) h1 (c.shared.appendNew name).1
    exact this
  | .reconnect k =>
    show KeepBound n (c.reconnect k).2.1.shared
    unfold Conn.reconnect
    split
    · exact h
    · exact keepBound_finish h _
  | .read i room =>
    simp only
    split
    · exact h
    rename_i w _
    unfold Conn.read Shared.pollRead
    generalize c.shared.pollFill = T at hf ⊢
    obtain ⟨r, m, taken⟩ := T
    match r with
    | .pending => exact hf
    | .ready (.error k) => exact hf
    | .ready (.ok ()) =>
      simp only at hf ⊢
      cases hi : m.incoming with
      | none => exact hf
      | some f =>
        have hlen := hf.2 f hi
        simp only
        by_cases hid : f.streamId = w.id
        · rw [if_pos hid]
          by_cases hcl : f.op = .close
          · rw [if_pos hcl]; exact ⟨hf.1, nofun⟩
          · rw [if_neg hcl]
            by_cases hr : (f.data.drop (min f.data.length room)).isEmpty
            · rw [if_pos hr]; exact ⟨hf.1, nofun⟩
            · rw [if_neg hr]
              refine ⟨hf.1, fun g hg => ?_⟩
              cases hg
              simp only [List.length_drop]
              omega
        · rw [if_neg hid]; exact hf
  | .write i data =>
    simp only
    split
    · exact h
    rename_i w _
    have hd := keepBound_drainConn h i w
    unfold Conn.write
    generalize c.drain i w = T at hd ⊢
    obtain ⟨r, c'⟩ := T
    match r with
    | .pending => exact hd
    | .ready (.error k) => exact hd
    | .ready (.ok ()) =>
      simp only [FrameStream.appendMessage, FrameStream.appendFrame]
      cases w.id.inverse <;> exact hd
  | .flush i =>
    simp only
    split
    · exact h
    rename_i w _
    have hd := keepBound_drainConn h i w
    unfold Conn.flush
    generalize c.drain i w = T at hd ⊢
    obtain ⟨r, c'⟩ := T
    match r with
    | .pending => exact hd
    | .ready (.error k) => exact hd
    | .ready (.ok ()) => exact hd
  | .shutdown i =>
    simp only
    split
    · exact h
    rename_i w _
    have hd := keepBound_drainConn h i w
    unfold Conn.shutdown
    generalize c.drain i w = T at hd ⊢
    obtain ⟨r, c'⟩ := T
    match r with
    | .pending => exact hd
    | .ready (.error k) => exact hd
    | .ready (.ok ()) =>
      simp only [FrameStream.appendClose, FrameStream.appendFrame]
      cases w.id.inverse <;> exact hd
  | .dropReader i =>
    simp only
    split
    · exact h
    · exact h

theorem keepBound_run (n : Nat) (ops : List Op) : ∀ c : Conn, KeepBound n c.shared → KeepBound n (c.run ops).2.1.shared := by
  induction ops with
  | nil => exact fun c h => h
  | cons op ops ih => exact fun c h => ih _ (keepBound_step h op)

/-- Bytes none of whose beginnings has a complete frame are all kept. -/
theorem readFrameLoop_keeps (reads : List ReadEvent) : ∀ (inc : Bytes), (∀ e ∈ reads, ∃ d, e = .ready d ∧ d ≠ []) →
    (∀ p, p <+: inc ++ readBytes reads → nextFrame p = .ok none) →
    readFrameLoop reads inc false = (.pending, [], inc ++ readBytes reads, false) := by
  induction reads with
  | nil =>
    intro inc _ hp
    have := hp inc (by simp [readBytes])
    simp [readFrameLoop, readyFrame, this, readBytes]
  | cons e es ih =>
    intro inc he hp
    obtain ⟨d, rfl, hd⟩ := he e (by simp)
    have := hp inc (List.prefix_append _ _)
    have h2 := ih (inc ++ d) (fun e he' => he e (by simp [he'])) (by simpa [readBytes] using hp)
    have h3 : d.isEmpty = false := by simpa using hd
    simp only [readFrameLoop, readyFrame, this, Bool.false_eq_true, if_false, h3]
    rw [h2]
    simp [readBytes]

/-- No beginning of an unfinished frame has a complete frame. -/
theorem nextFrame_unfinished {p missing : Bytes} {f : Frame} (h : IsFrame (p ++ missing) f) (hm : missing ≠ []) : nextFrame p = .ok none := by
  have hf := (nextFrame_some_iff (p ++ missing) f []).mpr ⟨p ++ missing, by simp, h⟩
  match hn : nextFrame p with
  | .ok none => rfl
  | .ok (some (g, rest)) =>
    rw [nextFrame_append hn] at hf
    simp only [Except.ok.injEq, Option.some.injEq, Prod.mk.injEq, List.append_eq_nil_iff] at hf
    exact absurd hf.2.2 hm
  | .error e =>
    rw [nextFrame_error_append hn] at hf
    cases hf

theorem accept_keeps (t : Transport) (he : ∀ e ∈ t.reads, ∃ d, e = .ready d ∧ d ≠ [])
    (hp : ∀ p, p <+: readBytes t.reads → nextFrame p = .ok none) :
    ((Conn.new t).run [.accept]).1 = [.pending] ∧ kept ((Conn.new t).run [.accept]).2.1 = (readBytes t.reads).length := by
  have h := readFrameLoop_keeps t.reads [] he (by simpa using hp)
  have hr : (Conn.new t).shared.frames.pollReadFrame =
      (.pending, { (Conn.new t).shared.frames with transport := { t with reads := [] }, incoming := readBytes t.reads, readEof := false }) := by
    unfold FrameStream.pollReadFrame
    simp only [Conn.new, Shared.new, FrameStream.new]
    rw [h]
    rfl
  have hfill : (Conn.new t).shared.pollFill = (.pending, { (Conn.new t).shared with incoming := none, frames :=
      { (Conn.new t).shared.frames with transport := { t with reads := [] }, incoming := readBytes t.reads, readEof := false } }, []) := by
    unfold Shared.pollFill fillLoop
    rw [if_neg (by simp [Conn.new, Shared.new]), if_neg (by simp [Conn.new, Shared.new, Shared.frameWanted]), hr]
  have hacc : (Conn.new t).step .accept = (.pending, { Conn.new t with shared := { (Conn.new t).shared with incoming := none, frames :=
      { (Conn.new t).shared.frames with transport := { t with reads := [] }, incoming := readBytes t.reads, readEof := false } } }, []) := by
    unfold Conn.step
    rw [if_neg (by simp [Conn.new])]
    simp only [Conn.accept, Shared.pollAcceptId]
    rw [hfill]
    rfl
  simp only [Conn.run]
  rw [hacc]
  exact ⟨rfl, rfl⟩

end Ngfs.Mplex
