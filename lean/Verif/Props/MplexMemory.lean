import Verif.Lemmas.MplexMemory

/-! C185: how many received bytes a multiplexed connection keeps. -/
namespace Ngfs.Mplex
open Spec Spec.Mplex

/-- C185: there is a number of bytes that no multiplexed connection exceeds with what it has received and keeps. -/
def C185_statement : Prop :=
  ∃ b : Nat, ∀ (t : Transport) (ops : List Op), SmallReads t.reads → kept ((Conn.new t).run ops).2.1 ≤ b

/-- C185. All bytes of an unfinished frame are kept, however many there are and however they arrive. -/
theorem C185_unfinished_frame (t : Transport) (missing : Bytes) (f : Frame) (he : ∀ e ∈ t.reads, ∃ d, e = .ready d ∧ d ≠ [])
    (hf : IsFrame (readBytes t.reads ++ missing) f) (hm : missing ≠ []) :
    ((Conn.new t).run [.accept]).1 = [.pending] ∧ kept ((Conn.new t).run [.accept]).2.1 = (readBytes t.reads).length := by
  refine accept_keeps t he (fun p hp => ?_)
  obtain ⟨x, hx⟩ := hp
  rw [← hx, List.append_assoc] at hf
  exact nextFrame_unfinished hf (by simp [hm])

/-- C185. So are all bytes of a number that does not end. -/
theorem C185_endless_number (t : Transport) (he : ∀ e ∈ t.reads, ∃ d, e = .ready d ∧ d ≠ []) (hh : ∀ b ∈ readBytes t.reads, 128 ≤ b.toNat) :
    ((Conn.new t).run [.accept]).1 = [.pending] ∧ kept ((Conn.new t).run [.accept]).2.1 = (readBytes t.reads).length := by
  refine accept_keeps t he (fun p hp => ?_)
  unfold nextFrame
  rw [extract_all_high p (fun b hb => hh b (hp.subset hb))]

theorem readBytes_singles (bs : Bytes) : readBytes (bs.map (fun b => .ready [b])) = bs := by
  induction bs with
  | nil => rfl
  | cons b bs ih => simp [readBytes, ih]

/-- The code does not satisfy C185: a peer that sends bytes of the value 128 is never refused. -/
theorem C185_false : ¬ C185_statement := by
  rintro ⟨b, h⟩
  let t : Transport := ⟨(List.replicate (b + 1) (128 : UInt8)).map (fun b => .ready [b]), [], [], [], []⟩
  have hr : readBytes t.reads = List.replicate (b + 1) 128 := readBytes_singles _
  have h1 := (C185_endless_number t (by
    intro e he
    obtain ⟨x, -, rfl⟩ := List.mem_map.mp he
    exact ⟨[x], rfl, by simp⟩) (by
    rw [hr]
    intro x hx
    rw [List.eq_of_mem_replicate hx]
    decide)).2
  have h2 := h t [.accept] (by
    intro d hd
    obtain ⟨x, -, hx⟩ := List.mem_map.mp hd
    cases hx
    simp)
  rw [h1, hr, List.length_replicate] at h2
  omega

/-- C185, what holds: if the peer sends frames that take at most `n` bytes each, then whatever the user does, at most one frame waits for its
reader, and less than another frame and one answer of the transport wait to be taken apart: nothing is read from the transport before the frame
that was read last has been taken. Missing from C185: a limit on the frames. -/
theorem C185_short_frames_partial (t : Transport) (ops : List Op) (n : Nat) (hs : SmallReads t.reads) (hf : ShortFrames n (readBytes t.reads)) :
    kept ((Conn.new t).run ops).2.1 ≤ 2 * n + 1024 := by
  have h := keepBound_run n ops (Conn.new t) ⟨⟨by simp [Conn.new, Shared.new, FrameStream.new], hs, hf⟩, nofun⟩
  obtain ⟨⟨h1, -⟩, h2⟩ := h
  unfold kept
  split
  · rename_i f hf
    have := h2 f hf
    omega
  · omega

/-- C185: frames that take at most five bytes, and a piece of one. -/
example : ShortFrames 5 [8, 0, 10, 2, 65, 66, 10, 3, 70] := by
  refine ⟨[71, 72], [[8, 0], [10, 2, 65, 66], [10, 3, 70, 71, 72]], rfl, ?_⟩
  have key : ∀ b f, nextFrame b = .ok (some (f, [])) → ∃ f, IsFrame b f := by
    intro b f h
    obtain ⟨c, hc, hf⟩ := (nextFrame_some_iff b f []).mp h
    rw [List.append_nil] at hc
    exact ⟨f, hc ▸ hf⟩
  intro b hb
  simp only [List.mem_cons, List.not_mem_nil, or_false] at hb
  rcases hb with rfl | rfl | rfl
  · exact ⟨by decide, key _ ⟨.initiator 1, .new, []⟩ (by decide +kernel)⟩
  · exact ⟨by decide, key _ ⟨.initiator 1, .message, [65, 66]⟩ (by decide +kernel)⟩
  · exact ⟨by decide, key _ ⟨.initiator 1, .message, [70, 71, 72]⟩ (by decide +kernel)⟩

/-- C185: a frame of any size up to the largest, of which one byte is missing. -/
example (n : Nat) (hn : n + 21 < 2 ^ 64) : ∃ (p : Bytes) (f : Frame), n ≤ p.length ∧ IsFrame (p ++ [7]) f := by
  have h := appendFrame_bytes (num := 1) (by omega) .messageInitiator (data := List.replicate n 7 ++ [7])
    (by simp only [List.length_append, List.length_replicate, List.length_cons, List.length_nil]; omega)
  rw [← List.append_assoc] at h
  exact ⟨_, _, by simp only [List.length_append, List.length_replicate]; omega, _, _, _, h, rfl⟩

end Ngfs.Mplex
