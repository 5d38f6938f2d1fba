import Verif.Lemmas.QuicStream
import Verif.Lemmas.Basic

/-! Claims C45 and C84: the crypto stream and stream identifiers. -/
namespace Ngfs.Quic
open Spec.Quic

/-- C45: whatever frames of a stream arrive, in whatever order, the data is a prefix of the stream, and the whole stream once the
frames carry every byte. -/
def C45_statement : Prop :=
  ∀ (S : Bytes) (fs : List CryptoFrame), (∀ f ∈ fs, FrameOf S f) →
    ∃ s, CryptoStream.new.addFrames fs = some s ∧ s.data <+: S ∧ ((∀ i, i < S.length → ∃ f ∈ fs, Covers f i) → s.data = S)

/-- C45 is false: a repeated frame that ends before the data does stops the program. -/
theorem C45_false : ¬ C45_statement := by
  intro h
  obtain ⟨s, hs, -⟩ := h [1, 2, 3] [⟨0, [1, 2]⟩, ⟨2, [3]⟩, ⟨0, [1, 2]⟩] (by
    intro f hf
    simp only [List.mem_cons, List.not_mem_nil, or_false] at hf
    rcases hf with rfl | rfl | rfl <;> exact ⟨by decide, by decide⟩)
  have : CryptoStream.new.addFrames [⟨0, [1, 2]⟩, ⟨2, [3]⟩, ⟨0, [1, 2]⟩] = none := by decide
  rw [this] at hs
  simp at hs

/-- C45, as long as the program does not stop: the data is a prefix of the stream that ends at the first byte no frame has
carried. Missing: that the program does not stop, which is false. -/
theorem C45_prefix_partial (S : Bytes) (fs : List CryptoFrame) (s : CryptoStream) (hf : ∀ f ∈ fs, FrameOf S f)
    (h : CryptoStream.new.addFrames fs = some s) :
    s.data <+: S ∧ (∀ i, i < s.data.length → ∃ f ∈ fs, Covers f i) ∧ ¬ ∃ f ∈ fs, Covers f s.data.length := by
  have hi := streamInv_addAll fs (streamInv_new S) (by simp) hf h
  rw [List.nil_append] at hi
  refine ⟨?_, streamInv_end hi⟩
  rw [hi.data]
  exact List.take_prefix _ _

/-- C45, as long as the program does not stop: once the frames carry every byte, the data is the stream. -/
theorem C45_complete_partial (S : Bytes) (fs : List CryptoFrame) (s : CryptoStream) (hf : ∀ f ∈ fs, FrameOf S f)
    (h : CryptoStream.new.addFrames fs = some s) (hc : ∀ i, i < S.length → ∃ f ∈ fs, Covers f i) : s.data = S := by
  obtain ⟨hp, -, hn⟩ := C45_prefix_partial S fs s hf h
  have : ¬ s.data.length < S.length := fun hlt => hn (hc _ hlt)
  exact hp.eq_of_length_le (by omega)

/-- C45, as long as the program does not stop: the order of the frames does not matter. -/
theorem C45_order_independent_partial (S : Bytes) (fs gs : List CryptoFrame) (s t : CryptoStream) (hf : ∀ f ∈ fs, FrameOf S f)
    (hp : fs.Perm gs) (hs : CryptoStream.new.addFrames fs = some s) (ht : CryptoStream.new.addFrames gs = some t) :
    s.data = t.data := by
  obtain ⟨p1, c1, n1⟩ := C45_prefix_partial S fs s hf hs
  obtain ⟨p2, c2, n2⟩ := C45_prefix_partial S gs t (fun g hg => hf g (hp.mem_iff.mpr hg)) ht
  have h1 : ¬ s.data.length < t.data.length := fun hlt => by
    obtain ⟨g, hg, hc⟩ := c2 _ hlt
    exact n1 ⟨g, hp.mem_iff.mpr hg, hc⟩
  have h2 : ¬ t.data.length < s.data.length := fun hlt => by
    obtain ⟨g, hg, hc⟩ := c1 _ hlt
    exact n2 ⟨g, hp.mem_iff.mp hg, hc⟩
  exact (List.prefix_of_prefix_length_le p1 p2 (by omega)).eq_of_length (by omega)

/-- C45, for frames that are not empty and share no byte, in any order: the program does not stop, and once the frames carry every
byte, the data is the stream. -/
theorem C45_disjoint_partial (S : Bytes) (fs : List CryptoFrame) (hf : ∀ f ∈ fs, FrameOf S f) (hn : ∀ f ∈ fs, f.data ≠ [])
    (hd : fs.Pairwise Disjoint) :
    ∃ s, CryptoStream.new.addFrames fs = some s ∧ s.data <+: S ∧ ((∀ i, i < S.length → ∃ f ∈ fs, Covers f i) → s.data = S) := by
  obtain ⟨s, hs⟩ := addFrames_disj fs [] .new
    ⟨rfl, by simp [CryptoStream.new], by simpa [CryptoStream.new] using hd, by simpa [CryptoStream.new] using hn⟩
  exact ⟨s, hs, (C45_prefix_partial S fs s hf hs).1, C45_complete_partial S fs s hf hs⟩

/-- C45, one more frame, `k` bytes having been put together. A frame that begins behind them is kept and changes nothing. A
frame that ends before their end stops the program, whatever it carries. Any other frame makes the data reach its own
end, if no frame received so far begins behind `k` and not behind that end. Missing: the frames that let frames received
earlier follow, of which any may stop the program. -/
theorem C45_next_partial (S : Bytes) (fs : List CryptoFrame) (s : CryptoStream) (f : CryptoFrame) (hfs : ∀ g ∈ fs, FrameOf S g)
    (hf : FrameOf S f) (h : CryptoStream.new.addFrames fs = some s) :
    (s.data.length < f.startOffset → ∃ t, CryptoStream.new.addFrames (fs ++ [f]) = some t ∧ t.data = s.data) ∧
    (f.startOffset + f.data.length < s.data.length → ∀ more, CryptoStream.new.addFrames (fs ++ f :: more) = none) ∧
    (f.startOffset ≤ s.data.length → s.data.length ≤ f.startOffset + f.data.length →
      (∀ g ∈ fs, s.data.length < g.startOffset → f.startOffset + f.data.length < g.startOffset) →
      ∃ t, CryptoStream.new.addFrames (fs ++ [f]) = some t ∧ t.data = S.take (f.startOffset + f.data.length)) := by
  obtain ⟨h0, hd, hp, A, hA, hE, hC⟩ := streamInv_addAll fs (streamInv_new S) (by simp) hfs h
  rw [List.nil_append] at hA
  have happ : ∀ gs, CryptoStream.new.addFrames (fs ++ gs) = s.addFrames gs := fun gs => by
    rw [addFrames_append, h]; rfl
  refine ⟨fun hlt => ?_, fun hlt more => ?_, fun h1 h2 hno => ?_⟩
  · refine ⟨{ s with pending := s.pending ++ [f] }, ?_, rfl⟩
    rw [happ, CryptoStream.addFrames, addFrame_early h0 hp hlt]; rfl
  · rw [happ, CryptoStream.addFrames, addFrame_now h0 hp (by omega), if_neg (by omega)]
  · obtain ⟨ha, hal⟩ := absorb hd hf h1 (by omega)
    refine ⟨{ s with data := s.data ++ f.data.drop (s.data.length - f.startOffset) }, ?_, ha⟩
    rw [happ, CryptoStream.addFrames, addFrame_now h0 hp h1, if_pos h2,
      checkPending_stay (s := { s with data := s.data ++ f.data.drop (s.data.length - f.startOffset) }) h0]
    · rfl
    · intro g hg
      simp only
      rw [hal]
      exact hno g (hA.subset (List.mem_append_right _ hg)) (hp g hg)

/-- C45: a lost frame arrives late, together with bytes that came with the frame before it; its copy stops the program. -/
example : (CryptoStream.new.addFrames [⟨0, [1, 2]⟩, ⟨6, [7]⟩, ⟨1, [2, 3]⟩]).map (·.data) = some [1, 2, 3] ∧
    CryptoStream.new.addFrames [⟨0, [1, 2]⟩, ⟨6, [7]⟩, ⟨1, [2, 3]⟩, ⟨0, [1, 2]⟩] = none := by decide

/-- C45: three frames in reverse order. -/
example : (CryptoStream.new.addFrames [⟨4, [5, 6]⟩, ⟨2, [3, 4]⟩, ⟨0, [1, 2]⟩]).map (·.data) = some [1, 2, 3, 4, 5, 6] := by decide

/-- C45: overlapping frames. -/
example : (CryptoStream.new.addFrames [⟨0, [1, 2]⟩, ⟨3, [4, 5]⟩, ⟨1, [2, 3, 4]⟩]).map (·.data) = some [1, 2, 3, 4, 5] := by decide

/-- C84: the two lowest bits of a stream identifier tell who opened the stream and whether it goes both ways (RFC 9000, section 2.1). -/
theorem C84_standard (id : Nat) :
    (initiator id = .client ↔ id % 2 = 0) ∧ (directionality id = .bidirectional ↔ id % 4 < 2) := by
  have h1 : id &&& 1 = id % 2 := and_1 id
  have h2 : (id &&& 2 = 0) ↔ id % 4 < 2 := by
    have h3 : (id &&& 2) = id % 4 / 2 * 2 := by
      apply Nat.eq_of_testBit_eq
      intro i
      rw [Nat.testBit_and]
      rcases i with _ | _ | i
      · simp
      · simp only [Nat.testBit_succ, Nat.testBit_zero]
        simp
        omega
      · have h4 : id % 4 / 2 / 2 = 0 := by omega
        simp [Nat.testBit_succ, h4]
    omega
  unfold initiator directionality
  rw [h1]
  constructor
  · split <;> simp_all
  · split <;> simp_all

/-- C84: the four types are the four combinations. -/
theorem C84_stream_type (id : Nat) :
    streamType id = match initiator id, directionality id with
      | .client, .bidirectional => .clientBidirectional
      | .server, .bidirectional => .serverBidirectional
      | .client, .unidirectional => .clientUnidirectional
      | .server, .unidirectional => .serverUnidirectional := by
  obtain ⟨hi, hd⟩ := C84_standard id
  have h3 : id &&& 3 = id % 4 := and_3 id
  unfold streamType
  rw [h3]
  have : id % 4 = 0 ∨ id % 4 = 1 ∨ id % 4 = 2 ∨ id % 4 = 3 := by omega
  have hI : ∀ x : Initiator, x = .client ∨ x = .server := by intro x; cases x <;> simp
  have hD : ∀ x : Directionality, x = .bidirectional ∨ x = .unidirectional := by intro x; cases x <;> simp
  rcases hI (initiator id) with h1 | h1 <;> rcases hD (directionality id) with h2 | h2 <;> simp only [h1, h2] at hi hd ⊢ <;>
    rcases this with h | h | h | h <;> rw [h] at hd ⊢ <;> first | rfl | (exfalso; revert hi hd; simp; done) | (exfalso; simp at hi hd; omega)

end Ngfs.Quic
