import Verif.Props.Io
import Verif.Lemmas.Protobuf

/-! C40 for single numbers: what `read_varint` reads, and what `write_varint` writes. -/
namespace Ngfs.Io
open Varint Spec Spec.Io

/-- A number that is to come is read, and exactly its bytes are taken. -/
theorem readVarint_of (r : Reader) {p rest : Bytes} {e : End} (h1 : view r = (p ++ rest, e)) (h2 : IsVarint p) (h3 : p.length ≤ 10) :
    (readVarint r).1 = .ready (.ok (base128 p % 2 ^ 64)) ∧ view (readVarint r).2 = (rest, e) := by
  have h := readOptVarint_spec r
  unfold readVarint
  generalize readOptVarint r = P at h
  obtain ⟨x, r'⟩ := P
  rcases x with _ | (k | (_ | u))
  · obtain ⟨q, hq, hp⟩ := h
    rw [hq] at h1
    cases h1
    exact (isVarint_not_high h2 fun b hb => (feed_pending hp).1 b (List.mem_append_left _ hb)).elim
  · rcases h with ⟨-, q, s, e', h4, -, h5⟩ | ⟨q, e', h4, h5, -⟩
    · obtain ⟨w, b, rfl, hw, hl⟩ := feed_over h5
      rw [h1] at h4
      have h4 := congrArg Prod.fst h4
      simp only [List.append_assoc] at h4
      exact (varint_vs_high h2 h3 hw (by omega) h4).elim
    · rw [h1] at h4
      cases h4
      exact (isVarint_not_high h2 fun b hb => (feed_pending h5).1 b (List.mem_append_left _ hb)).elim
  · obtain ⟨i, l, rfl, -, -⟩ := h2
    rcases h.2 with h | h <;>
    · simp only at h
      rw [h] at h1
      simp at h1
  · obtain ⟨q, hq, -, hf⟩ := h
    obtain ⟨h5, h6, rfl⟩ := feed_finished hf
    obtain ⟨bs, e', h7, h8⟩ := hq.view
    simp only at h7
    rw [h7] at h1
    obtain ⟨rfl, h9⟩ := Mplex.isVarint_unique h5 h2 (congrArg Prod.fst h1)
    refine ⟨rfl, ?_⟩
    change view r' = _
    rw [h8, h9, show e' = e from congrArg Prod.snd h1]

/-- **C40**, single numbers: a number is read exactly if the bytes to come begin with its varint, in whatever pieces they come. -/
theorem C40_varint_read (r : Reader) (v : Nat) :
    (readVarint r).1 = .ready (.ok v) ↔
      ∃ p rest e, view r = (p ++ rest, e) ∧ IsVarint p ∧ p.length ≤ 10 ∧ v = base128 p % 2 ^ 64 := by
  constructor
  · intro hv
    have h := readOptVarint_spec r
    unfold readVarint at hv
    generalize readOptVarint r = P at h hv
    obtain ⟨x, r'⟩ := P
    rcases x with _ | (k | (_ | u))
    · cases hv
    · cases hv
    · cases hv
    · cases hv
      obtain ⟨q, hq, -, hf⟩ := h
      obtain ⟨h1, h2, h3⟩ := feed_finished hf
      obtain ⟨bs, e, h4, -⟩ := hq.view
      exact ⟨q, bs, e, h4, h1, h2, h3⟩
  · rintro ⟨p, rest, e, h1, h2, h3, rfl⟩
    exact (readVarint_of r h1 h2 h3).1

/-- **C40**, single numbers, round trip: a number that was written, and whose bytes arrive in any pieces with any pauses, is read back, and
what follows is left. -/
theorem C40_varint_round_trip (t t' : Transport) (v : Nat) (hv : v < 2 ^ 64) (new rest : Bytes) (e : End)
    (hw : (writeVarint t v).1 = .ready (.ok ())) (hs : (writeVarint t v).2.sent = t.sent ++ new)
    (hd : content t'.reads = (new ++ rest, e)) :
    (readVarint ⟨t', []⟩).1 = .ready (.ok v) ∧ view (readVarint ⟨t', []⟩).2 = (rest, e) := by
  obtain ⟨ws, pre, h1, -, h3⟩ := writeAll_spec t (encodeU64 v)
  have h6 : encodeU64 v = new := by
    rw [writeVarint, h1] at hs
    rw [← h3 hw]
    exact List.append_cancel_left hs
  subst h6
  obtain ⟨d1, d2, d3, d4⟩ := Protobuf.denotes_encode hv
  have := readVarint_of ⟨t', []⟩ (p := encodeU64 v) (rest := rest) (e := e) (by simp [view, hd]) d1 d2
  rwa [d3, Nat.mod_eq_of_lt d4] at this

/-- 300 is written in two pieces and read in two others. -/
example : (writeVarint ⟨[], [.accept 1, .pending, .accept 9], [], [], [5]⟩ 300).1 = .ready (.ok ()) ∧
    (writeVarint ⟨[], [.accept 1, .pending, .accept 9], [], [], [5]⟩ 300).2.sent = [5] ++ [0xac, 2] ∧
    content [.pending, .ready [0xac], .pending, .ready [2, 8], .ready []] = ([0xac, 2] ++ [8], .eof) := by decide +kernel

end Ngfs.Io
