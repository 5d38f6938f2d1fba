import Verif.Spec.Download
import Verif.Lemmas.Binary

namespace Ngfs.Download
open Spec.Download
open Spec.Torrent (Field HandshakeWire)
open Spec (bigEndian)

theorem read_nil {s : Source} (h : s.bytes = []) (room : Nat) : s.read room = .ended := by simp [Source.read, h]

theorem read_some {s : Source} (h : s.bytes ≠ []) {room : Nat} (hr : 0 < room) :
    ∃ d s', s.read room = .data d s' ∧ d ≠ [] ∧ d.length ≤ room ∧ s.bytes = d ++ s'.bytes ∧ s'.ending = s.ending := by
  have hl : 0 < s.bytes.length := List.length_pos_iff.2 h
  have hn : ∃ n, 0 < n ∧ n ≤ room ∧ s.read room = .data (s.bytes.take n) { s with bytes := s.bytes.drop n, cuts := s.cuts.tail } := by
    refine ⟨s.next room, ?_, ?_, by simp [Source.read, h]⟩
    · unfold Source.next; split <;> omega
    · unfold Source.next; split <;> omega
  obtain ⟨n, h1, h2, h3⟩ := hn
  refine ⟨_, _, h3, ?_, ?_, ?_, rfl⟩
  · intro he
    have := congrArg List.length he
    simp only [List.length_take, List.length_nil] at this
    omega
  · simp only [List.length_take]; omega
  · simp

theorem readExact_done (fuel : Nat) : ∀ (s : Source) (n : Nat) (acc d rest : Bytes), n ≤ fuel → s.bytes = d ++ rest → d.length = n →
    ∃ s', readExact fuel s n acc = .done (acc ++ d) s' ∧ s'.bytes = rest ∧ s'.ending = s.ending := by
  induction fuel with
  | zero =>
    intro s n acc d rest h hb hd
    have : n = 0 := by omega
    subst this
    have := List.length_eq_zero_iff.1 hd
    subst this
    exact ⟨s, by simp [readExact], by simpa using hb, rfl⟩
  | succ fuel ih =>
    intro s n acc d rest h hb hd
    unfold readExact
    by_cases h0 : n = 0
    · subst h0
      have := List.length_eq_zero_iff.1 hd
      subst this
      exact ⟨s, by simp, by simpa using hb, rfl⟩
    · have hne : s.bytes ≠ [] := by
        rw [hb]; intro he
        simp only [List.append_eq_nil_iff] at he
        simp [he.1] at hd; omega
      obtain ⟨x, s', e1, e2, e3, e4, e5⟩ := read_some hne (Nat.pos_of_ne_zero h0)
      have hx : 0 < x.length := List.length_pos_iff.2 e2
      have hx' : d = x ++ d.drop x.length := by
        have h1 : (d ++ rest).take x.length = x := by rw [← hb, e4]; simp
        rw [List.take_append_of_le_length (by omega)] at h1
        conv => lhs; rw [← List.take_append_drop x.length d, h1]
      have hr : s'.bytes = d.drop x.length ++ rest := by
        rw [e4, hx', List.append_assoc] at hb
        simpa using hb
      obtain ⟨s'', g1, g2, g3⟩ := ih s' (n - x.length) (acc ++ x) (d.drop x.length) rest (by omega) hr (by simp [hd])
      refine ⟨s'', ?_, g2, by rw [g3, e5]⟩
      simp only [h0, if_false, e1, g1]
      rw [List.append_assoc, ← hx']

theorem readExact_short (fuel : Nat) : ∀ (s : Source) (n : Nat) (acc : Bytes), s.bytes.length < n → s.bytes.length < fuel →
    readExact fuel s n acc = (match s.ending with | .eof => .failed .unexpectedEof | .error => .failed .broken | .silent => .waiting) := by
  induction fuel with
  | zero => intro s n acc _ h; omega
  | succ fuel ih =>
    intro s n acc h1 h2
    unfold readExact
    have h0 : n ≠ 0 := by omega
    by_cases hne : s.bytes = []
    · simp only [h0, if_false, read_nil hne]
      cases s.ending <;> rfl
    · obtain ⟨x, s', e1, e2, e3, e4, e5⟩ := read_some hne (Nat.pos_of_ne_zero h0)
      have hx : 0 < x.length := List.length_pos_iff.2 e2
      have hl := congrArg List.length e4
      simp only [List.length_append] at hl
      simp only [h0, if_false, e1]
      rw [ih s' _ _ (by omega) (by omega), e5]

theorem bodyLoop_done (len : Nat) (fuel : Nat) : ∀ (s : Source) (body d rest : Bytes), s.bytes = d ++ rest → body.length + d.length = len →
    d.length ≤ fuel → ∃ s', bodyLoop len fuel s body = .done (body ++ d) s' ∧ s'.bytes = rest ∧ s'.ending = s.ending := by
  induction fuel with
  | zero =>
    intro s body d rest hb hd hf
    have : d = [] := List.length_eq_zero_iff.1 (by omega)
    subst this
    simp only [List.length_nil, Nat.add_zero] at hd
    exact ⟨s, by simp [bodyLoop, hd], by simpa using hb, rfl⟩
  | succ fuel ih =>
    intro s body d rest hb hd hf
    unfold bodyLoop
    by_cases h0 : body.length < len
    · have hne : s.bytes ≠ [] := by
        rw [hb]; intro he
        simp only [List.append_eq_nil_iff] at he
        simp [he.1] at hd; omega
      have hroom : 0 < (if len - body.length > bufSize then bufSize else len - body.length) := by
        split
        · decide
        · omega
      obtain ⟨x, s', e1, e2, e3, e4, e5⟩ := read_some hne hroom
      have hx : 0 < x.length := List.length_pos_iff.2 e2
      have hxl : x.length ≤ d.length := by
        have : (if len - body.length > bufSize then bufSize else len - body.length) ≤ len - body.length := by split <;> omega
        omega
      have hx' : d = x ++ d.drop x.length := by
        have h1 : (d ++ rest).take x.length = x := by rw [← hb, e4]; simp
        rw [List.take_append_of_le_length (by omega)] at h1
        conv => lhs; rw [← List.take_append_drop x.length d, h1]
      have hr : s'.bytes = d.drop x.length ++ rest := by
        rw [e4, hx', List.append_assoc] at hb
        simpa using hb
      obtain ⟨s'', g1, g2, g3⟩ := ih s' (body ++ x) (d.drop x.length) rest hr (by simp only [List.length_append, List.length_drop]; omega)
        (by simp only [List.length_drop]; omega)
      refine ⟨s'', ?_, g2, by rw [g3, e5]⟩
      simp only [h0, if_true, e1, g1]
      rw [List.append_assoc, ← hx']
    · have : d = [] := List.length_eq_zero_iff.1 (by omega)
      subst this
      exact ⟨s, by simp [h0], by simpa using hb, rfl⟩

theorem bodyLoop_short (len : Nat) (fuel : Nat) : ∀ (s : Source) (body : Bytes), body.length + s.bytes.length < len →
    s.ending = .eof ∨ s.bytes.length < fuel →
    bodyLoop len fuel s body = (match s.ending with | .eof => .busy | .error => .failed .broken | .silent => .waiting) := by
  induction fuel with
  | zero =>
    intro s body h1 h2
    rcases h2 with h2 | h2
    · have : body.length < len := by omega
      simp [bodyLoop, this, h2]
    · omega
  | succ fuel ih =>
    intro s body h1 h2
    unfold bodyLoop
    have h0 : body.length < len := by omega
    by_cases hne : s.bytes = []
    · simp only [h0, if_true, read_nil hne]
      cases he : s.ending
      · simp only
        have := ih s body h1 (.inl he)
        rw [this, he]
      · rfl
      · rfl
    · have hroom : 0 < (if len - body.length > bufSize then bufSize else len - body.length) := by
        split
        · decide
        · omega
      obtain ⟨x, s', e1, e2, e3, e4, e5⟩ := read_some hne hroom
      have hx : 0 < x.length := List.length_pos_iff.2 e2
      have hl := congrArg List.length e4
      simp only [List.length_append] at hl
      simp only [h0, if_true, e1]
      rw [ih s' _ (by simp only [List.length_append]; omega) (by rw [e5]; rcases h2 with h2 | h2; exact .inl h2; exact .inr (by omega)), e5]

theorem four_split (bs : Bytes) (h : 4 ≤ bs.length) : bs = bs.take 4 ++ bs.drop 4 ∧ (bs.take 4).length = 4 := by
  simp; omega

/-- `parseBody` reads exactly the messages of BEP 3. -/
theorem parseBody_ok (body : Bytes) (m : Message) : parseBody body = .ok m ↔ Means m body := by
  constructor
  · intro h
    cases body with
    | nil => simp [parseBody] at h; subst h; exact .keepAlive
    | cons id body =>
      simp only [parseBody] at h
      split at h
      · subst_vars; split at h <;> simp_all; subst h; exact .choke
      split at h
      · subst_vars; split at h <;> simp_all; subst h; exact .unchoke
      split at h
      · subst_vars; split at h <;> simp_all; subst h; exact .interested
      split at h
      · subst_vars; split at h <;> simp_all; subst h; exact .notInterested
      split at h
      · subst_vars
        split at h
        · simp at h
        · next hl =>
          simp only [not_not, ne_eq] at hl
          simp only [Except.ok.injEq] at h
          subst h
          rw [List.take_of_length_le (by omega)]
          exact .have ⟨hl, (Binary.beNat_eq _).symm⟩
      split at h
      · subst_vars; simp at h; subst h; exact .bitField
      split at h
      · subst_vars
        split at h
        · simp at h
        · next hl =>
          simp only [Except.ok.injEq] at h
          subst h
          have e1 : body = body.take 4 ++ (body.drop 4).take 4 ++ body.drop 8 := by
            rw [List.append_assoc]
            conv => lhs; rw [← List.take_append_drop 4 body, ← List.take_append_drop 4 (body.drop 4), List.drop_drop]
          conv => arg 2; rw [e1]
          exact .piece ⟨by simp; omega, (Binary.beNat_eq _).symm⟩ ⟨by simp; omega, (Binary.beNat_eq _).symm⟩
      · next h0 h1 h2 h3 h4 h5 h7 =>
        simp only [Except.ok.injEq] at h
        subst h
        refine .unknown ?_
        simp only [← UInt8.toNat_inj] at h0 h1 h2 h3 h4 h5 h7
        simp at h0 h1 h2 h3 h4 h5 h7
        omega
  · intro h
    cases h with
    | keepAlive => rfl
    | choke => rfl
    | unchoke => rfl
    | interested => rfl
    | notInterested => rfl
    | «have» h =>
      obtain ⟨h1, h2⟩ := h
      simp only [parseBody]
      simp only [h1, List.take_of_length_le (Nat.le_of_eq h1), Binary.beNat_eq, h2]
      rfl
    | bitField => rfl
    | piece hi hb =>
      obtain ⟨h1, h2⟩ := hi
      obtain ⟨h3, h4⟩ := hb
      rename_i i b block fi fb
      simp only [parseBody]
      have e1 : (fi ++ fb ++ block).take 4 = fi := by rw [List.append_assoc, List.take_append_of_le_length (by omega), List.take_of_length_le (by omega)]
      have e2 : ((fi ++ fb ++ block).drop 4) = fb ++ block := by rw [List.append_assoc, ← h1]; simp
      have e3 : (fb ++ block).take 4 = fb := by rw [List.take_append_of_le_length (by omega), List.take_of_length_le (by omega)]
      have e4 : (fi ++ fb ++ block).drop 8 = block := by
        have : 8 = (fi ++ fb).length := by simp [h1, h3]
        rw [this]; simp
      have e5 : ¬ (fi ++ fb ++ block).length < 8 := by simp only [List.length_append]; omega
      rw [e1, e2, e3, e4, Binary.beNat_eq, Binary.beNat_eq, h2, h4]
      simp only [e5, if_false]
      rfl
    | unknown h =>
      rename_i id data
      have : ∀ k : UInt8, k.toNat < 6 ∨ k.toNat = 7 → id ≠ k := by
        intro k hk he; subst he; omega
      simp only [parseBody]
      rw [if_neg (this 0 (by decide)), if_neg (this 1 (by decide)), if_neg (this 2 (by decide)), if_neg (this 3 (by decide)),
        if_neg (this 4 (by decide)), if_neg (this 5 (by decide)), if_neg (this 7 (by decide))]

theorem parseBody_error (body : Bytes) (e : Err) (h : parseBody body = .error e) : e = .badLength := by
  cases body with
  | nil => simp [parseBody] at h
  | cons id body =>
    simp only [parseBody] at h
    repeat' split at h
    all_goals first | (cases h; rfl) | cases h

/-- A frame is read, whatever pieces it comes in. -/
theorem readMessage_frame (fuel : Nat) (s : Source) {m : Message} {w rest : Bytes} (hw : Frame m w) (hb : s.bytes = w ++ rest)
    (hf : s.bytes.length ≤ fuel) : ∃ s', readMessage fuel s = .done m s' ∧ s'.bytes = rest ∧ s'.ending = s.ending := by
  obtain ⟨⟨h1, h2⟩, h3⟩ := hw
  rename_i len body
  have hl := congrArg List.length hb
  simp only [List.length_append] at hl
  obtain ⟨s1, e1, e2, e3⟩ := readExact_done 4 s 4 [] len (body ++ rest) (Nat.le_refl _) (by rw [hb]; simp) h1
  obtain ⟨s2, g1, g2, g3⟩ := bodyLoop_done (Binary.beNat len) fuel s1 [] body rest e2 (by simp [Binary.beNat_eq, h2]) (by omega)
  refine ⟨s2, ?_, g2, by rw [g3, e3]⟩
  simp only [List.nil_append] at e1 g1
  simp only [readMessage, readMessageRaw, e1, g1, (parseBody_ok body m).2 h3]

theorem readMessage_malformed (fuel : Nat) (s : Source) (h : Malformed s.bytes) (hf : s.bytes.length ≤ fuel) :
    readMessage fuel s = .failed .badLength := by
  generalize hb : s.bytes = bs at h
  obtain ⟨⟨h1, h2⟩, h3⟩ := h
  rename_i len body rest
  have hl := congrArg List.length hb
  simp only [List.length_append] at hl
  obtain ⟨s1, e1, e2, e3⟩ := readExact_done 4 s 4 [] len (body ++ rest) (Nat.le_refl _) (by rw [hb]; simp) h1
  obtain ⟨s2, g1, g2, g3⟩ := bodyLoop_done (Binary.beNat len) fuel s1 [] body rest e2 (by simp [Binary.beNat_eq, h2]) (by omega)
  simp only [List.nil_append] at e1 g1
  simp only [readMessage, readMessageRaw, e1, g1]
  cases hp : parseBody body with
  | ok m => exact absurd ((parseBody_ok body m).1 hp) (h3 m)
  | error e => simp only [parseBody_error body e hp]

theorem readMessage_short (fuel : Nat) (s : Source) (h : s.bytes.length < 4) :
    readMessage fuel s = (match s.ending with | .eof => .failed .unexpectedEof | .error => .failed .broken | .silent => .waiting) := by
  simp only [readMessage, readMessageRaw, readExact_short 4 s 4 [] h h]
  cases s.ending <;> rfl

theorem readMessage_inBody (fuel : Nat) (s : Source) {n : Nat} {len part : Bytes} (hl : Field 4 n len) (hb : s.bytes = len ++ part)
    (hp : part.length < n) (hf : s.ending = .eof ∨ s.bytes.length ≤ fuel) :
    readMessage fuel s = (match s.ending with | .eof => .busy | .error => .failed .broken | .silent => .waiting) := by
  obtain ⟨h1, h2⟩ := hl
  obtain ⟨s1, e1, e2, e3⟩ := readExact_done 4 s 4 [] len part (Nat.le_refl _) hb h1
  have hlen := congrArg List.length hb
  simp only [List.length_append] at hlen
  have := bodyLoop_short (Binary.beNat len) fuel s1 [] (by simp [e2, Binary.beNat_eq, h2, hp])
    (by rw [e3, e2]; rcases hf with hf | hf; exact .inl hf; exact .inr (by omega))
  simp only [List.nil_append] at e1
  simp only [readMessage, readMessageRaw, e1, this, e3]
  cases s.ending <;> rfl

theorem readMessages_frames (fuel : Nat) {ms : List Message} {ws : List Bytes} (h : List.Forall₂ Frame ms ws) :
    ∀ (s : Source) (rest : Bytes) (count : Nat), s.bytes = ws.flatten ++ rest → s.bytes.length ≤ fuel →
    ∃ s', s'.bytes = rest ∧ s'.ending = s.ending ∧
      readMessages fuel (ms.length + count) s = (ms ++ (readMessages fuel count s').1, (readMessages fuel count s').2) := by
  induction h with
  | nil => intro s rest count hb _; exact ⟨s, by simpa using hb, rfl, by simp⟩
  | cons hw _ ih =>
    rename_i m w ms ws _
    intro s rest count hb hf
    obtain ⟨s1, e1, e2, e3⟩ := readMessage_frame fuel s hw (rest := ws.flatten ++ rest) (by rw [hb]; simp) hf
    have hl := congrArg List.length hb
    have hl2 := congrArg List.length e2
    simp only [List.length_append, List.flatten_cons] at hl hl2
    obtain ⟨s2, g1, g2, g3⟩ := ih s1 rest count e2 (by omega)
    refine ⟨s2, g1, by rw [g2, e3], ?_⟩
    rw [List.length_cons, Nat.add_right_comm, readMessages]
    simp only [e1, g3, List.cons_append]

theorem bodyLoop_mono (len : Nat) (fuel : Nat) : ∀ (s : Source) (body : Bytes), bodyLoop len fuel s body ≠ .busy →
    bodyLoop len (fuel + 1) s body = bodyLoop len fuel s body := by
  induction fuel with
  | zero =>
    intro s body h
    rw [bodyLoop] at h
    by_cases h0 : body.length < len
    · simp [h0] at h
    · simp [bodyLoop, h0]
  | succ fuel ih =>
    intro s body h
    rw [bodyLoop] at h
    rw [bodyLoop.eq_def len (fuel + 1 + 1), bodyLoop.eq_def len (fuel + 1)]
    simp only at h ⊢
    by_cases h0 : body.length < len
    · simp only [h0, if_true] at h ⊢
      split
      · next hd => simp only [hd] at h; exact ih _ _ h
      · next hd =>
        simp only [hd] at h
        split
        · next he => simp only [he] at h; exact ih _ _ h
        · rfl
        · rfl
    · simp only [h0, if_false]

theorem bodyLoop_le (len : Nat) {fuel fuel' : Nat} (hle : fuel ≤ fuel') (s : Source) (body : Bytes) (h : bodyLoop len fuel s body ≠ .busy) :
    bodyLoop len fuel' s body = bodyLoop len fuel s body := by
  induction hle with
  | refl => rfl
  | step _ ih => rw [bodyLoop_mono len _ s body (by rw [ih]; exact h), ih]

theorem readMessage_le {fuel fuel' : Nat} (hle : fuel ≤ fuel') (s : Source) (h : readMessage fuel s ≠ .busy) :
    readMessage fuel' s = readMessage fuel s := by
  simp only [readMessage, readMessageRaw] at h ⊢
  cases hr : readExact 4 s 4 [] with
  | done buf s' =>
    simp only [hr] at h ⊢
    rw [bodyLoop_le (Binary.beNat buf) hle s' [] (by intro hb; simp [hb] at h)]
  | failed e => rfl
  | waiting => rfl
  | busy => rfl

theorem readMessages_le {fuel fuel' : Nat} (hle : fuel ≤ fuel') (count : Nat) : ∀ s : Source, (readMessages fuel count s).2 ≠ some .busy →
    readMessages fuel' count s = readMessages fuel count s := by
  induction count with
  | zero => intro s _; rfl
  | succ count ih =>
    intro s h
    simp only [readMessages] at h ⊢
    have hb : readMessage fuel s ≠ .busy := by intro hb; simp [hb] at h
    rw [readMessage_le hle s hb]
    cases hm : readMessage fuel s with
    | done m s' =>
      simp only [hm] at h ⊢
      rw [ih s' h]
    | failed e => rfl
    | waiting => rfl
    | busy => exact absurd hm hb

end Ngfs.Download
