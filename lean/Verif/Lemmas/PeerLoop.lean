import Verif.Lemmas.PeerNext

/-! The receive loop (C50). -/
namespace Ngfs.Torrent
open Binary Spec Spec.Torrent Util

theorem next_body {c : Conn} {len body rest : Bytes} {id : UInt8} (hh : c.receivedHandshake = true)
    (hi : c.incoming = len ++ (id :: body) ++ rest) (hf : Field 4 (id :: body).length len) :
    (getNextMessage c).1 = match parseMessage id body with
      | .ok m => .message m
      | .error e => .error e := by
  obtain ⟨h1, h2⟩ := hf
  have t4 : (len ++ (id :: body) ++ rest).take 4 = len := by
    rw [List.append_assoc, List.take_append_of_le_length (by omega), List.take_of_length_le (by omega)]
  have hl : ¬ (len ++ (id :: body) ++ rest).length < 4 := by simp only [List.length_append]; omega
  have g4 : (len ++ (id :: body) ++ rest)[4]? = some id := by
    rw [List.append_assoc, List.getElem?_append_right (by omega), h1]; rfl
  have hl2 : ¬ (len ++ (id :: body) ++ rest).length < 4 + (id :: body).length := by simp only [List.length_append]; omega
  have sl : slice (len ++ (id :: body) ++ rest) 5 (4 + (id :: body).length) = body := by
    have e : len ++ (id :: body) ++ rest = (len ++ [id]) ++ (body ++ rest) := by simp
    rw [slice, e, List.drop_append_of_le_length (by simp [h1]), List.drop_of_length_le (by simp [h1]), List.nil_append,
      List.take_append_of_le_length (by simp only [List.length_cons]; omega), List.take_of_length_le (by simp only [List.length_cons]; omega)]
  unfold getNextMessage
  simp only [hh, hi]
  rw [if_neg (by simp), if_neg hl, t4, beNat_eq, h2, if_neg (by simp), g4]
  simp only [if_neg hl2, sl]
  rcases parseMessage id body with e | m <;> rfl

/-- More bytes do not change what is extracted. -/
theorem next_extend {c c' : Conn} {m : Message} (h : getNextMessage c = (.message m, c')) (x : Bytes) :
    getNextMessage { c with incoming := c.incoming ++ x } = (.message m, { c' with incoming := c'.incoming ++ x }) ∧
      c'.incoming.length + 4 ≤ c.incoming.length ∧ c'.receivedHandshake = true := by
  rcases (Bool.eq_false_or_eq_true c.receivedHandshake).symm with hh | hh
  · rcases next_handshake hh with ⟨-, h1⟩ | ⟨-, h1, -⟩ | ⟨reserved, infoHash, peerId, bs, rest, hw, hi, hl, h1⟩
    · rw [h1] at h; simp at h
    · rw [h1] at h; simp at h
    · rw [h1] at h
      simp only [Prod.mk.injEq, Next.message.injEq] at h
      obtain ⟨rfl, rfl⟩ := h
      refine ⟨?_, by simp only; rw [hi, List.length_append]; omega, rfl⟩
      obtain ⟨l1, l2, l3, hb⟩ := hw
      have hx : c.incoming ++ x = bs ++ (rest ++ x) := by rw [hi, List.append_assoc]
      rcases next_handshake (c := { c with incoming := c.incoming ++ x }) hh with ⟨g, -⟩ | ⟨-, -, g⟩ | ⟨r', i', p', bs', rest', hw', hi', hl', g⟩
      · simp only at g; rw [hx, List.length_append] at g; omega
      · exact (g ⟨reserved, infoHash, peerId, bs, rest ++ x, ⟨l1, l2, l3, hb⟩, hx⟩).elim
      · rw [g]
        simp only at hi'
        have he : bs = bs' ∧ rest ++ x = rest' := List.append_inj (hx.symm.trans hi') (by omega)
        obtain ⟨he1, he2⟩ := he
        obtain ⟨l1', l2', l3', hb'⟩ := hw'
        rw [he1, hb'] at hb
        simp only [List.cons.injEq, true_and] at hb
        obtain ⟨ha, hp⟩ := List.append_inj' hb (by omega)
        obtain ⟨ha, hi2⟩ := List.append_inj' ha (by omega)
        obtain ⟨-, hr⟩ := List.append_inj' ha (by omega)
        rw [hp, hi2, hr, ← he2]
  · rcases next_cases hh with ⟨m', bs, rest, h1, hi, hw, hs, hl⟩ | ⟨h1, -⟩ | ⟨e, len, id, body, rest, h1, -, -, -, -⟩
    · rw [h1] at h
      simp only [Prod.mk.injEq, Next.message.injEq] at h
      obtain ⟨rfl, rfl⟩ := h
      refine ⟨?_, by simp only; rw [hi, List.length_append]; omega, hh⟩
      exact next_message (c := { c with incoming := c.incoming ++ x }) hh (by simp only; rw [hi, List.append_assoc]) hw hs
    · rw [h1] at h; simp at h
    · rw [h] at h1; simp at h1

theorem next_extend_error {c c' : Conn} {e : MsgErr} (h : getNextMessage c = (.error e, c')) (x : Bytes) :
    (getNextMessage { c with incoming := c.incoming ++ x }).1 = .error e := by
  rcases (Bool.eq_false_or_eq_true c.receivedHandshake).symm with hh | hh
  · rcases next_handshake hh with ⟨-, h1⟩ | ⟨hl, h1, hn⟩ | ⟨reserved, infoHash, peerId, bs, rest, hw, hi, hl, h1⟩
    · rw [h1] at h; simp at h
    · rw [h1] at h
      simp only [Prod.mk.injEq, Next.error.injEq] at h
      obtain ⟨rfl, -⟩ := h
      rcases next_handshake (c := { c with incoming := c.incoming ++ x }) hh with ⟨g, -⟩ | ⟨-, g, -⟩ | ⟨r', i', p', bs', rest', hw', hi', hl', g⟩
      · simp only at g; rw [List.length_append] at g; omega
      · rw [g]
      · exfalso
        simp only at hi'
        apply hn
        refine ⟨r', i', p', bs', c.incoming.drop 68, hw', ?_⟩
        have h1 : (c.incoming ++ x).take 68 = bs' := by
          rw [hi', List.take_append_of_le_length (by omega), List.take_of_length_le (by omega)]
        rw [List.take_append_of_le_length hl] at h1
        rw [← h1, List.take_append_drop]
    · rw [h1] at h; simp at h
  · rcases next_cases hh with ⟨m', bs, rest, h1, hi, hw, hs, hl⟩ | ⟨h1, -⟩ | ⟨e', len, id, body, rest, h1, hi, hf, -, -⟩
    · rw [h1] at h; simp at h
    · rw [h1] at h; simp at h
    · rw [h] at h1
      simp only [Next.error.injEq] at h1
      subst h1
      have := next_body hh hi hf
      rw [h] at this
      rw [next_body (c := { c with incoming := c.incoming ++ x }) (rest := rest ++ x) hh (by simp only; rw [hi, List.append_assoc]) hf, ← this]

theorem next_pending {c c' : Conn} (h : getNextMessage c = (.pending, c')) : c' = c := by
  rcases (Bool.eq_false_or_eq_true c.receivedHandshake).symm with hh | hh
  · rcases next_handshake hh with ⟨-, h1⟩ | ⟨hl, h1, hn⟩ | ⟨reserved, infoHash, peerId, bs, rest, hw, hi, hl, h1⟩ <;> rw [h1] at h <;> simp at h
    exact h.symm
  · rcases next_cases hh with ⟨m', bs, rest, h1, hi, hw, hs, hl⟩ | ⟨h1, -⟩ | ⟨e', len, id, body, rest, h1, hi, hf, -, -⟩
    · rw [h1] at h; simp at h
    · rw [h1] at h; simp at h; exact h.symm
    · rw [h] at h1; simp at h1

/-- Handling a message does not look at the bytes received and keeps them. -/
theorem handle_incoming (s : Transfer) (c : Conn) (m : Message) (x : Bytes) :
    handleMessage s { c with incoming := x } m = (handleMessage s c m).map fun (o, s', c') => (o, s', { c' with incoming := x }) := by
  cases m <;> simp only [handleMessage, Except.map]
  split
  · rfl
  · split <;> rfl

theorem handle_conn {s s' : Transfer} {c c' : Conn} {m : Message} {o : Bytes} (h : handleMessage s c m = .ok (o, s', c')) :
    c'.incoming = c.incoming ∧ c'.receivedHandshake = c.receivedHandshake ∧ c'.receivedFirstMessage = c.receivedFirstMessage := by
  cases m <;> simp only [handleMessage] at h
  case bitField data =>
    split at h
    · simp at h
    · split at h
      · simp at h
      · injection h with h; simp only [Prod.mk.injEq] at h
        obtain ⟨-, -, rfl⟩ := h
        exact ⟨rfl, rfl, rfl⟩
  all_goals
    injection h with h; simp only [Prod.mk.injEq] at h
    obtain ⟨-, -, rfl⟩ := h
    exact ⟨rfl, rfl, rfl⟩

/-- The loop with any chunks does what it does with all bytes at hand. -/
theorem loop_chunks (broken : Bool) : ∀ (n n' : Nat) (chunks : List Bytes) (s : Transfer) (c : Conn) (sent : Bytes) (ms : List Message),
    (∀ ch ∈ chunks, ch ≠ []) → chunks.length + chunks.flatten.length + c.incoming.length + 1 ≤ n →
    c.incoming.length + chunks.flatten.length + 1 ≤ n' →
    peerLoop broken n chunks s c sent ms = peerLoop broken n' [] s { c with incoming := c.incoming ++ chunks.flatten } sent ms := by
  intro n
  induction n with
  | zero => intros; omega
  | succ n ih =>
    intro n' chunks s c sent ms hne hn hn'
    obtain ⟨n', rfl⟩ : ∃ k, n' = k + 1 := ⟨n' - 1, by omega⟩
    rcases hg : getNextMessage c with ⟨_ | m | e, c'⟩
    · have := next_pending hg
      subst this
      rcases chunks with _ | ⟨ch, chunks⟩
      · simp only [List.flatten_nil, List.append_nil]
        rw [peerLoop, peerLoop]
        simp only [hg]
      · have hl : ch.length ≠ 0 := by simpa using hne ch (by simp)
        rw [peerLoop]
        simp only [hg, if_neg hl]
        simp only [List.flatten_cons, List.length_append, List.length_cons] at hn hn'
        rw [ih (n' + 1) chunks s _ sent ms (fun x hx => hne x (by simp [hx])) (by simp only [List.length_append]; omega)
          (by simp only [List.length_append]; omega)]
        simp only [List.flatten_cons, List.append_assoc]
    · obtain ⟨h1, h2, h3⟩ := next_extend hg chunks.flatten
      rw [peerLoop, peerLoop]
      simp only [hg, h1]
      have hx := handle_incoming s c' m (c'.incoming ++ chunks.flatten)
      rw [hx]
      rcases hm : handleMessage s c' m with ⟨⟩ | ⟨o, s', c2⟩
      · rfl
      · simp only [Except.map]
        obtain ⟨e1, -, -⟩ := handle_conn hm
        rw [ih n' chunks s' c2 (sent ++ o) (ms ++ [m]) hne (by rw [e1]; omega) (by rw [e1]; omega), e1]
    · have := next_extend_error hg chunks.flatten
      rw [peerLoop, peerLoop]
      rcases hg2 : getNextMessage { c with incoming := c.incoming ++ chunks.flatten } with ⟨a, c2⟩
      rw [hg2] at this
      simp only at this
      subst this
      rw [hg]
      cases e <;> rfl

/-- The rounds are enough. -/
theorem loop_fuel (broken : Bool) : ∀ (n : Nat) (chunks : List Bytes) (s : Transfer) (c : Conn) (sent : Bytes) (ms : List Message),
    chunks.length + chunks.flatten.length + c.incoming.length + 1 ≤ n → (peerLoop broken n chunks s c sent ms).outcome ≠ .fuel := by
  intro n
  induction n with
  | zero => intros; omega
  | succ n ih =>
    intro chunks s c sent ms hn
    rw [peerLoop]
    rcases hg : getNextMessage c with ⟨_ | m | e, c'⟩
    · have := next_pending hg
      subst this
      rcases chunks with _ | ⟨ch, chunks⟩
      · simp only; split <;> simp
      · simp only
        split
        · simp
        · apply ih
          simp only [List.flatten_cons, List.length_append, List.length_cons] at hn ⊢
          omega
    · obtain ⟨-, h2, -⟩ := next_extend hg []
      simp only
      rcases hm : handleMessage s c' m with ⟨⟩ | ⟨o, s', c2⟩
      · simp
      · simp only
        obtain ⟨e1, -, -⟩ := handle_conn hm
        apply ih
        rw [e1]; omega
    · cases e <;> simp

end Ngfs.Torrent
