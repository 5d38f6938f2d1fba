import Verif.Lemmas.Peer
import Verif.Lemmas.Slice

/-! Extraction of peer messages from the bytes received (C50). -/
namespace Ngfs.Torrent
open Binary Spec Spec.Torrent Util

/-- Behind the handshake: a message in front of any bytes is extracted. -/
theorem next_message {c : Conn} {m : Message} {bs rest : Bytes} (hh : c.receivedHandshake = true) (hi : c.incoming = bs ++ rest)
    (hw : Wire m bs) (hs : Supported m) : getNextMessage c = (.message m, { c with incoming := rest }) := by
  unfold getNextMessage
  simp only [hh, hi]
  cases hw with
  | keepAlive =>
    have : beNat (([0, 0, 0, 0] ++ rest : Bytes).take 4) = 0 := by rw [beNat_eq]; rfl
    rw [if_neg (by simp), if_neg (by simp), if_pos this]
    rfl
  | @body m len body hf hb =>
    obtain ⟨h1, h2⟩ := hf
    have hne : body ≠ [] := by cases hb <;> simp
    obtain ⟨id, body, rfl⟩ := List.exists_cons_of_ne_nil hne
    have t4 : (len ++ (id :: body) ++ rest).take 4 = len := by
      rw [List.append_assoc, List.take_append_of_le_length (by omega), List.take_of_length_le (by omega)]
    have hl : ¬ (len ++ (id :: body) ++ rest).length < 4 := by simp only [List.length_append]; omega
    have g4 : (len ++ (id :: body) ++ rest)[4]? = some id := by
      rw [List.append_assoc, List.getElem?_append_right (by omega), h1]; rfl
    have hl2 : ¬ (len ++ (id :: body) ++ rest).length < 4 + (id :: body).length := by simp only [List.length_append]; omega
    have sl : slice (len ++ (id :: body) ++ rest) 5 (4 + (id :: body).length) = body := by
      have e : len ++ (id :: body) ++ rest = (len ++ [id]) ++ (body ++ rest) := by simp
      rw [slice, e, List.drop_append_of_le_length (by simp [h1]), List.drop_of_length_le (by simp [h1]), List.nil_append,
        List.take_append_of_le_length (by simp only [List.length_cons]; omega), List.take_of_length_le (by simp only [List.length_cons]; omega)]
    have dr : (len ++ (id :: body) ++ rest).drop (4 + (id :: body).length) = rest := by
      rw [List.drop_append_of_le_length (by simp only [List.length_append]; omega), List.drop_of_length_le (by simp only [List.length_append]; omega),
        List.nil_append]
    rw [if_neg (by simp), if_neg hl, t4, beNat_eq, h2, if_neg (by simp), g4]
    simp only [if_neg hl2, sl, (parse_iff id body m).mpr ⟨hb, hs⟩, dr]

/-- What is extracted behind the handshake is what arrived; anything else is told apart. -/
theorem next_cases {c : Conn} (hh : c.receivedHandshake = true) :
    (∃ m bs rest, getNextMessage c = (.message m, { c with incoming := rest }) ∧ c.incoming = bs ++ rest ∧ Wire m bs ∧ Supported m ∧
      4 ≤ bs.length) ∨
    (getNextMessage c = (.pending, c) ∧ Incomplete c.incoming) ∨
    (∃ e len id body rest, (getNextMessage c).1 = .error e ∧ c.incoming = len ++ (id :: body) ++ rest ∧ Field 4 (id :: body).length len ∧
      (e = .panic ↔ Panics (id :: body)) ∧ ∀ m, Body m (id :: body) → ¬ Supported m) := by
  rcases hb : c.incoming with _ | ⟨b0, _ | ⟨b1, _ | ⟨b2, _ | ⟨b3, tl⟩⟩⟩⟩
  · exact .inr (.inl ⟨by unfold getNextMessage; simp [hh, hb], .inl (by simp)⟩)
  · exact .inr (.inl ⟨by unfold getNextMessage; simp [hh, hb], .inl (by simp)⟩)
  · exact .inr (.inl ⟨by unfold getNextMessage; simp [hh, hb], .inl (by simp)⟩)
  · exact .inr (.inl ⟨by unfold getNextMessage; simp [hh, hb], .inl (by simp)⟩)
  · obtain ⟨len, hlen⟩ : ∃ len, len = [b0, b1, b2, b3] := ⟨_, rfl⟩
    have hl4 : len.length = 4 := by rw [hlen]; rfl
    have hbuf : c.incoming = len ++ tl := by rw [hb, hlen]; rfl
    have t4 : (len ++ tl).take 4 = len := by rw [List.take_append_of_le_length (by omega), List.take_of_length_le (by omega)]
    have eb : b0 :: b1 :: b2 :: b3 :: tl = len ++ tl := by rw [hlen]; rfl
    rw [eb]
    have hle : ¬ (len ++ tl).length < 4 := by rw [List.length_append]; omega
    by_cases h0 : bigEndian len = 0
    · left
      have hz : len = [0, 0, 0, 0] := bigEndian_inj (by rw [hl4]; rfl) (by rw [h0]; rfl)
      refine ⟨.keepAlive, [0, 0, 0, 0], tl, ?_, by rw [hz], .keepAlive, trivial, by simp⟩
      exact next_message hh (by rw [hbuf, hz]) .keepAlive trivial
    · rcases tl with _ | ⟨id, tl⟩
      · right; left
        refine ⟨?_, .inr (by rw [t4]; simp only [List.length_append, List.length_nil]; omega)⟩
        unfold getNextMessage
        simp only [hh, hbuf]
        rw [if_neg (by simp), if_neg hle, t4, beNat_eq, if_neg h0, List.append_nil]
        have : len[4]? = none := List.getElem?_eq_none (by omega)
        simp only [this]
      · have g4 : (len ++ (id :: tl))[4]? = some id := by rw [List.getElem?_append_right (by omega), hl4]; rfl
        by_cases hlt : (len ++ (id :: tl)).length < 4 + bigEndian len
        · right; left
          refine ⟨?_, .inr (by rw [t4]; exact hlt)⟩
          unfold getNextMessage
          simp only [hh, hbuf]
          rw [if_neg (by simp), if_neg hle, t4, beNat_eq, if_neg h0, g4]
          simp only [if_pos hlt]
        · obtain ⟨body, rest, hbr, hbl⟩ : ∃ body rest, tl = body ++ rest ∧ (id :: body).length = bigEndian len := by
            refine ⟨tl.take (bigEndian len - 1), tl.drop (bigEndian len - 1), (List.take_append_drop _ _).symm, ?_⟩
            simp only [List.length_append, List.length_cons] at hlt
            rw [List.length_cons, List.length_take]
            omega
          subst hbr
          have e : len ++ (id :: (body ++ rest)) = len ++ (id :: body) ++ rest := by simp
          rw [e]
          rcases hp : parseMessage id body with er | m
          · right; right
            refine ⟨er, len, id, body, rest, ?_, rfl, ⟨hl4, hbl.symm⟩, ?_, ?_⟩
            · have sl : slice (len ++ (id :: (body ++ rest))) 5 (4 + bigEndian len) = body := by
                have e : len ++ (id :: (body ++ rest)) = (len ++ [id]) ++ (body ++ rest) := by simp
                rw [← hbl, slice, e, List.drop_append_of_le_length (by simp [hl4]), List.drop_of_length_le (by simp [hl4]), List.nil_append,
                  List.take_append_of_le_length (by simp only [List.length_cons]; omega), List.take_of_length_le (by simp only [List.length_cons]; omega)]
              unfold getNextMessage
              simp only [hh, hbuf]
              rw [if_neg (by simp), if_neg hle, t4, beNat_eq, if_neg h0, g4]
              simp only [if_neg hlt, sl, hp]
            · rw [← parse_panic, hp]; simp
            · intro m hb hs
              have := (parse_iff id body m).mpr ⟨hb, hs⟩
              rw [hp] at this
              simp at this
          · left
            obtain ⟨h1, h2⟩ := (parse_iff id body m).mp hp
            have hw : Wire m (len ++ (id :: body)) := .body ⟨hl4, hbl.symm⟩ h1
            exact ⟨m, _, rest, next_message hh (by rw [hbuf, e]) hw h2, rfl, hw, h2, by rw [List.length_append]; omega⟩

/-- Before the handshake. -/
theorem next_handshake {c : Conn} (hh : c.receivedHandshake = false) :
    (c.incoming.length < 68 ∧ getNextMessage c = (.pending, c)) ∨
    (68 ≤ c.incoming.length ∧ getNextMessage c = (.error .invalidHandshake, c) ∧
      ¬ ∃ reserved infoHash peerId bs rest, HandshakeWire reserved infoHash peerId bs ∧ c.incoming = bs ++ rest) ∨
    ∃ reserved infoHash peerId bs rest, HandshakeWire reserved infoHash peerId bs ∧ c.incoming = bs ++ rest ∧ bs.length = 68 ∧
      getNextMessage c = (.message (.handshake reserved infoHash peerId), { c with incoming := rest, receivedHandshake := true }) := by
  have hpl : protocolName.length = 20 := rfl
  unfold getNextMessage
  simp only [hh, if_true]
  by_cases h1 : c.incoming.length < 68
  · exact .inl ⟨h1, by rw [if_pos h1]⟩
  · rw [if_neg h1]
    by_cases h2 : c.incoming.take 20 = protocolName
    · right; right
      rw [if_neg (by simpa using h2)]
      refine ⟨slice c.incoming 20 28, slice c.incoming 28 48, slice c.incoming 48 68, c.incoming.take 68, c.incoming.drop 68, ?_,
        (List.take_append_drop _ _).symm, by rw [List.length_take]; omega, rfl⟩
      refine ⟨by rw [slice_length]; omega, by rw [slice_length]; omega, by rw [slice_length]; omega, ?_⟩
      have e : c.incoming.take 68 = c.incoming.take 20 ++ slice c.incoming 20 28 ++ slice c.incoming 28 48 ++ slice c.incoming 48 68 := by
        simp only [slice]
        rw [show 68 = 20 + 8 + 20 + 20 from rfl, List.take_add, List.take_add, List.take_add]
      rw [e, h2, protocolName_eq]
      simp
    · right; left
      rw [if_pos h2]
      refine ⟨by omega, rfl, ?_⟩
      rintro ⟨reserved, infoHash, peerId, bs, rest, ⟨-, -, -, hb⟩, hi⟩
      apply h2
      rw [hi, hb, show ∀ x : Bytes, 19 :: (utf8Encode "BitTorrent protocol" ++ reserved ++ infoHash ++ peerId) ++ x =
        (19 :: utf8Encode "BitTorrent protocol") ++ (reserved ++ infoHash ++ peerId ++ x) by intro x; simp, ← protocolName_eq,
        List.take_append_of_le_length (by omega), List.take_of_length_le (by omega)]

end Ngfs.Torrent
