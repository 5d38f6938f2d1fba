import Verif.Lemmas.QuicPacket
import Verif.Props.Quic

/-! Claims C78-C81 and C85: QUIC frames and packets. -/
namespace Ngfs.Quic
open Binary Spec Spec.Quic

/-! ## C78: Initial packets -/

/-- C78: an Initial packet is received as it was sent, whatever follows it in the datagram. -/
def C78_statement : Prop :=
  ∀ (c : Crypto) (s : Secrets) (secretsFor : Bytes → Option Secrets) (dcid scid token payload packet rest : Bytes) (pn : Nat)
    (fs : List Frame), Correct c → dcid.length ≤ 20 → scid.length ≤ 20 → pn < 2 ^ 62 → FramesOf 0x02 payload fs →
    secretsFor dcid = some s → encodeInitialPacket c dcid scid pn token payload s = .ok packet →
    (packet ++ rest).length < 2 ^ 62 → parsePacket c secretsFor (packet ++ rest) = .ok ⟨dcid, scid, token, pn, fs⟩

theorem pad_bound {dcid scid token payload : Bytes} (h : payload.length + 20 < 2 ^ 14) : encLength dcid scid token payload < 2 ^ 14 := by
  unfold encLength encPad
  omega

/-- C78, for packet numbers below 2^32 and payloads below 16364 bytes. Missing: greater packet numbers and payloads, for which it is
false. -/
theorem C78_round_trip_partial (c : Crypto) (s : Secrets) (secretsFor : Bytes → Option Secrets)
    (dcid scid token payload packet rest : Bytes) (pn : Nat) (fs : List Frame) (hc : Correct c) (hd : dcid.length ≤ 20)
    (hs : scid.length ≤ 20) (hpn : pn < 2 ^ 32) (hpl : payload.length + 20 < 2 ^ 14) (hf : FramesOf 0x02 payload fs)
    (hsec : secretsFor dcid = some s) (h : encodeInitialPacket c dcid scid pn token payload s = .ok packet)
    (hl : (packet ++ rest).length < 2 ^ 62) : parsePacket c secretsFor (packet ++ rest) = .ok ⟨dcid, scid, token, pn, fs⟩ := by
  have hL := pad_bound (dcid := dcid) (scid := scid) (token := token) hpl
  have henc := h
  rw [encode_eq] at henc
  have hlen : packet.length = (encFront dcid scid token (encLength dcid scid token payload)).length + encLength dcid scid token payload := by
    obtain ⟨sealed, -, -, hsl, -, rfl⟩ := encrypt_inv henc
    rw [protect_length, List.length_append, List.length_append, hsl, beBytes_length]
    simp only [encLength, List.length_append, List.length_replicate]
    omega
  have htok : token.length < 2 ^ 62 := by
    have : token.length ≤ (encFront dcid scid token (encLength dcid scid token payload)).length := by
      simp only [encFront, List.length_append]; omega
    rw [List.length_append] at hl
    omega
  rw [parsePacket_header c secretsFor (encoded_header hd hs htok hL h rest) (by omega), parseBody, hsec]
  have hbe : bigEndian (beBytes 4 pn) = pn := by
    rw [bigEndian_beBytes]; exact Nat.mod_eq_of_lt (by norm_num at *; omega)
  have hdec := decrypt_encrypt (front := encFront dcid scid token (encLength dcid scid token payload)) (pnb := beBytes 4 pn) (b0 := 0xc3)
    hc rfl (by simp) (by rw [hbe]; exact henc) rest
  rw [hbe, beBytes_length] at hdec
  have hlen2 : 4 + (payload ++ List.replicate (encPad dcid scid token payload) (0 : UInt8)).length + 16 = encLength dcid scid token payload := by
    simp only [encLength, List.length_append, List.length_replicate]; omega
  rw [hlen2] at hdec
  simp only [hdec]
  have hfr : parseFrames (payload ++ List.replicate (encPad dcid scid token payload) 0) = .ok fs := by
    rw [parseFrames_iff (by simp only [List.length_append, List.length_replicate, encLength] at *; omega)]
    simpa using framesOf_append hf (framesOf_zeros 0x02 (encPad dcid scid token payload))
  simp only [hfr]

/-- C78: whatever datagram arrives, the packet number read from it is below 2^32. -/
theorem C78_number_bound_partial (c : Crypto) (secretsFor : Bytes → Option Secrets) (packet : Bytes) (i : Initial)
    (h : parsePacket c secretsFor packet = .ok i) : i.packetNo < 2 ^ 32 := by
  have hdec : ∀ off len s pn payload, decryptPayload c packet off len s = .ok (pn, payload) → pn < 2 ^ 32 := by
    intro off len s pn payload hd
    obtain ⟨n, hn, -, -, -, rfl, -⟩ := decrypt_inv hd
    refine Nat.lt_of_lt_of_le (bigEndian_lt _) ?_
    have : (slice (unprotectWith (c.aes s.hp (sampleOf off packet)) off packet) off (off + n)).length ≤ 4 := by
      simp only [slice, List.length_take]; omega
    exact Nat.le_trans (Nat.pow_le_pow_right (by norm_num) this) (by norm_num)
  unfold parsePacket at h
  split at h
  · cases h
  · split at h
    · cases h
    · split at h
      · unfold parseLongHeader at h
        split at h
        · cases h
        · split at h
          · unfold parseInitial at h
            split at h
            · cases h
            · split at h
              · cases h
              · split at h
                · cases h
                · rename_i hd
                  split at h
                  · cases h
                  · injection h with h
                    rw [← h]
                    exact hdec _ _ _ _ _ hd
          · cases h
      · cases h

/-- C78, for payloads below 16364 bytes: an Initial packet is received as it was sent if and only if its number is below 2^32. -/
theorem C78_round_trip_iff_partial (c : Crypto) (s : Secrets) (secretsFor : Bytes → Option Secrets)
    (dcid scid token payload packet rest : Bytes) (pn : Nat) (fs : List Frame) (hc : Correct c) (hd : dcid.length ≤ 20)
    (hs : scid.length ≤ 20) (hpl : payload.length + 20 < 2 ^ 14) (hf : FramesOf 0x02 payload fs)
    (hsec : secretsFor dcid = some s) (h : encodeInitialPacket c dcid scid pn token payload s = .ok packet)
    (hl : (packet ++ rest).length < 2 ^ 62) :
    parsePacket c secretsFor (packet ++ rest) = .ok ⟨dcid, scid, token, pn, fs⟩ ↔ pn < 2 ^ 32 :=
  ⟨fun hp => C78_number_bound_partial c secretsFor _ _ hp,
   fun hpn => C78_round_trip_partial c s secretsFor dcid scid token payload packet rest pn fs hc hd hs hpn hpl hf hsec h hl⟩

/-- C78: the first packet of a connection: its one frame carries the handshake message, at the start of the crypto stream. -/
theorem C78_make_initial (c : Crypto) (s : Secrets) (secretsFor : Bytes → Option Secrets) (dcid scid token handshake packet : Bytes)
    (hc : Correct c) (hd : dcid.length ≤ 20) (hs : scid.length ≤ 20) (hh : handshake.length + 30 < 2 ^ 14)
    (hsec : secretsFor dcid = some s) (h : makeInitial c dcid scid token handshake s = .ok packet) (hl : packet.length < 2 ^ 62) :
    parsePacket c secretsFor packet = .ok ⟨dcid, scid, token, 0, [.crypto 0 handshake]⟩ := by
  have h8 : (quicVarintBytes handshake.length).length ≤ 8 := by
    rw [quicVarintBytes_length]; split <;> [omega; split <;> [omega; split <;> omega]]
  have h0 : quicVarintBytes 0 = [0] := by decide
  have hf : FramesOf 0x02 ([0x06] ++ quicVarintBytes 0 ++ quicVarintBytes handshake.length ++ handshake) [.crypto 0 handshake] := by
    have := FramesOf.crypto (ping := 0x02) (isVarint_quic (v := 0) (by norm_num))
      (isVarint_quic (v := handshake.length) (by omega)) (data := handshake) .nil
    simpa using this
  have := C78_round_trip_partial c s secretsFor dcid scid token _ packet [] 0 _ hc hd hs (by norm_num)
    (by rw [h0]; simp only [List.length_append, List.length_cons, List.length_nil]; omega) hf hsec h (by simpa using hl)
  simpa using this

/-! ## C85: padding -/

/-- C85: an Initial packet takes at least 1200 bytes (RFC 9000 section 14.1), and no more unless header and payload need more. -/
theorem C85_padded (c : Crypto) (s : Secrets) (dcid scid token payload packet : Bytes) (pn : Nat)
    (h : encodeInitialPacket c dcid scid pn token payload s = .ok packet) :
    1200 ≤ packet.length ∧ packet.length ≤ max 1200 (dcid.length + scid.length + token.length + payload.length + 37) := by
  rw [encode_eq] at h
  obtain ⟨sealed, -, -, hsl, -, rfl⟩ := encrypt_inv h
  have h8 : (quicVarintBytes token.length).length ≤ 8 := by
    rw [quicVarintBytes_length]; split <;> [omega; split <;> [omega; split <;> omega]]
  rw [protect_length, List.length_append, List.length_append, hsl, beBytes_length]
  simp only [encFront, longBytes, encPad, List.length_append, List.length_replicate, List.length_cons, List.length_nil]
  omega

/-- C85: an Initial packet can be made whenever the cipher accepts its input. -/
theorem C85_succeeds (c : Crypto) (s : Secrets) (dcid scid token payload : Bytes) (pn : Nat) (hc : Correct c)
    (he : ∀ n a p, ∃ ct, c.encrypt s.key n a p = some ct) : ∃ packet, encodeInitialPacket c dcid scid pn token payload s = .ok packet := by
  rw [encode_eq]
  obtain ⟨ct, hct⟩ := he (makeNonce s pn) (encFront dcid scid token (encLength dcid scid token payload) ++ beBytes 4 pn)
    (payload ++ List.replicate (encPad dcid scid token payload) 0)
  obtain ⟨packet, hp, -⟩ := C77_encrypts c hc s pn _ (beBytes 4 pn) _ ct (by rw [beBytes_length]; omega) hct
  exact ⟨packet, hp⟩

example : ∀ n a p, ∃ ct, toyCrypto.encrypt toySecrets.key n a p = some ct := fun _ _ p => ⟨p ++ List.replicate 16 0x5a, rfl⟩

/-! ## C78: the counterexample -/

/-- C78 is false: only the low 32 bits of the packet number are sent, and they are taken for the packet number. -/
theorem C78_false : ¬ C78_statement := by
  intro h
  have hf : FramesOf 0x02 [0x06, 0x00, 0x01, 0x07] [.crypto 0 [7]] :=
    .crypto (oe := [0]) (le := [1]) (data := [7]) (rest := []) ⟨0, [], rfl, by decide, by decide⟩ ⟨1, [], rfl, by decide, by decide⟩ .nil
  obtain ⟨packet, he⟩ := C85_succeeds toyCrypto toySecrets [1] [2] [] [0x06, 0x00, 0x01, 0x07] (2 ^ 32) toy_correct
    (fun _ _ p => ⟨p ++ List.replicate 16 0x5a, rfl⟩)
  have hl := (C85_padded toyCrypto toySecrets [1] [2] [] [0x06, 0x00, 0x01, 0x07] packet (2 ^ 32) he).2
  simp only [List.length_cons, List.length_nil] at hl
  have := h toyCrypto toySecrets (fun _ => some toySecrets) [1] [2] [] _ packet [] (2 ^ 32) _ toy_correct (by decide) (by decide) (by decide)
    hf rfl he (by rw [List.append_nil]; omega)
  exact absurd (C78_number_bound_partial toyCrypto _ _ _ this) (by simp)

/-- C78: the conditions can be met. -/
example : ∃ packet, makeInitial toyCrypto [1, 2] [3] [4] [5, 6, 7] toySecrets = .ok packet ∧
    parsePacket toyCrypto (fun _ => some toySecrets) packet = .ok ⟨[1, 2], [3], [4], 0, [.crypto 0 [5, 6, 7]]⟩ := by
  obtain ⟨p, h1⟩ : ∃ p, makeInitial toyCrypto [1, 2] [3] [4] [5, 6, 7] toySecrets = .ok p :=
    C85_succeeds toyCrypto toySecrets [1, 2] [3] [4] _ 0 toy_correct (fun _ _ p => ⟨p ++ List.replicate 16 0x5a, rfl⟩)
  have h2 := (C85_padded toyCrypto toySecrets [1, 2] [3] [4] _ p 0 h1).2
  have h3 : p.length < 2 ^ 14 := lt_of_le_of_lt h2 (by decide)
  exact ⟨p, h1, C78_make_initial toyCrypto toySecrets _ [1, 2] [3] [4] [5, 6, 7] p toy_correct (by decide) (by decide) (by decide) rfl h1
    (by omega)⟩

/-! ## C79: received datagrams -/

/-- C79: no datagram makes the receiver panic. -/
def C79_statement : Prop :=
  ∀ (c : Crypto) (secretsFor : Bytes → Option Secrets) (packet : Bytes), packet.length < 2 ^ 64 →
    parsePacket c secretsFor packet ≠ .error .panic

/-- C79 is false: a packet with a short header. -/
theorem C79_false : ¬ C79_statement := fun h => h toyCrypto (fun _ => none) [0x40] (by decide) rfl

/-- C79 is false also for an Initial packet whose length field is too great. -/
theorem C79_initial_panics : ∃ packet : Bytes, InitialHeader packet [] [] [] 63 9 ∧
    parsePacket toyCrypto (fun _ => some toySecrets) packet = .error .panic := by
  refine ⟨[0xc0, 0, 0, 0, 1, 0, 0, 0, 0x3f] ++ List.replicate 20 0, ?_, by decide +kernel⟩
  exact ⟨0xc0, [0], [0x3f], List.replicate 20 0, rfl, by decide, by decide, by decide, ⟨0, [], rfl, by decide, by decide⟩,
    ⟨0x3f, [], rfl, by decide, by decide⟩, by decide⟩

/-- C79, except for two kinds of packet: those with a short header, and Initial packets whose length field is less than four or reaches
beyond the datagram. -/
theorem C79_only_these_partial (c : Crypto) (secretsFor : Bytes → Option Secrets) (packet : Bytes) (hl : packet.length < 2 ^ 64)
    (h : parsePacket c secretsFor packet = .error .panic) :
    (∃ b0 rest, packet = b0 :: rest ∧ b0.toNat / 64 = 1) ∨
    ∃ dcid scid token length off, InitialHeader packet dcid scid token length off ∧ (length < 4 ∨ packet.length < off + length) := by
  rcases parsePacket_cases c secretsFor packet hl with h1 | ⟨e, h1, -, -, -⟩ | ⟨dcid, scid, token, length, off, h1⟩ | ⟨-, h1⟩
  · rw [h1] at h; simp at h
  · rw [h1] at h; simp at h
  · right
    refine ⟨dcid, scid, token, length, off, h1, ?_⟩
    rw [parsePacket_header c secretsFor h1 hl, parseBody] at h
    split at h
    · simp at h
    · split at h
      · rename_i e he
        obtain rfl : e = .panic := by simpa using h
        exact (decrypt_panics he).2
      · split at h <;> simp at h
  · exact .inl h1

/-- C79: every packet with a short header does stop the receiver. -/
theorem C79_short_header (c : Crypto) (secretsFor : Bytes → Option Secrets) (b0 : UInt8) (rest : Bytes) (h : b0.toNat / 64 = 1) :
    parsePacket c secretsFor (b0 :: rest) = .error .panic := by
  obtain ⟨f1, f2⟩ := (short_byte b0).mpr h
  simp only [parsePacket, f1, f2]
  simp

/-- C79: reading the header and the frames never runs out of bounds and never goes on for ever. -/
theorem C79_reader_safe (c : Crypto) (secretsFor : Bytes → Option Secrets) (packet : Bytes) (hl : packet.length < 2 ^ 64) :
    parsePacket c secretsFor packet ≠ .error (.bin .panic) ∧ parsePacket c secretsFor packet ≠ .error (.bin .fuel) := by
  rcases parsePacket_cases c secretsFor packet hl with h1 | ⟨e, h1, h2, h3, -⟩ | ⟨dcid, scid, token, length, off, h1⟩ | ⟨h1, -⟩
  · rw [h1]; simp
  · rw [h1]; simpa using ⟨h2, h3⟩
  · rw [parsePacket_header c secretsFor h1 hl, parseBody]
    split
    · simp
    · split
      · rename_i e he
        constructor <;> (rintro hh; simp only [Except.error.injEq] at hh; subst hh; exact decrypt_error he)
      · rename_i payload _
        obtain ⟨p1, p2⟩ := parseFrames_safe payload
        split
        · rename_i e he
          rw [he] at p1 p2
          simp only [ne_eq, Except.error.injEq] at p1 p2
          simpa using ⟨p1, p2⟩
        · simp
  · rw [h1]; simp

/-! ## C80: frames -/

/-- C80: the frames of the standard (of these types) are recognised. -/
def C80_statement : Prop :=
  ∀ (data : Bytes) (fs : List Frame), data.length < 2 ^ 64 → FramesOf 0x01 data fs → parseFrames data = .ok fs

/-- C80 is false: PING frames have type 0x01, and are refused. -/
theorem C80_false : ¬ C80_statement := by
  intro h
  have := h [0x01] [.ping] (by decide) (.ping .nil)
  revert this
  decide

/-- C80: an ACK frame (type 0x02) is taken for a PING frame, and its fields for frames. -/
theorem C80_ack_misread : parseFrames [0x02, 0x00, 0x00, 0x00, 0x00] = .ok [.ping] := by decide

/-- C80, with 0x02 for the type of PING frames: exactly the sequences of such frames are accepted, as what they are. Missing: the right
type of PING frames. -/
theorem C80_language_partial (data : Bytes) (fs : List Frame) (hl : data.length < 2 ^ 64) :
    parseFrames data = .ok fs ↔ FramesOf 0x02 data fs :=
  parseFrames_iff hl fs

/-- C80: padding, a CRYPTO and a CONNECTION_CLOSE frame. -/
example : parseFrames [0x00, 0x06, 0x40, 0x05, 0x02, 0xaa, 0xbb, 0x1c, 0x01, 0x06, 0x01, 0x78, 0x00] =
    .ok [.crypto 5 [0xaa, 0xbb], .connectionClose 1 6 [0x78]] := by decide

/-! ## C81: the data of CRYPTO frames -/

/-- C81: the data taken from the frames of a packet that carry all of a stream is the stream. -/
def C81_statement : Prop :=
  ∀ (S : Bytes) (fs : List Frame), (∀ f ∈ cryptoFrames fs, FrameOf S f) → (∀ i, i < S.length → ∃ f ∈ cryptoFrames fs, Covers f i) →
    cryptoReceived fs = S

/-- C81 is false: the offsets of the frames are not looked at. -/
theorem C81_false : ¬ C81_statement := by
  intro h
  have := h [1, 2] [.crypto 1 [2], .crypto 0 [1]] (by
    intro f hf
    simp only [cryptoFrames, List.filterMap_cons, List.filterMap_nil, List.mem_cons, List.not_mem_nil, or_false] at hf
    rcases hf with rfl | rfl <;> exact ⟨by decide, by decide⟩) (by
    intro i hi
    simp only [cryptoFrames, List.filterMap_cons, List.filterMap_nil, Covers]
    match i, hi with
    | 0, _ => exact ⟨⟨0, [1]⟩, by simp, by decide, by decide⟩
    | 1, _ => exact ⟨⟨1, [2]⟩, by simp, by decide, by decide⟩)
  revert this
  decide

/-- The data collected is that of the CRYPTO frames one after the other. -/
theorem cryptoReceived_eq (fs : List Frame) : cryptoReceived fs = (cryptoFrames fs).flatMap (·.data) := by
  induction fs with
  | nil => rfl
  | cons f fs ih => cases f <;> simp [cryptoReceived, cryptoFrames] <;> simpa [cryptoFrames] using ih

/-- C81, for frames that follow one another from the start of the stream. Missing: other orders, gaps and repetitions. -/
theorem C81_in_order_partial (S : Bytes) (fs : List Frame) (hf : ∀ f ∈ cryptoFrames fs, FrameOf S f) (ho : InOrder 0 (cryptoFrames fs)) :
    cryptoReceived fs <+: S ∧ ((∀ i, i < S.length → ∃ f ∈ cryptoFrames fs, Covers f i) → cryptoReceived fs = S) := by
  rw [cryptoReceived_eq]
  generalize cryptoFrames fs = gs at *
  have key : ∀ (n : Nat), InOrder n gs → n ≤ S.length →
      S.take n ++ gs.flatMap (·.data) = S.take (n + (gs.flatMap (·.data)).length) ∧ n + (gs.flatMap (·.data)).length ≤ S.length ∧
        ∀ f ∈ gs, f.startOffset + f.data.length ≤ n + (gs.flatMap (·.data)).length := by
    clear ho
    induction gs with
    | nil => intro n _ hn; simp [hn]
    | cons g gs ih =>
      intro n ⟨hg, ho⟩ hn
      obtain ⟨h1, h2⟩ := hf g (by simp)
      obtain ⟨i1, i2, i3⟩ := ih (fun f hf' => hf f (by simp [hf'])) (n + g.data.length) ho (by omega)
      simp only [List.flatMap_cons, List.length_append]
      refine ⟨?_, by omega, ?_⟩
      · rw [← List.append_assoc]
        have : S.take n ++ g.data = S.take (n + g.data.length) := by
          rw [List.take_add]; congr 1; rw [← hg]; exact h2
        rw [this, i1]; congr 1; omega
      · intro f hf'
        rcases List.mem_cons.mp hf' with rfl | hf'
        · omega
        · have := i3 f hf'; omega
  obtain ⟨k1, k2, k3⟩ := key 0 ho (by omega)
  simp only [List.take_zero, List.nil_append, Nat.zero_add] at k1 k2 k3
  refine ⟨by rw [k1]; exact List.take_prefix _ _, fun hc => ?_⟩
  have : S.length ≤ (gs.flatMap (·.data)).length := by
    by_contra hlt
    obtain ⟨f, hf', c1, c2⟩ := hc (gs.flatMap (·.data)).length (by omega)
    have := k3 f hf'
    omega
  rw [k1, List.take_of_length_le this]

example : InOrder 0 (cryptoFrames [.crypto 0 [1, 2], .ping, .crypto 2 [3]]) := by
  simp [cryptoFrames, InOrder]

end Ngfs.Quic
