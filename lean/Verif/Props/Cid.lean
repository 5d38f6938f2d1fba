import Verif.Lemmas.Cid

/-! Properties C15–C17: content identifiers and multiaddresses. -/
namespace Ngfs.Cid
open Varint Protobuf Spec

/-- **C15**: a content identifier serialised to bytes and parsed again is the same identifier.
(`c.toBytes.length < 2 ^ 64`: the serialised form fits in memory.) -/
theorem C15_bytes_round_trip (c : CID) (h : ValidCid c) (hl : c.toBytes.length < 2 ^ 64) :
    fromBytes c.toBytes = .ok c := by
  obtain ⟨version, codec, hashType, hash⟩ := c
  cases version with
  | v0 =>
    simp only [ValidCid] at h
    obtain ⟨rfl, rfl, hh⟩ := h
    have hb : CID.toBytes ⟨.v0, .dagPB, .sha2256, hash⟩ = [0x12, 0x20] ++ hash := by simp [CID.toBytes, hh]
    rw [hb, fromBytes, if_pos ((isCidV0_iff _).mpr ⟨hash, hh, rfl⟩)]
    rfl
  | v1 =>
    simp only [ValidCid] at h
    have hb : CID.toBytes ⟨.v1, codec, hashType, hash⟩ = CID.toBytesV1 ⟨.v1, codec, hashType, hash⟩ := by simp [CID.toBytes]
    rw [hb] at hl ⊢
    rw [fromBytes, isCidV0_v1, if_neg (by simp), fromBytesV1_toBytesV1 _ h.1 h.2 hl]

/-- **C15**, distinct identifiers have distinct bytes. -/
theorem C15_bytes_injective (c d : CID) (hc : ValidCid c) (hd : ValidCid d) (hl : c.toBytes.length < 2 ^ 64)
    (h : c.toBytes = d.toBytes) : c = d := by
  have h1 := C15_bytes_round_trip c hc hl
  have h2 := C15_bytes_round_trip d hd (h ▸ hl)
  rw [h, h2] at h1
  exact (Except.ok.inj h1).symm

/-- **C15**, on every byte string the parser either refuses or returns a valid identifier, which then survives
serialisation. -/
theorem C15_parsed_is_valid (bytes : Bytes) (c : CID) (hb : bytes.length < 2 ^ 63) (h : fromBytes bytes = .ok c) :
    ValidCid c ∧ fromBytes c.toBytes = .ok c := by
  have hv : ValidCid c ∧ c.hash.length ≤ bytes.length := by
    simp only [fromBytes] at h
    split at h
    · rename_i h0
      obtain ⟨hash, hh, rfl⟩ := (isCidV0_iff _).mp h0
      cases h
      exact ⟨⟨rfl, rfl, by simpa using hh⟩, by simp; omega⟩
    · have := fromBytesV1_valid h
      refine ⟨?_, by omega⟩
      simp only [ValidCid, this.1]
      exact ⟨this.2.1, this.2.2.1⟩
  refine ⟨hv.1, C15_bytes_round_trip c hv.1 ?_⟩
  have hlen : c.toBytes.length ≤ c.hash.length + 31 := by
    have hl : ∀ n, n < 2 ^ 64 → (encodeU64 n).length ≤ 10 := fun n hn =>
      encode_length_le (Nat.lt_trans hn (by decide)) (by decide)
    by_cases h0 : c.version = .v0 ∧ c.codec = .dagPB ∧ c.hashType = .sha2256 ∧ c.hash.length = 32
    · simp [CID.toBytes, h0]
    · have hk : c.codec.toU64 < 2 ^ 64 ∧ c.hashType.toU64 < 2 ^ 64 := by
        have := hv.1
        unfold ValidCid at this
        split at this
        · rename_i hver; exact absurd ⟨hver, this⟩ h0
        · exact ⟨(codec_from_to this.1).2, (hash_from_to this.2).2⟩
      have h1 := hl _ hk.1
      have h2 := hl _ hk.2
      have h3 := hl c.hash.length (by omega)
      simp only [CID.toBytes, if_neg h0, CID.toBytesV1, List.length_append, List.length_cons, List.length_nil]
      omega
  omega

/-- **C15**, the format: version 1 is the byte 1, the varints of the codec, hash type and digest length, and the
digest; version 0 is the bytes 0x12 0x20 and the digest. -/
theorem C15_bytes_format (c : CID) (h : ValidCid c) (hl : c.hash.length < 2 ^ 64) :
    (c.version = .v0 → c.toBytes = [0x12, 0x20] ++ c.hash) ∧
    (c.version = .v1 → ∃ codec hash len, c.toBytes = [1] ++ codec ++ hash ++ len ++ c.hash ∧
      Denotes codec c.codec.toU64 ∧ Denotes hash c.hashType.toU64 ∧ Denotes len c.hash.length) := by
  constructor
  · intro hv
    simp only [ValidCid, hv] at h
    simp [CID.toBytes, hv, h]
  · intro hv
    simp only [ValidCid, hv] at h
    refine ⟨encodeU64 c.codec.toU64, encodeU64 c.hashType.toU64, encodeU64 c.hash.length, ?_,
      denotes_encode (codec_from_to h.1).2, denotes_encode (hash_from_to h.2).2, denotes_encode hl⟩
    simp [CID.toBytes, hv, CID.toBytesV1]

example : ValidCid ⟨.v1, .unknown 0x300000, .blake2b256, [1, 2, 3]⟩ := by simp [ValidCid, ValidCodec, ValidHashType]
example : ValidCid ⟨.v0, .dagPB, .sha2256, List.replicate 32 7⟩ := by simp [ValidCid]

/-- **C15**, the parser accepts exactly the format: 0x12 0x20 and 32 bytes, or the byte 1, three varints and a digest
of the announced length with nothing after it. -/
theorem C15_accepts_exactly (bytes : Bytes) (c : CID) (hb : bytes.length < 2 ^ 64) :
    fromBytes bytes = .ok c ↔ ValidCid c ∧
      ((c.version = .v0 ∧ bytes = [0x12, 0x20] ++ c.hash) ∨
       (c.version = .v1 ∧ ∃ codec hash len, bytes = [1] ++ codec ++ hash ++ len ++ c.hash ∧
         Denotes codec c.codec.toU64 ∧ Denotes hash c.hashType.toU64 ∧ Denotes len c.hash.length)) := by
  obtain ⟨version, codec, hashType, hash⟩ := c
  simp only [fromBytes]
  split
  · rename_i h0
    obtain ⟨hash0, hh, rfl⟩ := (isCidV0_iff _).mp h0
    constructor
    · intro h
      cases h
      exact ⟨⟨rfl, rfl, by simpa using hh⟩, .inl ⟨rfl, rfl⟩⟩
    · rintro ⟨hv, h | ⟨-, _, _, _, h, -⟩⟩
      · obtain ⟨rfl, h⟩ := h
        simp only [ValidCid] at hv
        obtain ⟨rfl, rfl, _⟩ := hv
        simp only [List.cons_append, List.nil_append, List.cons.injEq, true_and] at h
        subst h; rfl
      · simp at h
  · rename_i h0
    rw [fromBytesV1_iff bytes _ hb]
    simp only
    constructor
    · rintro ⟨rfl, hc, hh, h⟩
      exact ⟨⟨hc, hh⟩, .inr ⟨rfl, h⟩⟩
    · rintro ⟨hv, h | ⟨rfl, h⟩⟩
      · obtain ⟨rfl, h⟩ := h
        exact absurd ((isCidV0_iff _).mpr ⟨hash, hv.2.2, h⟩) h0
      · exact ⟨rfl, hv.1, hv.2, h⟩

example : fromBytes [1, 0x55, 0x12, 2, 7, 8] = .ok ⟨.v1, .raw, .sha2256, [7, 8]⟩ := by decide +kernel
example : fromBytes [1, 0x55, 0x12, 2, 7, 8, 9] = .error .hashSizeMismatch := by decide +kernel

/-- **C16**: a content identifier printed as text and parsed again is the same identifier. -/
theorem C16_text_round_trip (c : CID) (h : ValidCid c) (hl : c.toBytes.length < 2 ^ 64) :
    fromText c.toText = .ok c := by
  have hrt := C15_bytes_round_trip c h hl
  simp only [CID.toText]
  by_cases h0 : isCidV0 c.toBytes = true
  · rw [if_pos h0]
    obtain ⟨hash, hh, hb⟩ := (isCidV0_iff _).mp h0
    obtain ⟨rest, ht1, ht2⟩ := v0_text hash hh
    have e : Multibase.encodeNoprefix c.toBytes .base58BTC = 'Q' :: 'm' :: rest := by
      rw [hb]; exact ht1
    rw [fromText, if_pos]
    · have := Multibase.rt58 Multibase.table58B (by decide) c.toBytes
      simp only [Multibase.encodeNoprefix, Multibase.decodeNoprefix, this, liftDecode, bind, Except.bind]
      exact hrt
    · rw [e]; exact ⟨ht2, by simp⟩
  · rw [if_neg h0, fromText, if_neg]
    · have hd : Multibase.decode (Multibase.encode c.toBytes .base32) = .ok c.toBytes := by
        have hr := Multibase.rt32 Multibase.table32L false c.toBytes 0 []
        simp only [Multibase.decode, Multibase.encode, Multibase.encodeNoprefix, Multibase.Base.code, Multibase.Base.forCode]
        cases he : Multibase.encodeBase32 Multibase.BASE32_LOWER false c.toBytes with
        | nil => rw [he] at hr; exact hr
        | cons x xs => rw [he] at hr; exact hr
      rw [hd]
      simp only [liftDecode, bind, Except.bind]
      rw [fromBytes, if_neg h0] at hrt
      exact hrt
    · rintro ⟨_, hp⟩
      simp [Multibase.encode, Multibase.Base.code] at hp

/-- **C16**, text of the two versions cannot be confused: version 0 is 46 characters starting with `Qm`, version 1
starts with `b`. -/
theorem C16_text_form (c : CID) (h : ValidCid c) :
    (c.version = .v0 → ∃ rest, c.toText = 'Q' :: 'm' :: rest ∧ rest.length = 44) ∧
    (c.version = .v1 → ∃ rest, c.toText = 'b' :: rest) := by
  constructor
  · intro hv
    simp only [ValidCid, hv] at h
    have hb : c.toBytes = [0x12, 0x20] ++ c.hash := by simp [CID.toBytes, hv, h]
    have h0 : isCidV0 c.toBytes = true := (isCidV0_iff _).mpr ⟨c.hash, h.2.2, hb⟩
    obtain ⟨rest, ht1, ht2⟩ := v0_text c.hash h.2.2
    have e : c.toText = 'Q' :: 'm' :: rest := by
      simp only [CID.toText, if_pos h0]; rw [hb]; exact ht1
    refine ⟨rest, e, ?_⟩
    obtain ⟨ds, e1, _, e3, _⟩ := Multibase.encodeBase58Loop_spec ([0x12, 0x20] ++ c.hash) []
    -- all characters are ASCII, so characters and bytes agree
    have hasc : ∀ l : List Char, (∀ x ∈ l, x.toNat < 128) → (Multibase.asBytes l).length = l.length := by
      intro l hl
      induction l with
      | nil => rfl
      | cons x l ih =>
        rcases Multibase.utf8_first x with ⟨_, hx⟩ | ⟨hx, _⟩
        · have := ih (fun y hy => hl y (by simp [hy]))
          simp only [Multibase.asBytes, List.flatMap_cons, hx, List.length_append, List.length_cons, List.length_nil] at this ⊢
          omega
        · have := hl x (by simp); omega
    have hmem : ∀ x ∈ ('Q' :: 'm' :: rest), x.toNat < 128 := by
      rw [← ht1]
      intro x hx
      simp only [Multibase.encodeBase58, e1, List.nil_append] at hx
      have hasc58 := Multibase.alphabets_ascii Multibase.BASE58_BTC (by simp)
      have hpick : ∀ d : UInt8, d.toNat < 58 → Multibase.pick Multibase.BASE58_BTC d ∈ Multibase.BASE58_BTC := by
        intro d hd
        have hl : d.toNat < Multibase.BASE58_BTC.length := by rw [Multibase.table58B.1]; exact hd
        simp only [Multibase.pick, List.getD_eq_getElem?_getD, List.getElem?_eq_getElem hl, Option.getD_some]
        exact List.getElem_mem hl
      rcases List.mem_append.mp hx with h1 | h1
      · rw [List.eq_of_mem_replicate h1]; exact hasc58 _ (hpick _ (by decide))
      · obtain ⟨d, hd, rfl⟩ := List.mem_map.mp h1
        exact hasc58 _ (hpick _ (e3 d (List.mem_reverse.mp hd)))
    have := hasc _ hmem
    rw [ht2] at this
    simp at this; omega
  · intro hv
    have hb : c.toBytes = c.toBytesV1 := by simp [CID.toBytes, hv]
    refine ⟨Multibase.encodeNoprefix c.toBytes .base32, ?_⟩
    simp [CID.toText, hb, isCidV0_v1, Multibase.encode, Multibase.Base.code]

end Ngfs.Cid

namespace Ngfs.Multiaddr
open Varint Protobuf Spec

private theorem decodeVarint_encode (n : Nat) (hn : n < 2 ^ 64) (post : Bytes) :
    decodeVarint (encodeU64 n ++ post) = some (n, (encodeU64 n).length) := by
  have := Cid.readFrom_at [] (encodeU64 n) post (isVarint_encode n)
  simp only [List.nil_append, List.length_nil, Nat.zero_add] at this
  simp only [decodeVarint, this, VarInt.toU64, decode_encode hn]

private theorem beU16_at (pre post : Bytes) (port : Nat) (h : port < 2 ^ 16) :
    beU16 (pre ++ (beBytes16 port ++ post)) pre.length = port := by
  simp only [beU16, beBytes16, List.getD_eq_getElem?_getD]
  have h1 : (pre ++ ([UInt8.ofNat (port >>> 8), UInt8.ofNat port] ++ post))[pre.length]? = some (UInt8.ofNat (port >>> 8)) := by
    simp
  have h2 : (pre ++ ([UInt8.ofNat (port >>> 8), UInt8.ofNat port] ++ post))[pre.length + 1]? = some (UInt8.ofNat port) := by
    rw [List.getElem?_append_right (by omega)]; simp
  rw [h1, h2]
  simp only [Option.getD_some, UInt8.toNat_ofNat', Nat.shiftRight_eq_div_pow]
  omega

private theorem read_encode (a : Addr) (ha : KnownAddr a) (post : Bytes) :
    Addr.read (a.encode ++ post) = (a, a.encode.length) := by
  have sl : ∀ (p oct : Bytes) (k : Nat), oct.length = k → slice (p ++ (oct ++ post)) p.length (p.length + k) = oct := by
    intro p oct k hk
    have := slice_mid p oct post
    rw [List.append_assoc, hk] at this
    exact this
  cases a with
  | ip4 oct =>
    have ha : oct.length = 4 := ha
    simp only [Addr.encode, List.append_assoc, Addr.read, decodeVarint_encode 4 (by decide)]
    rw [if_pos trivial, if_pos (by simp [ha]), sl _ _ _ ha]; simp [ha]
  | ip6 oct =>
    have ha : oct.length = 16 := ha
    simp only [Addr.encode, List.append_assoc, Addr.read, decodeVarint_encode 0x29 (by decide)]
    rw [if_neg (by decide), if_pos trivial, if_pos (by simp [ha]), sl _ _ _ ha]; simp [ha]
  | tcp port =>
    simp only [Addr.encode, List.append_assoc, Addr.read, decodeVarint_encode 6 (by decide)]
    rw [if_neg (by decide), if_neg (by decide), if_pos trivial, if_pos (by simp [beBytes16]), beU16_at _ _ _ ha]
    simp [beBytes16]
  | udp port =>
    simp only [Addr.encode, List.append_assoc, Addr.read, decodeVarint_encode 0x111 (by decide)]
    rw [if_neg (by decide), if_neg (by decide), if_neg (by decide), if_pos trivial, if_pos (by simp [beBytes16]),
      beU16_at _ _ _ ha]
    simp [beBytes16]
  | quic =>
    simp only [Addr.encode, Addr.read, decodeVarint_encode 0x1cc (by decide)]
    rw [if_neg (by decide), if_neg (by decide), if_neg (by decide), if_neg (by decide), if_pos trivial]
  | unknown p d => exact ha.elim
  | invalid d => exact ha.elim

private theorem encode_ne_nil' (a : Addr) (ha : KnownAddr a) : a.encode ≠ [] := by
  cases a <;> simp only [Addr.encode] <;> first | exact ha.elim | skip
  all_goals
    intro h
    have := congrArg List.length h
    simp [beBytes16] at this
    try exact absurd this.1 (encode_ne_nil _)
    try exact absurd this (encode_ne_nil _)

/-- **C17**: a sequence of known addresses serialised to bytes and parsed again is the same sequence. -/
theorem C17_multiaddr_round_trip (addrs : List Addr) (h : ∀ a ∈ addrs, KnownAddr a) :
    fromBytes (toBytes addrs) = addrs := by
  induction addrs with
  | nil => simp [toBytes, fromBytes]
  | cons a addrs ih =>
    have ha := h a (by simp)
    have hne : toBytes (a :: addrs) ≠ [] := by
      have := encode_ne_nil' a ha
      simp [toBytes, this]
    have e : toBytes (a :: addrs) = a.encode ++ toBytes addrs := by simp [toBytes]
    rw [fromBytes, dif_neg hne]
    simp only
    rw [e, read_encode a ha]
    simp only [List.drop_left]
    rw [ih (fun b hb => h b (by simp [hb]))]

private theorem read_kind (bytes : Bytes) : KnownAddr (Addr.read bytes).1 ∨ (Addr.read bytes = (.invalid bytes, bytes.length)) := by
  simp only [Addr.read]
  split
  · exact .inr rfl
  · rename_i p o hd
    have hb := decodeVarint_bounds hd
    have hlt : beU16 bytes o < 2 ^ 16 := by
      have h1 := u8_lt (bytes.getD o 0)
      have h2 := u8_lt (bytes.getD (o + 1) 0)
      simp only [beU16]; omega
    repeat' split
    · left; show (slice _ _ _).length = _; rw [slice_length (by omega)]; omega
    · exact .inr rfl
    · left; show (slice _ _ _).length = _; rw [slice_length (by omega)]; omega
    · exact .inr rfl
    · exact .inl hlt
    · exact .inr rfl
    · exact .inl hlt
    · exact .inr rfl
    · exact .inl trivial
    · exact .inr rfl

/-- **C17**, every byte string parses to a sequence of known, in-range addresses, possibly followed by one unrecognised
part that holds all the remaining bytes. -/
theorem C17_multiaddr_total (bytes : Bytes) :
    ∃ known rest, fromBytes bytes = known ++ rest ∧ (∀ a ∈ known, KnownAddr a) ∧
      (rest = [] ∨ ∃ tail, tail ≠ [] ∧ rest = [.invalid tail] ∧ tail <:+ bytes) := by
  induction n : bytes.length using Nat.strongRecOn generalizing bytes with
  | _ n ih =>
    by_cases hb : bytes = []
    · exact ⟨[], [], by simp [fromBytes, hb], by simp, .inl rfl⟩
    · have hbd := read_bounds bytes hb
      rw [fromBytes, dif_neg hb]
      simp only
      rcases read_kind bytes with hk | hk
      · obtain ⟨known, rest, h1, h2, h3⟩ := ih (bytes.drop (Addr.read bytes).2).length
          (by simp only [List.length_drop]; omega) _ rfl
        refine ⟨(Addr.read bytes).1 :: known, rest, by rw [h1]; rfl, ?_, ?_⟩
        · intro a ha
          rcases List.mem_cons.mp ha with rfl | ha
          · exact hk
          · exact h2 a ha
        · rcases h3 with h3 | ⟨tail, h4, h5, h6⟩
          · exact .inl h3
          · exact .inr ⟨tail, h4, h5, h6.trans (List.drop_suffix _ _)⟩
      · refine ⟨[], [.invalid bytes], ?_, by simp, .inr ⟨bytes, hb, rfl, List.suffix_refl _⟩⟩
        rw [hk]; simp [fromBytes]

/-- **C17**, re-serialising: if the parse of any bytes had no unrecognised part, then serialising it gives bytes that
parse to the same sequence. -/
theorem C17_multiaddr_stable (bytes : Bytes) (h : ∀ tail, Addr.invalid tail ∉ fromBytes bytes) :
    fromBytes (toBytes (fromBytes bytes)) = fromBytes bytes := by
  apply C17_multiaddr_round_trip
  obtain ⟨known, rest, h1, h2, h3⟩ := C17_multiaddr_total bytes
  rcases h3 with h3 | ⟨tail, _, h5, _⟩
  · rw [h1, h3]; simpa using h2
  · exact absurd (by rw [h1, h5]; simp) (h tail)

/-- **C17**, the format: each known address is the varint of its protocol code followed by its contents in network
byte order. -/
theorem C17_multiaddr_format (port : Nat) (oct : Bytes) :
    (∃ c, Denotes c 4 ∧ Addr.encode (.ip4 oct) = c ++ oct) ∧ (∃ c, Denotes c 41 ∧ Addr.encode (.ip6 oct) = c ++ oct) ∧
    (∃ c, Denotes c 6 ∧ Addr.encode (.tcp port) = c ++ [UInt8.ofNat (port / 256), UInt8.ofNat (port % 256)]) ∧
    (∃ c, Denotes c 273 ∧ Addr.encode (.udp port) = c ++ [UInt8.ofNat (port / 256), UInt8.ofNat (port % 256)]) ∧
    (∃ c, Denotes c 460 ∧ Addr.encode .quic = c) := by
  have hm : UInt8.ofNat port = UInt8.ofNat (port % 256) := by
    apply u8_ext; simp
  refine ⟨⟨_, denotes_encode (by decide), rfl⟩, ⟨_, denotes_encode (by decide), rfl⟩, ⟨_, denotes_encode (by decide), ?_⟩,
    ⟨_, denotes_encode (by decide), ?_⟩, ⟨_, denotes_encode (by decide), rfl⟩⟩
  · simp only [Addr.encode, beBytes16, Nat.shiftRight_eq_div_pow, ← hm]
  · simp only [Addr.encode, beBytes16, Nat.shiftRight_eq_div_pow, ← hm]

example : ∀ a ∈ [Addr.ip4 [127, 0, 0, 1], .udp 4001, .quic], KnownAddr a := by simp [KnownAddr]
example : toBytes [.ip4 [127, 0, 0, 1], .tcp 4001] = [4, 127, 0, 0, 1, 6, 0x0f, 0xa1] := by decide +kernel

end Ngfs.Multiaddr
