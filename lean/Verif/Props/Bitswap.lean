import Verif.Lemmas.Messages
import Verif.Props.Cid
import Verif.Model.Bitswap

/-! Property theorems for bitswap messages and block identifiers. -/
namespace Ngfs.Bitswap
open Protobuf Varint Spec Cid

/-- An entry that is a value of the Rust type: the priority is a 32-bit signed number. -/
def ValidEntry (e : Entry) : Prop := -2 ^ 31 ≤ e.priority ∧ e.priority < 2 ^ 31

private def entryFields (e : Entry) : List (Nat × FieldData) :=
  [(1, .bytes e.block), (2, .varInt (encodeU64 (asU64 e.priority)))]
    ++ (if e.cancel then [(3, .varInt (encodeU64 (if true then 1 else 0)))] else [])
    ++ [(4, .varInt (encodeU64 (match e.wantType with | .block => 0 | .have => 1)))]
    ++ (if e.sendDontHave then [(5, .varInt (encodeU64 (if true then 1 else 0)))] else [])

private theorem entry_toPb (e : Entry) : e.toPb = .ok (encFields (entryFields e)) := by
  obtain ⟨b, p, c, w, d⟩ := e
  have h0 : asU64 0 = 0 := rfl
  have h1 : asU64 1 = 1 := rfl
  cases c <;> cases w <;> cases d <;>
    simp [Entry.toPb, entryFields, writeBytes_ok, writeInt32, writeBool, writeUint64_ok, bind, Except.bind, h0, h1]

private theorem entry_shape (e : Entry) : ∀ f ∈ entryFields e, WFShape f := by
  obtain ⟨b, p, c, w, d⟩ := e
  cases c <;> cases d <;> simp [entryFields]

private theorem entry_round_trip (e : Entry) (h : ValidEntry e) (hlen : (encFields (entryFields e)).length < 2 ^ 64) :
    Entry.fromPb (encFields (entryFields e)) = .ok e := by
  rw [Entry.fromPb, parse_encFields _ _ _ (entry_shape e) hlen (fun _ _ _ => rfl)]
  obtain ⟨b, p, c, w, d⟩ := e
  have hp := toInt32_enc h.1 h.2
  simp only at hp
  have hb := toBool_enc true
  have h0 := toUint64_enc (v := 0) (by decide)
  have h1 := toUint64_enc (v := 1) (by decide)
  simp only [if_true] at hb
  cases c <;> cases w <;> cases d <;>
    simp [entryFields, entryStep, mkRef, toBytes_enc, hp, hb, h0, h1, ok?_ok, bind, Except.bind, pure, Except.pure, okOr]

/-- **C10**, entries. -/
theorem C10_entry_round_trip (e : Entry) (h : ValidEntry e) :
    ∃ out, e.toPb = .ok out ∧ (out.length < 2 ^ 64 → Entry.fromPb out = .ok e) :=
  ⟨_, entry_toPb e, entry_round_trip e h⟩

/-- **C10**, entries: fields that a sender leaves out have the defaults of the protocol: priority 1, no cancel, the block is
wanted, no notice if it is missing. -/
theorem C10_entry_defaults (block : Bytes) (h : block.length + 20 < 2 ^ 64) :
    ∃ out, writeBytes [] 1 block = .ok out ∧ Entry.fromPb out = .ok ⟨block, 1, false, .block, false⟩ := by
  refine ⟨_, writeBytes_ok [] 1 block, ?_⟩
  have he : ([] : Bytes) ++ encField (1, .bytes block) = encFields [(1, .bytes block)] := by simp [encFields]
  have hl : (encFields [(1, FieldData.bytes block)]).length < 2 ^ 64 := by
    have h1 := encode_length_le (v := 8 * 1 + 2) (k := 10) (by decide) (by decide)
    have h2 := encode_length_le (v := block.length) (k := 10) (by omega) (by decide)
    simp only [encFields, List.flatMap_cons, List.flatMap_nil, List.append_nil, encField, payloadOf, wireTypeOf, List.length_append]
    omega
  rw [he, Entry.fromPb, parse_encFields _ _ _ (by simp) hl (fun _ _ _ => rfl)]
  simp [entryStep, mkRef, toBytes_enc, ok?_ok, bind, Except.bind, pure, Except.pure, okOr]

private def wantListFields (l : WantList) : List (Nat × FieldData) :=
  l.entries.map (fun e => (1, .bytes (encFields (entryFields e))))
    ++ (if l.full then [(2, .varInt (encodeU64 (if true then 1 else 0)))] else [])

private theorem writeEntries_ok (w : Bytes) (es : List Entry) :
    writeEntries w es = .ok (w ++ encFields (es.map fun e => (1, .bytes (encFields (entryFields e))))) := by
  induction es generalizing w with
  | nil => simp [writeEntries]
  | cons e es ih => simp [writeEntries, entry_toPb, writeBytes_ok, ih, bind, Except.bind]

private theorem wantList_toPb (l : WantList) : l.toPb = .ok (encFields (wantListFields l)) := by
  obtain ⟨es, f⟩ := l
  cases f <;> simp [WantList.toPb, wantListFields, writeEntries_ok, writeBool, writeUint64_ok, bind, Except.bind]

private theorem wantList_shape (l : WantList) : ∀ f ∈ wantListFields l, WFShape f := by
  obtain ⟨es, fl⟩ := l
  intro f hf
  simp only [wantListFields, List.mem_append, List.mem_map] at hf
  rcases hf with ⟨e, _, rfl⟩ | hf
  · simp
  · cases fl <;> simp at hf; subst hf; simp

private theorem foldl_entries (es : List Entry) (s : WantList) :
    es.foldl (fun s e => { s with entries := s.entries ++ [e] }) s = { s with entries := s.entries ++ es } := by
  induction es generalizing s with
  | nil => simp
  | cons e es ih => rw [List.foldl_cons, ih]; simp

private theorem wantList_round_trip (l : WantList) (h : ∀ e ∈ l.entries, ValidEntry e)
    (hlen : (encFields (wantListFields l)).length < 2 ^ 64) :
    WantList.fromPb (encFields (wantListFields l)) = .ok l := by
  rw [WantList.fromPb, parse_encFields _ _ _ (wantList_shape l) hlen (fun _ _ _ => rfl)]
  have hb := toBool_enc true
  simp only [if_true] at hb
  conv_lhs => rw [wantListFields]
  rw [List.foldlM_append, foldlM_map_push _ _ (fun s e => { s with entries := s.entries ++ [e] })]
  · rw [foldl_entries]
    obtain ⟨es, f⟩ := l
    cases f <;> simp [bind, Except.bind, pure, Except.pure, wantListStep, mkRef, hb, ok?_ok]
  · intro s e he
    have := entry_round_trip e (h e he) (nested_length (l := wantListFields l) (n := 1)
      (by simp only [wantListFields, List.mem_append, List.mem_map]; exact .inl ⟨e, he, rfl⟩) hlen)
    simp [wantListStep, mkRef, toBytes_enc, ok?_ok, bind, Except.bind, this]

/-- **C10**, want-lists. -/
theorem C10_wantlist_round_trip (l : WantList) (h : ∀ e ∈ l.entries, ValidEntry e) :
    ∃ out, l.toPb = .ok out ∧ (out.length < 2 ^ 64 → WantList.fromPb out = .ok l) :=
  ⟨_, wantList_toPb l, wantList_round_trip l h⟩

private def blockFields (b : Block) : List (Nat × FieldData) := [(1, .bytes b.pfx), (2, .bytes b.data)]

private theorem block_toPb (b : Block) : b.toPb = .ok (encFields (blockFields b)) := by
  simp [Block.toPb, blockFields, writeBytes_ok, bind, Except.bind]

private theorem block_round_trip (b : Block) (hlen : (encFields (blockFields b)).length < 2 ^ 64) :
    Block.fromPb (encFields (blockFields b)) = .ok b := by
  rw [Block.fromPb, parse_encFields _ _ _ (by simp [blockFields]) hlen (fun _ _ _ => rfl)]
  simp [blockFields, blockStep, mkRef, toBytes_enc, ok?_ok, bind, Except.bind, pure, Except.pure, okOr]

/-- **C10**, blocks. -/
theorem C10_block_round_trip (b : Block) :
    ∃ out, b.toPb = .ok out ∧ (out.length < 2 ^ 64 → Block.fromPb out = .ok b) :=
  ⟨_, block_toPb b, block_round_trip b⟩

private def messageFields (m : Message) : List (Nat × FieldData) :=
  (match m.wantlist with | some w => [(1, .bytes (encFields (wantListFields w)))] | none => [])
    ++ m.blocks.map (fun b => (3, .bytes (encFields (blockFields b))))

private theorem writeBlocks_ok (w : Bytes) (bs : List Block) :
    writeBlocks w bs = .ok (w ++ encFields (bs.map fun b => (3, .bytes (encFields (blockFields b))))) := by
  induction bs generalizing w with
  | nil => simp [writeBlocks]
  | cons e es ih => simp [writeBlocks, block_toPb, writeBytes_ok, ih, bind, Except.bind]

private theorem message_toPb (m : Message) : m.toPb = .ok (encFields (messageFields m)) := by
  obtain ⟨w, bs, x, y, z⟩ := m
  cases w <;> simp [Message.toPb, messageFields, writeBlocks_ok, wantList_toPb, writeBytes_ok, bind, Except.bind]

theorem message_serialises (m : Message) : ∃ out, m.toPb = .ok out := ⟨_, message_toPb m⟩

theorem want_length (block : Bytes) (h : block.length < 2 ^ 63) (out : Bytes)
    (ho : (Message.mk (some ⟨[⟨block, 1, false, .block, true⟩], false⟩) [] [] [] none).toPb = .ok out) :
    out.length < 2 ^ 64 := by
  rw [message_toPb] at ho
  cases ho
  have t : ∀ n, n < 100 → (encodeU64 n).length ≤ 10 := fun n hn =>
    encode_length_le (Nat.lt_of_lt_of_le hn (by decide)) (by decide)
  have k1 : (encodeU64 (asU64 1)).length ≤ 10 := t 1 (by decide)
  have k2 := t 0 (by decide)
  have k3 := t 1 (by decide)
  have hb : (encodeU64 block.length).length ≤ 10 := encode_length_le (Nat.lt_trans h (by decide)) (by decide)
  have he : (encFields (entryFields ⟨block, 1, false, .block, true⟩)).length ≤ block.length + 100 := by
    simp [entryFields, encField, payloadOf, wireTypeOf]
    have t1 := t 10 (by decide); have t2 := t 16 (by decide); have t3 := t 32 (by decide); have t4 := t 40 (by decide)
    omega
  generalize hx : encFields (entryFields ⟨block, 1, false, .block, true⟩) = x at he
  have hl1 : (encodeU64 x.length).length ≤ 10 :=
    encode_length_le (Nat.lt_of_le_of_lt (show x.length ≤ 2 ^ 63 + 100 by omega) (by decide)) (by decide)
  have t1 := t 10 (by decide)
  have hw : (encFields (wantListFields ⟨[⟨block, 1, false, .block, true⟩], false⟩)).length ≤ block.length + 120 := by
    simp [wantListFields, hx, encField, payloadOf, wireTypeOf]
    omega
  have hm : encFields (messageFields ⟨some ⟨[⟨block, 1, false, .block, true⟩], false⟩, [], [], [], none⟩) =
      encField (1, .bytes (encFields (wantListFields ⟨[⟨block, 1, false, .block, true⟩], false⟩))) := by
    simp [messageFields]
  rw [hm]
  generalize encFields (wantListFields ⟨[⟨block, 1, false, .block, true⟩], false⟩) = y at hw
  have hl2 : (encodeU64 y.length).length ≤ 10 :=
    encode_length_le (Nat.lt_of_le_of_lt (show y.length ≤ 2 ^ 63 + 120 by omega) (by decide)) (by decide)
  have t5 : (encodeU64 (8 * 1 + 2)).length ≤ 10 := t1
  simp only [encField, payloadOf, wireTypeOf, List.length_append]
  omega

private theorem foldl_blocks (bs : List Block) (s : Message) :
    bs.foldl (fun s b => { s with blocks := s.blocks ++ [b] }) s = { s with blocks := s.blocks ++ bs } := by
  induction bs generalizing s with
  | nil => simp
  | cons e es ih => rw [List.foldl_cons, ih]; simp

/-- **C10**: a message serialises without panicking, and what is written parses to the same message, except that the
three parts the serialiser does not carry (payload, block presences, pending byte count) come back empty. -/
theorem C10_message_round_trip (m : Message) (h : ∀ w, m.wantlist = some w → ∀ e ∈ w.entries, ValidEntry e) :
    ∃ out, m.toPb = .ok out ∧ (out.length < 2 ^ 64 →
      Message.fromPb out = .ok { m with payload := [], blockPresence := [], pendingBytes := none }) := by
  refine ⟨_, message_toPb m, fun hlen => ?_⟩
  have hshape : ∀ f ∈ messageFields m, WFShape f := by
    intro f hf
    simp only [messageFields, List.mem_append, List.mem_map] at hf
    rcases hf with hf | ⟨b, _, rfl⟩
    · cases hw : m.wantlist with
      | none => simp [hw] at hf
      | some w => simp only [hw, List.mem_singleton] at hf; subst hf; simp
    · simp
  rw [Message.fromPb, parse_encFields _ _ _ hshape hlen (fun _ _ _ => rfl)]
  have hblocks : ∀ (s : Message), ∀ b ∈ m.blocks,
      messageStep s (mkRef 0 (3, .bytes (encFields (blockFields b)))) = .ok { s with blocks := s.blocks ++ [b] } := by
    intro s b hb
    have := block_round_trip b (nested_length (l := messageFields m) (n := 3)
      (by simp only [messageFields, List.mem_append, List.mem_map]; exact .inr ⟨b, hb, rfl⟩) hlen)
    simp [messageStep, mkRef, toBytes_enc, ok?_ok, bind, Except.bind, this]
  have hw : ∀ w, m.wantlist = some w → WantList.fromPb (encFields (wantListFields w)) = .ok w := by
    intro w hw
    exact wantList_round_trip w (h w hw) (nested_length (l := messageFields m) (n := 1)
      (by simp [messageFields, hw]) hlen)
  conv_lhs => rw [messageFields]
  rw [List.foldlM_append]
  cases hwl : m.wantlist with
  | none =>
    simp only [List.foldlM_nil, pure, Except.pure, bind, Except.bind]
    rw [foldlM_map_push _ _ (fun s b => { s with blocks := s.blocks ++ [b] }) _ hblocks, foldl_blocks]
    simp [← hwl]
  | some w =>
    have hs : messageStep ⟨none, [], [], [], none⟩ (mkRef 0 (1, .bytes (encFields (wantListFields w)))) =
        .ok ⟨some w, [], [], [], none⟩ := by
      simp [messageStep, mkRef, toBytes_enc, ok?_ok, bind, Except.bind, hw w hwl]
    simp only [List.foldlM_cons, List.foldlM_nil, hs, pure, Except.pure, bind, Except.bind]
    rw [foldlM_map_push _ _ (fun s b => { s with blocks := s.blocks ++ [b] }) _ hblocks, foldl_blocks]
    simp [← hwl]

/-- **C10**: messages as the library builds them (only a want-list and blocks) come back unchanged. -/
theorem C10_populated_round_trip (wantlist : Option WantList) (blocks : List Block)
    (h : ∀ w, wantlist = some w → ∀ e ∈ w.entries, ValidEntry e) :
    ∃ out, (Message.mk wantlist blocks [] [] none).toPb = .ok out ∧ (out.length < 2 ^ 64 →
      Message.fromPb out = .ok (Message.mk wantlist blocks [] [] none)) :=
  C10_message_round_trip (Message.mk wantlist blocks [] [] none) h

private def exEntry : Entry := ⟨[1, 2], -5, true, .have, true⟩
example : ValidEntry exEntry := ⟨by decide, by decide⟩
example : ∃ out, (Message.mk (some ⟨[exEntry], true⟩) [⟨[1], [2, 3]⟩] [] [] none).toPb = .ok out ∧ out.length = 36 :=
  ⟨_, rfl, by decide +kernel⟩

/-! ### C43 -/

/-- The digest a hash type calls for, where the library supports it. -/
def digest (sha256 blake2b256 : Bytes → Bytes) : HashType → Option (Bytes → Bytes)
  | .sha2256 => some sha256
  | .blake2b256 => some blake2b256
  | _ => none

/-- **C43**: the identifier computed for a received block equals a wanted identifier exactly when the block's prefix
names the wanted version, codec and hash, that hash is supported, and the digest of the received bytes under it is
the wanted digest. For any functions in the place of the two hash functions. -/
theorem C43_block_cid_matches_iff (sha256 blake2b256 : Bytes → Bytes) (p : Prefix) (data : Bytes) (want : CID) :
    getBlockCid sha256 blake2b256 p data = .ok want ↔
      p.version = want.version ∧ p.codec = want.codec ∧ p.hashType = want.hashType ∧
      ∃ hash, digest sha256 blake2b256 want.hashType = some hash ∧ want.hash = hash data := by
  obtain ⟨v, c, t, n⟩ := p
  obtain ⟨wv, wc, wt, wh⟩ := want
  cases t <;> simp only [getBlockCid, Except.ok.injEq, CID.mk.injEq, reduceCtorEq, false_iff, not_and, not_exists]
  all_goals first
    | (rintro - - rfl; simp [digest])
    | (constructor
       · rintro ⟨rfl, rfl, rfl, rfl⟩; simp [digest]
       · rintro ⟨rfl, rfl, rfl, f, h1, h2⟩; simp [digest] at h1; subst h1; exact ⟨rfl, rfl, rfl, h2.symm⟩)

/-- **C43**, refusal: every other hash function is refused. -/
theorem C43_unsupported_refused (sha256 blake2b256 : Bytes → Bytes) (p : Prefix) (data : Bytes) :
    (∃ e, getBlockCid sha256 blake2b256 p data = .error e) ↔ p.hashType ≠ .sha2256 ∧ p.hashType ≠ .blake2b256 := by
  obtain ⟨v, c, t, n⟩ := p
  cases t <;> simp [getBlockCid]

/-- **C43**, binding: two blocks that get the same identifier have the same digest, so if the hash has no collision
among the blocks considered, they are the same block. -/
theorem C43_binding (sha256 blake2b256 : Bytes → Bytes) (b1 b2 : Block) (c : CID)
    (h1 : receivedBlockCid sha256 blake2b256 b1 = .ok c) (h2 : receivedBlockCid sha256 blake2b256 b2 = .ok c)
    (inj : ∀ f, digest sha256 blake2b256 c.hashType = some f → f b1.data = f b2.data → b1.data = b2.data) :
    b1.data = b2.data := by
  unfold receivedBlockCid at h1 h2
  split at h1
  · cases h1
  · split at h2
    · cases h2
    · split at h1
      · cases h1
      · split at h2
        · cases h2
        · rename_i p _ q _ _ c1 hp _ c2 hq
          cases h1; cases h2
          obtain ⟨-, -, -, f, hf, e1⟩ := (C43_block_cid_matches_iff _ _ _ _ _).mp hp
          obtain ⟨-, -, -, g, hg, e2⟩ := (C43_block_cid_matches_iff _ _ _ _ _).mp hq
          rw [hf] at hg; cases hg
          exact inj f hf (e1.symm.trans e2)

/-- **C43**, the prefix a wanted identifier corresponds to: its version byte, codec, hash code and digest size. -/
theorem C43_prefix_parse (v : UInt8) (codec : Codec) (hash : HashType) (size : Nat) (rest : Bytes) (hv : v = 0 ∨ v = 1)
    (hc : ValidCodec codec) (hh : ValidHashType hash) (hs : size < 2 ^ 64) :
    Prefix.fromBytes ([v] ++ encodeU64 codec.toU64 ++ encodeU64 hash.toU64 ++ encodeU64 size ++ rest) =
      .ok ⟨if v = 0 then .v0 else .v1, codec, hash, size⟩ := by
  obtain ⟨hc1, hc2⟩ := codec_from_to hc
  obtain ⟨hh1, hh2⟩ := hash_from_to hh
  generalize hd : [v] ++ encodeU64 codec.toU64 ++ encodeU64 hash.toU64 ++ encodeU64 size ++ rest = data
  have hfirst : data[0]? = some v := by simp [← hd]
  have hno : ¬ (v ≠ 0 ∧ v ≠ 1) := by rcases hv with h | h <;> simp [h]
  simp only [Prefix.fromBytes, hfirst, if_neg hno, bind, Except.bind]
  rw [readNum_at' [v] (encodeU64 hash.toU64 ++ encodeU64 size ++ rest) _ 1 _ hc2 _ (by simp [← hd]) rfl]
  simp only
  rw [readNum_at' ([v] ++ encodeU64 codec.toU64) (encodeU64 size ++ rest) _ _ _ hh2 _ (by simp [← hd]) rfl]
  simp only
  rw [readNum_at' ([v] ++ encodeU64 codec.toU64 ++ encodeU64 hash.toU64) rest _ _ _ hs _ (by simp [← hd]) rfl]
  simp only [hc1, hh1]

example (sha blake : Bytes → Bytes) (data : Bytes) :
    receivedBlockCid sha blake ⟨[1, 0x70, 0x12, 0x20], data⟩ = .ok ⟨.v1, .dagPB, .sha2256, sha data⟩ := by
  have h := C43_prefix_parse 1 .dagPB .sha2256 32 [] (.inr rfl) trivial trivial (by decide)
  have e : [1] ++ encodeU64 Codec.dagPB.toU64 ++ encodeU64 HashType.sha2256.toU64 ++ encodeU64 32 ++ [] =
    [1, 0x70, 0x12, 0x20] := by decide +kernel
  rw [e] at h
  simp [receivedBlockCid, h, getBlockCid]

end Ngfs.Bitswap
