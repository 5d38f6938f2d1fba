import Verif.Lemmas.Schema

/-! C178 and C179: Bitswap and Identify messages and their schemas. -/
namespace Ngfs.Bitswap
open Varint Protobuf Spec Spec.Schema

/-- What the locals of `Entry::from_pb` say about the fields seen. -/
def EntryInv (fs : List FieldRef) (s : EntryState) : Prop :=
  OptLast Raw (values 1 fs) s.block ∧
    Last Signed32 1 (values 2 fs) s.priority ∧
    Last Boolean false (values 3 fs) s.cancel ∧
    Last (Enum wantTypeCode) .block (values 4 fs) s.wantType ∧
    Last Boolean false (values 5 fs) s.sendDontHave

theorem entry_step (fs : List FieldRef) (f : FieldRef) (s' : EntryState) (hf : Small f) :
    EntryInv (fs ++ [f]) s' ↔ ∃ s, EntryInv fs s ∧ entryStep s f = .ok s' := by
  obtain ⟨x0, x1, x2, x3, x4⟩ := s'
  unfold EntryInv entryStep
  split
  · rename_i hk
    simp only [values_snoc, hk, Nat.reduceEqDiff, reduceIte, last_snoc, OptLast]
    constructor
    · rintro ⟨⟨⟨b, hb⟩, a, rfl, ha⟩, r1, r2, r3, r4⟩
      exact ⟨⟨b, x1, x2, x3, x4⟩, ⟨hb, r1, r2, r3, r4⟩, by simp only [(raw_iff _ _).mpr ha]; rfl⟩
    · rintro ⟨⟨s0, s1, s2, s3, s4⟩, ⟨r0, r1, r2, r3, r4⟩, h⟩
      simp only [bind_ok, raw_iff, Except.ok.injEq, EntryState.mk.injEq] at h
      obtain ⟨a, ha, rfl, rfl, rfl, rfl, rfl⟩ := h
      exact ⟨⟨⟨s0, r0⟩, _, rfl, ha⟩, r1, r2, r3, r4⟩
  · rename_i hk
    simp only [values_snoc, hk, Nat.reduceEqDiff, reduceIte, last_snoc]
    constructor
    · rintro ⟨r0, ⟨⟨b, hb⟩, ha⟩, r2, r3, r4⟩
      exact ⟨⟨x0, b, x2, x3, x4⟩, ⟨r0, hb, r2, r3, r4⟩, by simp only [(int32_iff _ _).mpr ha]; rfl⟩
    · rintro ⟨⟨s0, s1, s2, s3, s4⟩, ⟨r0, r1, r2, r3, r4⟩, h⟩
      simp only [bind_ok, int32_iff, Except.ok.injEq, EntryState.mk.injEq] at h
      obtain ⟨a, ha, rfl, rfl, rfl, rfl, rfl⟩ := h
      exact ⟨r0, ⟨⟨s1, r1⟩, ha⟩, r2, r3, r4⟩
  · rename_i hk
    simp only [values_snoc, hk, Nat.reduceEqDiff, reduceIte, last_snoc]
    constructor
    · rintro ⟨r0, r1, ⟨⟨b, hb⟩, ha⟩, r3, r4⟩
      exact ⟨⟨x0, x1, b, x3, x4⟩, ⟨r0, r1, hb, r3, r4⟩, by simp only [(boolean_iff _ _).mpr ha]; rfl⟩
    · rintro ⟨⟨s0, s1, s2, s3, s4⟩, ⟨r0, r1, r2, r3, r4⟩, h⟩
      simp only [bind_ok, boolean_iff, Except.ok.injEq, EntryState.mk.injEq] at h
      obtain ⟨a, ha, rfl, rfl, rfl, rfl, rfl⟩ := h
      exact ⟨r0, r1, ⟨⟨s2, r2⟩, ha⟩, r3, r4⟩
  · rename_i hk
    simp only [values_snoc, hk, Nat.reduceEqDiff, reduceIte, last_snoc]
    constructor
    · rintro ⟨r0, r1, r2, ⟨⟨b, hb⟩, ha⟩, r4⟩
      exact ⟨⟨x0, x1, x2, b, x4⟩, ⟨r0, r1, r2, hb, r4⟩, by cases x3 <;> (simp only [(toUint64_iff _ _).mpr ha]; rfl)⟩
    · rintro ⟨⟨s0, s1, s2, s3, s4⟩, ⟨r0, r1, r2, r3, r4⟩, h⟩
      simp only [bind_ok, toUint64_iff] at h
      obtain ⟨n, hn, h⟩ := h
      split at h
      · cases h; exact ⟨r0, r1, r2, ⟨⟨s3, r3⟩, hn⟩, r4⟩
      · cases h; exact ⟨r0, r1, r2, ⟨⟨s3, r3⟩, hn⟩, r4⟩
      · cases h
  · rename_i hk
    simp only [values_snoc, hk, Nat.reduceEqDiff, reduceIte, last_snoc]
    constructor
    · rintro ⟨r0, r1, r2, r3, ⟨⟨b, hb⟩, ha⟩⟩
      exact ⟨⟨x0, x1, x2, x3, b⟩, ⟨r0, r1, r2, r3, hb⟩, by simp only [(boolean_iff _ _).mpr ha]; rfl⟩
    · rintro ⟨⟨s0, s1, s2, s3, s4⟩, ⟨r0, r1, r2, r3, r4⟩, h⟩
      simp only [bind_ok, boolean_iff, Except.ok.injEq, EntryState.mk.injEq] at h
      obtain ⟨a, ha, rfl, rfl, rfl, rfl, rfl⟩ := h
      exact ⟨r0, r1, r2, r3, ⟨⟨s4, r4⟩, ha⟩⟩
  · simp_all [values_snoc]

theorem entry_iff (bs : Bytes) (hb : bs.length < 2 ^ 64) (e : Entry) : Entry.fromPb bs = .ok e ↔ IsEntry bs e := by
  obtain ⟨x0, x1, x2, x3, x4⟩ := e
  have hinv := parsed_iff (Inv := EntryInv) (init := {}) (fun s => by cases s; simp [EntryInv, values_nil, OptLast, last_nil]) entry_step bs hb
  unfold Entry.fromPb IsEntry
  simp only [bind_ok, okOr_iff, Except.ok.injEq, Entry.mk.injEq]
  constructor
  · rintro ⟨s, h1, a, h2, rfl, rfl, rfl, rfl, rfl⟩
    obtain ⟨fs, hm, h3, h4⟩ := (hinv s).mp h1
    rw [h2, optLast_some] at h3
    exact ⟨fs, hm, h3.1, h3.2, h4⟩
  · rintro ⟨fs, hm, h3, h3', h4⟩
    exact ⟨⟨some x0, x1, x2, x3, x4⟩, (hinv _).mpr ⟨fs, hm, optLast_some.mpr ⟨h3, h3'⟩, h4⟩, x0, rfl, rfl, rfl, rfl, rfl, rfl⟩

/-- What the locals of `WantList::from_pb` say about the fields seen. -/
def WantListInv (fs : List FieldRef) (s : WantList) : Prop :=
  Each (Nested IsEntry) (values 1 fs) s.entries ∧
    Last Boolean false (values 2 fs) s.full

theorem wantList_step (fs : List FieldRef) (f : FieldRef) (s' : WantList) (hf : Small f) :
    WantListInv (fs ++ [f]) s' ↔ ∃ s, WantListInv fs s ∧ wantListStep s f = .ok s' := by
  obtain ⟨x0, x1⟩ := s'
  unfold WantListInv wantListStep
  split
  · rename_i hk
    simp only [values_snoc, hk, Nat.reduceEqDiff, reduceIte, each_snoc]
    constructor
    · rintro ⟨⟨bs, a, hb, ha, rfl⟩, r1⟩
      exact ⟨⟨bs, x1⟩, ⟨hb, r1⟩, by obtain ⟨bs', hb', hx⟩ := ha; simp only [(toBytes_iff _ _).mpr hb', bind, Except.bind, (entry_iff bs' (hf.1 bs' hb') _).mpr hx]⟩
    · rintro ⟨⟨s0, s1⟩, ⟨r0, r1⟩, h⟩
      simp only [bind_ok, toBytes_iff, Except.ok.injEq, WantList.mk.injEq] at h
      obtain ⟨bs', hb', a, ha, rfl, rfl⟩ := h
      exact ⟨⟨s0, _, r0, ⟨bs', hb', (entry_iff bs' (hf.1 bs' hb') _).mp ha⟩, rfl⟩, r1⟩
  · rename_i hk
    simp only [values_snoc, hk, Nat.reduceEqDiff, reduceIte, last_snoc]
    constructor
    · rintro ⟨r0, ⟨⟨b, hb⟩, ha⟩⟩
      exact ⟨⟨x0, b⟩, ⟨r0, hb⟩, by simp only [(boolean_iff _ _).mpr ha]; rfl⟩
    · rintro ⟨⟨s0, s1⟩, ⟨r0, r1⟩, h⟩
      simp only [bind_ok, boolean_iff, Except.ok.injEq, WantList.mk.injEq] at h
      obtain ⟨a, ha, rfl, rfl⟩ := h
      exact ⟨r0, ⟨⟨s1, r1⟩, ha⟩⟩
  · simp_all [values_snoc]

theorem wantList_iff (bs : Bytes) (hb : bs.length < 2 ^ 64) (w : WantList) : WantList.fromPb bs = .ok w ↔ IsWantList bs w := by
  have h := parsed_iff (Inv := WantListInv) (init := ⟨[], false⟩)
    (fun s => by cases s; simp [WantListInv, values_nil, each_nil, last_nil]) wantList_step bs hb w
  exact h

/-- What the locals of `Block::from_pb` say about the fields seen. -/
def BlockInv (fs : List FieldRef) (s : BlockState) : Prop :=
  AtMostOnce Raw (values 1 fs) s.pfx ∧
    AtMostOnce Raw (values 2 fs) s.data

theorem block_step (fs : List FieldRef) (f : FieldRef) (s' : BlockState) (hf : Small f) :
    BlockInv (fs ++ [f]) s' ↔ ∃ s, BlockInv fs s ∧ blockStep s f = .ok s' := by
  obtain ⟨x0, x1⟩ := s'
  unfold BlockInv blockStep
  split
  · rename_i hk
    simp only [values_snoc, hk, Nat.reduceEqDiff, reduceIte, atMostOnce_snoc]
    constructor
    · rintro ⟨⟨hl, a, ha, rfl⟩, r1⟩
      exact ⟨⟨none, x1⟩, ⟨(by rw [hl, atMostOnce_nil]), r1⟩, by simp only [(raw_iff _ _).mpr ha]; rfl⟩
    · rintro ⟨⟨_ | s0, s1⟩, ⟨r0, r1⟩, h⟩
      · simp only [bind_ok, raw_iff, Except.ok.injEq, BlockState.mk.injEq] at h
        obtain ⟨a, ha, rfl, rfl⟩ := h
        exact ⟨⟨atMostOnce_none.mp r0, _, ha, rfl⟩, r1⟩
      · cases h
  · rename_i hk
    simp only [values_snoc, hk, Nat.reduceEqDiff, reduceIte, atMostOnce_snoc]
    constructor
    · rintro ⟨r0, ⟨hl, a, ha, rfl⟩⟩
      exact ⟨⟨x0, none⟩, ⟨r0, (by rw [hl, atMostOnce_nil])⟩, by simp only [(raw_iff _ _).mpr ha]; rfl⟩
    · rintro ⟨⟨s0, _ | s1⟩, ⟨r0, r1⟩, h⟩
      · simp only [bind_ok, raw_iff, Except.ok.injEq, BlockState.mk.injEq] at h
        obtain ⟨a, ha, rfl, rfl⟩ := h
        exact ⟨r0, ⟨atMostOnce_none.mp r1, _, ha, rfl⟩⟩
      · cases h
  · simp_all [values_snoc]

theorem block_iff (bs : Bytes) (hb : bs.length < 2 ^ 64) (b : Block) : Block.fromPb bs = .ok b ↔ IsBlock bs b := by
  obtain ⟨x0, x1⟩ := b
  have hinv := parsed_iff (Inv := BlockInv) (init := {}) (fun s => by cases s; simp [BlockInv, values_nil, atMostOnce_nil]) block_step bs hb
  unfold Block.fromPb IsBlock
  simp only [bind_ok, okOr_iff, Except.ok.injEq, Block.mk.injEq]
  constructor
  · rintro ⟨s, h1, a, h2, b, h5, rfl, rfl⟩
    obtain ⟨fs, hm, h3, h4⟩ := (hinv s).mp h1
    rw [h2, atMostOnce_some] at h3
    rw [h5, atMostOnce_some] at h4
    exact ⟨fs, hm, h3, h4⟩
  · rintro ⟨fs, hm, h3, h4⟩
    exact ⟨⟨some x0, some x1⟩, (hinv _).mpr ⟨fs, hm, atMostOnce_some.mpr h3, atMostOnce_some.mpr h4⟩, x0, rfl, x1, rfl, rfl, rfl⟩

/-- What the locals of `Message::from_pb` say about the fields seen. -/
def MessageInv (fs : List FieldRef) (s : Message) : Prop :=
  AtMostOnce (Nested IsWantList) (values 1 fs) s.wantlist ∧
    Each (Nested IsBlock) (values 3 fs) s.blocks ∧
    s.payload = [] ∧
    s.blockPresence = [] ∧
    s.pendingBytes = none

theorem message_step (fs : List FieldRef) (f : FieldRef) (s' : Message) (hf : Small f) :
    MessageInv (fs ++ [f]) s' ↔ ∃ s, MessageInv fs s ∧ messageStep s f = .ok s' := by
  obtain ⟨x0, x1, x2, x3, x4⟩ := s'
  unfold MessageInv messageStep
  split
  · rename_i hk
    simp only [values_snoc, hk, Nat.reduceEqDiff, reduceIte, atMostOnce_snoc]
    constructor
    · rintro ⟨⟨hl, a, ha, rfl⟩, r1, r2, r3, r4⟩
      exact ⟨⟨none, x1, x2, x3, x4⟩, ⟨(by rw [hl, atMostOnce_nil]), r1, r2, r3, r4⟩, by obtain ⟨bs', hb', hx⟩ := ha; simp only [(toBytes_iff _ _).mpr hb', bind, Except.bind, (wantList_iff bs' (hf.1 bs' hb') _).mpr hx]⟩
    · rintro ⟨⟨_ | s0, s1, s2, s3, s4⟩, ⟨r0, r1, r2, r3, r4⟩, h⟩
      · simp only [bind_ok, toBytes_iff, Except.ok.injEq, Message.mk.injEq] at h
        obtain ⟨bs', hb', a, ha, rfl, rfl, rfl, rfl, rfl⟩ := h
        exact ⟨⟨atMostOnce_none.mp r0, _, ⟨bs', hb', (wantList_iff bs' (hf.1 bs' hb') _).mp ha⟩, rfl⟩, r1, r2, r3, r4⟩
      · cases h
  · rename_i hk
    simp only [values_snoc, hk, Nat.reduceEqDiff, reduceIte, each_snoc]
    constructor
    · rintro ⟨r0, ⟨bs, a, hb, ha, rfl⟩, r2, r3, r4⟩
      exact ⟨⟨x0, bs, x2, x3, x4⟩, ⟨r0, hb, r2, r3, r4⟩, by obtain ⟨bs', hb', hx⟩ := ha; simp only [(toBytes_iff _ _).mpr hb', bind, Except.bind, (block_iff bs' (hf.1 bs' hb') _).mpr hx]⟩
    · rintro ⟨⟨s0, s1, s2, s3, s4⟩, ⟨r0, r1, r2, r3, r4⟩, h⟩
      simp only [bind_ok, toBytes_iff, Except.ok.injEq, Message.mk.injEq] at h
      obtain ⟨bs', hb', a, ha, rfl, rfl, rfl, rfl, rfl⟩ := h
      exact ⟨r0, ⟨s1, _, r1, ⟨bs', hb', (block_iff bs' (hf.1 bs' hb') _).mp ha⟩, rfl⟩, r2, r3, r4⟩
  · simp_all [values_snoc]

theorem message_iff (bs : Bytes) (hb : bs.length < 2 ^ 64) (m : Message) :
    Message.fromPb bs = .ok m ↔ ∃ fs, IsMessage 0 bs fs ∧ MessageInv fs m := by
  have h := parsed_iff (Inv := MessageInv) (init := ⟨none, [], [], [], none⟩)
    (fun s => by cases s; simp [MessageInv, values_nil, each_nil, atMostOnce_nil]) message_step bs hb m
  exact h

/-- **C178**, the part that holds: a Bitswap message is accepted exactly if it is a message in which the requests and the blocks are as the
published schema says, and the result has these and nothing else. Each request has at least one identifier; a part of a request or the
flag of a list that is repeated counts the last time; the list of requests is not repeated. -/
theorem C178_message_partial (bs : Bytes) (hb : bs.length < 2 ^ 64) (m : Message) :
    Message.fromPb bs = .ok m ↔ ∃ fs, IsMessage 0 bs fs ∧ SaysWantsAndBlocks fs m ∧ m.payload = [] ∧ m.blockPresence = [] ∧
      m.pendingBytes = none := by
  rw [message_iff bs hb m]
  simp only [MessageInv, SaysWantsAndBlocks, and_assoc]

/-- One request with its priority twice, one block, a presence and a number of pending bytes. -/
example : Message.fromPb ([0x0a, 13, 0x0a, 9, 0x0a, 1, 7, 0x10, 3, 0x10, 4, 0x20, 1, 0x10, 1] ++ [0x1a, 6, 0x0a, 1, 9, 0x12, 1, 8] ++
    [0x22, 2, 0x10, 1] ++ [0x28, 5]) = .ok ⟨some ⟨[⟨[7], 4, false, .have, false⟩], true⟩, [⟨[9], [8]⟩], [], [], none⟩ := by decide +kernel

/-- **C178**, single requests. -/
theorem C178_entry_partial (bs : Bytes) (hb : bs.length < 2 ^ 64) (e : Entry) : Entry.fromPb bs = .ok e ↔ IsEntry bs e := entry_iff bs hb e

/-- **C178**, single blocks. -/
theorem C178_block_partial (bs : Bytes) (hb : bs.length < 2 ^ 64) (b : Block) : Block.fromPb bs = .ok b ↔ IsBlock bs b := block_iff bs hb b

/-- The full statement of C178: what is read from a message has everything that the message says. -/
def C178_statement : Prop :=
  ∀ (bs : Bytes) (m : Message), bs.length < 2 ^ 64 → Message.fromPb bs = .ok m →
    ∃ fs, IsMessage 0 bs fs ∧ SaysWantsAndBlocks fs m ∧ SaysPresences fs m

/-- A message that says that its sender does not have a block. -/
def presenceBytes : Bytes := [0x22, 7, 0x0a, 3, 1, 2, 3, 0x10, 1]

example : IsPresence [0x0a, 3, 1, 2, 3, 0x10, 1] ⟨[1, 2, 3], false⟩ := by
  have h := parsed_iff (Inv := fun fs s => s = (values 1 fs, values 2 fs)) (init := ([], []))
    (step := fun s f => .ok (if f.fieldNumber = 1 then s.1 ++ [f.data] else s.1, if f.fieldNumber = 2 then s.2 ++ [f.data] else s.2))
    (fun s => by simp [values_nil]) (fun fs f s' _ => by simp [values_snoc, eq_comm]) [0x0a, 3, 1, 2, 3, 0x10, 1] (by decide)
    ([.bytes [1, 2, 3]], [.varInt [1]])
  obtain ⟨fs, hm, hv⟩ := h.mp (by decide +kernel)
  simp only [Prod.mk.injEq] at hv
  refine ⟨fs, hm, ⟨_, hv.1.symm, rfl⟩, ⟨_, hv.2.symm, [1], rfl, ?_⟩⟩
  exact (toU64_iff _ _).mp (by decide +kernel)

theorem presence_values {fs : List FieldRef} (hm : IsMessage 0 presenceBytes fs) : values 4 fs = [.bytes [0x0a, 3, 1, 2, 3, 0x10, 1]] := by
  have h := fun s => parsed_iff (Inv := fun fs s => s = values 4 fs) (init := [])
    (step := fun s f => .ok (if f.fieldNumber = 4 then s ++ [f.data] else s)) (fun s => by simp [values_nil])
    (fun fs f s' _ => by simp [values_snoc, eq_comm]) presenceBytes (by decide) s
  have h1 := (h (values 4 fs)).mpr ⟨fs, hm, rfl⟩
  have h2 : forFields (fun s f => .ok (if f.fieldNumber = 4 then s ++ [f.data] else s)) [] (Reader.new presenceBytes) =
    .ok [.bytes [0x0a, 3, 1, 2, 3, 0x10, 1]] := by decide +kernel
  rw [h2] at h1
  exact (Except.ok.inj h1).symm

/-- **C178** is false: what a peer tells about blocks that it has or does not have is thrown away (message.rs 253-260). -/
theorem C178_false : ¬ C178_statement := by
  intro h
  obtain ⟨fs, hm, -, h1, -⟩ := h presenceBytes ⟨none, [], [], [], none⟩ (by decide) (by decide +kernel)
  rw [presence_values hm] at h1
  cases h1

end Ngfs.Bitswap

namespace Ngfs.Identify
open Varint Protobuf Spec Spec.Schema

theorem keyType_iff (n : Nat) (t : KeyType) : KeyType.fromU64 n = .ok t ↔ n = keyTypeCode t := by
  unfold KeyType.fromU64
  split <;> cases t <;> simp_all [keyTypeCode]

/-- What the locals of `PublicKey::from_pb` say about the fields seen. -/
def KeyInv (fs : List FieldRef) (s : KeyState) : Prop :=
  OptLast (Enum keyTypeCode) (values 1 fs) s.keyType ∧
    OptLast Raw (values 2 fs) s.data

theorem key_step (fs : List FieldRef) (f : FieldRef) (s' : KeyState) (hf : Small f) :
    KeyInv (fs ++ [f]) s' ↔ ∃ s, KeyInv fs s ∧ keyStep s f = .ok s' := by
  obtain ⟨x0, x1⟩ := s'
  unfold KeyInv keyStep
  split
  · rename_i hk
    simp only [values_snoc, hk, Nat.reduceEqDiff, reduceIte, last_snoc, OptLast]
    constructor
    · rintro ⟨⟨⟨b, hb⟩, a, rfl, ha⟩, r1⟩
      exact ⟨⟨b, x1⟩, ⟨hb, r1⟩, by simp only [(toUint64_iff _ _).mpr ha, bind, Except.bind, (keyType_iff _ _).mpr rfl]⟩
    · rintro ⟨⟨s0, s1⟩, ⟨r0, r1⟩, h⟩
      simp only [bind_ok, toUint64_iff, Except.ok.injEq, KeyState.mk.injEq] at h
      obtain ⟨n, hn, a, ha, rfl, rfl⟩ := h
      exact ⟨⟨⟨s0, r0⟩, _, rfl, (by rw [(keyType_iff _ _).mp ha] at hn; exact hn)⟩, r1⟩
  · rename_i hk
    simp only [values_snoc, hk, Nat.reduceEqDiff, reduceIte, last_snoc, OptLast]
    constructor
    · rintro ⟨r0, ⟨⟨b, hb⟩, a, rfl, ha⟩⟩
      exact ⟨⟨x0, b⟩, ⟨r0, hb⟩, by simp only [(raw_iff _ _).mpr ha]; rfl⟩
    · rintro ⟨⟨s0, s1⟩, ⟨r0, r1⟩, h⟩
      simp only [bind_ok, raw_iff, Except.ok.injEq, KeyState.mk.injEq] at h
      obtain ⟨a, ha, rfl, rfl⟩ := h
      exact ⟨r0, ⟨⟨s1, r1⟩, _, rfl, ha⟩⟩
  · simp_all [values_snoc]

theorem key_iff (bs : Bytes) (hb : bs.length < 2 ^ 64) (k : PublicKey) : PublicKey.fromPb bs = .ok k ↔ IsKey bs k := by
  obtain ⟨x0, x1⟩ := k
  have hinv := parsed_iff (Inv := KeyInv) (init := {}) (fun s => by cases s; simp [KeyInv, values_nil, OptLast, last_nil]) key_step bs hb
  unfold PublicKey.fromPb IsKey
  simp only [bind_ok, okOr_iff, Except.ok.injEq, PublicKey.mk.injEq]
  constructor
  · rintro ⟨s, h1, a, h2, b, h5, rfl, rfl⟩
    obtain ⟨fs, hm, h3, h4⟩ := (hinv s).mp h1
    rw [h2, optLast_some] at h3
    rw [h5, optLast_some] at h4
    exact ⟨fs, hm, h3.1, h4.1, h3.2, h4.2⟩
  · rintro ⟨fs, hm, h1, h2, h3, h4⟩
    exact ⟨⟨some x0, some x1⟩, (hinv _).mpr ⟨fs, hm, optLast_some.mpr ⟨h1, h3⟩, optLast_some.mpr ⟨h2, h4⟩⟩, x0, rfl, x1, rfl, rfl, rfl⟩

/-- What the locals of `Identify::from_pb` say about the fields seen. -/
def IdInv (fs : List FieldRef) (s : IdState) : Prop :=
  AtMostOnce Text (values 5 fs) s.protocolVersion ∧
    AtMostOnce Text (values 6 fs) s.agentVersion ∧
    AtMostOnce (Nested IsKey) (values 1 fs) s.publicKey ∧
    AtMostOnce (Nested fun b a => a = Multiaddr.fromBytes b) (values 4 fs) s.observedAddr ∧
    Each (Nested fun b a => a = Multiaddr.fromBytes b) (values 2 fs) s.listenAddrs ∧
    Each Text (values 3 fs) s.protocols ∧
    AtMostOnce Raw (values 8 fs) s.signedPeerRecord

theorem id_step (fs : List FieldRef) (f : FieldRef) (s' : IdState) (hf : Small f) :
    IdInv (fs ++ [f]) s' ↔ ∃ s, IdInv fs s ∧ idStep s f = .ok s' := by
  obtain ⟨x0, x1, x2, x3, x4, x5, x6⟩ := s'
  unfold IdInv idStep
  split
  · rename_i hk
    simp only [values_snoc, hk, Nat.reduceEqDiff, reduceIte, atMostOnce_snoc]
    constructor
    · rintro ⟨⟨hl, a, ha, rfl⟩, r1, r2, r3, r4, r5, r6⟩
      exact ⟨⟨none, x1, x2, x3, x4, x5, x6⟩, ⟨(by rw [hl, atMostOnce_nil]), r1, r2, r3, r4, r5, r6⟩, by simp only [(text_iff _ _).mpr ha]; rfl⟩
    · rintro ⟨⟨_ | s0, s1, s2, s3, s4, s5, s6⟩, ⟨r0, r1, r2, r3, r4, r5, r6⟩, h⟩
      · simp only [bind_ok, text_iff, Except.ok.injEq, IdState.mk.injEq] at h
        obtain ⟨a, ha, rfl, rfl, rfl, rfl, rfl, rfl, rfl⟩ := h
        exact ⟨⟨atMostOnce_none.mp r0, _, ha, rfl⟩, r1, r2, r3, r4, r5, r6⟩
      · cases h
  · rename_i hk
    simp only [values_snoc, hk, Nat.reduceEqDiff, reduceIte, atMostOnce_snoc]
    constructor
    · rintro ⟨r0, ⟨hl, a, ha, rfl⟩, r2, r3, r4, r5, r6⟩
      exact ⟨⟨x0, none, x2, x3, x4, x5, x6⟩, ⟨r0, (by rw [hl, atMostOnce_nil]), r2, r3, r4, r5, r6⟩, by simp only [(text_iff _ _).mpr ha]; rfl⟩
    · rintro ⟨⟨s0, _ | s1, s2, s3, s4, s5, s6⟩, ⟨r0, r1, r2, r3, r4, r5, r6⟩, h⟩
      · simp only [bind_ok, text_iff, Except.ok.injEq, IdState.mk.injEq] at h
        obtain ⟨a, ha, rfl, rfl, rfl, rfl, rfl, rfl, rfl⟩ := h
        exact ⟨r0, ⟨atMostOnce_none.mp r1, _, ha, rfl⟩, r2, r3, r4, r5, r6⟩
      · cases h
  · rename_i hk
    simp only [values_snoc, hk, Nat.reduceEqDiff, reduceIte, each_snoc]
    constructor
    · rintro ⟨r0, r1, r2, r3, r4, ⟨bs, a, hb, ha, rfl⟩, r6⟩
      exact ⟨⟨x0, x1, x2, x3, x4, bs, x6⟩, ⟨r0, r1, r2, r3, r4, hb, r6⟩, by simp only [(text_iff _ _).mpr ha]; rfl⟩
    · rintro ⟨⟨s0, s1, s2, s3, s4, s5, s6⟩, ⟨r0, r1, r2, r3, r4, r5, r6⟩, h⟩
      simp only [bind_ok, text_iff, Except.ok.injEq, IdState.mk.injEq] at h
      obtain ⟨a, ha, rfl, rfl, rfl, rfl, rfl, rfl, rfl⟩ := h
      exact ⟨r0, r1, r2, r3, r4, ⟨s5, _, r5, ha, rfl⟩, r6⟩
  · rename_i hk
    simp only [values_snoc, hk, Nat.reduceEqDiff, reduceIte, atMostOnce_snoc]
    constructor
    · rintro ⟨r0, r1, ⟨hl, a, ha, rfl⟩, r3, r4, r5, r6⟩
      exact ⟨⟨x0, x1, none, x3, x4, x5, x6⟩, ⟨r0, r1, (by rw [hl, atMostOnce_nil]), r3, r4, r5, r6⟩, by obtain ⟨bs', hb', hx⟩ := ha; simp only [(toBytes_iff _ _).mpr hb', bind, Except.bind, (key_iff bs' (hf.1 bs' hb') _).mpr hx]⟩
    · rintro ⟨⟨s0, s1, _ | s2, s3, s4, s5, s6⟩, ⟨r0, r1, r2, r3, r4, r5, r6⟩, h⟩
      · simp only [bind_ok, toBytes_iff, Except.ok.injEq, IdState.mk.injEq] at h
        obtain ⟨bs', hb', a, ha, rfl, rfl, rfl, rfl, rfl, rfl, rfl⟩ := h
        exact ⟨r0, r1, ⟨atMostOnce_none.mp r2, _, ⟨bs', hb', (key_iff bs' (hf.1 bs' hb') _).mp ha⟩, rfl⟩, r3, r4, r5, r6⟩
      · cases h
  · rename_i hk
    simp only [values_snoc, hk, Nat.reduceEqDiff, reduceIte, each_snoc]
    constructor
    · rintro ⟨r0, r1, r2, r3, ⟨bs, a, hb, ha, rfl⟩, r5, r6⟩
      exact ⟨⟨x0, x1, x2, x3, bs, x5, x6⟩, ⟨r0, r1, r2, r3, hb, r5, r6⟩, by obtain ⟨bs', hb', rfl⟩ := ha; simp only [(toBytes_iff _ _).mpr hb']; rfl⟩
    · rintro ⟨⟨s0, s1, s2, s3, s4, s5, s6⟩, ⟨r0, r1, r2, r3, r4, r5, r6⟩, h⟩
      simp only [bind_ok, toBytes_iff, Except.ok.injEq, IdState.mk.injEq] at h
      obtain ⟨bs', hb', rfl, rfl, rfl, rfl, rfl, rfl, rfl⟩ := h
      exact ⟨r0, r1, r2, r3, ⟨s4, _, r4, ⟨bs', hb', rfl⟩, rfl⟩, r5, r6⟩
  · rename_i hk
    simp only [values_snoc, hk, Nat.reduceEqDiff, reduceIte, atMostOnce_snoc]
    constructor
    · rintro ⟨r0, r1, r2, ⟨hl, a, ha, rfl⟩, r4, r5, r6⟩
      exact ⟨⟨x0, x1, x2, none, x4, x5, x6⟩, ⟨r0, r1, r2, (by rw [hl, atMostOnce_nil]), r4, r5, r6⟩, by obtain ⟨bs', hb', rfl⟩ := ha; simp only [(toBytes_iff _ _).mpr hb']; rfl⟩
    · rintro ⟨⟨s0, s1, s2, _ | s3, s4, s5, s6⟩, ⟨r0, r1, r2, r3, r4, r5, r6⟩, h⟩
      · simp only [bind_ok, toBytes_iff, Except.ok.injEq, IdState.mk.injEq] at h
        obtain ⟨bs', hb', rfl, rfl, rfl, rfl, rfl, rfl, rfl⟩ := h
        exact ⟨r0, r1, r2, ⟨atMostOnce_none.mp r3, _, ⟨bs', hb', rfl⟩, rfl⟩, r4, r5, r6⟩
      · cases h
  · rename_i hk
    simp only [values_snoc, hk, Nat.reduceEqDiff, reduceIte, atMostOnce_snoc]
    constructor
    · rintro ⟨r0, r1, r2, r3, r4, r5, ⟨hl, a, ha, rfl⟩⟩
      exact ⟨⟨x0, x1, x2, x3, x4, x5, none⟩, ⟨r0, r1, r2, r3, r4, r5, (by rw [hl, atMostOnce_nil])⟩, by simp only [(raw_iff _ _).mpr ha]; rfl⟩
    · rintro ⟨⟨s0, s1, s2, s3, s4, s5, _ | s6⟩, ⟨r0, r1, r2, r3, r4, r5, r6⟩, h⟩
      · simp only [bind_ok, raw_iff, Except.ok.injEq, IdState.mk.injEq] at h
        obtain ⟨a, ha, rfl, rfl, rfl, rfl, rfl, rfl, rfl⟩ := h
        exact ⟨r0, r1, r2, r3, r4, r5, ⟨atMostOnce_none.mp r6, _, ha, rfl⟩⟩
      · cases h
  · simp_all [values_snoc]

/-- **C179**: an Identify message is accepted exactly if it is a message of the published schema that has the versions, the key and the
observed address exactly once and the signed record at most once, and the result has what the message says. -/
theorem C179_identify_exact (bs : Bytes) (hb : bs.length < 2 ^ 64) (i : Identify) : Identify.fromPb bs = .ok i ↔ IsIdentify bs i := by
  obtain ⟨pv, av, pk, la, oa, ps, sr⟩ := i
  have hinv := parsed_iff (Inv := IdInv) (init := {}) (fun s => by cases s; simp [IdInv, values_nil, atMostOnce_nil, each_nil]) id_step bs hb
  unfold Identify.fromPb IsIdentify
  simp only [bind_ok, okOr_iff, Except.ok.injEq, Identify.mk.injEq]
  constructor
  · rintro ⟨s, h, a, ha, b, hb, c, hc, d, hd, rfl, rfl, rfl, rfl, rfl, rfl, rfl⟩
    obtain ⟨fs, hm, h5, h6, h1, h4, h2, h3, h8⟩ := (hinv s).mp h
    rw [ha, atMostOnce_some] at h5
    rw [hb, atMostOnce_some] at h6
    rw [hc, atMostOnce_some] at h1
    rw [hd, atMostOnce_some] at h4
    exact ⟨fs, hm, h1, h2, h3, h4, h5, h6, h8⟩
  · rintro ⟨fs, hm, h1, h2, h3, h4, h5, h6, h8⟩
    exact ⟨⟨some pv, some av, some pk, some oa, la, ps, sr⟩, (hinv _).mpr ⟨fs, hm, atMostOnce_some.mpr h5, atMostOnce_some.mpr h6,
      atMostOnce_some.mpr h1, atMostOnce_some.mpr h4, h2, h3, h8⟩, pv, rfl, av, rfl, pk, rfl, oa, rfl, rfl, rfl, rfl, rfl, rfl, rfl, rfl⟩

/-- A message with everything except a signed record, the version last. -/
example : (Identify.fromPb ([0x0a, 5, 0x08, 1, 0x12, 1, 42] ++ [0x12, 3, 6, 0, 80] ++ [0x1a, 2, 0x2f, 0x61] ++ [0x1a, 1, 0x62] ++
    [0x22, 3, 6, 0, 81] ++ [0x32, 1, 0x63] ++ [0x2a, 1, 0x64])).toOption.map (fun i => (i.publicKey, i.listenAddrs, i.protocols, i.observedAddr)) =
    some (⟨.ed25519, [42]⟩, [[.tcp 80]], ["/a", "b"], [.tcp 81]) := by decide +kernel

/-- The observed address twice. -/
example : ¬ ∃ i, IsIdentify ([0x0a, 5, 0x08, 1, 0x12, 1, 42] ++ [0x22, 0, 0x22, 0] ++ [0x32, 0, 0x2a, 0]) i := by
  rintro ⟨i, h⟩
  have h := (C179_identify_exact _ (by decide) i).mpr h
  have h2 : Identify.fromPb ([0x0a, 5, 0x08, 1, 0x12, 1, 42] ++ [0x22, 0, 0x22, 0] ++ [0x32, 0, 0x2a, 0]) =
    .error (.duplicateField "observed_addr") := by decide +kernel
  rw [h2] at h
  cases h

/-- **C179**, public keys. -/
theorem C179_key_exact (bs : Bytes) (hb : bs.length < 2 ^ 64) (k : PublicKey) : PublicKey.fromPb bs = .ok k ↔ IsKey bs k := key_iff bs hb k

end Ngfs.Identify
