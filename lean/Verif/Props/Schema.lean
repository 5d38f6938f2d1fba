import Verif.Lemmas.Schema
import Verif.Props.Cid

/-! C176 and C177: UnixFS records and DAG nodes are read as their schemas say. -/
namespace Ngfs.Dagpb
open Varint Protobuf Spec Spec.Schema Cid

/-- What the locals of `UnixTime::from_pb` say about the fields seen. -/
def TimeInv (fs : List FieldRef) (s : TimeState) : Prop :=
  AtMostOnce Signed64 (values 1 fs) s.seconds ∧
    AtMostOnce Fixed32 (values 2 fs) s.fractionalNanoseconds

theorem time_step (fs : List FieldRef) (f : FieldRef) (s' : TimeState) (hf : Small f) :
    TimeInv (fs ++ [f]) s' ↔ ∃ s, TimeInv fs s ∧ timeStep s f = .ok s' := by
  obtain ⟨x0, x1⟩ := s'
  unfold TimeInv timeStep
  split
  · rename_i hk
    simp only [values_snoc, hk, Nat.reduceEqDiff, reduceIte, atMostOnce_snoc]
    constructor
    · rintro ⟨⟨hl, a, ha, rfl⟩, r1⟩
      exact ⟨⟨none, x1⟩, ⟨(by rw [hl, atMostOnce_nil]), r1⟩, by simp only [(int64_iff _ _).mpr ha]; rfl⟩
    · rintro ⟨⟨_ | s0, s1⟩, ⟨r0, r1⟩, h⟩
      · simp only [bind_ok, int64_iff, Except.ok.injEq, TimeState.mk.injEq] at h
        obtain ⟨a, ha, rfl, rfl⟩ := h
        exact ⟨⟨atMostOnce_none.mp r0, _, ha, rfl⟩, r1⟩
      · cases h
  · rename_i hk
    simp only [values_snoc, hk, Nat.reduceEqDiff, reduceIte, atMostOnce_snoc]
    constructor
    · rintro ⟨r0, ⟨hl, a, ha, rfl⟩⟩
      exact ⟨⟨x0, none⟩, ⟨r0, (by rw [hl, atMostOnce_nil])⟩, by simp only [(fixed32_iff f hf _).mpr ha]; rfl⟩
    · rintro ⟨⟨s0, _ | s1⟩, ⟨r0, r1⟩, h⟩
      · simp only [bind_ok, fixed32_iff f hf, Except.ok.injEq, TimeState.mk.injEq] at h
        obtain ⟨a, ha, rfl, rfl⟩ := h
        exact ⟨r0, ⟨atMostOnce_none.mp r1, _, ha, rfl⟩⟩
      · cases h
  · simp_all [values_snoc]

theorem unixTime_iff (bs : Bytes) (hb : bs.length < 2 ^ 64) (t : UnixTime) : UnixTime.fromPb bs = .ok t ↔ IsUnixTime bs t := by
  obtain ⟨x, y⟩ := t
  unfold UnixTime.fromPb IsUnixTime
  simp only [bind_ok, okOr_iff, Except.ok.injEq, UnixTime.mk.injEq]
  constructor
  · rintro ⟨s, h1, a, h2, rfl, rfl⟩
    obtain ⟨fs, hm, h3, h4⟩ := (parsed_iff (Inv := TimeInv) (fun s => by cases s; simp [TimeInv, values_nil, atMostOnce_nil]) time_step bs hb s).mp h1
    rw [h2, atMostOnce_some] at h3
    exact ⟨fs, hm, h3, h4⟩
  · rintro ⟨fs, hm, h3, h4⟩
    exact ⟨⟨some x, y⟩, (parsed_iff (Inv := TimeInv) (fun s => by cases s; simp [TimeInv, values_nil, atMostOnce_nil]) time_step bs hb _).mpr
      ⟨fs, hm, atMostOnce_some.mpr h3, h4⟩, x, rfl, rfl, rfl⟩

theorem dataType_iff (n : Nat) (t : DataType) : DataType.fromU64 n = .ok t ↔ n = dataTypeCode t := by
  unfold DataType.fromU64
  split <;> cases t <;> simp_all [dataTypeCode]

/-- What the locals of `Data::from_pb` say about the fields seen. -/
def DataInv (fs : List FieldRef) (s : DataState) : Prop :=
  AtMostOnce (Enum dataTypeCode) (values 1 fs) s.type_ ∧
    AtMostOnce Raw (values 2 fs) s.data ∧
    AtMostOnce Uint (values 3 fs) s.filesize ∧
    Each Uint (values 4 fs) s.blocksizes ∧
    AtMostOnce Uint (values 5 fs) s.hashType ∧
    AtMostOnce Uint (values 6 fs) s.fanout ∧
    AtMostOnce Uint32 (values 7 fs) s.mode ∧
    AtMostOnce (Nested IsUnixTime) (values 8 fs) s.mtime

theorem data_step (fs : List FieldRef) (f : FieldRef) (s' : DataState) (hf : Small f) :
    DataInv (fs ++ [f]) s' ↔ ∃ s, DataInv fs s ∧ dataStep s f = .ok s' := by
  obtain ⟨x0, x1, x2, x3, x4, x5, x6, x7⟩ := s'
  unfold DataInv dataStep
  split
  · rename_i hk
    simp only [values_snoc, hk, Nat.reduceEqDiff, reduceIte, atMostOnce_snoc]
    constructor
    · rintro ⟨⟨hl, a, ha, rfl⟩, r1, r2, r3, r4, r5, r6, r7⟩
      exact ⟨⟨none, x1, x2, x3, x4, x5, x6, x7⟩, ⟨(by rw [hl, atMostOnce_nil]), r1, r2, r3, r4, r5, r6, r7⟩, by simp only [(toUint64_iff _ _).mpr ha, bind, Except.bind, (dataType_iff _ _).mpr rfl]⟩
    · rintro ⟨⟨_ | s0, s1, s2, s3, s4, s5, s6, s7⟩, ⟨r0, r1, r2, r3, r4, r5, r6, r7⟩, h⟩
      · simp only [bind_ok, toUint64_iff, Except.ok.injEq, DataState.mk.injEq] at h
        obtain ⟨n, hn, a, ha, rfl, rfl, rfl, rfl, rfl, rfl, rfl, rfl⟩ := h
        exact ⟨⟨atMostOnce_none.mp r0, _, (by rw [(dataType_iff _ _).mp ha] at hn; exact hn), rfl⟩, r1, r2, r3, r4, r5, r6, r7⟩
      · cases h
  · rename_i hk
    simp only [values_snoc, hk, Nat.reduceEqDiff, reduceIte, atMostOnce_snoc]
    constructor
    · rintro ⟨r0, ⟨hl, a, ha, rfl⟩, r2, r3, r4, r5, r6, r7⟩
      exact ⟨⟨x0, none, x2, x3, x4, x5, x6, x7⟩, ⟨r0, (by rw [hl, atMostOnce_nil]), r2, r3, r4, r5, r6, r7⟩, by simp only [(raw_iff _ _).mpr ha]; rfl⟩
    · rintro ⟨⟨s0, _ | s1, s2, s3, s4, s5, s6, s7⟩, ⟨r0, r1, r2, r3, r4, r5, r6, r7⟩, h⟩
      · simp only [bind_ok, raw_iff, Except.ok.injEq, DataState.mk.injEq] at h
        obtain ⟨a, ha, rfl, rfl, rfl, rfl, rfl, rfl, rfl, rfl⟩ := h
        exact ⟨r0, ⟨atMostOnce_none.mp r1, _, ha, rfl⟩, r2, r3, r4, r5, r6, r7⟩
      · cases h
  · rename_i hk
    simp only [values_snoc, hk, Nat.reduceEqDiff, reduceIte, atMostOnce_snoc]
    constructor
    · rintro ⟨r0, r1, ⟨hl, a, ha, rfl⟩, r3, r4, r5, r6, r7⟩
      exact ⟨⟨x0, x1, none, x3, x4, x5, x6, x7⟩, ⟨r0, r1, (by rw [hl, atMostOnce_nil]), r3, r4, r5, r6, r7⟩, by simp only [(uint_iff _ _).mpr ha]; rfl⟩
    · rintro ⟨⟨s0, s1, _ | s2, s3, s4, s5, s6, s7⟩, ⟨r0, r1, r2, r3, r4, r5, r6, r7⟩, h⟩
      · simp only [bind_ok, uint_iff, Except.ok.injEq, DataState.mk.injEq] at h
        obtain ⟨a, ha, rfl, rfl, rfl, rfl, rfl, rfl, rfl, rfl⟩ := h
        exact ⟨r0, r1, ⟨atMostOnce_none.mp r2, _, ha, rfl⟩, r3, r4, r5, r6, r7⟩
      · cases h
  · rename_i hk
    simp only [values_snoc, hk, Nat.reduceEqDiff, reduceIte, each_snoc]
    constructor
    · rintro ⟨r0, r1, r2, ⟨bs, a, hb, ha, rfl⟩, r4, r5, r6, r7⟩
      exact ⟨⟨x0, x1, x2, bs, x4, x5, x6, x7⟩, ⟨r0, r1, r2, hb, r4, r5, r6, r7⟩, by simp only [(uint_iff _ _).mpr ha]; rfl⟩
    · rintro ⟨⟨s0, s1, s2, s3, s4, s5, s6, s7⟩, ⟨r0, r1, r2, r3, r4, r5, r6, r7⟩, h⟩
      simp only [bind_ok, uint_iff, Except.ok.injEq, DataState.mk.injEq] at h
      obtain ⟨a, ha, rfl, rfl, rfl, rfl, rfl, rfl, rfl, rfl⟩ := h
      exact ⟨r0, r1, r2, ⟨s3, _, r3, ha, rfl⟩, r4, r5, r6, r7⟩
  · rename_i hk
    simp only [values_snoc, hk, Nat.reduceEqDiff, reduceIte, atMostOnce_snoc]
    constructor
    · rintro ⟨r0, r1, r2, r3, ⟨hl, a, ha, rfl⟩, r5, r6, r7⟩
      exact ⟨⟨x0, x1, x2, x3, none, x5, x6, x7⟩, ⟨r0, r1, r2, r3, (by rw [hl, atMostOnce_nil]), r5, r6, r7⟩, by simp only [(uint_iff _ _).mpr ha]; rfl⟩
    · rintro ⟨⟨s0, s1, s2, s3, _ | s4, s5, s6, s7⟩, ⟨r0, r1, r2, r3, r4, r5, r6, r7⟩, h⟩
      · simp only [bind_ok, uint_iff, Except.ok.injEq, DataState.mk.injEq] at h
        obtain ⟨a, ha, rfl, rfl, rfl, rfl, rfl, rfl, rfl, rfl⟩ := h
        exact ⟨r0, r1, r2, r3, ⟨atMostOnce_none.mp r4, _, ha, rfl⟩, r5, r6, r7⟩
      · cases h
  · rename_i hk
    simp only [values_snoc, hk, Nat.reduceEqDiff, reduceIte, atMostOnce_snoc]
    constructor
    · rintro ⟨r0, r1, r2, r3, r4, ⟨hl, a, ha, rfl⟩, r6, r7⟩
      exact ⟨⟨x0, x1, x2, x3, x4, none, x6, x7⟩, ⟨r0, r1, r2, r3, r4, (by rw [hl, atMostOnce_nil]), r6, r7⟩, by simp only [(uint_iff _ _).mpr ha]; rfl⟩
    · rintro ⟨⟨s0, s1, s2, s3, s4, _ | s5, s6, s7⟩, ⟨r0, r1, r2, r3, r4, r5, r6, r7⟩, h⟩
      · simp only [bind_ok, uint_iff, Except.ok.injEq, DataState.mk.injEq] at h
        obtain ⟨a, ha, rfl, rfl, rfl, rfl, rfl, rfl, rfl, rfl⟩ := h
        exact ⟨r0, r1, r2, r3, r4, ⟨atMostOnce_none.mp r5, _, ha, rfl⟩, r6, r7⟩
      · cases h
  · rename_i hk
    simp only [values_snoc, hk, Nat.reduceEqDiff, reduceIte, atMostOnce_snoc]
    constructor
    · rintro ⟨r0, r1, r2, r3, r4, r5, ⟨hl, a, ha, rfl⟩, r7⟩
      exact ⟨⟨x0, x1, x2, x3, x4, x5, none, x7⟩, ⟨r0, r1, r2, r3, r4, r5, (by rw [hl, atMostOnce_nil]), r7⟩, by simp only [(uint32_iff _ _).mpr ha]; rfl⟩
    · rintro ⟨⟨s0, s1, s2, s3, s4, s5, _ | s6, s7⟩, ⟨r0, r1, r2, r3, r4, r5, r6, r7⟩, h⟩
      · simp only [bind_ok, uint32_iff, Except.ok.injEq, DataState.mk.injEq] at h
        obtain ⟨a, ha, rfl, rfl, rfl, rfl, rfl, rfl, rfl, rfl⟩ := h
        exact ⟨r0, r1, r2, r3, r4, r5, ⟨atMostOnce_none.mp r6, _, ha, rfl⟩, r7⟩
      · cases h
  · rename_i hk
    simp only [values_snoc, hk, Nat.reduceEqDiff, reduceIte, atMostOnce_snoc]
    constructor
    · rintro ⟨r0, r1, r2, r3, r4, r5, r6, ⟨hl, a, ha, rfl⟩⟩
      exact ⟨⟨x0, x1, x2, x3, x4, x5, x6, none⟩, ⟨r0, r1, r2, r3, r4, r5, r6, (by rw [hl, atMostOnce_nil])⟩, by obtain ⟨bs', hb', hx⟩ := ha; simp only [(toBytes_iff _ _).mpr hb', bind, Except.bind, (unixTime_iff bs' (hf.1 bs' hb') _).mpr hx]⟩
    · rintro ⟨⟨s0, s1, s2, s3, s4, s5, s6, _ | s7⟩, ⟨r0, r1, r2, r3, r4, r5, r6, r7⟩, h⟩
      · simp only [bind_ok, toBytes_iff, Except.ok.injEq, DataState.mk.injEq] at h
        obtain ⟨bs', hb', a, ha, rfl, rfl, rfl, rfl, rfl, rfl, rfl, rfl⟩ := h
        exact ⟨r0, r1, r2, r3, r4, r5, r6, ⟨atMostOnce_none.mp r7, _, ⟨bs', hb', (unixTime_iff bs' (hf.1 bs' hb') _).mp ha⟩, rfl⟩⟩
      · cases h
  · simp_all [values_snoc]

/-- **C176**: a UnixFS record is accepted exactly if it is a message of the published schema, with no part that may occur once
occurring twice, and the result has what the message says; so has the time of change in it. Fields with other numbers may be anywhere. -/
theorem C176_unixfs_exact (bs : Bytes) (hb : bs.length < 2 ^ 64) (d : Data) : Data.fromPb bs = .ok d ↔ IsUnixFs bs d := by
  obtain ⟨x0, x1, x2, x3, x4, x5, x6, x7⟩ := d
  have hinv := parsed_iff (Inv := DataInv) (init := {}) (fun s => by cases s; simp [DataInv, values_nil, atMostOnce_nil, each_nil]) data_step bs hb
  unfold Data.fromPb IsUnixFs
  simp only [bind_ok, okOr_iff, Except.ok.injEq, Data.mk.injEq]
  constructor
  · rintro ⟨s, h1, a, h2, rfl, rfl, rfl, rfl, rfl, rfl, rfl, rfl⟩
    obtain ⟨fs, hm, h3, h4⟩ := (hinv s).mp h1
    rw [h2, atMostOnce_some] at h3
    exact ⟨fs, hm, h3, h4⟩
  · rintro ⟨fs, hm, h3, h4⟩
    exact ⟨⟨some x0, x1, x2, x3, x4, x5, x6, x7⟩, (hinv _).mpr ⟨fs, hm, atMostOnce_some.mpr h3, h4⟩, x0, rfl, rfl, rfl, rfl, rfl, rfl,
      rfl, rfl, rfl⟩

/-- A directory with two block sizes around an unknown field, a mode and a time, the fields not in order of their numbers. -/
example : Data.fromPb [0x20, 5, 0x08, 1, 0x4a, 1, 7, 0x38, 0xa4, 3, 0x20, 0x80, 1, 0x42, 7, 0x15, 1, 2, 0, 0, 0x08, 9] =
    .ok ⟨.directory, none, none, [5, 128], none, none, some 420, some ⟨9, some 513⟩⟩ := by decide +kernel

/-- The file size twice. -/
example : ¬ ∃ d, IsUnixFs [0x08, 2, 0x18, 5, 0x18, 5] d := by
  rintro ⟨d, h⟩
  have h := (C176_unixfs_exact _ (by decide) d).mpr h
  have h2 : Data.fromPb [0x08, 2, 0x18, 5, 0x18, 5] = .error (.duplicateField "filesize") := by decide +kernel
  rw [h2] at h
  cases h

/-- **C176**, the codes of the types: the code that a type is converted to is the one that is read as this type. -/
theorem C176_type_codes (t : DataType) (n : Nat) : DataType.fromU64 n = .ok t ↔ n = t.toU8.toNat := by
  rw [dataType_iff]
  cases t <;> rfl

/-- What the locals of `PBLink::from_pb` say about the fields seen. -/
def LinkInv (fs : List FieldRef) (s : LinkState) : Prop :=
  AtMostOnce Raw (values 1 fs) s.hash ∧
    AtMostOnce Text (values 2 fs) s.name ∧
    AtMostOnce Uint (values 3 fs) s.tsize

theorem link_step (fs : List FieldRef) (f : FieldRef) (s' : LinkState) (hf : Small f) :
    LinkInv (fs ++ [f]) s' ↔ ∃ s, LinkInv fs s ∧ linkStep s f = .ok s' := by
  obtain ⟨x0, x1, x2⟩ := s'
  unfold LinkInv linkStep
  split
  · rename_i hk
    simp only [values_snoc, hk, Nat.reduceEqDiff, reduceIte, atMostOnce_snoc]
    constructor
    · rintro ⟨⟨hl, a, ha, rfl⟩, r1, r2⟩
      exact ⟨⟨none, x1, x2⟩, ⟨(by rw [hl, atMostOnce_nil]), r1, r2⟩, by simp only [(raw_iff _ _).mpr ha]; rfl⟩
    · rintro ⟨⟨_ | s0, s1, s2⟩, ⟨r0, r1, r2⟩, h⟩
      · simp only [bind_ok, raw_iff, Except.ok.injEq, LinkState.mk.injEq] at h
        obtain ⟨a, ha, rfl, rfl, rfl⟩ := h
        exact ⟨⟨atMostOnce_none.mp r0, _, ha, rfl⟩, r1, r2⟩
      · cases h
  · rename_i hk
    simp only [values_snoc, hk, Nat.reduceEqDiff, reduceIte, atMostOnce_snoc]
    constructor
    · rintro ⟨r0, ⟨hl, a, ha, rfl⟩, r2⟩
      exact ⟨⟨x0, none, x2⟩, ⟨r0, (by rw [hl, atMostOnce_nil]), r2⟩, by simp only [(text_iff _ _).mpr ha]; rfl⟩
    · rintro ⟨⟨s0, _ | s1, s2⟩, ⟨r0, r1, r2⟩, h⟩
      · simp only [bind_ok, text_iff, Except.ok.injEq, LinkState.mk.injEq] at h
        obtain ⟨a, ha, rfl, rfl, rfl⟩ := h
        exact ⟨r0, ⟨atMostOnce_none.mp r1, _, ha, rfl⟩, r2⟩
      · cases h
  · rename_i hk
    simp only [values_snoc, hk, Nat.reduceEqDiff, reduceIte, atMostOnce_snoc]
    constructor
    · rintro ⟨r0, r1, ⟨hl, a, ha, rfl⟩⟩
      exact ⟨⟨x0, x1, none⟩, ⟨r0, r1, (by rw [hl, atMostOnce_nil])⟩, by simp only [(uint_iff _ _).mpr ha]; rfl⟩
    · rintro ⟨⟨s0, s1, _ | s2⟩, ⟨r0, r1, r2⟩, h⟩
      · simp only [bind_ok, uint_iff, Except.ok.injEq, LinkState.mk.injEq] at h
        obtain ⟨a, ha, rfl, rfl, rfl⟩ := h
        exact ⟨r0, r1, ⟨atMostOnce_none.mp r2, _, ha, rfl⟩⟩
      · cases h
  · simp_all [values_snoc]

theorem link_iff (bs : Bytes) (hb : bs.length < 2 ^ 64) (l : PBLink) : PBLink.fromPb bs = .ok l ↔ IsLink bs l := by
  obtain ⟨x0, x1, x2⟩ := l
  have hinv := parsed_iff (Inv := LinkInv) (init := {}) (fun s => by cases s; simp [LinkInv, values_nil, atMostOnce_nil]) link_step bs hb
  unfold PBLink.fromPb IsLink
  simp only [bind_ok, okOr_iff]
  constructor
  · rintro ⟨s, h1, a, h2, h⟩
    obtain ⟨fs, hm, h3, h4⟩ := (hinv s).mp h1
    rw [h2, atMostOnce_some] at h3
    obtain ⟨d, h5, h6⟩ := h3
    have hs : a.length < 2 ^ 64 := by
      have hd : d ∈ values 1 fs := by rw [h5]; exact List.mem_singleton_self d
      simp only [values, List.mem_map, List.mem_filter] at hd
      obtain ⟨f, ⟨hf, -⟩, rfl⟩ := hd
      exact (small_of_message hm f hf).1 a h6
    cases hc : Cid.fromBytes a with
    | error e => rw [hc] at h; cases h
    | ok c =>
      rw [hc] at h
      simp only [Except.ok.injEq, PBLink.mk.injEq] at h
      obtain ⟨rfl, rfl, rfl⟩ := h
      exact ⟨fs, hm, ⟨d, h5, a, h6, (C15_accepts_exactly a c hs).mp hc⟩, h4⟩
  · rintro ⟨fs, hm, ⟨d, h5, a, h6, hc⟩, h4⟩
    have hs : a.length < 2 ^ 64 := by
      have hd : d ∈ values 1 fs := by rw [h5]; exact List.mem_singleton_self d
      simp only [values, List.mem_map, List.mem_filter] at hd
      obtain ⟨f, ⟨hf, -⟩, rfl⟩ := hd
      exact (small_of_message hm f hf).1 a h6
    refine ⟨⟨some a, x1, x2⟩, (hinv _).mpr ⟨fs, hm, atMostOnce_some.mpr ⟨d, h5, h6⟩, h4⟩, a, rfl, ?_⟩
    rw [(C15_accepts_exactly a x0 hs).mpr hc]

/-- What the locals of `PBNode::from_pb` say about the fields seen. -/
def NodeInv (fs : List FieldRef) (s : PBNode) : Prop :=
  Each (Nested IsLink) (values 2 fs) s.links ∧
    AtMostOnce Raw (values 1 fs) s.bytes

theorem node_step (fs : List FieldRef) (f : FieldRef) (s' : PBNode) (hf : Small f) :
    NodeInv (fs ++ [f]) s' ↔ ∃ s, NodeInv fs s ∧ nodeStep s f = .ok s' := by
  obtain ⟨x0, x1⟩ := s'
  unfold NodeInv nodeStep
  split
  · rename_i hk
    simp only [values_snoc, hk, Nat.reduceEqDiff, reduceIte, each_snoc]
    constructor
    · rintro ⟨⟨bs, a, hb, ha, rfl⟩, r1⟩
      exact ⟨⟨bs, x1⟩, ⟨hb, r1⟩, by obtain ⟨bs', hb', hx⟩ := ha; simp only [(toBytes_iff _ _).mpr hb', bind, Except.bind, (link_iff bs' (hf.1 bs' hb') _).mpr hx]⟩
    · rintro ⟨⟨s0, s1⟩, ⟨r0, r1⟩, h⟩
      simp only [bind_ok, toBytes_iff, Except.ok.injEq, PBNode.mk.injEq] at h
      obtain ⟨bs', hb', a, ha, rfl, rfl⟩ := h
      exact ⟨⟨s0, _, r0, ⟨bs', hb', (link_iff bs' (hf.1 bs' hb') _).mp ha⟩, rfl⟩, r1⟩
  · rename_i hk
    simp only [values_snoc, hk, Nat.reduceEqDiff, reduceIte, atMostOnce_snoc]
    constructor
    · rintro ⟨r0, ⟨hl, a, ha, rfl⟩⟩
      exact ⟨⟨x0, none⟩, ⟨r0, (by rw [hl, atMostOnce_nil])⟩, by simp only [(raw_iff _ _).mpr ha]; rfl⟩
    · rintro ⟨⟨s0, _ | s1⟩, ⟨r0, r1⟩, h⟩
      · simp only [bind_ok, raw_iff, Except.ok.injEq, PBNode.mk.injEq] at h
        obtain ⟨a, ha, rfl, rfl⟩ := h
        exact ⟨r0, ⟨atMostOnce_none.mp r1, _, ha, rfl⟩⟩
      · cases h
  · simp_all [values_snoc]

/-- **C177**: a DAG node is accepted exactly if it is a message of the published schema: any number of links in their order, each with
exactly one well-formed identifier and at most one name and one size, and at most one byte string of data; and the result has what the
message says. -/
theorem C177_node_exact (bs : Bytes) (hb : bs.length < 2 ^ 64) (n : PBNode) : PBNode.fromPb bs = .ok n ↔ IsNode bs n := by
  have hinv := parsed_iff (Inv := NodeInv) (init := ⟨[], none⟩) (fun s => by cases s; simp [NodeInv, values_nil, atMostOnce_nil, each_nil])
    node_step bs hb
  have hempty : forFields nodeStep ⟨[], none⟩ (Reader.new []) = .ok ⟨[], none⟩ :=
    (parsed_iff (Inv := NodeInv) (init := ⟨[], none⟩) (fun s => by cases s; simp [NodeInv, values_nil, atMostOnce_nil, each_nil])
      node_step [] (by decide) _).mpr ⟨[], .nil 0, by simp [NodeInv, values_nil, atMostOnce_nil, each_nil]⟩
  have h : PBNode.fromPb bs = forFields nodeStep ⟨[], none⟩ (Reader.new bs) := by
    unfold PBNode.fromPb
    cases bs with
    | nil => exact hempty.symm
    | cons b bs => rfl
  rw [h, hinv n]
  rfl

/-- A node with data and two links, the second with a size, after the data. -/
example : (PBNode.fromPb ([0x0a, 2, 7, 8] ++ [0x12, 8, 0x0a, 6, 1, 0x55, 0x12, 2, 5, 6] ++
    [0x12, 10, 0x18, 44, 0x0a, 6, 1, 0x70, 0x12, 2, 3, 4])).toOption.map (fun n => (n.links.map (·.hash.hash), n.links.map (·.tsize), n.bytes)) =
    some ([[5, 6], [3, 4]], [none, some 44], some [7, 8]) := by decide +kernel

/-- A link that has no identifier. -/
example : ¬ ∃ l, IsLink [0x18, 44] l := by
  rintro ⟨l, h⟩
  have h := (link_iff _ (by decide) l).mpr h
  have h2 : PBLink.fromPb [0x18, 44] = .error (.missingField "hash") := by decide +kernel
  rw [h2] at h
  cases h

/-- **C177**, links. -/
theorem C177_link_exact (bs : Bytes) (hb : bs.length < 2 ^ 64) (l : PBLink) : PBLink.fromPb bs = .ok l ↔ IsLink bs l := link_iff bs hb l

end Ngfs.Dagpb
