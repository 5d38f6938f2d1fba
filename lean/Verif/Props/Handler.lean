import Verif.Lemmas.Handler
import Verif.Lemmas.Slice
import Verif.Props.Cid
import Verif.Props.Io
import Verif.Props.Identify

/-! Properties of the protocol handlers of an IPFS node. -/
namespace Ngfs.Handler
open Io Cid Bitswap Dagpb Spec Spec.Io Spec.Handler

theorem finish_spec (r : Reader) (log : List Event) :
    ∃ new, (finish r log).2.2 = log ++ new ∧ identifiers new = [] ∧ listings new = [] ∧
      (finish r log).2.1.t.sent = r.t.sent ∧ (finish r log).1 ≠ .ready (.error .panic) ∧
      ((finish r log).1 = .ready (.ok ()) ↔ .shut ∈ new) ∧ (.shut ∈ new → new = [.flushed, .shut]) ∧
      (∀ e, (finish r log).1 = .ready (.error e) → ∃ k, e = .io k) := by
  unfold finish flush shutdown
  rcases flushLoop r.t.flushes with ⟨x, fs⟩
  rcases x with _ | (k | ⟨⟩)
  · exact ⟨[], by simp, rfl, rfl, rfl, nofun, by simp, by simp, nofun⟩
  · exact ⟨[], by simp, rfl, rfl, rfl, nofun, by simp, by simp, fun e h => ⟨k, by cases h; rfl⟩⟩
  · simp only
    rcases flushLoop r.t.shutdowns with ⟨y, ss⟩
    rcases y with _ | (k | ⟨⟩)
    · exact ⟨_, rfl, rfl, rfl, rfl, nofun, by simp, by simp, nofun⟩
    · exact ⟨_, rfl, rfl, rfl, rfl, nofun, by simp, by simp, fun e h => ⟨k, by cases h; rfl⟩⟩
    · exact ⟨_, rfl, rfl, rfl, rfl, nofun, by simp, by simp, nofun⟩

theorem ask_spec (want : Option (List Char)) (r : Reader) :
    view (ask want r).2.1 = view r ∧ (ask want r).2.1.t.reads = r.t.reads ∧
      (ask want r).1 ≠ .ready (.error .panic) ∧
      ((ask want r).2.2 = [] ∨ (ask want r).2.2 = [.requested]) := by
  cases want with
  | none => exact ⟨rfl, rfl, nofun, .inl rfl⟩
  | some text =>
    unfold ask
    cases hc : fromText text with
    | error e => simp [hc]
    | ok c =>
      obtain ⟨pb, hpb⟩ := message_serialises (requestMessage c)
      simp only [hc, hpb]
      have hv := request_view r pb
      obtain ⟨ws, fl, pre, hq, -, -⟩ := request_spec r pb
      generalize request r pb = Q at *
      obtain ⟨x, r'⟩ := Q
      simp only at hv hq
      subst hq
      rcases x with _ | (k | ⟨⟩)
      · exact ⟨hv, rfl, nofun, .inl rfl⟩
      · exact ⟨hv, rfl, nofun, .inl rfl⟩
      · exact ⟨hv, rfl, nofun, .inr rfl⟩

/-- Everything about a run at once. -/
theorem handle_spec (sha256 blake2b256 : Bytes → Bytes) (want : Option (List Char)) (r : Reader) :
    (∃ bs rest e blocks shown, view r = (bs ++ rest, e) ∧ Blocks bs blocks ∧ shown <+: blocks ∧
      Shown sha256 blake2b256 shown (handle sha256 blake2b256 want r).2.2) ∧
    (handle sha256 blake2b256 want r).1 ≠ .ready (.error .panic) ∧
    (handle sha256 blake2b256 want r).2.1.t.sent = (ask want r).2.1.t.sent ∧
    ((handle sha256 blake2b256 want r).1 = .ready (.ok ()) ↔ .shut ∈ (handle sha256 blake2b256 want r).2.2) ∧
    (.shut ∈ (handle sha256 blake2b256 want r).2.2 → ∃ before,
      (handle sha256 blake2b256 want r).2.2 = before ++ [.flushed, .shut] ∧ .shut ∉ before) := by
  obtain ⟨hv, hreads, hp, hlog⟩ := ask_spec want r
  unfold handle
  generalize ask want r = A at *
  obtain ⟨x, r1, log⟩ := A
  simp only at hv hreads hp hlog
  have hl0 : identifiers log = [] ∧ listings log = [] ∧ .shut ∉ log ∧ .flushed ∉ log := by
    rcases hlog with rfl | rfl <;> exact ⟨rfl, rfl, by simp, by simp⟩
  have none_ : ∃ bs rest e blocks shown, view r = (bs ++ rest, e) ∧ Blocks bs blocks ∧ shown <+: blocks ∧
      Shown sha256 blake2b256 shown log :=
    ⟨[], (view r).1, (view r).2, [], [], rfl, ⟨[], [], .nil, .nil, rfl⟩, List.prefix_rfl,
      ⟨by rw [hl0.1]; exact .nil, [], List.prefix_rfl, by simp, by rw [hl0.2.1]; exact .nil⟩⟩
  rcases x with _ | (err | ⟨⟩)
  · exact ⟨none_, nofun, rfl, ⟨nofun, fun h => (hl0.2.2.1 h).elim⟩, fun h => (hl0.2.2.1 h).elim⟩
  · exact ⟨none_, hp, rfl, ⟨nofun, fun h => (hl0.2.2.1 h).elim⟩, fun h => (hl0.2.2.1 h).elim⟩
  · simp only
    obtain ⟨new, bs, rest, e, ms, msgs, shown, h1, h2, h3, h4, h5, h6, h7, h8, h9, h10⟩ :=
      loop_spec sha256 blake2b256 (scriptSize r1.t.reads + 1) r1 log
    generalize loop sha256 blake2b256 (scriptSize r1.t.reads + 1) r1 log = L at *
    obtain ⟨y, r2, log2⟩ := L
    simp only at h1 h7 h8
    subst h1
    have h0 : ShownFully sha256 blake2b256 [] log := ⟨by rw [hl0.1]; exact .nil, by rw [hl0.2.1]; exact .nil⟩
    have hsh : Shown sha256 blake2b256 shown (log ++ new) := h0.append_shown h6
    have hview : view r = (bs ++ rest, e) := by rw [← hv, h2]
    have hnot : .shut ∉ log ++ new := by simp [hl0.2.2.1, h9]
    rcases y with _ | (err | ⟨⟩)
    · refine ⟨⟨bs, rest, e, _, shown, hview, ⟨ms, msgs, h3, h4, rfl⟩, h5, hsh⟩, nofun, ?_, ⟨nofun, fun h => (hnot h).elim⟩,
        fun h => (hnot h).elim⟩
      simp only
      rw [h8]
    · refine ⟨⟨bs, rest, e, _, shown, hview, ⟨ms, msgs, h3, h4, rfl⟩, h5, hsh⟩, h7, ?_, ⟨nofun, fun h => (hnot h).elim⟩,
        fun h => (hnot h).elim⟩
      simp only
      rw [h8]
    · simp only
      obtain ⟨end_, f1, f2, f3, f4, f5, f6, f7, -⟩ := finish_spec r2 (log ++ new)
      refine ⟨⟨bs, rest, e, _, shown, hview, ⟨ms, msgs, h3, h4, rfl⟩, h5, ?_⟩, f5, ?_, ?_, ?_⟩
      · obtain ⟨listed, k1, k2, k3⟩ := hsh.dirs
        rw [f1]
        exact ⟨by rw [identifiers_append, f2, List.append_nil]; exact hsh.ids, listed, k1, k2,
          by rw [listings_append, f3, List.append_nil]; exact k3⟩
      · rw [f4, h8]
      · rw [f1, f6]
        simp only [List.mem_append] at hnot ⊢
        tauto
      · intro h
        rw [f1] at h ⊢
        have h' : .shut ∈ end_ := by
          rcases List.mem_append.mp h with h | h
          · exact (hnot h).elim
          · exact h
        exact ⟨log ++ new, by rw [f7 h'], hnot⟩

/-! ### C120 -/

theorem toBytes_length (c : CID) (hv : ValidCid c) (h : c.hash.length < 2 ^ 62) : c.toBytes.length < 2 ^ 63 := by
  have h1 : ∀ v : Nat, v < 2 ^ 64 → (Varint.encodeU64 v).length ≤ 10 := fun v hv =>
    Varint.encode_length_le (Nat.lt_trans hv (by decide)) (by decide)
  have h4 := h1 c.hash.length (by omega)
  unfold CID.toBytes
  split
  · simp only [List.length_append, List.length_cons, List.length_nil]; omega
  · rename_i hn
    unfold ValidCid at hv
    cases hver : c.version with
    | v0 => simp only [hver] at hv; exact (hn ⟨hver, hv⟩).elim
    | v1 =>
      simp only [hver] at hv
      have h2 := h1 _ (codec_from_to hv.1).2
      have h3 := h1 _ (hash_from_to hv.2).2
      simp only [CID.toBytesV1, List.length_append, List.length_cons, List.length_nil]
      omega

/-- **C120**: with the text of an identifier, the handler writes one message, which asks the peer for exactly the block
with that identifier; it has been written in full, and flushed, if the handler goes on to read. Nothing else is ever
written, whatever the peer sends. -/
theorem C120_request (sha256 blake2b256 : Bytes → Bytes) (text : List Char) (c : CID) (r : Reader)
    (hc : fromText text = .ok c) (hv : ValidCid c) (hl : c.hash.length < 2 ^ 62) :
    ∃ m message pre, Prefixed m message ∧ AsksFor message c ∧ pre <+: m ∧
      (handle sha256 blake2b256 (some text) r).2.1.t.sent = r.t.sent ++ pre ∧
      (.requested ∈ (handle sha256 blake2b256 (some text) r).2.2 → pre = m) ∧
      (∀ x ∈ (handle sha256 blake2b256 (some text) r).2.2, x ≠ .requested →
        .requested ∈ (handle sha256 blake2b256 (some text) r).2.2) := by
  obtain ⟨pb, hpb, hrt⟩ := C10_message_round_trip (requestMessage c) (by
    intro w hw e he
    simp only [requestMessage, Option.some.injEq] at hw
    subst hw
    simp only [List.mem_singleton] at he
    subst he
    exact ⟨by show (-2 : Int) ^ 31 ≤ 1; decide, by show (1 : Int) < 2 ^ 31; decide⟩)
  have hcl : c.toBytes.length < 2 ^ 63 := toBytes_length c hv hl
  have hpl : pb.length < 2 ^ 64 := want_length c.toBytes hcl pb hpb
  have hsent := (handle_spec sha256 blake2b256 (some text) r).2.2.1
  obtain ⟨ws, fl, pre, hq, hpre, hfull⟩ := request_spec r pb
  refine ⟨framed pb, pb, pre, framed_prefixed hpl, ⟨c.toBytes, C15_bytes_round_trip c hv (by omega), hrt hpl⟩, hpre, ?_, ?_, ?_⟩
  · rw [hsent]
    unfold ask
    simp only [hc, hpb]
    generalize request r pb = Q at hq
    obtain ⟨x, r'⟩ := Q
    simp only at hq
    subst hq
    rcases x with _ | (k | ⟨⟩) <;> rfl
  · intro hin
    apply hfull
    unfold handle ask at hin
    simp only [hc, hpb] at hin
    generalize request r pb = Q at hin
    obtain ⟨x, r'⟩ := Q
    rcases x with _ | (k | ⟨⟩)
    · simp at hin
    · simp at hin
    · rfl
  · intro x hx _
    unfold handle ask at hx ⊢
    simp only [hc, hpb] at hx ⊢
    generalize request r pb = Q at hx
    obtain ⟨q, r'⟩ := Q
    rcases q with _ | (k | ⟨⟩)
    · simp at hx
    · simp at hx
    · simp only
      obtain ⟨new, bs, rest, e, ms, msgs, shown, h1, -⟩ :=
        loop_spec sha256 blake2b256 (scriptSize r'.t.reads + 1) r' [.requested]
      generalize loop sha256 blake2b256 (scriptSize r'.t.reads + 1) r' [.requested] = L at h1
      obtain ⟨y, r2, log2⟩ := L
      simp only at h1
      subst h1
      rcases y with _ | (err | ⟨⟩)
      · simp
      · simp
      · simp only
        obtain ⟨end_, f1, -⟩ := finish_spec r2 ([.requested] ++ new)
        rw [f1]
        simp

/-- **C120**: without an identifier, nothing is ever written. -/
theorem C120_silent (sha256 blake2b256 : Bytes → Bytes) (r : Reader) :
    (handle sha256 blake2b256 none r).2.1.t.sent = r.t.sent := (handle_spec sha256 blake2b256 none r).2.2.1

/-- **C120**: a text that is not an identifier is refused before anything is written or read. -/
theorem C120_bad_text (sha256 blake2b256 : Bytes → Bytes) (text : List Char) (e : ParseError) (r : Reader)
    (hc : fromText text = .error e) :
    handle sha256 blake2b256 (some text) r = (.ready (.error (.cid e)), r, []) := by
  simp [handle, ask, hc]

/-! ### C121 -/

theorem request_same (r1 r2 : Reader) (data : Bytes) (hw : r1.t.writes = r2.t.writes) (hf : r1.t.flushes = r2.t.flushes)
    (hs : r1.t.shutdowns = r2.t.shutdowns) (hsent : r1.t.sent = r2.t.sent) :
    (request r1 data).1 = (request r2 data).1 ∧ (request r1 data).2.t.flushes = (request r2 data).2.t.flushes ∧
    (request r1 data).2.t.shutdowns = (request r2 data).2.t.shutdowns ∧
    (request r1 data).2.t.sent = (request r2 data).2.t.sent := by
  obtain ⟨⟨e1, w, f, s, sent⟩, l1⟩ := r1
  obtain ⟨⟨e2, w2, f2, s2, sent2⟩, l2⟩ := r2
  simp only at hw hf hs hsent
  subst hw hf hs hsent
  unfold request writeLengthPrefixed writeAll flush
  simp only
  rcases writeAllLoop w (Varint.encodeU64 data.length) sent with ⟨x, ws, st⟩
  rcases x with _ | (k | ⟨⟩)
  · exact ⟨rfl, rfl, rfl, rfl⟩
  · exact ⟨rfl, rfl, rfl, rfl⟩
  · simp only
    rcases writeAllLoop ws data st with ⟨x, ws, st⟩
    rcases x with _ | (k | ⟨⟩)
    · exact ⟨rfl, rfl, rfl, rfl⟩
    · exact ⟨rfl, rfl, rfl, rfl⟩
    · exact ⟨rfl, rfl, rfl, rfl⟩

theorem ask_same (want : Option (List Char)) (r1 r2 : Reader) (hw : r1.t.writes = r2.t.writes)
    (hf : r1.t.flushes = r2.t.flushes) (hs : r1.t.shutdowns = r2.t.shutdowns) (hsent : r1.t.sent = r2.t.sent) :
    (ask want r1).1 = (ask want r2).1 ∧ (ask want r1).2.2 = (ask want r2).2.2 ∧
    (ask want r1).2.1.t.flushes = (ask want r2).2.1.t.flushes ∧
    (ask want r1).2.1.t.shutdowns = (ask want r2).2.1.t.shutdowns ∧
    (ask want r1).2.1.t.sent = (ask want r2).2.1.t.sent := by
  cases want with
  | none => exact ⟨rfl, rfl, hf, hs, hsent⟩
  | some text =>
    unfold ask
    cases hc : fromText text with
    | error e => simp [hc, hf, hs, hsent]
    | ok c =>
      obtain ⟨pb, hpb⟩ := message_serialises (requestMessage c)
      simp only [hc, hpb]
      obtain ⟨h1, h2, h3, h4⟩ := request_same r1 r2 pb hw hf hs hsent
      generalize request r1 pb = Q1 at *
      generalize request r2 pb = Q2 at *
      obtain ⟨x, q1⟩ := Q1
      obtain ⟨x2, q2⟩ := Q2
      simp only at h1 h2 h3 h4
      subst h1
      rcases x with _ | (k | ⟨⟩) <;> exact ⟨rfl, rfl, h2, h3, h4⟩

/-- **C121**: whatever arrives, each identifier shown is the hash of the data of a block that has arrived, under the hash
function named in the prefix it came with, and each directory shown is the one encoded in that data. The blocks shown are the
first of those received, in the order of their arrival; at most the last of them is shown without its contents. -/
theorem C121_shown (sha256 blake2b256 : Bytes → Bytes) (want : Option (List Char)) (r : Reader) :
    ∃ bs rest e blocks shown listed, view r = (bs ++ rest, e) ∧ Blocks bs blocks ∧ shown <+: blocks ∧
      List.Forall₂ (Identifies sha256 blake2b256) shown (identifiers (handle sha256 blake2b256 want r).2.2) ∧
      listed <+: shown ∧ shown.length ≤ listed.length + 1 ∧
      List.Forall₂ Lists listed (listings (handle sha256 blake2b256 want r).2.2) := by
  obtain ⟨⟨bs, rest, e, blocks, shown, h1, h2, h3, h4⟩, -⟩ := handle_spec sha256 blake2b256 want r
  obtain ⟨listed, h5, h6, h7⟩ := h4.dirs
  exact ⟨bs, rest, e, blocks, shown, listed, h1, h2, h3, h4.ids, h5, h6, h7⟩

/-- **C121**: how the transport cuts the incoming bytes changes nothing. -/
theorem C121_chunking (sha256 blake2b256 : Bytes → Bytes) (want : Option (List Char)) (r1 r2 : Reader)
    (hv : view r1 = view r2) (hw : r1.t.writes = r2.t.writes) (hf : r1.t.flushes = r2.t.flushes)
    (hs : r1.t.shutdowns = r2.t.shutdowns) (hsent : r1.t.sent = r2.t.sent) :
    (handle sha256 blake2b256 want r1).1 = (handle sha256 blake2b256 want r2).1 ∧
    (handle sha256 blake2b256 want r1).2.2 = (handle sha256 blake2b256 want r2).2.2 ∧
    (handle sha256 blake2b256 want r1).2.1.t.sent = (handle sha256 blake2b256 want r2).2.1.t.sent := by
  have hsent1 := (handle_spec sha256 blake2b256 want r1).2.2.1
  have hsent2 := (handle_spec sha256 blake2b256 want r2).2.2.1
  obtain ⟨a1, a2, a3, a4, a5⟩ := ask_same want r1 r2 hw hf hs hsent
  obtain ⟨v1, -⟩ := ask_spec want r1
  obtain ⟨v2, -⟩ := ask_spec want r2
  refine ⟨?_, ?_, by rw [hsent1, hsent2, a5]⟩ <;>
  · clear hsent1 hsent2
    unfold handle
    generalize ask want r1 = A1 at *
    generalize ask want r2 = A2 at *
    obtain ⟨x, q1, log⟩ := A1
    obtain ⟨x2, q2, log2⟩ := A2
    simp only at a1 a2 a3 a4 a5 v1 v2
    subst a1 a2
    rcases x with _ | (err | ⟨⟩)
    · rfl
    · rfl
    · simp only
      obtain ⟨l1, l2⟩ := loop_view sha256 blake2b256 (scriptSize q1.t.reads + 1) (scriptSize q2.t.reads + 1) q1 q2 log
        (by omega) (by omega) (by rw [v1, v2, hv])
      obtain ⟨_, _, _, _, _, _, _, -, -, -, -, -, -, -, t1, -⟩ :=
        loop_spec sha256 blake2b256 (scriptSize q1.t.reads + 1) q1 log
      obtain ⟨_, _, _, _, _, _, _, -, -, -, -, -, -, -, t2, -⟩ :=
        loop_spec sha256 blake2b256 (scriptSize q2.t.reads + 1) q2 log
      generalize loop sha256 blake2b256 (scriptSize q1.t.reads + 1) q1 log = L1 at *
      generalize loop sha256 blake2b256 (scriptSize q2.t.reads + 1) q2 log = L2 at *
      obtain ⟨y, p1, m1⟩ := L1
      obtain ⟨y2, p2, m2⟩ := L2
      simp only at l1 l2 t1 t2
      subst l1 l2
      rcases y with _ | (err | ⟨⟩)
      · rfl
      · rfl
      · have e1 : p1.t.flushes = p2.t.flushes := by rw [t1, t2]; exact a3
        have e2 : p1.t.shutdowns = p2.t.shutdowns := by rw [t1, t2]; exact a4
        unfold finish flush shutdown
        simp only [e1]
        rcases flushLoop p2.t.flushes with ⟨z, fs⟩
        rcases z with _ | (k | ⟨⟩)
        · rfl
        · rfl
        · simp only [e2]
          rcases flushLoop p2.t.shutdowns with ⟨z, fs⟩
          rcases z with _ | (k | ⟨⟩) <;> rfl

/-! ### C122 -/

/-- The property C122: with an identifier, only the block it names is shown. -/
def C122_statement : Prop :=
  ∀ (sha256 blake2b256 : Bytes → Bytes) (text : List Char) (c : CID) (r : Reader), fromText text = .ok c →
    ∀ c' ∈ identifiers (handle sha256 blake2b256 (some text) r).2.2, c' = c

private def exBlock : Bytes := [14, 0x1a, 12, 0x0a, 4, 1, 0x70, 0x12, 0x20, 0x12, 4, 0x0a, 2, 8, 1]
private def exWanted : CID := ⟨.v1, .dagPB, .sha2256, [1, 2, 3]⟩
private def exReader : Reader :=
  ⟨⟨[.ready exBlock, .ready []], List.replicate 9 (.accept 99), [.ok, .ok], [.ok], []⟩, []⟩

example : fromText exWanted.toText = .ok exWanted ∧ ValidCid exWanted ∧ exWanted.hash.length < 2 ^ 62 :=
  ⟨by decide +kernel, ⟨trivial, trivial⟩, by decide⟩
example : (handle id id (some exWanted.toText) exReader).1 = .ready (.ok ()) ∧
    .requested ∈ (handle id id (some exWanted.toText) exReader).2.2 := by decide +kernel
example : ∃ e, fromText "Qm!".toList = .error e := ⟨_, by rfl⟩
example : view exReader = view ⟨⟨[.ready (exBlock.take 3), .pending, .ready (exBlock.drop 3), .ready []], [], [], [], []⟩, []⟩ := by
  decide +kernel

/-- The block in `exBlock`. -/
theorem exBlock_blocks : Blocks exBlock [⟨[1, 0x70, 0x12, 0x20], [0x0a, 2, 8, 1]⟩] :=
  ⟨[exBlock.drop 1], [⟨none, [⟨[1, 0x70, 0x12, 0x20], [0x0a, 2, 8, 1]⟩], [], [], none⟩],
    Messages.cons (b := exBlock) (bs := []) (m := exBlock.drop 1)
      ⟨[14], rfl, ⟨[], 14, rfl, by simp, by decide⟩, by decide, by decide⟩ .nil, .cons (by decide +kernel) .nil, rfl⟩

/-- **C122** is false: the identifier of a block that arrives is never compared with the one asked for. -/
theorem C122_false : ¬ C122_statement := by
  intro h
  have h1 := h id id exWanted.toText exWanted exReader (by decide +kernel) ⟨.v1, .dagPB, .sha2256, [0x0a, 2, 8, 1]⟩
    (by decide +kernel)
  revert h1
  decide

/-- **C122**, partial: if the peer sends no other block than the one asked for, only that one is shown. Missing: that
other blocks are dropped (`C122_false`). -/
theorem C122_honest_peer_partial (sha256 blake2b256 : Bytes → Bytes) (want : Option (List Char)) (c : CID) (r : Reader)
    (hp : ∀ bs rest e blocks, view r = (bs ++ rest, e) → Blocks bs blocks → ∀ b ∈ blocks, Identifies sha256 blake2b256 b c) :
    ∀ c' ∈ identifiers (handle sha256 blake2b256 want r).2.2, c' = c := by
  obtain ⟨bs, rest, e, blocks, shown, listed, h1, h2, h3, h4, -⟩ := C121_shown sha256 blake2b256 want r
  have hb := fun b hb => hp bs rest e blocks h1 h2 b (h3.subset hb)
  intro c' hc'
  have key : ∀ (l : List Block) (cs : List CID), List.Forall₂ (Identifies sha256 blake2b256) l cs →
      ∀ x ∈ cs, ∃ b ∈ l, Identifies sha256 blake2b256 b x := by
    intro l cs h
    induction h with
    | nil => simp
    | cons h _ ih =>
      intro x hx
      rcases List.mem_cons.mp hx with rfl | hx
      · exact ⟨_, by simp, h⟩
      · obtain ⟨b, hb, h⟩ := ih x hx
        exact ⟨b, by simp [hb], h⟩
  obtain ⟨b, hb', hi⟩ := key _ _ h4 c' hc'
  have h5 := (received_iff _ _ _ _).mpr hi
  have h6 := (received_iff _ _ _ _).mpr (hb b hb')
  rw [h5] at h6
  exact Except.ok.inj h6

/-- A peer that sends the block of `exBlock` and nothing else meets the hypothesis. -/
example : ∀ bs rest e blocks, view exReader = (bs ++ rest, e) → Blocks bs blocks →
    ∀ b ∈ blocks, Identifies id id b ⟨.v1, .dagPB, .sha2256, [0x0a, 2, 8, 1]⟩ := by
  rintro bs rest e blocks hv ⟨ms, msgs, h1, h2, rfl⟩
  have hx : view exReader = (exBlock, .eof) := by decide +kernel
  rw [hx] at hv
  have hbs : exBlock ++ [] = bs ++ rest := by rw [List.append_nil]; exact congrArg Prod.fst hv
  cases h1 with
  | nil => cases h2; simp
  | @cons b bs m ms hb hms =>
    cases h2 with
    | @cons _ msg _ msgs hm hmsgs =>
      have hp : Prefixed exBlock (exBlock.drop 1) :=
        ⟨[14], rfl, ⟨[], 14, rfl, by simp, by decide⟩, by decide, by decide⟩
      rw [List.append_assoc] at hbs
      obtain ⟨-, rfl, hrest⟩ := prefixed_unique hp hb hbs
      have hnil : bs = [] := (List.append_eq_nil_iff.mp hrest.symm).1
      cases hms with
      | cons hb' _ => exact (prefixed_ne_nil hb' (List.append_eq_nil_iff.mp hnil).1).elim
      | nil =>
        cases hmsgs
        have hmsg : Message.fromPb (exBlock.drop 1) =
            .ok ⟨none, [⟨[1, 0x70, 0x12, 0x20], [0x0a, 2, 8, 1]⟩], [], [], none⟩ := by decide +kernel
        rw [hmsg] at hm
        cases hm
        intro b hb
        simp only [List.flatMap_cons, List.flatMap_nil, List.append_nil, List.mem_singleton] at hb
        subst hb
        exact ⟨⟨.v1, .dagPB, .sha2256, 32⟩, id, by decide +kernel, rfl, rfl, rfl, rfl, rfl⟩

/-! ### C123 -/

/-- The property C123: when the handler ends, it has shut the stream down, if flushing and shutting down work. -/
def C123_statement : Prop :=
  ∀ (sha256 blake2b256 : Bytes → Bytes) (want : Option (List Char)) (r : Reader) (x : Except Error Unit),
    (∀ e ∈ r.t.flushes ++ r.t.shutdowns, e = .ok) → 2 ≤ r.t.flushes.length → 1 ≤ r.t.shutdowns.length →
    (handle sha256 blake2b256 want r).1 = .ready x → .shut ∈ (handle sha256 blake2b256 want r).2.2

/-- A peer that sends a block whose data is not a node. -/
private def exRaw : Bytes := [11, 0x1a, 9, 0x0a, 4, 1, 0x55, 0x12, 0x20, 0x12, 1, 1]

/-- **C123** is false: a block that cannot be shown ends the handler without the stream being shut down. -/
theorem C123_false : ¬ C123_statement := by
  intro h
  have h1 := h id id none ⟨⟨[.ready exRaw, .ready []], [], [.ok, .ok], [.ok], []⟩, []⟩ (.error (.pb (.read (.endOfFile 1 .bits64))))
    (by decide) (by decide) (by decide) (by decide +kernel)
  revert h1
  decide +kernel

/-- **C123**, partial: the handler reports success exactly if it has flushed and shut the stream down, and that is
the last thing it does. Missing: the shutdown after an error (`C123_false`). -/
theorem C123_success_partial (sha256 blake2b256 : Bytes → Bytes) (want : Option (List Char)) (r : Reader) :
    ((handle sha256 blake2b256 want r).1 = .ready (.ok ()) ↔ .shut ∈ (handle sha256 blake2b256 want r).2.2) ∧
    (.shut ∈ (handle sha256 blake2b256 want r).2.2 → ∃ before,
      (handle sha256 blake2b256 want r).2.2 = before ++ [.flushed, .shut] ∧ .shut ∉ before) :=
  (handle_spec sha256 blake2b256 want r).2.2.2

/-! ### C124 -/

/-- The property C124: every block that arrives and whose hash function is supported is shown. -/
def C124_statement : Prop :=
  ∀ (sha256 blake2b256 : Bytes → Bytes) (r : Reader) (bs : Bytes) (blocks : List Block), view r = (bs, .eof) →
    Blocks bs blocks → (∀ b ∈ blocks, ∃ c, Identifies sha256 blake2b256 b c) →
    List.Forall₂ (Identifies sha256 blake2b256) blocks (identifiers (handle sha256 blake2b256 none r).2.2)

/-- One message with two blocks, the first of which holds raw data. -/
private def exTwo : Bytes :=
  [25, 0x1a, 9, 0x0a, 4, 1, 0x55, 0x12, 0x20, 0x12, 1, 1, 0x1a, 12, 0x0a, 4, 1, 0x70, 0x12, 0x20, 0x12, 4, 0x0a, 2, 8, 1]

/-- **C124** is false: a block with raw data, which is how the leaves of files are stored, ends the handler, and the blocks
behind it are not shown. -/
theorem C124_false : ¬ C124_statement := by
  intro h
  have h1 := h id id ⟨⟨[.ready exTwo, .ready []], [], [.ok], [.ok], []⟩, []⟩ exTwo
    [⟨[1, 0x55, 0x12, 0x20], [1]⟩, ⟨[1, 0x70, 0x12, 0x20], [0x0a, 2, 8, 1]⟩] (by decide +kernel)
    ⟨[exTwo.drop 1], [⟨none, [⟨[1, 0x55, 0x12, 0x20], [1]⟩, ⟨[1, 0x70, 0x12, 0x20], [0x0a, 2, 8, 1]⟩], [], [], none⟩],
      Messages.cons (b := exTwo) (bs := []) (m := exTwo.drop 1) ⟨[25], rfl, ⟨[], 25, rfl, by simp, by decide⟩, by decide, by decide⟩ .nil,
      .cons (by decide +kernel) .nil, rfl⟩
    (by
      intro b hb
      simp only [List.mem_cons, List.not_mem_nil, or_false] at hb
      rcases hb with rfl | rfl
      · exact ⟨⟨.v1, .raw, .sha2256, [1]⟩, ⟨.v1, .raw, .sha2256, 32⟩, id, by decide +kernel, rfl, rfl, rfl, rfl, rfl⟩
      · exact ⟨⟨.v1, .dagPB, .sha2256, [0x0a, 2, 8, 1]⟩, ⟨.v1, .dagPB, .sha2256, 32⟩, id, by decide +kernel, rfl, rfl, rfl,
          rfl, rfl⟩)
  have h2 := h1.length_eq
  revert h2
  decide +kernel

/-- **C124**, partial: if all messages decode and all blocks in them are directories with a supported hash function, all
of them are shown, in order, with their entries, and the handler notices the end of the stream. Missing: blocks that
are not directories, which end the handler (`C124_false`). -/
theorem C124_directories_partial (sha256 blake2b256 : Bytes → Bytes) (r : Reader) (bs : Bytes) (blocks : List Block)
    (hv : view r = (bs, .eof)) (hb : Blocks bs blocks)
    (hall : ∀ b ∈ blocks, ∃ c es, Identifies sha256 blake2b256 b c ∧ Lists b es) :
    List.Forall₂ (Identifies sha256 blake2b256) blocks (identifiers (handle sha256 blake2b256 none r).2.2) ∧
    List.Forall₂ Lists blocks (listings (handle sha256 blake2b256 none r).2.2) ∧
    .closed ∈ (handle sha256 blake2b256 none r).2.2 := by
  obtain ⟨ms, msgs, h1, h2, rfl⟩ := hb
  obtain ⟨k1, new, k2, k3, k4⟩ := loop_complete sha256 blake2b256 h1 msgs (scriptSize r.t.reads + 1) r [] (by omega) hv h2 hall
  unfold handle ask
  simp only
  generalize loop sha256 blake2b256 (scriptSize r.t.reads + 1) r [] = L at *
  obtain ⟨y, r2, log2⟩ := L
  simp only at k1 k2
  subst k1
  obtain ⟨end_, f1, f2, f3, -⟩ := finish_spec r2 log2
  simp only
  rw [f1, k2, identifiers_append, listings_append, f2, f3]
  simp only [List.nil_append, List.append_nil, List.mem_append]
  exact ⟨k3.ids, k3.dirs, .inl k4⟩

example : view exReader = (exBlock, .eof) ∧ Blocks exBlock [⟨[1, 0x70, 0x12, 0x20], [0x0a, 2, 8, 1]⟩] ∧
    ∀ b ∈ [(⟨[1, 0x70, 0x12, 0x20], [0x0a, 2, 8, 1]⟩ : Block)], ∃ c es, Identifies id id b c ∧ Lists b es := by
  refine ⟨by decide +kernel, exBlock_blocks, ?_⟩
  intro b hb
  simp only [List.mem_singleton] at hb
  subst hb
  exact ⟨⟨.v1, .dagPB, .sha2256, [0x0a, 2, 8, 1]⟩, [], ⟨⟨.v1, .dagPB, .sha2256, 32⟩, id, by decide +kernel, rfl, rfl, rfl,
    rfl, rfl⟩, by unfold Lists; decide +kernel⟩

/-- **C124**, what else happens: if messages that decode arrive, whatever follows them, and `b` is the first block in them that has no
supported hash function or is not a directory, the blocks before it are shown with their entries, of `b` only the identifier
is, if its hash function is supported, nothing behind it is shown, and the handler ends with an error. -/
theorem C124_first_other_partial (sha256 blake2b256 : Bytes → Bytes) (r : Reader) (bs rest : Bytes) (e : End)
    (good later : List Block) (b : Block) (hv : view r = (bs ++ rest, e)) (hb : Blocks bs (good ++ b :: later))
    (hgood : ∀ g ∈ good, ∃ c es, Identifies sha256 blake2b256 g c ∧ Lists g es)
    (hbad : ¬ ((∃ c, Identifies sha256 blake2b256 b c) ∧ ∃ es, Lists b es)) :
    (∃ err, (handle sha256 blake2b256 none r).1 = .ready (.error err)) ∧
    List.Forall₂ Lists good (listings (handle sha256 blake2b256 none r).2.2) ∧
    ((∃ c, Identifies sha256 blake2b256 b c) →
      List.Forall₂ (Identifies sha256 blake2b256) (good ++ [b]) (identifiers (handle sha256 blake2b256 none r).2.2)) ∧
    ((¬ ∃ c, Identifies sha256 blake2b256 b c) →
      List.Forall₂ (Identifies sha256 blake2b256) good (identifiers (handle sha256 blake2b256 none r).2.2)) := by
  obtain ⟨ms, msgs, h1, h2, h3⟩ := hb
  obtain ⟨err, n1, n2, k1, k2, k3, k4, k5⟩ := loop_stops sha256 blake2b256 h1 b hbad msgs good later
    (scriptSize r.t.reads + 1) r [] rest e (by omega) hv h2 h3.symm hgood
  unfold handle ask
  simp only
  generalize loop sha256 blake2b256 (scriptSize r.t.reads + 1) r [] = L at *
  obtain ⟨y, r2, log2⟩ := L
  simp only at k1 k2
  subst k1 k2
  simp only [List.nil_append]
  rw [identifiers_append, listings_append, k4, List.append_nil]
  refine ⟨⟨err, rfl⟩, k3.dirs, fun hc => ?_, fun hc => ?_⟩
  · rcases k5 with ⟨-, k⟩ | ⟨c, k, hi⟩
    · exact (k hc).elim
    · rw [k]; exact List.rel_append k3.ids (.cons hi .nil)
  · rcases k5 with ⟨k, -⟩ | ⟨c, k, hi⟩
    · rw [k, List.append_nil]; exact k3.ids
    · exact (hc ⟨c, hi⟩).elim

/-- The two blocks of `C124_false`: nothing is good before the first, which is raw data with a supported hash function. -/
example : ¬ ∃ es, Lists ⟨[1, 0x55, 0x12, 0x20], [1]⟩ es := by
  rintro ⟨es, h⟩
  have : (nodeFromDagpbData [1]).toOption.isSome = false := by decide +kernel
  rw [Lists] at h
  simp [h, Except.toOption] at this

/-! ### C126 -/

/-- **C126**: whatever the peer sends, the handler does not panic. -/
theorem C126_no_panic (sha256 blake2b256 : Bytes → Bytes) (want : Option (List Char)) (r : Reader) :
    (handle sha256 blake2b256 want r).1 ≠ .ready (.error .panic) := (handle_spec sha256 blake2b256 want r).2.1

/-! ### C125 -/

/-- **C125**: what the identify handler writes when it succeeds is one message, and a peer that reads it with the identify
client, however the transport cuts it, gets the protocol and agent versions, the Ed25519 public key of the node, the
addresses and the protocols the handler put in. The stream has then been flushed and shut down. -/
theorem C125_identified (publicKey : Bytes) (r : Reader) (hk : publicKey.length < 2 ^ 62)
    (h : (identify publicKey r).1 = .ready (.ok ())) :
    (identify publicKey r).2.2 = [.flushed, .shut] ∧
    ∃ m, (identify publicKey r).2.1.t.sent = r.t.sent ++ m ∧
      ∀ (q : Reader) (rest : Bytes) (e : End), view q = (m ++ rest, e) →
        ∃ id, (identifyClient q).1 = .ready (.ok (some id)) ∧ view (identifyClient q).2 = (rest, e) ∧
          id.publicKey = ⟨.ed25519, publicKey⟩ ∧ id.protocolVersion = "ipfs/0.1.0" ∧ id.agentVersion = "test/0.0.0" ∧
          id.protocols = ["/ipfs/id/1.0.0", "/ipfs/bitswap/1.2.0"] ∧
          id.listenAddrs = [[.ip4 [127, 0, 0, 1], .tcp 4001]] ∧ id.observedAddr = [.ip4 [127, 0, 0, 1], .tcp 4004] ∧
          id.signedPeerRecord = none := by
  obtain ⟨pb, hpb, hrt⟩ := Identify.C11_identify_round_trip (identifyMessage publicKey) (by
    constructor
    · intro as has
      simp only [identifyMessage, List.mem_singleton] at has
      subst has
      simp [KnownAddr]
    · simp [identifyMessage, KnownAddr])
  have hpl : pb.length < 2 ^ 64 := by
    refine Identify.identify_length _ hk [10, 4, 8, 0, 18, 0, 18, 8, 4, 127, 0, 0, 1, 6, 15, 161, 26, 14, 47, 105, 112, 102,
      115, 47, 105, 100, 47, 49, 46, 48, 46, 48, 26, 19, 47, 105, 112, 102, 115, 47, 98, 105, 116, 115, 119, 97, 112, 47, 49,
      46, 50, 46, 48, 34, 8, 4, 127, 0, 0, 1, 6, 15, 164, 42, 10, 105, 112, 102, 115, 47, 48, 46, 49, 46, 48, 50, 10, 116,
      101, 115, 116, 47, 48, 46, 48, 46, 48] ?_ (by decide) pb hpb
    show (Identify.Identify.mk "ipfs/0.1.0" "test/0.0.0" ⟨.rsa, []⟩ [[.ip4 [127, 0, 0, 1], .tcp 4001]]
      [.ip4 [127, 0, 0, 1], .tcp 4004] ["/ipfs/id/1.0.0", "/ipfs/bitswap/1.2.0"] none).toPb = _
    decide +kernel
  unfold identify at h ⊢
  simp only [hpb] at h ⊢
  obtain ⟨ws, pre, h1, -, h3⟩ := writeLengthPrefixed_spec r.t pb
  generalize writeLengthPrefixed r.t pb = W at *
  obtain ⟨x, t1⟩ := W
  simp only at h1 h3
  rcases x with _ | (k | ⟨⟩)
  · cases h
  · cases h
  · simp only at h ⊢
    obtain ⟨end_, f1, -, -, f4, -, f6, f7, -⟩ := finish_spec { r with t := t1 } []
    refine ⟨?_, framed pb, ?_, ?_⟩
    · rw [f1, f7 (f6.mp h)]; rfl
    · rw [f4, h1, h3 rfl]
    · intro q rest e hv
      have hread : (readOptLengthPrefixed q).1 = .ready (.ok (some pb)) := by
        rw [C40_read_exact, hv]
        exact .message rest e (framed_prefixed hpl)
      obtain ⟨m', rest', e', g1, g2, g3⟩ := C40_takes_exactly_the_message q pb hread
      rw [hv] at g2
      obtain ⟨-, -, hrest⟩ := prefixed_unique (framed_prefixed hpl) g1 (congrArg Prod.fst g2)
      have hend : e = e' := congrArg Prod.snd g2
      subst hrest hend
      unfold identifyClient
      generalize readOptLengthPrefixed q = Q at hread g3
      obtain ⟨y, q'⟩ := Q
      simp only at hread g3
      subst hread
      simp only [hrt hpl]
      exact ⟨_, rfl, g3, rfl, rfl, rfl, rfl, rfl, rfl, rfl⟩

/-- **C125**: the client shows nothing that has not arrived in full: it shows a message only if the stream begins with
one, and reports an error if the stream ends inside. -/
theorem C125_client (q : Reader) :
    (∀ id, (identifyClient q).1 = .ready (.ok (some id)) ↔
      ∃ m data rest e, view q = (m ++ rest, e) ∧ Prefixed m data ∧ Identify.Identify.fromPb data = .ok id) ∧
    (∀ bs, view q = (bs, .eof) → bs ≠ [] → Unfinished bs → (identifyClient q).1 = .ready (.error (.io .unexpectedEof))) := by
  have hs := readOptLengthPrefixed_spec q
  constructor
  · intro id
    constructor
    · intro h
      unfold identifyClient at h
      generalize readOptLengthPrefixed q = Q at hs h
      obtain ⟨y, q'⟩ := Q
      rcases y with _ | (k | (_ | data))
      · cases h
      · cases h
      · cases h
      · simp only at h
        cases hd : Identify.Identify.fromPb data with
        | error e => simp [hd] at h
        | ok id' =>
          simp only [hd] at h
          cases h
          obtain ⟨m, hm, ht⟩ := hs.2 data rfl
          obtain ⟨rest, e, hv, -⟩ := ht.view
          exact ⟨m, data, rest, e, hv, hm, hd⟩
    · rintro ⟨m, data, rest, e, hv, hm, hd⟩
      have hread : (readOptLengthPrefixed q).1 = .ready (.ok (some data)) := by
        rw [C40_read_exact, hv]
        exact .message rest e hm
      unfold identifyClient
      generalize readOptLengthPrefixed q = Q at hread
      obtain ⟨y, q'⟩ := Q
      simp only at hread
      subst hread
      simp only [hd]
  · intro bs hv hne hu
    have hread : (readOptLengthPrefixed q).1 = .ready (.error .unexpectedEof) := by
      rw [C40_read_exact, hv]
      exact .cut hu hne
    unfold identifyClient
    generalize readOptLengthPrefixed q = Q at hread
    obtain ⟨y, q'⟩ := Q
    simp only at hread
    subst hread
    rfl

private def exKey : Bytes := List.replicate 32 7
private def exServer : Reader := ⟨⟨[], [.accept 1, .pending, .accept 50, .accept 500, .accept 500], [.pending, .ok], [.ok], []⟩, []⟩
example : (identify exKey exServer).1 = .ready (.ok ()) := by decide +kernel
example : (identifyClient ⟨⟨[.ready ((identify exKey exServer).2.1.t.sent.take 3), .pending,
    .ready ((identify exKey exServer).2.1.t.sent.drop 3), .ready []], [], [], [], []⟩, []⟩).1 =
    .ready (.ok (some (identifyMessage exKey))) := by decide +kernel

/-! ### C127 -/

theorem lookup_append {H : Type} (a b : Registry H) (req : Bytes) :
    Registry.lookup (a ++ b) req = (Registry.lookup a req).or (Registry.lookup b req) := by
  induction a with
  | nil => simp [Registry.lookup]
  | cons x a ih =>
    obtain ⟨n, h⟩ := x
    simp only [List.cons_append, Registry.lookup]
    split
    · simp
    · exact ih

theorem lookup_add {H : Type} (r : Registry H) (name : String) (h : H) (req : Bytes) :
    Registry.lookup (r.add name h) req =
      (Registry.lookup r req).or (if utf8Encode name ++ [10] = req then some h else none) := by
  rw [Registry.add, lookup_append]
  simp [Registry.lookup]

/-- **C127**: a request finds a service exactly if it is the name of a registered service followed by a newline, and then
it finds the one registered first under this name. -/
theorem C127_lookup {H : Type} (regs : List (String × H)) (req : Bytes) (h : H) :
    Registry.lookup (regs.foldl (fun r x => r.add x.1 x.2) []) req = some h ↔
      ∃ name pre post, req = utf8Encode name ++ [10] ∧ regs = pre ++ (name, h) :: post ∧ name ∉ pre.map (·.1) := by
  have key : ∀ r0 : Registry H, Registry.lookup (regs.foldl (fun r x => r.add x.1 x.2) r0) req = some h ↔
      Registry.lookup r0 req = some h ∨ (Registry.lookup r0 req = none ∧
        ∃ name pre post, req = utf8Encode name ++ [10] ∧ regs = pre ++ (name, h) :: post ∧ name ∉ pre.map (·.1)) := by
    induction regs with
    | nil => intro r0; simp
    | cons x regs ih =>
      intro r0
      obtain ⟨n, g⟩ := x
      rw [List.foldl_cons, ih, lookup_add]
      cases hl : Registry.lookup r0 req with
      | some h' => simp
      | none =>
        simp only [Option.none_or, reduceCtorEq, true_and, false_or]
        by_cases hn : utf8Encode n ++ [10] = req
        · simp only [if_pos hn, Option.some.injEq, reduceCtorEq, false_and, or_false]
          constructor
          · rintro rfl
            exact ⟨n, [], regs, hn.symm, rfl, by simp⟩
          · rintro ⟨name, pre, post, h1, h2, h3⟩
            have hnn : n = name := by
              rw [h1] at hn
              exact utf8Encode_inj (List.append_cancel_right hn)
            cases pre with
            | nil => cases h2; rfl
            | cons y pre =>
              simp only [List.cons_append, List.cons.injEq] at h2
              rw [← h2.1] at h3
              simp [hnn] at h3
        · simp only [if_neg hn, reduceCtorEq, false_or, true_and]
          constructor
          · rintro ⟨name, pre, post, h1, h2, h3⟩
            refine ⟨name, (n, g) :: pre, post, h1, by rw [h2]; rfl, ?_⟩
            simp only [List.map_cons, List.mem_cons, not_or]
            refine ⟨?_, h3⟩
            rintro rfl
            exact hn h1.symm
          · rintro ⟨name, pre, post, h1, h2, h3⟩
            cases pre with
            | nil =>
              simp only [List.nil_append, List.cons.injEq, Prod.mk.injEq] at h2
              obtain ⟨⟨rfl, -⟩, -⟩ := h2
              exact (hn h1.symm).elim
            | cons y pre =>
              simp only [List.cons_append, List.cons.injEq] at h2
              simp only [List.map_cons, List.mem_cons, not_or] at h3
              exact ⟨name, pre, post, h1, h2.2, h3.2⟩
  rw [key]
  simp [Registry.lookup]

/-- **C127**: the protocols a node advertises in its identify message are exactly those it answers to. -/
theorem C127_advertised (publicKey : Bytes) (p : String) :
    p ∈ (identifyMessage publicKey).protocols ↔
      ∃ s, nodeRegistry.lookup (utf8Encode p ++ [10]) = some s := by
  have h : ∀ s, nodeRegistry.lookup (utf8Encode p ++ [10]) = some s ↔ _ :=
    fun s => C127_lookup [("/ipfs/id/1.0.0", Service.identify), ("/ipfs/bitswap/1.2.0", .bitswap)] (utf8Encode p ++ [10]) s
  simp only [h]
  simp only [identifyMessage, List.mem_cons, List.not_mem_nil, or_false]
  constructor
  · rintro (rfl | rfl)
    · exact ⟨.identify, _, [], _, rfl, rfl, by simp⟩
    · exact ⟨.bitswap, "/ipfs/bitswap/1.2.0", [("/ipfs/id/1.0.0", .identify)], [], rfl, rfl, by decide⟩
  · rintro ⟨s, name, pre, post, h1, h2, -⟩
    have hp : p = name := utf8Encode_inj (List.append_cancel_right h1)
    subst hp
    have : (p, s) ∈ [("/ipfs/id/1.0.0", Service.identify), ("/ipfs/bitswap/1.2.0", .bitswap)] := by rw [h2]; simp
    simp only [List.mem_cons, Prod.mk.injEq, List.not_mem_nil, or_false] at this
    tauto

end Ngfs.Handler
