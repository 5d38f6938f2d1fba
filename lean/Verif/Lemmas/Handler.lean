import Verif.Spec.Handler
import Verif.Lemmas.Io
import Verif.Props.Bitswap

/-! Lemmas about the model of the protocol handlers. -/
namespace Ngfs.Io
open Varint

/-- Reading leaves everything but the incoming side of the transport as it is. -/
theorem pollRead_t (r : Reader) (room : Nat) :
    (r.pollRead room).2.t = { r.t with reads := (r.pollRead room).2.t.reads } := by
  unfold Reader.pollRead
  simp only
  split
  · rfl
  · split <;> rfl

theorem varintLoop_t (fuel : Nat) : ∀ f : ReadOptVarInt,
    (f.loop fuel).2.reader.t = { f.reader.t with reads := (f.loop fuel).2.reader.t.reads } := by
  induction fuel with
  | zero => intro f; rfl
  | succ fuel ih =>
    intro f
    have h := pollRead_t f.reader 1
    unfold ReadOptVarInt.loop
    generalize f.reader.pollRead 1 = P at h
    obtain ⟨e, r⟩ := P
    simp only at h
    rcases e with _ | (_ | ⟨b, d⟩) | k
    · exact h
    · simp only; split <;> exact h
    · simp only
      rcases hd : f.decoder.input b with ⟨o, d'⟩
      cases o with
      | finished v => exact h
      | overflow => exact h
      | pending =>
        simp only
        rw [ih]
        simp only
        rw [h]
    · simp only; split <;> exact h

theorem await_t (n : Nat) : ∀ f : ReadOptVarInt, (f.await n).2.t = { f.reader.t with reads := (f.await n).2.t.reads } := by
  induction n with
  | zero => intro f; rfl
  | succ n ih =>
    intro f
    have h : f.poll.2.reader.t = { f.reader.t with reads := f.poll.2.reader.t.reads } := varintLoop_t _ f
    unfold ReadOptVarInt.await
    generalize f.poll = P at h
    obtain ⟨x, f'⟩ := P
    cases x with
    | pending => simp only at h ⊢; rw [ih, h]
    | ready x => exact h

theorem read_t (fuel : Nat) (room : Nat) : ∀ r : Reader,
    (r.read fuel room).2.t = { r.t with reads := (r.read fuel room).2.t.reads } := by
  induction fuel with
  | zero => intro r; rfl
  | succ fuel ih =>
    intro r
    have h := pollRead_t r room
    unfold Reader.read
    generalize r.pollRead room = P at h
    obtain ⟨e, r'⟩ := P
    cases e with
    | pending => simp only at h ⊢; rw [ih, h]
    | ready d => exact h
    | error k => exact h

theorem readBody_t (fuel : Nat) : ∀ (r : Reader) (n : Nat) (acc : Bytes),
    (readBody fuel r n acc).2.t = { r.t with reads := (readBody fuel r n acc).2.t.reads } := by
  induction fuel with
  | zero => intro r n acc; rfl
  | succ fuel ih =>
    intro r n acc
    unfold readBody
    split
    · have h := read_t (scriptSize r.t.reads + 1) 1024 r
      generalize r.read (scriptSize r.t.reads + 1) 1024 = P at h
      obtain ⟨x, r'⟩ := P
      rcases x with _ | (k | d)
      · exact h
      · exact h
      · simp only at h ⊢
        split
        · exact h
        · rw [ih, h]
    · rfl

theorem readOptLengthPrefixed_t (r : Reader) :
    (readOptLengthPrefixed r).2.t = { r.t with reads := (readOptLengthPrefixed r).2.t.reads } := by
  have h : (readOptVarint r).2.t = { r.t with reads := (readOptVarint r).2.t.reads } := await_t _ _
  unfold readOptLengthPrefixed
  generalize readOptVarint r = P at h
  obtain ⟨x, r'⟩ := P
  simp only at h
  rcases x with _ | (k | (_ | n))
  · exact h
  · exact h
  · exact h
  · have h2 := readBody_t (scriptSize r'.t.reads + 1) (r'.take n) n []
    simp only
    generalize readBody (scriptSize r'.t.reads + 1) (r'.take n) n [] = Q at h2
    obtain ⟨y, r2⟩ := Q
    simp only [Reader.take] at h2
    rcases y with _ | (k | d) <;> (simp only [Reader.untake]; rw [h2, h])

end Ngfs.Io

namespace Ngfs.Handler
open Io Cid Bitswap Dagpb Spec.Io Spec.Handler

theorem received_iff (sha256 blake2b256 : Bytes → Bytes) (b : Block) (c : CID) :
    receivedBlockCid sha256 blake2b256 b = .ok c ↔ Identifies sha256 blake2b256 b c := by
  unfold receivedBlockCid Identifies
  cases hp : Prefix.fromBytes b.pfx with
  | error e => simp
  | ok p =>
    have h := C43_block_cid_matches_iff sha256 blake2b256 p b.data c
    simp only
    constructor
    · intro h1
      cases hg : getBlockCid sha256 blake2b256 p b.data with
      | error e => simp [hg] at h1
      | ok c' =>
        simp only [hg] at h1
        cases h1
        obtain ⟨h2, h3, h4, hash, h5, h6⟩ := h.mp hg
        refine ⟨p, hash, rfl, h2.symm, h3.symm, h4.symm, ?_, h6⟩
        rw [h4]
        revert h5
        cases c.hashType <;> simp [digest, digestOf]
    · rintro ⟨p', hash, h1, h2, h3, h4, h5, h6⟩
      cases h1
      rw [h.mpr ⟨h2.symm, h3.symm, h4.symm, hash, ?_, h6⟩]
      rw [h4]
      revert h5
      cases p.hashType <;> simp [digest, digestOf]

/-- What showing one block adds to the log. -/
theorem showBlock_spec (sha256 blake2b256 : Bytes → Bytes) (i : Nat) (b : Block) (log : List Event) :
    ∃ new, (showBlock sha256 blake2b256 i b log).2 = log ++ new ∧
      ((identifiers new = [] ∧ listings new = []) ∨ ∃ c, identifiers new = [c] ∧ Identifies sha256 blake2b256 b c ∧
        (listings new = [] ∨ ∃ es, listings new = [es] ∧ Lists b es)) ∧
      ((showBlock sha256 blake2b256 i b log).1 = .ok () → ∃ c es, identifiers new = [c] ∧ listings new = [es]) ∧
      ((∃ c es, Identifies sha256 blake2b256 b c ∧ Lists b es) → (showBlock sha256 blake2b256 i b log).1 = .ok ()) ∧
      (showBlock sha256 blake2b256 i b log).1 ≠ .error .panic ∧ .shut ∉ new ∧ .flushed ∉ new := by
  unfold showBlock
  cases hc : receivedBlockCid sha256 blake2b256 b with
  | error e =>
    refine ⟨_, rfl, .inl ⟨rfl, rfl⟩, nofun, ?_, nofun, by simp, by simp⟩
    rintro ⟨c, es, h, -⟩
    rw [← received_iff, hc] at h
    cases h
  | ok c =>
    have hi := (received_iff _ _ _ _).mp hc
    have hl : ∀ es, Lists b es → ∃ n d, PBNode.fromPb b.data = .ok n ∧ showData n.bytes = .ok d ∧
        nodeFromDagpbData b.data = .ok es := by
      intro es h
      have h' := h
      unfold Lists nodeFromDagpbData at h
      cases hn : PBNode.fromPb b.data with
      | error e => simp [hn] at h
      | ok n =>
        simp only [hn] at h
        cases hb : n.bytes with
        | none => simp [hb] at h
        | some bytes =>
          simp only [hb] at h
          cases hd : Data.fromPb bytes with
          | error e => simp [hd] at h
          | ok d => exact ⟨n, some d, rfl, by simp [showData, hb, hd], h'⟩
    cases hn : PBNode.fromPb b.data with
    | error e =>
      refine ⟨_, rfl, .inr ⟨c, rfl, hi, .inl rfl⟩, nofun, ?_, nofun, by simp, by simp⟩
      rintro ⟨_, es, -, h⟩
      obtain ⟨n, d, h1, -⟩ := hl es h
      rw [hn] at h1; cases h1
    | ok n =>
      simp only
      cases hd : showData n.bytes with
      | error e =>
        refine ⟨_, rfl, .inr ⟨c, rfl, hi, .inl rfl⟩, nofun, ?_, nofun, by simp, by simp⟩
        rintro ⟨_, es, -, h⟩
        obtain ⟨n', d, h1, h2, -⟩ := hl es h
        rw [hn] at h1; cases h1
        rw [hd] at h2; cases h2
      | ok d =>
        simp only
        cases hf : nodeFromDagpbData b.data with
        | error e =>
          refine ⟨_, rfl, .inr ⟨c, rfl, hi, .inl rfl⟩, nofun, ?_, nofun, by simp, by simp⟩
          rintro ⟨_, es, -, h⟩
          rw [Lists, hf] at h; cases h
        | ok es =>
          exact ⟨_, rfl, .inr ⟨c, rfl, hi, .inr ⟨es, rfl, hf⟩⟩, fun _ => ⟨c, es, rfl, rfl⟩, fun _ => rfl, nofun,
            by simp, by simp⟩

theorem identifiers_append (a b : List Event) : identifiers (a ++ b) = identifiers a ++ identifiers b := by
  simp [identifiers]

theorem listings_append (a b : List Event) : listings (a ++ b) = listings a ++ listings b := by
  simp [listings]

/-- These blocks are what the new part of the log shows. -/
structure Shown (sha256 blake2b256 : Bytes → Bytes) (blocks : List Block) (new : List Event) : Prop where
  ids : List.Forall₂ (Identifies sha256 blake2b256) blocks (identifiers new)
  dirs : ∃ listed, listed <+: blocks ∧ blocks.length ≤ listed.length + 1 ∧ List.Forall₂ Lists listed (listings new)

/-- All of them are shown with their contents. -/
structure ShownFully (sha256 blake2b256 : Bytes → Bytes) (blocks : List Block) (new : List Event) : Prop where
  ids : List.Forall₂ (Identifies sha256 blake2b256) blocks (identifiers new)
  dirs : List.Forall₂ Lists blocks (listings new)

theorem ShownFully.shown {sha256 blake2b256 : Bytes → Bytes} {blocks : List Block} {new : List Event}
    (h : ShownFully sha256 blake2b256 blocks new) : Shown sha256 blake2b256 blocks new :=
  ⟨h.ids, blocks, List.prefix_rfl, by omega, h.dirs⟩

theorem ShownFully.append {sha256 blake2b256 : Bytes → Bytes} {b1 b2 : List Block} {n1 n2 : List Event}
    (h1 : ShownFully sha256 blake2b256 b1 n1) (h2 : ShownFully sha256 blake2b256 b2 n2) :
    ShownFully sha256 blake2b256 (b1 ++ b2) (n1 ++ n2) :=
  ⟨by rw [identifiers_append]; exact List.rel_append h1.ids h2.ids,
   by rw [listings_append]; exact List.rel_append h1.dirs h2.dirs⟩

theorem ShownFully.append_shown {sha256 blake2b256 : Bytes → Bytes} {b1 b2 : List Block} {n1 n2 : List Event}
    (h1 : ShownFully sha256 blake2b256 b1 n1) (h2 : Shown sha256 blake2b256 b2 n2) :
    Shown sha256 blake2b256 (b1 ++ b2) (n1 ++ n2) := by
  obtain ⟨listed, h3, h4, h5⟩ := h2.dirs
  refine ⟨by rw [identifiers_append]; exact List.rel_append h1.ids h2.ids, b1 ++ listed, ?_, ?_, ?_⟩
  · exact (List.prefix_append_right_inj b1).mpr h3
  · simp only [List.length_append]; omega
  · rw [listings_append]; exact List.rel_append h1.dirs h5

theorem showBlocks_spec (sha256 blake2b256 : Bytes → Bytes) (bs : List Block) : ∀ (i : Nat) (log : List Event),
    ∃ new shown, (showBlocks sha256 blake2b256 i bs log).2 = log ++ new ∧ shown <+: bs ∧
      Shown sha256 blake2b256 shown new ∧
      ((showBlocks sha256 blake2b256 i bs log).1 = .ok () → ShownFully sha256 blake2b256 bs new) ∧
      ((∀ b ∈ bs, ∃ c es, Identifies sha256 blake2b256 b c ∧ Lists b es) →
        (showBlocks sha256 blake2b256 i bs log).1 = .ok ()) ∧
      (showBlocks sha256 blake2b256 i bs log).1 ≠ .error .panic ∧ .shut ∉ new ∧ .flushed ∉ new := by
  induction bs with
  | nil =>
    intro i log
    have h : ShownFully sha256 blake2b256 [] [] := ⟨.nil, .nil⟩
    exact ⟨[], [], by simp [showBlocks], List.prefix_rfl, h.shown, fun _ => h, fun _ => rfl, nofun, by simp, by simp⟩
  | cons b bs ih =>
    intro i log
    obtain ⟨new, h1, h2, h3, h4, h5, h6, h7⟩ := showBlock_spec sha256 blake2b256 i b log
    unfold showBlocks
    generalize showBlock sha256 blake2b256 i b log = P at *
    obtain ⟨x, log1⟩ := P
    simp only at h1 h3 h4 h5
    cases x with
    | error e =>
      simp only
      rcases h2 with ⟨ha, hb⟩ | ⟨c, ha, hi, hb⟩
      · exact ⟨new, [], h1, List.nil_prefix, ⟨by rw [ha]; exact .nil, [], List.prefix_rfl, by simp, by rw [hb]; exact .nil⟩,
          nofun, fun h => (nomatch h4 (h b (by simp))), h5, h6, h7⟩
      · refine ⟨new, [b], h1, by simp, ⟨by rw [ha]; exact .cons hi .nil, ?_⟩, nofun, fun h => (nomatch h4 (h b (by simp))),
          h5, h6, h7⟩
        rcases hb with hb | ⟨es, hb, hl⟩
        · exact ⟨[], List.nil_prefix, by simp, by rw [hb]; exact .nil⟩
        · exact ⟨[b], List.prefix_rfl, by simp, by rw [hb]; exact .cons hl .nil⟩
    | ok u =>
      cases u
      simp only
      obtain ⟨c, es, h8, h9⟩ := h3 rfl
      have hfull : ShownFully sha256 blake2b256 [b] new := by
        rcases h2 with ⟨ha, -⟩ | ⟨c', ha, hi, hb⟩
        · rw [h8] at ha; cases ha
        · rcases hb with hb | ⟨es', hb, hl⟩
          · rw [h9] at hb; cases hb
          · exact ⟨by rw [ha]; exact .cons hi .nil, by rw [hb]; exact .cons hl .nil⟩
      obtain ⟨new', shown, g1, g2, g3, g4, g5, g6, g7, g8⟩ := ih (i + 1) log1
      refine ⟨new ++ new', b :: shown, by rw [g1, h1, List.append_assoc], ?_, hfull.append_shown g3,
        fun h => hfull.append (g4 h), fun h => g5 (fun b' hb' => h b' (by simp [hb'])), g6, ?_, ?_⟩
      · exact List.cons_prefix_cons.mpr ⟨rfl, g2⟩
      · simp [h6, g7]
      · simp [h7, g8]

/-- The loop on any stream: what it shows are blocks of the messages at the beginning of the stream, in order. -/
theorem loop_spec (sha256 blake2b256 : Bytes → Bytes) (fuel : Nat) : ∀ (r : Reader) (log : List Event),
    ∃ new bs rest e ms msgs shown, (loop sha256 blake2b256 fuel r log).2.2 = log ++ new ∧ view r = (bs ++ rest, e) ∧
      Messages bs ms ∧ List.Forall₂ (fun m msg => Message.fromPb m = .ok msg) ms msgs ∧
      shown <+: msgs.flatMap (·.blocks) ∧ Shown sha256 blake2b256 shown new ∧
      (loop sha256 blake2b256 fuel r log).1 ≠ .ready (.error .panic) ∧
      (loop sha256 blake2b256 fuel r log).2.1.t = { r.t with reads := (loop sha256 blake2b256 fuel r log).2.1.t.reads } ∧
      .shut ∉ new ∧ .flushed ∉ new := by
  have none_ : ∀ (r : Reader) (new : List Event), identifiers new = [] → listings new = [] →
      ∃ bs rest e ms msgs shown, view r = (bs ++ rest, e) ∧ Messages bs ms ∧
        List.Forall₂ (fun m msg => Message.fromPb m = .ok msg) ms msgs ∧
        shown <+: msgs.flatMap (·.blocks) ∧ Shown sha256 blake2b256 shown new := by
    intro r new h1 h2
    exact ⟨[], (view r).1, (view r).2, [], [], [], rfl, .nil, .nil, List.nil_prefix,
      ⟨by rw [h1]; exact .nil, [], List.prefix_rfl, by simp, by rw [h2]; exact .nil⟩⟩
  induction fuel with
  | zero =>
    intro r log
    obtain ⟨bs, rest, e, ms, msgs, shown, h1, h2, h3, h4, h5⟩ := none_ r [] rfl rfl
    exact ⟨[], bs, rest, e, ms, msgs, shown, by simp [loop], h1, h2, h3, h4, h5, nofun, rfl, by simp, by simp⟩
  | succ fuel ih =>
    intro r log
    have hs := readOptLengthPrefixed_spec r
    have ht := readOptLengthPrefixed_t r
    unfold loop
    generalize readOptLengthPrefixed r = P at hs ht
    obtain ⟨x, r1⟩ := P
    simp only at ht
    rcases x with _ | (k | (_ | data))
    · obtain ⟨bs, rest, e, ms, msgs, shown, h1, h2, h3, h4, h5⟩ := none_ r [] rfl rfl
      exact ⟨[], bs, rest, e, ms, msgs, shown, by simp, h1, h2, h3, h4, h5, nofun, ht, by simp, by simp⟩
    · obtain ⟨bs, rest, e, ms, msgs, shown, h1, h2, h3, h4, h5⟩ := none_ r [] rfl rfl
      exact ⟨[], bs, rest, e, ms, msgs, shown, by simp, h1, h2, h3, h4, h5, nofun, ht, by simp, by simp⟩
    · obtain ⟨bs, rest, e, ms, msgs, shown, h1, h2, h3, h4, h5⟩ := none_ r [.closed] rfl rfl
      exact ⟨_, bs, rest, e, ms, msgs, shown, rfl, h1, h2, h3, h4, h5, nofun, ht, by simp, by simp⟩
    · simp only
      cases hm : Message.fromPb data with
      | error e0 =>
        obtain ⟨bs, rest, e, ms, msgs, shown, h1, h2, h3, h4, h5⟩ :=
          none_ r [.received data.length, .undecodable e0] rfl rfl
        exact ⟨_, bs, rest, e, ms, msgs, shown, rfl, h1, h2, h3, h4, h5, nofun, ht, by simp, by simp⟩
      | ok message =>
        obtain ⟨encoded, he⟩ := message_serialises message
        simp only [he]
        obtain ⟨m, hp, htook⟩ := hs.2 data rfl
        obtain ⟨rest, e, hv, hv1⟩ := htook.view
        obtain ⟨new, shown, g1, g2, g3, g4, g5, g6, g7, g8⟩ := showBlocks_spec sha256 blake2b256 message.blocks 0
          (log ++ [.received data.length, .encodedMatches (encoded == data)])
        generalize showBlocks sha256 blake2b256 0 message.blocks
          (log ++ [.received data.length, .encodedMatches (encoded == data)]) = Q at *
        obtain ⟨y, log1⟩ := Q
        simp only at g1 g4 g5 g6
        have pre : ∀ (l : List Event) shown', Shown sha256 blake2b256 shown' l →
            Shown sha256 blake2b256 shown' ([.received data.length, .encodedMatches (encoded == data)] ++ l) := by
          intro l shown' h
          have h0 : ShownFully sha256 blake2b256 [] [.received data.length, .encodedMatches (encoded == data)] := ⟨.nil, .nil⟩
          exact h0.append_shown h
        cases y with
        | error e1 =>
          refine ⟨[.received data.length, .encodedMatches (encoded == data)] ++ new, m, rest, e, [data], [message], shown,
            by rw [g1, List.append_assoc], hv, ?_, .cons hm .nil, by simpa using g2, pre _ _ g3, ?_, ht, by simp [g7],
            by simp [g8]⟩
          · have h := Messages.cons hp .nil
            rwa [List.append_nil] at h
          · intro h
            apply g6
            cases h
            rfl
        | ok u =>
          cases u
          simp only
          obtain ⟨new2, bs, rest2, e2, ms, msgs, shown2, k1, k2, k3, k4, k5, k6, k7, k8, k9, k10⟩ := ih r1 log1
          rw [hv1] at k2
          cases k2
          refine ⟨[.received data.length, .encodedMatches (encoded == data)] ++ (new ++ new2), m ++ bs, rest2, e,
            data :: ms, message :: msgs, message.blocks ++ shown2,
            by rw [k1, g1]; simp, by rw [hv, List.append_assoc], .cons hp k3, .cons hm k4, ?_, pre _ _ ?_, k7, ?_, ?_, ?_⟩
          · simp only [List.flatMap_cons]
            exact (List.prefix_append_right_inj _).mpr k5
          · exact (g4 rfl).append_shown k6
          · rw [k8, ht]
          · simp [g7, k9]
          · simp [g8, k10]

/-- If all the messages of a stream decode and all their blocks can be shown, they are. -/
theorem loop_complete (sha256 blake2b256 : Bytes → Bytes) {bs : Bytes} {ms : List Bytes} (h : Messages bs ms) :
    ∀ (msgs : List Message) (fuel : Nat) (r : Reader) (log : List Event), scriptSize r.t.reads < fuel → view r = (bs, .eof) →
      List.Forall₂ (fun m msg => Message.fromPb m = .ok msg) ms msgs →
      (∀ b ∈ msgs.flatMap (·.blocks), ∃ c es, Identifies sha256 blake2b256 b c ∧ Lists b es) →
      (loop sha256 blake2b256 fuel r log).1 = .ready (.ok ()) ∧
      ∃ new, (loop sha256 blake2b256 fuel r log).2.2 = log ++ new ∧
        ShownFully sha256 blake2b256 (msgs.flatMap (·.blocks)) new ∧ .closed ∈ new := by
  induction h with
  | nil =>
    intro msgs fuel r log hf hv hm _
    cases hm
    obtain ⟨fuel, rfl⟩ : ∃ n, fuel = n + 1 := ⟨fuel - 1, by omega⟩
    have h1 : (readOptLengthPrefixed r).1 = .ready (.ok none) := by
      have hs := readOptLengthPrefixed_spec r
      generalize readOptLengthPrefixed r = P at hs
      obtain ⟨x, r1⟩ := P
      cases x with
      | pending =>
        obtain ⟨bs, h, -⟩ := hs
        rw [hv] at h
        cases h
      | ready x =>
        have := reads_functional hs.1 (by rw [hv]; exact .over)
        rw [this]
    unfold loop
    generalize readOptLengthPrefixed r = P at h1
    obtain ⟨x, r1⟩ := P
    simp only at h1
    subst h1
    exact ⟨rfl, _, rfl, ⟨.nil, .nil⟩, by simp⟩
  | @cons b bs m ms hb hms ih =>
    intro msgs fuel r log hf hv hm hall
    obtain ⟨fuel, rfl⟩ : ∃ n, fuel = n + 1 := ⟨fuel - 1, by omega⟩
    cases hm with
    | @cons _ message _ msgs hm1 hm2 =>
      have hs := readOptLengthPrefixed_spec r
      have h1 : (readOptLengthPrefixed r).1 = .ready (.ok (some m)) := by
        generalize readOptLengthPrefixed r = P at hs
        obtain ⟨x, r1⟩ := P
        cases x with
        | pending =>
          obtain ⟨bs', h, hu⟩ := hs
          rw [hv] at h
          cases h
        | ready x =>
          have := reads_functional hs.1 (by rw [hv]; exact .message _ _ hb)
          rw [this]
      unfold loop
      generalize readOptLengthPrefixed r = P at h1 hs
      obtain ⟨x, r1⟩ := P
      simp only at h1
      subst h1
      obtain ⟨m', hp', htook⟩ := hs.2 m rfl
      obtain ⟨rest, e, hv', hv1⟩ := htook.view
      rw [hv] at hv'
      have heq := congrArg Prod.fst hv'
      have hend := congrArg Prod.snd hv'
      simp only at heq hend
      obtain ⟨hbm, -, hrest⟩ := prefixed_unique hb hp' heq
      subst hbm hrest hend
      obtain ⟨encoded, he⟩ := message_serialises message
      simp only [hm1, he]
      obtain ⟨new, shown, g1, g2, g3, g4, g5, g6⟩ := showBlocks_spec sha256 blake2b256 message.blocks 0
        (log ++ [.received m.length, .encodedMatches (encoded == m)])
      have hok := g5 (fun b' hb' => hall b' (by simp [hb']))
      generalize showBlocks sha256 blake2b256 0 message.blocks
        (log ++ [.received m.length, .encodedMatches (encoded == m)]) = Q at *
      obtain ⟨y, log1⟩ := Q
      simp only at hok g1 g4
      subst hok
      have hsz := htook.size
      have hpos := List.length_pos_iff.mpr (prefixed_ne_nil hb)
      obtain ⟨k1, new2, k2, k3, k4⟩ := ih msgs fuel r1 log1 (by omega) hv1 hm2
        (fun b' hb' => hall b' (by simp only [List.flatMap_cons, List.mem_append]; exact .inr hb'))
      refine ⟨k1, [.received m.length, .encodedMatches (encoded == m)] ++ (new ++ new2), ?_, ?_, by simp [k4]⟩
      · simp only
        rw [k2, g1]; simp
      · have h0 : ShownFully sha256 blake2b256 [] [.received m.length, .encodedMatches (encoded == m)] := ⟨.nil, .nil⟩
        exact h0.append ((g4 rfl).append k3)

/-- A block that cannot be shown in full ends the handler; its identifier is shown if it has one. -/
theorem showBlock_fail (sha256 blake2b256 : Bytes → Bytes) (i : Nat) (b : Block) (log : List Event)
    (h : ¬ ((∃ c, Identifies sha256 blake2b256 b c) ∧ ∃ es, Lists b es)) :
    ∃ e new ids, showBlock sha256 blake2b256 i b log = (.error e, log ++ new) ∧ listings new = [] ∧ identifiers new = ids ∧
      ((ids = [] ∧ ¬ ∃ c, Identifies sha256 blake2b256 b c) ∨ ∃ c, ids = [c] ∧ Identifies sha256 blake2b256 b c) := by
  unfold showBlock
  cases hc : receivedBlockCid sha256 blake2b256 b with
  | error e =>
    refine ⟨_, _, _, rfl, rfl, rfl, .inl ⟨rfl, ?_⟩⟩
    rintro ⟨c, h⟩
    rw [← received_iff, hc] at h
    cases h
  | ok c =>
    have hi := (received_iff _ _ _ _).mp hc
    simp only
    split
    · exact ⟨_, _, _, rfl, rfl, rfl, .inr ⟨c, rfl, hi⟩⟩
    · split
      · exact ⟨_, _, _, rfl, rfl, rfl, .inr ⟨c, rfl, hi⟩⟩
      · split
        · exact ⟨_, _, _, rfl, rfl, rfl, .inr ⟨c, rfl, hi⟩⟩
        · rename_i es hes
          exact (h ⟨⟨c, hi⟩, es, hes⟩).elim

theorem showBlocks_fail (sha256 blake2b256 : Bytes → Bytes) (b : Block) (later : List Block)
    (h : ¬ ((∃ c, Identifies sha256 blake2b256 b c) ∧ ∃ es, Lists b es)) : ∀ (good : List Block) (i : Nat) (log : List Event),
    (∀ g ∈ good, ∃ c es, Identifies sha256 blake2b256 g c ∧ Lists g es) →
    ∃ e new n1 n2, showBlocks sha256 blake2b256 i (good ++ b :: later) log = (.error e, log ++ new) ∧ new = n1 ++ n2 ∧
      ShownFully sha256 blake2b256 good n1 ∧ listings n2 = [] ∧
      ((identifiers n2 = [] ∧ ¬ ∃ c, Identifies sha256 blake2b256 b c) ∨
        ∃ c, identifiers n2 = [c] ∧ Identifies sha256 blake2b256 b c) := by
  intro good
  induction good with
  | nil =>
    intro i log _
    obtain ⟨e, new, ids, h1, h2, h3, h4⟩ := showBlock_fail sha256 blake2b256 i b log h
    refine ⟨e, new, [], new, ?_, rfl, ⟨.nil, .nil⟩, h2, by rw [h3]; exact h4⟩
    rw [List.nil_append, showBlocks, h1]
  | cons g good ih =>
    intro i log hg
    obtain ⟨new, shown, g1, -, -, g4, g5, -⟩ := showBlocks_spec sha256 blake2b256 [g] i log
    have hok := g5 (fun x hx => hg x (by simp at hx; simp [hx]))
    have hb : showBlock sha256 blake2b256 i g log = (.ok (), log ++ new) := by
      rw [showBlocks] at g1 hok
      rcases hx : showBlock sha256 blake2b256 i g log with ⟨y, log1⟩
      rw [hx] at g1 hok
      cases y with
      | error e => cases hok
      | ok u => cases u; simp only [showBlocks] at g1; rw [g1]
    obtain ⟨e, new2, n1, n2, k1, k2, k3, k4, k5⟩ := ih (i + 1) (log ++ new) (fun x hx => hg x (by simp [hx]))
    refine ⟨e, new ++ new2, new ++ n1, n2, ?_, by rw [k2, List.append_assoc], (g4 hok).append k3, k4, k5⟩
    rw [List.cons_append, showBlocks, hb]
    simp only
    rw [k1, List.append_assoc]

/-- The first block that cannot be shown in full ends the loop. -/
theorem loop_stops (sha256 blake2b256 : Bytes → Bytes) {bs : Bytes} {ms : List Bytes} (h : Messages bs ms) (b : Block)
    (hbad : ¬ ((∃ c, Identifies sha256 blake2b256 b c) ∧ ∃ es, Lists b es)) :
    ∀ (msgs : List Message) (good later : List Block) (fuel : Nat) (r : Reader) (log : List Event) (rest : Bytes) (e : End),
      scriptSize r.t.reads < fuel → view r = (bs ++ rest, e) →
      List.Forall₂ (fun m msg => Message.fromPb m = .ok msg) ms msgs → msgs.flatMap (·.blocks) = good ++ b :: later →
      (∀ g ∈ good, ∃ c es, Identifies sha256 blake2b256 g c ∧ Lists g es) →
      ∃ err n1 n2, (loop sha256 blake2b256 fuel r log).1 = .ready (.error err) ∧
        (loop sha256 blake2b256 fuel r log).2.2 = log ++ (n1 ++ n2) ∧
        ShownFully sha256 blake2b256 good n1 ∧ listings n2 = [] ∧
        ((identifiers n2 = [] ∧ ¬ ∃ c, Identifies sha256 blake2b256 b c) ∨
          ∃ c, identifiers n2 = [c] ∧ Identifies sha256 blake2b256 b c) := by
  induction h with
  | nil =>
    intro msgs good later fuel r log rest e hf hv hm hbl _
    cases hm
    simp at hbl
  | @cons p bs m ms hb hms ih =>
    intro msgs good later fuel r log rest e hf hv hm hbl hall
    obtain ⟨fuel, rfl⟩ : ∃ n, fuel = n + 1 := ⟨fuel - 1, by omega⟩
    cases hm with
    | @cons _ message _ msgs hm1 hm2 =>
      have hs := readOptLengthPrefixed_spec r
      rw [List.append_assoc] at hv
      have h1 : (readOptLengthPrefixed r).1 = .ready (.ok (some m)) := by
        generalize readOptLengthPrefixed r = P at hs
        obtain ⟨x, r1⟩ := P
        cases x with
        | pending =>
          obtain ⟨bs', h, hu⟩ := hs
          rw [hv] at h
          cases h
          exact (prefixed_unfinished hb hu).elim
        | ready x =>
          have := reads_functional hs.1 (by rw [hv]; exact .message _ _ hb)
          rw [this]
      unfold loop
      generalize readOptLengthPrefixed r = P at h1 hs
      obtain ⟨x, r1⟩ := P
      simp only at h1
      subst h1
      obtain ⟨m', hp', htook⟩ := hs.2 m rfl
      obtain ⟨rest', e', hv', hv1⟩ := htook.view
      rw [hv] at hv'
      have heq := congrArg Prod.fst hv'
      have hend := congrArg Prod.snd hv'
      simp only at heq hend
      obtain ⟨hbm, -, hrest⟩ := prefixed_unique hb hp' heq
      subst hbm hrest hend
      obtain ⟨encoded, he⟩ := message_serialises message
      simp only [hm1, he]
      have pre : ∀ n : List Event, ShownFully sha256 blake2b256 good n →
          ShownFully sha256 blake2b256 good ([.received m.length, .encodedMatches (encoded == m)] ++ n) :=
        fun n hn => ⟨by rw [identifiers_append]; exact hn.ids, by rw [listings_append]; exact hn.dirs⟩
      rw [List.flatMap_cons] at hbl
      rcases List.append_eq_append_iff.mp hbl with ⟨as, h2, h3⟩ | ⟨as, h2, h3⟩
      · -- all blocks of the message can be shown
        obtain ⟨new, shown, g1, g2, g3, g4, g5, g6⟩ := showBlocks_spec sha256 blake2b256 message.blocks 0
          (log ++ [.received m.length, .encodedMatches (encoded == m)])
        have hok := g5 (fun b' hb' => hall b' (by rw [h2]; simp [hb']))
        generalize showBlocks sha256 blake2b256 0 message.blocks
          (log ++ [.received m.length, .encodedMatches (encoded == m)]) = Q at *
        obtain ⟨y, log1⟩ := Q
        simp only at hok g1 g4
        subst hok
        have hsz := htook.size
        have hpos := List.length_pos_iff.mpr (prefixed_ne_nil hb)
        obtain ⟨err, n1, n2, k1, k2, k3, k4, k5⟩ := ih msgs as later fuel r1 log1 rest e (by omega) hv1 hm2 h3
          (fun g hg => hall g (by rw [h2]; simp [hg]))
        simp only
        refine ⟨err, [.received m.length, .encodedMatches (encoded == m)] ++ (new ++ n1), n2, k1, ?_, pre _ ?_, k4, k5⟩
        · rw [k2, g1]; simp
        · rw [h2]; exact (g4 rfl).append k3
      · -- the block is in this message, or the message ends just before it
        cases as with
        | nil =>
          simp only [List.append_nil, List.nil_append] at h2 h3
          obtain ⟨new, shown, g1, g2, g3, g4, g5, g6⟩ := showBlocks_spec sha256 blake2b256 message.blocks 0
            (log ++ [.received m.length, .encodedMatches (encoded == m)])
          have hok := g5 (fun b' hb' => hall b' (by rw [← h2]; simp [hb']))
          generalize showBlocks sha256 blake2b256 0 message.blocks
            (log ++ [.received m.length, .encodedMatches (encoded == m)]) = Q at *
          obtain ⟨y, log1⟩ := Q
          simp only at hok g1 g4
          subst hok
          have hsz := htook.size
          have hpos := List.length_pos_iff.mpr (prefixed_ne_nil hb)
          obtain ⟨err, n1, n2, k1, k2, k3, k4, k5⟩ := ih msgs [] later fuel r1 log1 rest e (by omega) hv1 hm2 h3.symm
            (by simp)
          simp only
          refine ⟨err, [.received m.length, .encodedMatches (encoded == m)] ++ (new ++ n1), n2, k1, ?_, pre _ ?_, k4, k5⟩
          · rw [k2, g1]; simp
          · have := (g4 rfl).append k3
            rwa [List.append_nil, h2] at this
        | cons a as =>
          simp only [List.cons_append, List.cons.injEq] at h3
          obtain ⟨rfl, h3⟩ := h3
          rw [h2]
          obtain ⟨err, new, n1, n2, k1, rfl, k3, k4, k5⟩ := showBlocks_fail sha256 blake2b256 b as hbad good 0
            (log ++ [.received m.length, .encodedMatches (encoded == m)]) hall
          rw [k1]
          simp only
          exact ⟨err, [.received m.length, .encodedMatches (encoded == m)] ++ n1, n2, rfl, by simp, pre _ k3, k4, k5⟩

/-- The outcome of the loop depends only on what arrives, not on how it is cut. -/
theorem loop_view (sha256 blake2b256 : Bytes → Bytes) (f1 : Nat) : ∀ (f2 : Nat) (r1 r2 : Reader) (log : List Event),
    scriptSize r1.t.reads < f1 → scriptSize r2.t.reads < f2 → view r1 = view r2 →
    (loop sha256 blake2b256 f1 r1 log).1 = (loop sha256 blake2b256 f2 r2 log).1 ∧
    (loop sha256 blake2b256 f1 r1 log).2.2 = (loop sha256 blake2b256 f2 r2 log).2.2 := by
  induction f1 with
  | zero => intro f2 r1 r2 log h; omega
  | succ f1 ih =>
    intro f2 r1 r2 log h1 h2 hv
    obtain ⟨f2, rfl⟩ : ∃ n, f2 = n + 1 := ⟨f2 - 1, by omega⟩
    have hs1 := readOptLengthPrefixed_spec r1
    have hs2 := readOptLengthPrefixed_spec r2
    unfold loop
    generalize readOptLengthPrefixed r1 = P1 at hs1
    generalize readOptLengthPrefixed r2 = P2 at hs2
    obtain ⟨x1, q1⟩ := P1
    obtain ⟨x2, q2⟩ := P2
    have hx : x1 = x2 := by
      cases x1 with
      | pending =>
        obtain ⟨b1, h3, h4⟩ := hs1
        cases x2 with
        | pending => rfl
        | ready x2 =>
          have h5 := hs2.1
          rw [← hv, h3] at h5
          exact (reads_not_unfinished h4 _ h5).elim
      | ready x1 =>
        cases x2 with
        | pending =>
          obtain ⟨b2, h3, h4⟩ := hs2
          have h5 := hs1.1
          rw [hv, h3] at h5
          exact (reads_not_unfinished h4 _ h5).elim
        | ready x2 =>
          have := hs1.1
          rw [hv] at this
          rw [reads_functional this hs2.1]
    subst hx
    rcases x1 with _ | (k | (_ | data))
    · exact ⟨rfl, rfl⟩
    · exact ⟨rfl, rfl⟩
    · exact ⟨rfl, rfl⟩
    · simp only
      cases hm : Message.fromPb data with
      | error e0 => exact ⟨rfl, rfl⟩
      | ok message =>
        simp only
        cases he : message.toPb with
        | error e => exact ⟨rfl, rfl⟩
        | ok encoded =>
          simp only
          generalize showBlocks sha256 blake2b256 0 message.blocks
            (log ++ [.received data.length, .encodedMatches (encoded == data)]) = Q
          obtain ⟨y, log1⟩ := Q
          cases y with
          | error e => exact ⟨rfl, rfl⟩
          | ok u =>
            cases u
            simp only
            obtain ⟨m1, hp1, t1⟩ := hs1.2 data rfl
            obtain ⟨m2, hp2, t2⟩ := hs2.2 data rfl
            obtain ⟨b1, e1, v1, w1⟩ := t1.view
            obtain ⟨b2, e2, v2, w2⟩ := t2.view
            have hsz1 := t1.size
            have hsz2 := t2.size
            have hpos1 := List.length_pos_iff.mpr (prefixed_ne_nil hp1)
            have hpos2 := List.length_pos_iff.mpr (prefixed_ne_nil hp2)
            rw [hv, v2] at v1
            have heq := congrArg Prod.fst v1
            have hend := congrArg Prod.snd v1
            obtain ⟨-, -, hb⟩ := prefixed_unique hp2 hp1 heq
            refine ih f2 q1 q2 log1 (by omega) (by omega) ?_
            rw [w1, w2, hb]
            simp only at hend
            rw [hend]

end Ngfs.Handler
