import Verif.Lemmas.Messages
import Verif.Props.Cid
import Verif.Model.Identify

/-! Property theorems for libp2p public keys and identify messages. -/
namespace Ngfs.Identify
open Protobuf Varint Spec Multiaddr

/-! ### C12 -/

private def keyFields (k : PublicKey) : List (Nat × FieldData) :=
  [(1, .varInt (encodeU64 k.keyType.toNat)), (2, .bytes k.data)]

private theorem key_toPb (k : PublicKey) : k.toPb = .ok (encFields (keyFields k)) := by
  simp [PublicKey.toPb, keyFields, writeUint64_ok, writeBytes_ok, bind, Except.bind]

private theorem keyType_rt (t : KeyType) : KeyType.fromU64 t.toNat = .ok t ∧ t.toNat < 2 ^ 64 := by
  cases t <;> decide

private theorem key_round_trip (k : PublicKey) (hlen : (encFields (keyFields k)).length < 2 ^ 64) :
    PublicKey.fromPb (encFields (keyFields k)) = .ok k := by
  rw [PublicKey.fromPb, parse_encFields _ _ _ (by simp [keyFields]) hlen (fun _ _ _ => rfl)]
  simp [keyFields, keyStep, mkRef, toBytes_enc, toUint64_enc (keyType_rt _).2, (keyType_rt _).1, ok?_ok, bind, Except.bind,
    pure, Except.pure, okOr]

/-- **C12**: a key serialises without panicking and parses back to the same key. -/
theorem C12_public_key_round_trip (k : PublicKey) :
    ∃ out, k.toPb = .ok out ∧ (out.length < 2 ^ 64 → PublicKey.fromPb out = .ok k) :=
  ⟨_, key_toPb k, key_round_trip k⟩

/-- The codes of the key types, as published: RSA 0, Ed25519 1, Secp256k1 2, ECDSA 3. -/
def IsKeyCode (n : Nat) : KeyType → Prop
  | .rsa => n = 0
  | .ed25519 => n = 1
  | .secp256k1 => n = 2
  | .ecdsa => n = 3

private theorem fromU64_iff (n : Nat) (t : KeyType) : KeyType.fromU64 n = .ok t ↔ IsKeyCode n t := by
  unfold KeyType.fromU64
  split <;> cases t <;> simp_all [IsKeyCode]

/-- The last field with a given number. -/
def lastNum (n : Nat) (fs : List FieldRef) : Option FieldRef := (fs.filter (·.fieldNumber = n)).getLast?

/-- The field holds the key type `k`: a varint of its code. -/
def HoldsKeyType (f : FieldRef) (k : KeyType) : Prop := ∃ v n, f.data = .varInt v ∧ Denotes v n ∧ IsKeyCode n k

private theorem lastNum_snoc (n : Nat) (fs : List FieldRef) (f : FieldRef) :
    lastNum n (fs ++ [f]) = if f.fieldNumber = n then some f else lastNum n fs := by
  unfold lastNum
  by_cases h : f.fieldNumber = n <;> simp [List.filter_append, h]

private def KeyOk (fs : List FieldRef) (t : KeyState) : Prop :=
  (∀ f ∈ fs, f.fieldNumber = 1 → ∃ k, HoldsKeyType f k) ∧
  (∀ f ∈ fs, f.fieldNumber = 2 → ∃ d, f.data = .bytes d) ∧
  (match lastNum 1 fs with | none => t.keyType = none | some f => ∃ k, HoldsKeyType f k ∧ t.keyType = some k) ∧
  (match lastNum 2 fs with | none => t.data = none | some f => ∃ d, f.data = .bytes d ∧ t.data = some d)

private theorem keyFold_iff (fs : List FieldRef) (t : KeyState) : fs.foldlM keyStep {} = .ok t ↔ KeyOk fs t := by
  induction fs using List.reverseRecOn generalizing t with
  | nil =>
    obtain ⟨c, d⟩ := t
    simp only [List.foldlM_nil, pure, Except.pure, Except.ok.injEq, KeyState.mk.injEq, KeyOk, lastNum]
    simp only [List.not_mem_nil, List.filter_nil, List.getLast?_nil, false_imp_iff, implies_true, true_and]
    constructor <;> (rintro ⟨h1, h2⟩; exact ⟨h1.symm, h2.symm⟩)
  | append_singleton fs f ih =>
    have hsplit : (fs ++ [f]).foldlM keyStep {} = .ok t ↔ ∃ s, KeyOk fs s ∧ keyStep s f = .ok t := by
      rw [List.foldlM_append]
      cases hfs : fs.foldlM keyStep {} with
      | error e =>
        simp only [bind, Except.bind, reduceCtorEq, false_iff, not_exists, not_and]
        intro s hs
        have := (ih s).mpr hs
        rw [hfs] at this; cases this
      | ok s =>
        have hs := (ih s).mp hfs
        simp only [bind, Except.bind, List.foldlM_cons, List.foldlM_nil, pure, Except.pure]
        constructor
        · intro h
          refine ⟨s, hs, ?_⟩
          cases hst : keyStep s f with
          | error e => simp [hst] at h
          | ok u => simpa [hst] using h
        · rintro ⟨s', hs', h⟩
          have := (ih s').mpr hs'
          rw [hfs] at this; cases this
          simp [h]
    rw [hsplit]
    simp only [KeyOk, lastNum_snoc, List.mem_append, List.mem_singleton]
    by_cases h1 : f.fieldNumber = 1
    · have h2 : f.fieldNumber ≠ 2 := by omega
      simp only [h1, if_true, if_neg (show ¬ (1 : Nat) = 2 by decide)]
      have hstep : ∀ s, keyStep s f = .ok t ↔ ∃ k, HoldsKeyType f k ∧ t = { s with keyType := some k } := by
        intro s
        simp only [keyStep, h1]
        constructor
        · intro h
          cases hd : ok? f.data.toUint64 with
          | error e => simp [hd, bind, Except.bind] at h
          | ok n =>
            cases hk : KeyType.fromU64 n with
            | error e => simp [hd, hk, bind, Except.bind] at h
            | ok k =>
              simp only [hd, hk, bind, Except.bind, Except.ok.injEq] at h
              obtain ⟨v, hv1, hv2⟩ := (toUint64_iff _ _).mp hd
              exact ⟨k, ⟨v, n, hv1, hv2, (fromU64_iff n k).mp hk⟩, h.symm⟩
        · rintro ⟨k, ⟨v, n, hv1, hv2, hk⟩, rfl⟩
          simp [(toUint64_iff _ _).mpr ⟨v, hv1, hv2⟩, (fromU64_iff n k).mpr hk, bind, Except.bind]
      simp only [hstep]
      constructor
      · rintro ⟨s, ⟨a, b, c, d⟩, k, hk, rfl⟩
        refine ⟨?_, ?_, ⟨k, hk, rfl⟩, d⟩
        · rintro g (hg | rfl) hn
          · exact a g hg hn
          · exact ⟨k, hk⟩
        · rintro g (hg | rfl) hn
          · exact b g hg hn
          · exact absurd hn h2
      · rintro ⟨a, b, ⟨k, hk, hkt⟩, d⟩
        have hx : ∃ kt, (match lastNum 1 fs with | none => kt = none | some f => ∃ k, HoldsKeyType f k ∧ kt = some k) := by
          cases hl : lastNum 1 fs with
          | none => exact ⟨none, rfl⟩
          | some g =>
            have hg : g ∈ fs.filter (·.fieldNumber = 1) := List.mem_of_getLast? hl
            simp only [List.mem_filter, decide_eq_true_eq] at hg
            obtain ⟨k', hk'⟩ := a g (.inl hg.1) hg.2
            exact ⟨some k', k', hk', rfl⟩
        obtain ⟨kt, hkt'⟩ := hx
        refine ⟨⟨kt, t.data⟩, ⟨fun g hg => a g (.inl hg), fun g hg => b g (.inl hg), hkt', d⟩, k, hk, ?_⟩
        obtain ⟨tk, td⟩ := t
        simp only at hkt; subst hkt; rfl
    · by_cases h2 : f.fieldNumber = 2
      · simp only [h2, if_true, if_neg (show ¬ (2 : Nat) = 1 by decide)]
        have hstep : ∀ s, keyStep s f = .ok t ↔ ∃ d, f.data = .bytes d ∧ t = { s with data := some d } := by
          intro s
          simp only [keyStep, h2]
          constructor
          · intro h
            cases hd : ok? f.data.toBytes with
            | error e => simp [hd, bind, Except.bind] at h
            | ok d =>
              simp only [hd, bind, Except.bind, Except.ok.injEq] at h
              exact ⟨d, (toBytes_iff _ _).mp hd, h.symm⟩
          · rintro ⟨d, hd, rfl⟩
            simp [(toBytes_iff _ _).mpr hd, bind, Except.bind]
        simp only [hstep]
        constructor
        · rintro ⟨s, ⟨a, b, c, d⟩, k, hk, rfl⟩
          refine ⟨?_, ?_, c, ⟨k, hk, rfl⟩⟩
          · rintro g (hg | rfl) hn
            · exact a g hg hn
            · exact absurd hn h1
          · rintro g (hg | rfl) hn
            · exact b g hg hn
            · exact ⟨k, hk⟩
        · rintro ⟨a, b, c, ⟨k, hk, hkt⟩⟩
          have hx : ∃ kt : Option Bytes, (match lastNum 2 fs with
              | none => kt = none | some f => ∃ d, f.data = .bytes d ∧ kt = some d) := by
            cases hl : lastNum 2 fs with
            | none => exact ⟨none, rfl⟩
            | some g =>
              have hg : g ∈ fs.filter (·.fieldNumber = 2) := List.mem_of_getLast? hl
              simp only [List.mem_filter, decide_eq_true_eq] at hg
              obtain ⟨k', hk'⟩ := b g (.inl hg.1) hg.2
              exact ⟨some k', k', hk', rfl⟩
          obtain ⟨kt, hkt'⟩ := hx
          refine ⟨⟨t.keyType, kt⟩, ⟨fun g hg => a g (.inl hg), fun g hg => b g (.inl hg), c, hkt'⟩, k, hk, ?_⟩
          obtain ⟨tk, td⟩ := t
          simp only at hkt; subst hkt; rfl
      · simp only [if_neg h1, if_neg h2]
        have hstep : ∀ s, keyStep s f = .ok s := by
          intro s
          unfold keyStep
          split <;> first | contradiction | rfl
        simp only [hstep, Except.ok.injEq, exists_eq_right]
        constructor
        · rintro ⟨a, b, c, d⟩
          refine ⟨?_, ?_, c, d⟩
          · rintro g (hg | rfl) hn
            · exact a g hg hn
            · exact absurd hn h1
          · rintro g (hg | rfl) hn
            · exact b g hg hn
            · exact absurd hn h2
        · rintro ⟨a, b, c, d⟩
          exact ⟨fun g hg => a g (.inl hg), fun g hg => b g (.inl hg), c, d⟩

/-- **C12**, acceptance: a byte string is accepted as the key `k` exactly when it is a protobuf message in which every
field numbered 1 is a varint holding the code of a known key type, every field numbered 2 is a byte string, both
numbers occur, and the last of each holds the type and the data of `k`. Everything else is refused: a field of the
wrong wire type, an unknown key type, a missing field, trailing garbage. -/
theorem C12_accepts_exactly (bs : Bytes) (hb : bs.length < 2 ^ 64) (k : PublicKey) :
    PublicKey.fromPb bs = .ok k ↔
      ∃ fs, IsMessage 0 bs fs ∧
        (∀ f ∈ fs, f.fieldNumber = 1 → ∃ t, HoldsKeyType f t) ∧
        (∀ f ∈ fs, f.fieldNumber = 2 → ∃ d, f.data = .bytes d) ∧
        (∃ f, lastNum 1 fs = some f ∧ HoldsKeyType f k.keyType) ∧
        (∃ f, lastNum 2 fs = some f ∧ f.data = .bytes k.data) := by
  have hparse : ∀ s, forFields keyStep {} (Reader.new bs) = .ok s ↔ ∃ fs, IsMessage 0 bs fs ∧ KeyOk fs s := by
    intro s
    constructor
    · intro h
      obtain ⟨fs, hm, hf⟩ := forFields_ok _ _ _ _ (by simp [Reader.new]) h
      exact ⟨fs, by simpa [Reader.new] using hm, (keyFold_iff fs s).mp hf⟩
    · rintro ⟨fs, hm, hk⟩
      have := forFields_message keyStep [] hm (by simpa using hb) {}
      simp only [List.length_nil, List.nil_append] at this
      rw [Reader.new, this]
      exact (keyFold_iff fs s).mpr hk
  constructor
  · intro h
    simp only [PublicKey.fromPb] at h
    cases hf : forFields keyStep {} (Reader.new bs) with
    | error e => simp [hf, bind, Except.bind] at h
    | ok s =>
      obtain ⟨fs, hm, a, b, c, d⟩ := (hparse s).mp hf
      simp only [hf, bind, Except.bind] at h
      cases hkt : s.keyType with
      | none => simp [hkt, okOr] at h
      | some kt =>
        cases hdt : s.data with
        | none => simp [hkt, hdt, okOr] at h
        | some dt =>
          simp only [hkt, hdt, okOr, Except.ok.injEq] at h
          subst h
          refine ⟨fs, hm, a, b, ?_, ?_⟩
          · split at c
            · rw [c] at hkt; cases hkt
            · rename_i f hl
              obtain ⟨k, hk, hs⟩ := c
              rw [hs] at hkt; cases hkt
              exact ⟨f, hl, hk⟩
          · split at d
            · rw [d] at hdt; cases hdt
            · rename_i f hl
              obtain ⟨k, hk, hs⟩ := d
              rw [hs] at hdt; cases hdt
              exact ⟨f, hl, hk⟩
  · rintro ⟨fs, hm, a, b, ⟨f, hf, hfk⟩, g, hg, hgd⟩
    have := (hparse ⟨some k.keyType, some k.data⟩).mpr ⟨fs, hm, a, b, by rw [hf]; exact ⟨_, hfk, rfl⟩,
      by rw [hg]; exact ⟨_, hgd, rfl⟩⟩
    simp [PublicKey.fromPb, this, bind, Except.bind, okOr]

/-- **C12**: a message with no field numbered 1, or no field numbered 2, is refused. -/
theorem C12_missing_refused (bs : Bytes) (hb : bs.length < 2 ^ 64) (fs : List FieldRef) (hm : IsMessage 0 bs fs)
    (h : (∀ f ∈ fs, f.fieldNumber ≠ 1) ∨ (∀ f ∈ fs, f.fieldNumber ≠ 2)) : ∀ k, PublicKey.fromPb bs ≠ .ok k := by
  intro k hk
  obtain ⟨fs', hm', -, -, ⟨f, hf, -⟩, g, hg, -⟩ := (C12_accepts_exactly bs hb k).mp hk
  have h1 := forFields_message (fun acc f => .ok (acc ++ [f])) [] hm (by simpa using hb) []
  have h2 := forFields_message (fun acc f => .ok (acc ++ [f])) [] hm' (by simpa using hb) []
  rw [h1, foldlM_collect, foldlM_collect] at h2
  simp only [List.nil_append, Except.ok.injEq] at h2
  subst h2
  have hf' := List.mem_of_getLast? hf
  have hg' := List.mem_of_getLast? hg
  simp only [List.mem_filter, decide_eq_true_eq] at hf' hg'
  rcases h with h | h
  · exact h f hf'.1 hf'.2
  · exact h g hg'.1 hg'.2

example : (PublicKey.mk .ed25519 [9, 8, 7]).toPb = .ok [8, 1, 18, 3, 9, 8, 7] := by decide +kernel

/-! ### C11 -/

/-- An identify message all of whose addresses are made of address kinds the library understands. -/
def KnownAddrs (m : Identify) : Prop :=
  (∀ as ∈ m.listenAddrs, ∀ a ∈ as, KnownAddr a) ∧ ∀ a ∈ m.observedAddr, KnownAddr a

private def idFields (m : Identify) : List (Nat × FieldData) :=
  [(1, .bytes (encFields (keyFields m.publicKey)))]
    ++ m.listenAddrs.map (fun as => (2, .bytes (Multiaddr.toBytes as)))
    ++ m.protocols.map (fun p => (3, .bytes (utf8Encode p)))
    ++ [(4, .bytes (Multiaddr.toBytes m.observedAddr)), (5, .bytes (utf8Encode m.protocolVersion)),
        (6, .bytes (utf8Encode m.agentVersion))]
    ++ (match m.signedPeerRecord with | some r => [(8, .bytes r)] | none => [])

private theorem writeAddrs_ok (w : Bytes) (as : List (List Addr)) :
    writeAddrs w as = .ok (w ++ encFields (as.map fun a => (2, .bytes (Multiaddr.toBytes a)))) := by
  induction as generalizing w with
  | nil => simp [writeAddrs]
  | cons e es ih => simp [writeAddrs, writeBytes_ok, ih, bind, Except.bind]

private theorem writeProtocols_ok (w : Bytes) (as : List String) :
    writeProtocols w as = .ok (w ++ encFields (as.map fun a => (3, .bytes (utf8Encode a)))) := by
  induction as generalizing w with
  | nil => simp [writeProtocols]
  | cons e es ih => simp [writeProtocols, writeString_ok, ih, bind, Except.bind]

private theorem id_toPb (m : Identify) : m.toPb = .ok (encFields (idFields m)) := by
  obtain ⟨a, b, c, d, e, f, g⟩ := m
  cases g <;> simp [Identify.toPb, idFields, key_toPb, writeAddrs_ok, writeProtocols_ok, writeBytes_ok, writeString_ok,
    bind, Except.bind]

private theorem foldl_addrs (bs : List (List Addr)) (s : IdState) :
    bs.foldl (fun s b => { s with listenAddrs := s.listenAddrs ++ [b] }) s = { s with listenAddrs := s.listenAddrs ++ bs } := by
  induction bs generalizing s with
  | nil => simp
  | cons e es ih => rw [List.foldl_cons, ih]; simp

private theorem foldl_protocols (bs : List String) (s : IdState) :
    bs.foldl (fun s b => { s with protocols := s.protocols ++ [b] }) s = { s with protocols := s.protocols ++ bs } := by
  induction bs generalizing s with
  | nil => simp
  | cons e es ih => rw [List.foldl_cons, ih]; simp

/-- Reading back, for addresses that survive their own round trip. -/
private theorem id_round_trip (m : Identify)
    (h1 : ∀ as ∈ m.listenAddrs, Multiaddr.fromBytes (Multiaddr.toBytes as) = as)
    (h2 : Multiaddr.fromBytes (Multiaddr.toBytes m.observedAddr) = m.observedAddr)
    (hlen : (encFields (idFields m)).length < 2 ^ 64) :
    Identify.fromPb (encFields (idFields m)) = .ok m := by
  have hshape : ∀ f ∈ idFields m, WFShape f := by
    intro f hf
    simp only [idFields, List.mem_append, List.mem_map, List.mem_cons, List.not_mem_nil, or_false] at hf
    rcases hf with (((rfl | ⟨_, _, rfl⟩) | ⟨_, _, rfl⟩) | rfl | rfl | rfl) | hf
    all_goals try simp
    cases hs : m.signedPeerRecord with
    | none => simp [hs] at hf
    | some r => simp only [hs, List.mem_singleton] at hf; subst hf; simp
  have hk := key_round_trip m.publicKey (nested_length (l := idFields m) (n := 1) (by simp [idFields]) hlen)
  rw [Identify.fromPb, parse_encFields _ _ _ hshape hlen (fun _ _ _ => rfl)]
  have ha : ∀ (s : IdState), ∀ as ∈ m.listenAddrs,
      idStep s (mkRef 0 (2, .bytes (Multiaddr.toBytes as))) = .ok { s with listenAddrs := s.listenAddrs ++ [as] } := by
    intro s as has
    simp [idStep, mkRef, toBytes_enc, ok?_ok, bind, Except.bind, h1 as has]
  have hp : ∀ (s : IdState), ∀ p ∈ m.protocols,
      idStep s (mkRef 0 (3, .bytes (utf8Encode p))) = .ok { s with protocols := s.protocols ++ [p] } := by
    intro s p hp
    simp [idStep, mkRef, toStr_enc, ok?_ok, bind, Except.bind]
  have hfold : (idFields m).foldlM (fun s f => idStep s (mkRef 0 f)) {} =
      .ok ⟨some m.protocolVersion, some m.agentVersion, some m.publicKey, some m.observedAddr, m.listenAddrs, m.protocols,
        m.signedPeerRecord⟩ := by
    have h0 : [((1 : Nat), FieldData.bytes (encFields (keyFields m.publicKey)))].foldlM
        (fun s f => idStep s (mkRef 0 f)) {} = .ok { publicKey := some m.publicKey } := by
      simp [idStep, mkRef, toBytes_enc, ok?_ok, bind, Except.bind, hk, pure, Except.pure]
    rw [idFields, List.foldlM_append, List.foldlM_append, List.foldlM_append, List.foldlM_append, h0]
    simp only [bind, Except.bind]
    rw [foldlM_map_push _ _ (fun s b => { s with listenAddrs := s.listenAddrs ++ [b] }) _ ha, foldl_addrs]
    simp only
    rw [foldlM_map_push _ _ (fun s b => { s with protocols := s.protocols ++ [b] }) _ hp, foldl_protocols]
    cases hs : m.signedPeerRecord <;>
      simp [idStep, mkRef, toBytes_enc, toStr_enc, ok?_ok, bind, Except.bind, pure, Except.pure, h2]
  rw [hfold]
  simp [bind, Except.bind, okOr]

/-- **C11**: an identify message serialises without panicking, and what is written parses to the same message, with
addresses and protocols in the same order. -/
theorem C11_identify_round_trip (m : Identify) (h : KnownAddrs m) :
    ∃ out, m.toPb = .ok out ∧ (out.length < 2 ^ 64 → Identify.fromPb out = .ok m) :=
  ⟨_, id_toPb m, id_round_trip m (fun as has => C17_multiaddr_round_trip as (h.1 as has))
    (C17_multiaddr_round_trip _ h.2)⟩

/-- A message is not too long if its key is not and the message without a key is not. -/
theorem identify_length (m : Identify) (h : m.publicKey.data.length < 2 ^ 62)
    (small : Bytes) (hs : ({ m with publicKey := ⟨.rsa, []⟩ } : Identify).toPb = .ok small) (hl : small.length < 2 ^ 62)
    (out : Bytes) (ho : m.toPb = .ok out) : out.length < 2 ^ 64 := by
  have hr : (encFields ((idFields m).drop 1)).length < 2 ^ 62 := by
    rw [id_toPb] at hs
    cases hs
    refine Nat.lt_of_le_of_lt ?_ hl
    simp [idFields]
  rw [id_toPb] at ho
  cases ho
  have t : ∀ n, n < 2 ^ 64 → (encodeU64 n).length ≤ 10 := fun n hn =>
    encode_length_le (Nat.lt_trans hn (by decide)) (by decide)
  have hk : (encFields (keyFields m.publicKey)).length < 2 ^ 62 + 100 := by
    have t1 := t 8 (by decide)
    have t2 := t 18 (by decide)
    have t3 := t m.publicKey.data.length (by omega)
    have t4 : (encodeU64 m.publicKey.keyType.toNat).length ≤ 10 := t _ (by cases m.publicKey.keyType <;> decide)
    simp [keyFields, encField, payloadOf, wireTypeOf]
    omega
  have he : encFields (idFields m) = encField (1, .bytes (encFields (keyFields m.publicKey))) ++ encFields ((idFields m).drop 1) := by
    simp [idFields]
  rw [he]
  generalize encFields (keyFields m.publicKey) = y at hk
  have t5 : (encodeU64 (8 * 1 + 2)).length ≤ 10 := t _ (by decide)
  have t6 := t y.length (by omega)
  simp only [encField, payloadOf, wireTypeOf, List.length_append]
  omega

private def exId : Identify :=
  ⟨"ipfs/0.1.0", "agent", ⟨.rsa, [1, 2]⟩, [[.ip4 [127, 0, 0, 1], .tcp 4001], []], [.ip4 [10, 0, 0, 1], .udp 53], ["/p", "/q"],
    some [3]⟩
example : KnownAddrs exId := by
  simp [KnownAddrs, exId, KnownAddr]

end Ngfs.Identify
