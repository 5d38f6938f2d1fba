import Verif.Lemmas.TlsRecord

/-!
# TLS records: C24 (reassembly), C25 (protection)
-/
namespace Ngfs.Tls

open Ngfs.Binary Ngfs.Spec

/-! ## C24: reassembly does not depend on chunking -/

theorem rxRun_append (r : RecordReceiver) (a b : List RxOp) :
    rxRun r (a ++ b) = ((rxRun r a).1 ++ (rxRun (rxRun r a).2 b).1, (rxRun (rxRun r a).2 b).2) := by
  induction a generalizing r with
  | nil => simp [rxRun]
  | cons op ops ih => simp [rxRun, ih]

theorem arrived_append (a b : List RxOp) : arrived (a ++ b) = arrived a ++ arrived b := by
  induction a with
  | nil => rfl
  | cons op ops ih => cases op <;> simp [arrived, ih]

theorem delivered_append (a b : List (Poll (Except TlsErr (Option OwnedRecord)))) :
    delivered (a ++ b) = delivered a ++ delivered b := by
  induction a with
  | nil => rfl
  | cons x xs ih =>
    rcases x with _ | (e | (_ | o)) <;> simp [delivered, ih]

theorem close_incoming (r : RecordReceiver) : r.close.incoming = r.incoming := by
  unfold RecordReceiver.close; split <;> rfl

/-- C24, conservation: at every point of every history, the bytes that arrived are exactly the bytes
of the records delivered, in order, followed by bytes not yet used. Every record delivered has
at most the maximum length. -/
theorem C24_conservation (r : RecordReceiver) (ops : List RxOp) :
    ∃ ws : List WireRecord, (∀ w ∈ ws, w.Legal) ∧
      delivered (rxRun r ops).1 = ws.map WireRecord.owned ∧
      r.incoming ++ arrived ops = wire ws ++ (rxRun r ops).2.incoming := by
  induction ops generalizing r with
  | nil => exact ⟨[], by simp, rfl, by simp [arrived, rxRun]⟩
  | cons op ops ih =>
    cases op with
    | data chunk =>
      obtain ⟨ws, h1, h2, h3⟩ := ih (r.appendData chunk)
      refine ⟨ws, h1, h2, ?_⟩
      show r.incoming ++ (chunk ++ arrived ops) = _
      rw [← List.append_assoc]; exact h3
    | close =>
      obtain ⟨ws, h1, h2, h3⟩ := ih r.close
      exact ⟨ws, h1, h2, by rw [close_incoming] at h3; exact h3⟩
    | pop =>
      obtain ⟨ws, h1, h2, h3⟩ := ih r.popRecord.2
      rcases hp : r.popRecord with ⟨res, r'⟩
      rw [hp] at h2 h3
      by_cases hr : ∃ o, res = .ready (.ok (some o))
      · obtain ⟨o, rfl⟩ := hr
        obtain ⟨w, hw, hinc, rfl, _⟩ := popRecord_some hp
        refine ⟨w :: ws, by simpa using ⟨hw, h1⟩, ?_, ?_⟩
        · simp only [rxRun, RxOp.step, hp, List.cons_append, List.nil_append, delivered, List.map_cons]
          rw [h2]
        · show r.incoming ++ arrived ops = _
          simp only [rxRun, RxOp.step, hp, wire_cons]
          rw [hinc, List.append_assoc, h3, List.append_assoc]
      · have hinc := popRecord_none hp (fun o ho => hr ⟨o, ho⟩)
        refine ⟨ws, h1, ?_, ?_⟩
        · simp only [rxRun, RxOp.step, hp, delivered_append]
          have : delivered [res] = [] := by
            rcases res with _ | (e | (_ | o))
            · rfl
            · rfl
            · rfl
            · exact absurd ⟨o, rfl⟩ hr
          rw [this, List.nil_append]; exact h2
        · show r.incoming ++ arrived ops = _
          simp only [rxRun, RxOp.step, hp]
          rw [← hinc]; exact h3

/-- Decompositions into legal records agree as far as both go. -/
theorem wire_prefix {ws vs : List WireRecord} (hw : ∀ w ∈ ws, w.Legal) (hv : ∀ w ∈ vs, w.Legal)
    {x y : Bytes} (e : wire ws ++ x = wire vs ++ y) : ws <+: vs ∨ vs <+: ws := by
  induction ws generalizing vs with
  | nil => exact Or.inl ⟨vs, rfl⟩
  | cons w ws ih =>
    cases vs with
    | nil => exact Or.inr ⟨w :: ws, rfl⟩
    | cons v vs =>
      rw [wire_cons, wire_cons, List.append_assoc, List.append_assoc] at e
      obtain ⟨rfl, e'⟩ := bytes_append_inj (hw w (by simp)) (hv v (by simp)) e
      rcases ih (fun w h => hw w (by simp [h])) (fun w h => hv w (by simp [h])) e' with h | h
      · exact Or.inl (List.cons_prefix_cons.mpr ⟨rfl, h⟩)
      · exact Or.inr (List.cons_prefix_cons.mpr ⟨rfl, h⟩)

/-- C24: if the sender framed the records `vs`, then however its bytes are cut into chunks, however
many of them have arrived, and whenever the upper layer asks, the records delivered are the
first of `vs`, unchanged and in order. -/
theorem C24_delivers_what_was_framed (ops : List RxOp) (vs : List WireRecord) (hv : ∀ v ∈ vs, v.Legal)
    (harr : arrived ops <+: wire vs) :
    delivered (rxRun .new ops).1 <+: vs.map WireRecord.owned := by
  obtain ⟨ws, h1, h2, h3⟩ := C24_conservation .new ops
  rw [h2]
  obtain ⟨t, ht⟩ := harr
  have e : wire ws ++ ((rxRun .new ops).2.incoming ++ t) = wire vs ++ [] := by
    rw [← List.append_assoc, ← h3, List.append_nil, ← ht]; rfl
  rcases wire_prefix h1 hv e with h | h
  · exact h.map _
  · -- more records than framed: then their bytes are too many
    obtain ⟨u, rfl⟩ := h
    rw [wire_append, List.append_assoc] at e
    have hu := List.append_cancel_left e
    cases u with
    | nil => simp
    | cons w u =>
      rw [wire_cons, List.append_assoc] at hu
      have := congrArg List.length hu
      simp only [List.length_append, WireRecord.bytes_length, List.length_nil] at this
      omega

/-- Asking `n` times in a row. -/
theorem pops_deliver (n : Nat) (vs : List WireRecord) (hv : ∀ v ∈ vs, v.Legal) (rest : Bytes) (st : ReadState)
    (hn : vs.length ≤ n) :
    vs.map WireRecord.owned <+: delivered (rxRun ⟨wire vs ++ rest, st⟩ (List.replicate n .pop)).1 := by
  induction vs generalizing n with
  | nil => simp
  | cons v vs ih =>
    cases n with
    | zero => simp at hn
    | succ n =>
      have hp := popRecord_wire v (hv v (by simp)) (wire vs ++ rest) st
      rw [← List.append_assoc, ← wire_cons] at hp
      simp only [List.replicate_succ, rxRun, RxOp.step, hp, List.cons_append, List.nil_append, delivered,
        List.map_cons]
      exact List.cons_prefix_cons.mpr ⟨rfl, ih n (fun w h => hv w (by simp [h])) (by simpa using hn)⟩

/-- C24, nothing is held back: once the bytes of the records have arrived, in whatever chunks and
with whatever requests in between, asking often enough yields all of them, whether or not the
transport has ended and whatever else has arrived. -/
theorem C24_delivers_all (ops : List RxOp) (vs : List WireRecord) (hv : ∀ v ∈ vs, v.Legal) (rest : Bytes)
    (harr : arrived ops = wire vs ++ rest) (n : Nat) (hn : vs.length ≤ n) :
    vs.map WireRecord.owned <+: delivered (rxRun .new (ops ++ List.replicate n .pop)).1 := by
  rw [rxRun_append, delivered_append]
  obtain ⟨ws, h1, h2, h3⟩ := C24_conservation .new ops
  rw [h2]
  have e : wire ws ++ (rxRun .new ops).2.incoming = wire vs ++ rest := by rw [← h3, ← harr]; rfl
  rcases wire_prefix h1 hv e with h | h
  · obtain ⟨u, rfl⟩ := h
    rw [wire_append, List.append_assoc] at e
    have hu := List.append_cancel_left e
    rw [List.map_append]
    refine (List.prefix_append_right_inj _).mpr ?_
    have := pops_deliver n u (fun w h => hv w (by simp [h])) rest (rxRun .new ops).2.readState
      (by simp at hn; omega)
    rw [← hu] at this
    exact this
  · exact (h.map _).trans (List.prefix_append _ _)

/-- C24: two histories in which the same bytes arrive in different chunks deliver the same records,
as far as the shorter delivery goes; arbitrary bytes, also ill-formed ones. -/
theorem C24_chunking_irrelevant (ops ops' : List RxOp) (h : arrived ops = arrived ops') :
    delivered (rxRun .new ops).1 <+: delivered (rxRun .new ops').1 ∨
    delivered (rxRun .new ops').1 <+: delivered (rxRun .new ops).1 := by
  obtain ⟨ws, h1, h2, h3⟩ := C24_conservation .new ops
  obtain ⟨vs, g1, g2, g3⟩ := C24_conservation .new ops'
  rw [h2, g2]
  have e : wire ws ++ (rxRun .new ops).2.incoming = wire vs ++ (rxRun .new ops').2.incoming := by
    rw [← h3, ← g3, h]
  rcases wire_prefix h1 g1 e with h | h
  · exact Or.inl (h.map _)
  · exact Or.inr (h.map _)

/-- C24: while the transport is open, an answer is "not yet" exactly if what has arrived and has not
been used is not a whole record; it is an error exactly if its header announces too much. -/
theorem C24_answers (inc : Bytes) :
    (RecordReceiver.popRecord ⟨inc, .active⟩).1 = .pending ∧
        inc.length < 5 + (if 5 ≤ inc.length then bigEndian ((inc.drop 3).take 2) else 0) ∧
        (5 ≤ inc.length → bigEndian ((inc.drop 3).take 2) ≤ 2 ^ 14 + 256) ∨
    (∃ w : WireRecord, w.Legal ∧ w.bytes <+: inc ∧
      (RecordReceiver.popRecord ⟨inc, .active⟩).1 = .ready (.ok (some w.owned))) ∨
    (5 ≤ inc.length ∧ bigEndian ((inc.drop 3).take 2) > 2 ^ 14 + 256 ∧
      RecordReceiver.popRecord ⟨inc, .active⟩ = (.ready (.error .invalidPlaintextRecord), ⟨inc, .active⟩)) := by
  rcases hp : RecordReceiver.popRecord ⟨inc, .active⟩ with ⟨res, r'⟩
  have h := hp
  simp only [RecordReceiver.popRecord] at h
  by_cases h5 : inc.length < 5
  · rw [if_pos h5] at h
    cases h
    refine Or.inl ⟨rfl, ?_, by omega⟩
    rw [if_neg (by omega)]; exact h5
  · rw [if_neg h5] at h
    rw [beNat_eq] at h
    by_cases h6 : bigEndian ((inc.drop 3).take 2) > maxCiphertextRecordSize
    · rw [if_pos h6] at h
      cases h
      exact Or.inr (Or.inr ⟨by omega, h6, rfl⟩)
    · rw [if_neg h6] at h
      by_cases h7 : inc.length < 5 + bigEndian ((inc.drop 3).take 2)
      · rw [if_pos h7] at h
        cases h
        refine Or.inl ⟨rfl, ?_, fun _ => ?_⟩
        · rw [if_pos (by omega)]; exact h7
        · unfold maxCiphertextRecordSize at h6; omega
      · rw [if_neg h7] at h
        refine Or.inr (Or.inl ?_)
        obtain ⟨h8, h9⟩ := Prod.mk.inj h
        obtain ⟨w, hw, hinc, ho, _⟩ := popRecord_some (hp.trans (by rw [← h8]))
        exact ⟨w, hw, ⟨_, hinc.symm⟩, by rw [← ho, ← h8]⟩

/-- C24: after an oversize header every later request is refused: no record is delivered any more. -/
theorem C24_oversize_is_final (r : RecordReceiver) (h5 : 5 ≤ r.incoming.length)
    (hbig : bigEndian ((r.incoming.drop 3).take 2) > 2 ^ 14 + 256) (ops : List RxOp) :
    delivered (rxRun r ops).1 = [] ∧
    ∀ a ∈ (rxRun r ops).1, a = .ready (.error .invalidPlaintextRecord) := by
  induction ops generalizing r with
  | nil => exact ⟨rfl, by simp [rxRun]⟩
  | cons op ops ih =>
    cases op with
    | data chunk =>
      refine ih (r.appendData chunk) ?_ ?_
      · simp only [RecordReceiver.appendData, List.length_append]; omega
      · simp only [RecordReceiver.appendData]
        rw [List.drop_append_of_le_length (by omega), List.take_append_of_le_length (by simp; omega)]
        exact hbig
    | close => exact ih r.close (by rw [close_incoming]; exact h5) (by rw [close_incoming]; exact hbig)
    | pop =>
      have hp : r.popRecord = (.ready (.error .invalidPlaintextRecord), r) := by
        unfold RecordReceiver.popRecord
        rw [if_neg (by omega)]
        simp only [beNat_eq]
        rw [if_pos (show _ > maxCiphertextRecordSize from hbig)]
      obtain ⟨i1, i2⟩ := ih r h5 hbig
      simp only [rxRun, RxOp.step, hp]
      refine ⟨by simpa [delivered] using i1, ?_⟩
      intro a ha
      rcases List.mem_cons.mp ha with rfl | ha
      · rfl
      · exact i2 a ha

/-- C24: if the transport ends inside the contents of a record, the upper layer gets an error. -/
theorem C24_truncated_record (w : WireRecord) (hw : w.Legal) (cut : Nat) (hcut : 5 ≤ cut)
    (hlt : cut < w.bytes.length) :
    (RecordReceiver.popRecord (RecordReceiver.close ⟨w.bytes.take cut, .active⟩)).1
      = .ready (.error .invalidPlaintextRecord) := by
  have hl : w.fragment.length < 65536 := by unfold WireRecord.Legal at hw; omega
  have e3 : ((w.bytes.take cut).drop 3).take 2
      = [UInt8.ofNat (w.fragment.length / 256), UInt8.ofNat (w.fragment.length % 256)] := by
    obtain ⟨k, rfl⟩ := Nat.exists_eq_add_of_le hcut
    rw [Nat.add_comm 5 k]
    simp [WireRecord.bytes, WireRecord.header]
  rw [WireRecord.bytes_length] at hlt
  simp only [RecordReceiver.close, RecordReceiver.popRecord, List.length_take, WireRecord.bytes_length]
  rw [if_neg (by omega), e3, beNat_two, len_two hl, if_neg, if_pos (by omega)]
  unfold WireRecord.Legal at hw; unfold maxCiphertextRecordSize; omega

/-- A history: two records in three chunks cut inside a header and inside contents, requests in
between. The hypotheses of C24 are met, and both records come out. -/
example :
    let ws : List WireRecord := [⟨22, 3, 3, [1, 2, 3]⟩, ⟨23, 3, 3, [4]⟩]
    let ops : List RxOp := [.data [22, 3], .pop, .data [3, 0, 3, 1, 2], .pop, .data [3, 23, 3, 3, 0, 1, 4], .pop, .pop]
    (∀ w ∈ ws, w.Legal) ∧ arrived ops = wire ws ∧ delivered (rxRun .new ops).1 = ws.map WireRecord.owned := by
  refine ⟨?_, by decide, by decide⟩
  intro w hw
  simp only [List.mem_cons, List.not_mem_nil, or_false] at hw
  rcases hw with rfl | rfl <;> simp [WireRecord.Legal]

/-! ## C25: record protection -/

/-- C25. What one side encrypts as record number `n`, the other side, decrypting with the same key and
the same record number, gets back: the same contents and type. The record is well-formed and
within the maximum length. Any contents up to 2^14 bytes (zeros at the end and empty ones
included). -/
theorem C25_round_trip {X K : Type} (cr : Crypto X K) (hc : cr.Correct) (key : EncryptionKey)
    (hiv : key.writeIv.length = 12) (n : Nat) (p p' : PlaintextStream) (data : Bytes) (ct : ContentType)
    (hct : ct.toRaw ≠ 0) (h : encryptRecord cr p data ct key n = (.ok (), p')) :
    ∃ w : WireRecord, w.Legal ∧ p'.outgoing = p.outgoing ++ w.bytes ∧
      decryptMessage cr n key w.bytes =
        match Message.fromRaw cr.x509 data (ContentType.fromRaw ct.toRaw) with
        | .ok m => .ok (m, data)
        | .error .panic => .error .panic
        | .error _ => .error .invalidMessageRecord := by
  obtain ⟨_, w, hw, _, _, _, hp, _, hprot⟩ := encryptRecord_ok cr hc key hiv n p p' data ct h
  exact ⟨w, hw, by rw [hp], decryptMessage_protects cr key hiv n w hw _ hct data hprot⟩

/-- C25 for application data: the bytes come back. -/
theorem C25_application_data {X K : Type} (cr : Crypto X K) (hc : cr.Correct) (key : EncryptionKey)
    (hiv : key.writeIv.length = 12) (n : Nat) (p p' : PlaintextStream) (data : Bytes)
    (h : encryptRecord cr p data .applicationData key n = (.ok (), p')) :
    ∃ w : WireRecord, w.Legal ∧ p'.outgoing = p.outgoing ++ w.bytes ∧
      decryptMessage cr n key w.bytes = .ok (.applicationData data, data) := by
  obtain ⟨w, h1, h2, h3⟩ := C25_round_trip cr hc key hiv n p p' data .applicationData (by decide) h
  exact ⟨w, h1, h2, by rw [h3]; rfl⟩

/-- C25: encryption succeeds for all contents of at most 2^14 bytes for which the AEAD does, and
for no others. -/
theorem C25_accepts {X K : Type} (cr : Crypto X K) (hc : cr.Correct) (key : EncryptionKey)
    (hiv : key.writeIv.length = 12) (n : Nat) (p : PlaintextStream) (data : Bytes) (ct : ContentType)
    (hseal : ∀ nonce ad pt, (cr.aeadEncrypt key.aeadAlg key.writeKey nonce ad pt).isSome) :
    (encryptRecord cr p data ct key n).1 = .ok () ↔ data.length ≤ 2 ^ 14 := by
  constructor
  · intro h
    exact (encryptRecord_ok cr hc key hiv n p (encryptRecord cr p data ct key n).2 data ct (Prod.ext h rfl)).1
  · intro h
    unfold encryptRecord
    rw [if_neg (by unfold maxPlaintextRecordSize; omega)]
    obtain ⟨c, hc⟩ := Option.isSome_iff_exists.mp (hseal (makeNonce key.writeIv n)
      [0x17, 0x03, 0x03, UInt8.ofNat (((data ++ [ct.toRaw]).length + key.aeadAlg.tagLen) >>> 8),
        UInt8.ofNat ((data ++ [ct.toRaw]).length + key.aeadAlg.tagLen)] (data ++ [ct.toRaw]))
    simp only [encryptTraffic, hc]

/-- C25, padding: whatever record a sender makes from contents, type and any number of zeros, the
receiver removes exactly the padding. -/
theorem C25_padding {X K : Type} (cr : Crypto X K) (key : EncryptionKey) (hiv : key.writeIv.length = 12)
    (n : Nat) (w : WireRecord) (hw : w.Legal) (typ : UInt8) (ht : typ ≠ 0) (content : Bytes) (pad : Nat)
    (hseal : cr.aeadDecrypt key.aeadAlg key.writeKey (nonceSpec key.writeIv n) w.header w.fragment
      = some (content ++ [typ] ++ List.replicate pad 0)) :
    decryptMessage cr n key w.bytes =
      match Message.fromRaw cr.x509 content (ContentType.fromRaw typ) with
      | .ok m => .ok (m, content)
      | .error .panic => .error .panic
      | .error _ => .error .invalidMessageRecord :=
  decryptMessage_protects cr key hiv n w hw typ ht content ⟨pad, hseal⟩

/-- C25, the other direction: nothing is accepted but what the AEAD authenticates under the key, the
nonce of this record number and the header of this record. -/
theorem C25_accepts_only_authenticated {X K : Type} (cr : Crypto X K) (key : EncryptionKey)
    (hiv : key.writeIv.length = 12) (n : Nat) (w : WireRecord) (hw : w.Legal) (m : Message X) (content : Bytes)
    (h : decryptMessage cr n key w.bytes = .ok (m, content)) :
    ∃ (typ : UInt8) (pad : Nat), typ ≠ 0 ∧
      cr.aeadDecrypt key.aeadAlg key.writeKey (nonceSpec key.writeIv n) w.header w.fragment
        = some (content ++ [typ] ++ List.replicate pad 0) ∧
      Message.fromRaw cr.x509 content (ContentType.fromRaw typ) = .ok m := by
  obtain ⟨typ, ht, ⟨pad, hp⟩, hm⟩ := decryptMessage_ok cr key hiv n w hw m content h
  exact ⟨typ, pad, ht, hp, hm⟩

/-- A plaintext of zeros only is refused. -/
theorem C25_no_type_is_refused {X K : Type} (cr : Crypto X K) (key : EncryptionKey)
    (hiv : key.writeIv.length = 12) (n : Nat) (w : WireRecord) (hw : w.Legal) (pad : Nat)
    (h : cr.aeadDecrypt key.aeadAlg key.writeKey (nonceSpec key.writeIv n) w.header w.fragment
      = some (List.replicate pad 0)) :
    decryptMessage cr n key w.bytes = .error .invalidPlaintextRecord := by
  unfold decryptMessage
  rw [decryptTraffic_wire cr key hiv n w hw, h]
  have : typeOffset (List.replicate pad 0) (List.replicate pad (0 : UInt8)).length = 0 := by
    by_contra h0
    obtain ⟨_, h2⟩ := typeOffset_decomp (List.replicate pad (0 : UInt8)) h0
    apply h2
    rw [List.getD_eq_getElem?_getD]
    rcases hg : (List.replicate pad (0 : UInt8))[typeOffset (List.replicate pad 0) (List.replicate pad (0 : UInt8)).length - 1]? with _ | x
    · rfl
    · have := List.mem_of_getElem? hg
      rw [List.mem_replicate] at this
      simp [this.2]
  simp only [this]
  rfl

/-- A toy AEAD (the tag repeats parts of key, nonce and header), to show that the hypotheses can be
met and to run examples. -/
def toyCrypto : Crypto Unit Unit where
  aeadEncrypt _ key nonce ad p := some (p ++ ((nonce ++ ad ++ key).take 16 ++ List.replicate (16 - (nonce ++ ad ++ key).length) 0))
  aeadDecrypt _ key nonce ad c :=
    if c.drop (c.length - 16) = (nonce ++ ad ++ key).take 16 ++ List.replicate (16 - (nonce ++ ad ++ key).length) 0
    then some (c.take (c.length - 16)) else none
  hash _ _ := List.replicate 32 1
  hmac _ _ _ := List.replicate 32 2
  hkdfExtract _ _ _ := List.replicate 32 3
  hkdfExpand _ _ _ n := some (List.replicate n 4)
  agree _ _ := some [5]
  sigVerify _ _ _ _ := true
  sign _ _ _ := some [6]
  x509 _ := some ()
  publicKey _ := [7]
  verifyCertificate _ _ := .ok ()

theorem toyCrypto_correct : toyCrypto.Correct := by
  intro alg key nonce ad p c h
  simp only [toyCrypto, Option.some.injEq] at h
  subst h
  generalize ht : (nonce ++ ad ++ key).take 16 ++ List.replicate (16 - (nonce ++ ad ++ key).length) (0 : UInt8) = tag
  have hl : tag.length = 16 := by
    rw [← ht]; simp only [List.length_append, List.length_take, List.length_replicate]; omega
  refine ⟨?_, by simp [hl]⟩
  simp only [toyCrypto, ht]
  rw [show (p ++ tag).length - 16 = p.length by simp [hl]]
  simp

example : toyCrypto.Correct ∧
    ∃ p', encryptRecord toyCrypto (.new ⟨[], [], [], [], []⟩ .new) [1, 2, 0, 0] .applicationData
      ⟨[], .aes128Gcm, List.replicate 16 4, List.replicate 12 4⟩ 5 = (.ok (), p') :=
  ⟨toyCrypto_correct, _, rfl⟩

end Ngfs.Tls
