import Verif.Spec.TlsRecord
import Verif.Lemmas.TlsTypes

/-! Helper lemmas about the TLS record layer. No claims here. -/
namespace Ngfs.Tls

open Ngfs.Binary Ngfs.Spec

theorem beNat_two (a b : UInt8) : beNat [a, b] = a.toNat * 256 + b.toNat := by
  rw [beNat_eq, bigEndian_cons, bigEndian_cons]
  simp [bigEndian]

theorem len_two {n : Nat} (h : n < 65536) :
    (UInt8.ofNat (n / 256)).toNat * 256 + (UInt8.ofNat (n % 256)).toNat = n := by
  rw [toNat_ofNat_lt (by omega), toNat_ofNat_lt (by omega)]
  omega

@[simp] theorem WireRecord.header_length (w : WireRecord) : w.header.length = 5 := rfl

@[simp] theorem WireRecord.bytes_length (w : WireRecord) : w.bytes.length = 5 + w.fragment.length := by
  simp [WireRecord.bytes]

theorem popRecord_wire (w : WireRecord) (hw : w.Legal) (rest : Bytes) (st : ReadState) :
    RecordReceiver.popRecord ⟨w.bytes ++ rest, st⟩ = (.ready (.ok (some w.owned)), ⟨rest, st⟩) := by
  have hl : w.fragment.length < 65536 := by have := hw; unfold WireRecord.Legal at this; omega
  have e : w.bytes ++ rest = w.typ :: w.v1 :: w.v2 :: UInt8.ofNat (w.fragment.length / 256) ::
      UInt8.ofNat (w.fragment.length % 256) :: (w.fragment ++ rest) := by
    simp [WireRecord.bytes, WireRecord.header]
  have hb : beNat (((w.bytes ++ rest).drop 3).take 2) = w.fragment.length := by
    rw [e]
    simp only [List.drop_succ_cons, List.drop_zero, List.take_succ_cons, List.take_zero]
    rw [beNat_two, len_two hl]
  have h5 : ¬ (w.bytes ++ rest).length < 5 := by
    rw [List.length_append, WireRecord.bytes_length]; omega
  have hmax : ¬ w.fragment.length > maxCiphertextRecordSize := by
    have := hw; unfold WireRecord.Legal at this; unfold maxCiphertextRecordSize; omega
  have hfull : ¬ (w.bytes ++ rest).length < 5 + w.fragment.length := by
    rw [List.length_append, WireRecord.bytes_length]; omega
  have hraw : (w.bytes ++ rest).take (5 + w.fragment.length) = w.bytes := by
    rw [List.take_append_of_le_length (by simp)]
    exact List.take_of_length_le (by simp)
  have hrest : (w.bytes ++ rest).drop (5 + w.fragment.length) = rest := by
    rw [show 5 + w.fragment.length = w.bytes.length by simp, List.drop_left]
  have hfrag : ((w.bytes ++ rest).drop 5).take w.fragment.length = w.fragment := by
    rw [e]; simp
  have hhead : (w.bytes ++ rest).take 5 = w.header := by rw [e]; rfl
  have hv : beNat (((w.bytes ++ rest).drop 1).take 2) = w.v1.toNat * 256 + w.v2.toNat := by
    rw [e]; simp only [List.drop_succ_cons, List.drop_zero, List.take_succ_cons, List.take_zero]
    exact beNat_two _ _
  have ht : (w.bytes ++ rest).getD 0 0 = w.typ := by rw [e]; rfl
  simp only [RecordReceiver.popRecord, if_neg h5, hb, if_neg hmax, if_neg hfull, hraw, hrest, hfrag,
    hhead, hv, ht]
  rfl

/-- The shape of any data that is long enough for a header. -/
theorem header_shape (data : Bytes) (h : ¬ data.length < 5) :
    ∃ a b c d e tl, data = a :: b :: c :: d :: e :: tl := by
  match data, h with
  | a :: b :: c :: d :: e :: tl, _ => exact ⟨a, b, c, d, e, tl, rfl⟩
  | [], h => exact absurd (by simp) h
  | [_], h => exact absurd (by simp) h
  | [_, _], h => exact absurd (by simp) h
  | [_, _, _], h => exact absurd (by simp) h
  | [_, _, _, _], h => exact absurd (by simp) h

theorem popRecord_some {r r' : RecordReceiver} {o : OwnedRecord}
    (h : r.popRecord = (.ready (.ok (some o)), r')) :
    ∃ w : WireRecord, w.Legal ∧ r.incoming = w.bytes ++ r'.incoming ∧ o = w.owned ∧
      r'.readState = r.readState := by
  have h0 := h
  unfold RecordReceiver.popRecord at h
  by_cases h5 : r.incoming.length < 5
  · rw [if_pos h5] at h; cases hs : r.readState <;> rw [hs] at h <;> simp at h
  rw [if_neg h5] at h
  obtain ⟨a, b, c, d, e, tl, hd⟩ := header_shape _ h5
  have hn : beNat ((r.incoming.drop 3).take 2) = d.toNat * 256 + e.toNat := by
    rw [hd]; exact beNat_two _ _
  simp only [hn] at h
  by_cases h6 : d.toNat * 256 + e.toNat > maxCiphertextRecordSize
  · rw [if_pos h6] at h; simp at h
  rw [if_neg h6] at h
  by_cases h7 : r.incoming.length < 5 + (d.toNat * 256 + e.toNat)
  · rw [if_pos h7] at h; cases hs : r.readState <;> rw [hs] at h <;> simp at h
  -- the record is the first bytes
  have hlen : (tl.take (d.toNat * 256 + e.toNat)).length = d.toNat * 256 + e.toNat := by
    rw [hd] at h7; simp only [List.length_cons] at h7; rw [List.length_take]; omega
  have hd1 := u8_lt d
  have he1 := u8_lt e
  have hinc : r.incoming = WireRecord.bytes ⟨a, b, c, tl.take (d.toNat * 256 + e.toNat)⟩ ++
      tl.drop (d.toNat * 256 + e.toNat) := by
    rw [hd]
    simp only [WireRecord.bytes, WireRecord.header, hlen, List.cons_append, List.nil_append,
      List.take_append_drop]
    rw [show (d.toNat * 256 + e.toNat) / 256 = d.toNat by omega,
      show (d.toNat * 256 + e.toNat) % 256 = e.toNat by omega]
    simp
  have hleg : WireRecord.Legal ⟨a, b, c, tl.take (d.toNat * 256 + e.toNat)⟩ := by
    unfold maxCiphertextRecordSize at h6
    show (tl.take (d.toNat * 256 + e.toNat)).length ≤ _
    rw [hlen]; omega
  have := popRecord_wire _ hleg (tl.drop (d.toNat * 256 + e.toNat)) r.readState
  rw [← hinc] at this
  rw [show (⟨r.incoming, r.readState⟩ : RecordReceiver) = r from rfl, h0] at this
  simp only [Prod.mk.injEq, Poll.ready.injEq, Except.ok.injEq, Option.some.injEq] at this
  obtain ⟨h1, h2⟩ := this
  subst h2
  exact ⟨_, hleg, hinc, h1, rfl⟩

/-- A pop that gives no record leaves the data alone. -/
theorem popRecord_none {r r' : RecordReceiver} {res : Poll (Except TlsErr (Option OwnedRecord))}
    (h : r.popRecord = (res, r')) (hn : ∀ o, res ≠ .ready (.ok (some o))) :
    r'.incoming = r.incoming := by
  unfold RecordReceiver.popRecord at h
  split at h
  · split at h <;> (cases h; rfl)
  · simp only at h
    split at h
    · cases h; rfl
    · split at h
      · split at h <;> (cases h; rfl)
      · cases h; exact absurd rfl (hn _)

theorem wire_append (a b : List WireRecord) : wire (a ++ b) = wire a ++ wire b := by
  simp [wire]

@[simp] theorem wire_nil : wire [] = [] := rfl

@[simp] theorem wire_cons (w : WireRecord) (ws : List WireRecord) : wire (w :: ws) = w.bytes ++ wire ws := rfl

/-- A legal record at the front is determined by the data. -/
theorem bytes_append_inj {w w' : WireRecord} (h : w.Legal) (h' : w'.Legal) {x y : Bytes}
    (e : w.bytes ++ x = w'.bytes ++ y) : w = w' ∧ x = y := by
  have hl : w.fragment.length < 65536 := by unfold WireRecord.Legal at h; omega
  have hl' : w'.fragment.length < 65536 := by unfold WireRecord.Legal at h'; omega
  simp only [WireRecord.bytes, WireRecord.header, List.cons_append, List.nil_append,
    List.cons.injEq] at e
  obtain ⟨e1, e2, e3, e4, e5, e6⟩ := e
  have : w.fragment.length = w'.fragment.length := by
    rw [← len_two hl, ← len_two hl', e4, e5]
  obtain ⟨e7, e8⟩ := List.append_inj e6 this
  refine ⟨?_, e8⟩
  cases w; cases w'; simp_all

end Ngfs.Tls

namespace Ngfs.Tls

open Ngfs.Binary Ngfs.Spec

theorem list12 {α : Type} (l : List α) (h : l.length = 12) :
    ∃ a b c d e f g i j k m n, l = [a, b, c, d, e, f, g, i, j, k, m, n] := by
  match l, h with
  | [a, b, c, d, e, f, g, i, j, k, m, n], _ => exact ⟨a, b, c, d, e, f, g, i, j, k, m, n, rfl⟩

theorem ofNat_mod (n : Nat) : UInt8.ofNat (n % 256) = UInt8.ofNat n := by
  apply UInt8.toNat_inj.mp; simp

theorem makeNonce_eq (iv : Bytes) (h : iv.length = 12) (n : Nat) : makeNonce iv n = nonceSpec iv n := by
  obtain ⟨a, b, c, d, e, f, g, i, j, k, m, o, rfl⟩ := list12 iv h
  have hr : List.range 8 = [0, 1, 2, 3, 4, 5, 6, 7] := by decide
  have hx : ∀ (s : Nat) (y : UInt8), UInt8.ofNat (n >>> s) ^^^ y = y ^^^ UInt8.ofNat (n / 2 ^ s % 256) := by
    intro s y
    rw [ofNat_mod, Nat.shiftRight_eq_div_pow, UInt8.xor_comm]
  have hz : ∀ x : UInt8, (0 : UInt8) ^^^ x = x := fun x => UInt8.zero_xor
  simp [makeNonce, nonceSpec, beBytes, hr, hx, -Nat.shiftRight_eq_div_pow]
  rw [ofNat_mod, UInt8.xor_comm]

theorem nonceSpec_length (iv : Bytes) (h : iv.length = 12) (n : Nat) : (nonceSpec iv n).length = 12 := by
  simp [nonceSpec, h]

/-- Where the loop that looks for the content type stops. -/
theorem typeOffset_pad (content : Bytes) (typ : UInt8) (ht : typ ≠ 0) (pad : Nat) :
    typeOffset (content ++ [typ] ++ List.replicate pad 0) (content.length + 1 + pad) = content.length + 1 := by
  have key : ∀ k, k ≤ pad →
      typeOffset (content ++ [typ] ++ List.replicate pad 0) (content.length + 1 + k) = content.length + 1 := by
    intro k
    induction k with
    | zero =>
      intro _
      rw [Nat.add_zero, typeOffset, if_neg]
      rw [List.getD_eq_getElem?_getD, List.append_assoc, List.getElem?_append_right (le_refl _)]
      simpa using ht
    | succ k ih =>
      intro hk
      rw [← Nat.add_assoc, typeOffset, if_pos, ih (by omega)]
      rw [List.getD_eq_getElem?_getD, List.getElem?_append_right (by simp)]
      simp
  exact key pad le_rfl

/-- What the loop finds. -/
theorem typeOffset_spec (p : Bytes) (n : Nat) (hn : n ≤ p.length) :
    typeOffset p n ≤ n ∧ (∀ i, typeOffset p n ≤ i → i < n → p.getD i 0 = 0) ∧
      (typeOffset p n ≠ 0 → p.getD (typeOffset p n - 1) 0 ≠ 0) := by
  induction n with
  | zero => exact ⟨le_rfl, fun i _ h => by omega, fun h => absurd rfl h⟩
  | succ n ih =>
    obtain ⟨h1, h2, h3⟩ := ih (by omega)
    rw [typeOffset]
    by_cases h : p.getD n 0 = 0
    · rw [if_pos h]
      refine ⟨by omega, fun i hi hin => ?_, h3⟩
      by_cases hi' : i = n
      · rw [hi']; exact h
      · exact h2 i hi (by omega)
    · rw [if_neg h]
      exact ⟨le_rfl, fun i hi hin => by omega, fun _ => by simpa using h⟩

/-- Any non-zero plaintext is contents, type and padding. -/
theorem typeOffset_decomp (p : Bytes) (h : typeOffset p p.length ≠ 0) :
    p = p.take (typeOffset p p.length - 1) ++ [p.getD (typeOffset p p.length - 1) 0] ++
      List.replicate (p.length - typeOffset p p.length) 0 ∧ p.getD (typeOffset p p.length - 1) 0 ≠ 0 := by
  obtain ⟨h1, h2, h3⟩ := typeOffset_spec p p.length le_rfl
  generalize typeOffset p p.length = o at *
  refine ⟨?_, h3 h⟩
  rw [List.append_assoc]
  apply List.ext_getElem
  · simp; omega
  · intro i hi1 hi2
    by_cases ha : i < o - 1
    · rw [List.getElem_append_left (by simp; omega)]
      simp
    · by_cases hb : i = o - 1
      · subst hb
        rw [List.getElem_append_right (by simp)]
        have hm : o - 1 - (List.take (o - 1) p).length = 0 := by simp; omega
        simp only [hm]
        simp [List.getElem?_eq_getElem hi1]
      · rw [List.getElem_append_right (by simp; omega), List.getElem_append_right (by simp; omega)]
        have := h2 i (by omega) hi1
        rw [List.getD_eq_getElem?_getD, List.getElem?_eq_getElem hi1, Option.getD_some] at this
        simp [this]

theorem ciphertextFromRaw_wire (w : WireRecord) (hw : w.Legal) :
    ciphertextFromRaw w.bytes = some (w.fragment, w.bytes.length) := by
  have hl : w.fragment.length < 65536 := by unfold WireRecord.Legal at hw; omega
  have h3 : (w.bytes.drop 3).take 2
      = [UInt8.ofNat (w.fragment.length / 256), UInt8.ofNat (w.fragment.length % 256)] := by
    simp [WireRecord.bytes, WireRecord.header]
  have h5 : w.bytes.drop 5 = w.fragment := by simp [WireRecord.bytes, WireRecord.header]
  unfold ciphertextFromRaw
  rw [if_neg (by simp)]
  simp only [h3, beNat_two, len_two hl, h5]
  rw [if_neg, if_neg (by simp)]
  · simp
  · unfold WireRecord.Legal at hw; unfold tlsMaxEncryptedRecordLen
    rw [Nat.shiftLeft_eq]; omega

theorem decryptTraffic_wire {X K : Type} (cr : Crypto X K) (key : EncryptionKey) (hiv : key.writeIv.length = 12)
    (n : Nat) (w : WireRecord) (hw : w.Legal) :
    decryptTraffic cr key n w.bytes =
      match cr.aeadDecrypt key.aeadAlg key.writeKey (nonceSpec key.writeIv n) w.header w.fragment with
      | some p => .ok p
      | none => .error .decryptionFailed := by
  have h5 : w.bytes.take 5 = w.header := by simp [WireRecord.bytes, WireRecord.header]
  unfold decryptTraffic
  rw [ciphertextFromRaw_wire w hw]
  simp only [ne_eq, not_true_eq_false, if_false, h5, makeNonce_eq _ hiv]
  rw [if_neg (by simp)]
  rfl

/-- Decryption of a legal record, in terms of the specification. -/
theorem decryptMessage_protects {X K : Type} (cr : Crypto X K) (key : EncryptionKey) (hiv : key.writeIv.length = 12)
    (n : Nat) (w : WireRecord) (hw : w.Legal) (typ : UInt8) (ht : typ ≠ 0) (content : Bytes)
    (hp : Protects cr key n w typ content) :
    decryptMessage cr n key w.bytes =
      match Message.fromRaw cr.x509 content (ContentType.fromRaw typ) with
      | .ok m => .ok (m, content)
      | .error .panic => .error .panic
      | .error _ => .error .invalidMessageRecord := by
  obtain ⟨pad, hp⟩ := hp
  unfold decryptMessage
  rw [decryptTraffic_wire cr key hiv n w hw, hp]
  have hlen : (content ++ [typ] ++ List.replicate pad 0).length = content.length + 1 + pad := by simp; omega
  simp only [hlen, typeOffset_pad content typ ht pad]
  rw [if_neg (by omega)]
  have h1 : (content ++ [typ] ++ List.replicate pad 0).getD (content.length + 1 - 1) 0 = typ := by
    rw [Nat.add_sub_cancel, List.getD_eq_getElem?_getD, List.append_assoc,
      List.getElem?_append_right (le_refl _)]
    simp
  have h2 : (content ++ [typ] ++ List.replicate pad 0).take (content.length + 1 - 1) = content := by
    rw [List.append_assoc, List.take_append_of_le_length (by omega)]
    simp
  rw [h1, h2]
  rfl

/-- A record that is decrypted does protect what comes out. -/
theorem decryptMessage_ok {X K : Type} (cr : Crypto X K) (key : EncryptionKey) (hiv : key.writeIv.length = 12)
    (n : Nat) (w : WireRecord) (hw : w.Legal) (m : Message X) (content : Bytes)
    (h : decryptMessage cr n key w.bytes = .ok (m, content)) :
    ∃ typ : UInt8, typ ≠ 0 ∧ Protects cr key n w typ content ∧
      Message.fromRaw cr.x509 content (ContentType.fromRaw typ) = .ok m := by
  unfold decryptMessage at h
  rw [decryptTraffic_wire cr key hiv n w hw] at h
  rcases hd : cr.aeadDecrypt key.aeadAlg key.writeKey (nonceSpec key.writeIv n) w.header w.fragment with _ | p
  · rw [hd] at h; cases h
  rw [hd] at h
  simp only at h
  by_cases h0 : typeOffset p p.length = 0
  · rw [if_pos h0] at h; cases h
  rw [if_neg h0] at h
  obtain ⟨hdec, hne⟩ := typeOffset_decomp p h0
  rcases hm : Message.fromRaw cr.x509 (p.take (typeOffset p p.length - 1))
      (ContentType.fromRaw (p.getD (typeOffset p p.length - 1) 0)) with e | m'
  · rw [hm] at h; cases e <;> simp at h
  · rw [hm] at h
    simp only [Except.ok.injEq, Prod.mk.injEq] at h
    obtain ⟨rfl, rfl⟩ := h
    exact ⟨_, hne, ⟨_, by rw [hd]; exact congrArg some hdec⟩, hm⟩

/-- What encrypting a record appends. -/
theorem encryptRecord_ok {X K : Type} (cr : Crypto X K) (hc : cr.Correct) (key : EncryptionKey)
    (hiv : key.writeIv.length = 12) (n : Nat) (p p' : PlaintextStream) (data : Bytes) (ct : ContentType)
    (h : encryptRecord cr p data ct key n = (.ok (), p')) :
    data.length ≤ 2 ^ 14 ∧
    ∃ w : WireRecord, w.Legal ∧ w.typ = 23 ∧ w.v1 = 3 ∧ w.v2 = 3 ∧
      p' = { p with outgoing := p.outgoing ++ w.bytes,
                    seals := p.seals ++ [⟨key.writeKey, nonceSpec key.writeIv n⟩] } ∧
      cr.aeadEncrypt key.aeadAlg key.writeKey (nonceSpec key.writeIv n) w.header (data ++ [ct.toRaw])
        = some w.fragment ∧
      Protects cr key n w ct.toRaw data := by
  unfold encryptRecord at h
  by_cases hl : data.length > maxPlaintextRecordSize
  · rw [if_pos hl] at h; cases h
  rw [if_neg hl] at h
  unfold maxPlaintextRecordSize at hl
  simp only [encryptTraffic, makeNonce_eq _ hiv] at h
  have htag : key.aeadAlg.tagLen = 16 := rfl
  have hlen : (data ++ [ct.toRaw]).length + key.aeadAlg.tagLen = data.length + 17 := by simp [htag]
  rw [hlen] at h
  rcases he : cr.aeadEncrypt key.aeadAlg key.writeKey (nonceSpec key.writeIv n)
    [0x17, 0x03, 0x03, UInt8.ofNat ((data.length + 17) >>> 8), UInt8.ofNat (data.length + 17)]
    (data ++ [ct.toRaw]) with _ | c
  · rw [he] at h; cases h
  rw [he] at h
  obtain ⟨hdec, hcl⟩ := hc _ _ _ _ _ _ he
  have hcl' : c.length = data.length + 17 := by rw [hcl]; simp
  have hh : (⟨23, 3, 3, c⟩ : WireRecord).header
      = [0x17, 0x03, 0x03, UInt8.ofNat ((data.length + 17) >>> 8), UInt8.ofNat (data.length + 17)] := by
    simp only [WireRecord.header, hcl', Nat.shiftRight_eq_div_pow, ofNat_mod]
  refine ⟨by omega, ⟨23, 3, 3, c⟩, ?_, rfl, rfl, rfl, ?_, ?_, 0, ?_⟩
  · simp only [WireRecord.Legal, hcl']; omega
  · simp only [Prod.mk.injEq, true_and] at h
    rw [← h]
    have : encodeRecord .applicationData 0x0303 c = (⟨23, 3, 3, c⟩ : WireRecord).bytes := by
      simp only [encodeRecord, WireRecord.bytes, WireRecord.header, beBytes, Nat.shiftRight_eq_div_pow, ofNat_mod]
      simp [ContentType.toRaw]
    rw [this]
  · rw [hh]; exact he
  · rw [hh, hdec]; simp

end Ngfs.Tls
