import Verif.Spec.Cid
import Verif.Lemmas.Protobuf
import Verif.Lemmas.MultibaseDecode

/-! Helper lemmas about content identifiers and multiaddresses. No claims here. -/
namespace Ngfs.Cid
open Varint Protobuf Spec

theorem readFrom_at (pre p post : Bytes) (hp : IsVarint p) :
    readFrom (pre ++ p ++ post) pre.length = some (p, pre.length + p.length) := by
  simp only [readFrom, scanVarint_varint pre p post hp, slice_mid]

theorem readNum_at (pre post : Bytes) (n : Nat) (hn : n < 2 ^ 64) (err : ParseError) :
    readNum (pre ++ encodeU64 n ++ post) pre.length err = .ok (n, pre.length + (encodeU64 n).length) := by
  simp only [readNum, readFrom_at pre _ post (isVarint_encode n), VarInt.toU64, decode_encode hn]

theorem readNum_at' (pre post data : Bytes) (o n : Nat) (hn : n < 2 ^ 64) (err : ParseError)
    (hd : data = pre ++ encodeU64 n ++ post) (ho : o = pre.length) :
    readNum data o err = .ok (n, (pre ++ encodeU64 n).length) := by
  subst hd ho; simpa using readNum_at pre post n hn err

theorem codec_from_to {c : Codec} (h : ValidCodec c) : Codec.fromU64 c.toU64 = c ∧ c.toU64 < 2 ^ 64 := by
  cases c with
  | unknown n =>
    simp only [ValidCodec, List.mem_cons, List.not_mem_nil, or_false, not_or] at h
    obtain ⟨h1, h2, h3, h4, h5⟩ := h
    exact ⟨by simp [Codec.fromU64, Codec.toU64, h2, h3, h4, h5], h1⟩
  | _ => exact ⟨by decide, by decide⟩

theorem hash_from_to {c : HashType} (h : ValidHashType c) : HashType.fromU64 c.toU64 = c ∧ c.toU64 < 2 ^ 64 := by
  cases c with
  | unknown n =>
    simp only [ValidHashType, List.mem_cons, List.not_mem_nil, or_false, not_or] at h
    obtain ⟨h1, h2, h3, h4, h5⟩ := h
    exact ⟨by simp [HashType.fromU64, HashType.toU64, h2, h3, h4, h5], h1⟩
  | _ => exact ⟨by decide, by decide⟩

theorem codec_valid {n : Nat} (h : n < 2 ^ 64) : ValidCodec (Codec.fromU64 n) := by
  unfold Codec.fromU64
  repeat' split
  all_goals simp_all [ValidCodec]

theorem hash_valid {n : Nat} (h : n < 2 ^ 64) : ValidHashType (HashType.fromU64 n) := by
  unfold HashType.fromU64
  repeat' split
  all_goals simp_all [ValidHashType]

theorem fromBytesV1_toBytesV1 (c : CID) (hc : ValidCodec c.codec) (hh : ValidHashType c.hashType)
    (hl : c.toBytesV1.length < 2 ^ 64) :
    fromBytesV1 c.toBytesV1 = .ok { c with version := .v1 } := by
  obtain ⟨c1, c2⟩ := codec_from_to hc
  obtain ⟨h1, h2⟩ := hash_from_to hh
  have hlen : c.hash.length < 2 ^ 64 := by simp [CID.toBytesV1] at hl; omega
  have hfirst : c.toBytesV1[0]? = some 1 := by simp [CID.toBytesV1]
  simp only [fromBytesV1, hfirst, ne_eq, not_true_eq_false, if_false, bind, Except.bind]
  rw [readNum_at' [1] (encodeU64 c.hashType.toU64 ++ encodeU64 c.hash.length ++ c.hash) _ 1 _ c2 _
    (by simp [CID.toBytesV1]) rfl]
  simp only
  rw [readNum_at' ([1] ++ encodeU64 c.codec.toU64) (encodeU64 c.hash.length ++ c.hash) _ _ _ h2 _
    (by simp [CID.toBytesV1]) rfl]
  simp only
  rw [readNum_at' ([1] ++ encodeU64 c.codec.toU64 ++ encodeU64 c.hashType.toU64) c.hash _ _ _ hlen _
    (by simp [CID.toBytesV1]) rfl]
  have htot : c.toBytesV1.length = ([1] ++ encodeU64 c.codec.toU64 ++ encodeU64 c.hashType.toU64 ++
      encodeU64 c.hash.length).length + c.hash.length := by simp [CID.toBytesV1]; omega
  simp only
  rw [← htot, if_neg (by simp only [usizeLimit]; omega), if_neg (by simp)]
  have : slice c.toBytesV1 ([1] ++ encodeU64 c.codec.toU64 ++ encodeU64 c.hashType.toU64 ++
      encodeU64 c.hash.length).length c.toBytesV1.length = c.hash := by
    conv_lhs => rw [htot]
    have := slice_mid ([1] ++ encodeU64 c.codec.toU64 ++ encodeU64 c.hashType.toU64 ++
      encodeU64 c.hash.length) c.hash []
    simpa [CID.toBytesV1] using this
  rw [this, c1, h1]

theorem isCidV0_v1 (c : CID) : isCidV0 c.toBytesV1 = false := by
  have : c.toBytesV1[0]? = some 1 := by simp [CID.toBytesV1]
  simp [isCidV0, this]

theorem isCidV0_iff (bs : Bytes) : isCidV0 bs = true ↔ ∃ hash : Bytes, hash.length = 32 ∧ bs = [0x12, 0x20] ++ hash := by
  constructor
  · intro h
    simp only [isCidV0, Bool.and_eq_true, beq_iff_eq] at h
    match bs, h with
    | a :: b :: rest, h => 
      simp at h
      obtain ⟨⟨h1, h2⟩, h3⟩ := h
      exact ⟨rest, by omega, by simp [h2, h3]⟩
    | [], h => simp at h
    | [a], h => simp at h
  · rintro ⟨hash, h, rfl⟩
    simp [isCidV0, h]

theorem readNum_ok {bytes : Bytes} {o n o' : Nat} {err : ParseError} (h : readNum bytes o err = .ok (n, o')) :
    n < 2 ^ 64 ∧ o < o' ∧ o' ≤ bytes.length := by
  simp only [readNum, readFrom] at h
  cases hs : scanVarint bytes o with
  | none => simp [hs] at h
  | some e =>
    have hb := scanVarint_bounds hs
    simp only [hs] at h
    cases hd : VarInt.toU64 (slice bytes o e) with
    | error x => simp [hd] at h
    | ok m =>
      simp only [hd, Except.ok.injEq, Prod.mk.injEq] at h
      have := (toU64_iff _ _).mp hd
      obtain ⟨rfl, rfl⟩ := h
      exact ⟨this.2.2.2, by omega, by omega⟩

theorem fromBytesV1_valid {bytes : Bytes} {c : CID} (h : fromBytesV1 bytes = .ok c) :
    c.version = .v1 ∧ ValidCodec c.codec ∧ ValidHashType c.hashType ∧ c.hash.length < bytes.length := by
  simp only [fromBytesV1] at h
  split at h
  · cases h
  · split at h
    · cases h
    · simp only [bind, Except.bind] at h
      split at h
      · cases h
      · rename_i r1 e1
        split at h
        · cases h
        · rename_i r2 e2
          split at h
          · cases h
          · rename_i r3 e3
            have b1 := readNum_ok e1
            have b2 := readNum_ok e2
            have b3 := readNum_ok e3
            split at h
            · cases h
            · split at h
              · cases h
              · rename_i hne
                cases h
                refine ⟨rfl, codec_valid b1.1, hash_valid b2.1, ?_⟩
                simp only
                rw [slice_length (by omega)]; omega

theorem slice_append_slice {data : Bytes} {a b c : Nat} (hab : a ≤ b) (hbc : b ≤ c) :
    slice data a b ++ slice data b c = slice data a c := by
  obtain ⟨k, rfl⟩ := Nat.exists_eq_add_of_le hab
  obtain ⟨l, rfl⟩ := Nat.exists_eq_add_of_le hbc
  simp only [slice]
  rw [Nat.add_assoc, Nat.add_sub_cancel_left, Nat.add_sub_cancel_left, ← Nat.add_assoc, Nat.add_sub_cancel_left,
    List.take_add, List.drop_drop]

theorem codec_to_from (n : Nat) : (Codec.fromU64 n).toU64 = n := by
  unfold Codec.fromU64
  repeat' split
  all_goals simp_all [Codec.toU64]

theorem hash_to_from (n : Nat) : (HashType.fromU64 n).toU64 = n := by
  unfold HashType.fromU64
  repeat' split
  all_goals simp_all [HashType.toU64]

theorem readNum_denotes {bytes : Bytes} {o n o' : Nat} {err : ParseError} (h : readNum bytes o err = .ok (n, o')) :
    Denotes (slice bytes o o') n := by
  simp only [readNum, readFrom] at h
  cases hs : scanVarint bytes o with
  | none => simp [hs] at h
  | some e =>
    simp only [hs] at h
    cases hd : VarInt.toU64 (slice bytes o e) with
    | error x => simp [hd] at h
    | ok m =>
      simp only [hd, Except.ok.injEq, Prod.mk.injEq] at h
      obtain ⟨rfl, rfl⟩ := h
      exact (toU64_iff _ _).mp hd

theorem readNum_of (pre v post data : Bytes) (o n : Nat) (err : ParseError) (hv : Denotes v n)
    (hd : data = pre ++ v ++ post) (ho : o = pre.length) : readNum data o err = .ok (n, (pre ++ v).length) := by
  subst hd ho
  have h1 : VarInt.toU64 v = .ok n := (toU64_iff _ _).mpr hv
  simp only [readNum, readFrom_at pre _ post hv.1, h1, List.length_append]

theorem fromBytesV1_iff (bytes : Bytes) (c : CID) (hb : bytes.length < 2 ^ 64) :
    fromBytesV1 bytes = .ok c ↔ c.version = .v1 ∧ ValidCodec c.codec ∧ ValidHashType c.hashType ∧
      ∃ codec hash len, bytes = [1] ++ codec ++ hash ++ len ++ c.hash ∧
      Denotes codec c.codec.toU64 ∧ Denotes hash c.hashType.toU64 ∧ Denotes len c.hash.length := by
  constructor
  · intro h
    have hval := fromBytesV1_valid h
    refine ⟨hval.1, hval.2.1, hval.2.2.1, ?_⟩
    clear hval
    simp only [fromBytesV1] at h
    split at h
    · cases h
    · rename_i v hv
      split at h
      · cases h
      · rename_i hv1
        simp only [bind, Except.bind] at h
        split at h
        · cases h
        · rename_i r1 e1
          split at h
          · cases h
          · rename_i r2 e2
            split at h
            · cases h
            · rename_i r3 e3
              have b1 := readNum_ok e1
              have b2 := readNum_ok e2
              have b3 := readNum_ok e3
              split at h
              · cases h
              · split at h
                · cases h
                · rename_i hne
                  cases h
                  have hv1 : v = 1 := by simpa using hv1
                  subst hv1
                  refine ⟨slice bytes 1 r1.2, slice bytes r1.2 r2.2, slice bytes r2.2 r3.2, ?_, ?_, ?_, ?_⟩
                  · have h0 : slice bytes 0 1 = [1] := by
                      cases bytes with
                      | nil => simp at hv
                      | cons x xs => simp only [List.getElem?_cons_zero, Option.some.injEq] at hv; simp [slice, hv]
                    simp only
                    rw [← h0, slice_append_slice (by omega) (by omega), slice_append_slice (by omega) (by omega),
                      slice_append_slice (by omega) (by omega), slice_append_slice (by omega) (by omega)]
                    simp at hne
                    rw [hne]; simp [slice]
                  · simp only; rw [codec_to_from]; exact readNum_denotes e1
                  · simp only; rw [hash_to_from]; exact readNum_denotes e2
                  · simp only; rw [slice_length (by omega)]
                    have := readNum_denotes e3
                    rwa [Nat.add_sub_cancel_left]
  · rintro ⟨hv, hc, hh, k, h, l, he, dk, dh, dl⟩
    have hfirst : bytes[0]? = some 1 := by simp [he]
    have htot : bytes.length = ([1] ++ k ++ h ++ l).length + c.hash.length := by simp [he]; omega
    simp only [fromBytesV1, hfirst, ne_eq, not_true_eq_false, if_false, bind, Except.bind]
    rw [readNum_of [1] k (h ++ l ++ c.hash) _ 1 _ _ dk (by simp [he]) rfl]
    simp only
    rw [readNum_of ([1] ++ k) h (l ++ c.hash) _ _ _ _ dh (by simp [he]) rfl]
    simp only
    rw [readNum_of ([1] ++ k ++ h) l c.hash _ _ _ _ dl (by simp [he]) rfl]
    simp only
    rw [← htot, if_neg (by simp only [usizeLimit]; omega), if_neg (by simp)]
    have : slice bytes ([1] ++ k ++ h ++ l).length bytes.length = c.hash := by
      conv_lhs => rw [htot]
      have := slice_mid ([1] ++ k ++ h ++ l) c.hash []
      simpa [he] using this
    rw [this, (codec_from_to hc).1, (hash_from_to hh).1, ← hv]

/-! #### Version 0 text -/

theorem leVal_split (ds : Bytes) (n : Nat) : Multibase.leVal 58 ds =
    Multibase.leVal 58 (ds.take n) + 58 ^ (ds.take n).length * Multibase.leVal 58 (ds.drop n) := by
  rw [← Multibase.leVal_append, List.take_append_drop]

/-- The text of a version-0 identifier has 46 characters and starts with `Qm`. -/
theorem v0_text (hash : Bytes) (hl : hash.length = 32) :
    ∃ rest, Multibase.encodeBase58 ([0x12, 0x20] ++ hash) Multibase.BASE58_BTC = 'Q' :: 'm' :: rest ∧
      (Multibase.asBytes ('Q' :: 'm' :: rest)).length = 46 := by
  obtain ⟨ds, e1, e2, e3, e4⟩ := Multibase.encodeBase58Loop_spec ([0x12, 0x20] ++ hash) []
  have hz : Multibase.leadingZeros ([0x12, 0x20] ++ hash) = 0 := by simp [Multibase.leadingZeros]
  have hlt : Multibase.beVal hash < 256 ^ 32 := by
    rw [Multibase.beVal_reverse, ← hl, ← List.length_reverse]
    exact Multibase.leVal_lt 256 (by decide) _ (Multibase.all256 _)
  have hv : Multibase.beVal ([0x12, 0x20] ++ hash) = 0x1220 * 256 ^ 32 + Multibase.beVal hash := by
    simp only [List.cons_append, List.nil_append, Multibase.beVal, List.length_cons, hl]
    have h1 : (0x12 : UInt8).toNat = 18 := rfl
    have h2 : (0x20 : UInt8).toNat = 32 := rfl
    rw [h1, h2]; omega
  rw [hv] at e2
  have hub := Multibase.leVal_lt 58 (by decide) ds e3
  -- 46 digits
  have hlen : ds.length = 46 := by
    rcases Nat.lt_trichotomy ds.length 46 with h | h | h
    · have : 58 ^ ds.length ≤ 58 ^ 45 := Nat.pow_le_pow_right (by decide) (by omega)
      have h2 : 58 ^ 45 ≤ 0x1220 * 256 ^ 32 := by decide
      omega
    · exact h
    · exfalso
      have h46 := leVal_split ds 46
      have hne : ds.drop 46 ≠ [] := by
        intro hc; have := congrArg List.length hc; simp at this; omega
      have hcan : Multibase.Canon (ds.drop 46) := by
        intro x hx
        apply e4 x
        rw [List.getLast?_drop] at hx
        rw [if_neg (by omega)] at hx; exact hx
      have hpos := Multibase.canon_pos 58 (by decide) hcan hne
      have hl46 : (ds.take 46).length = 46 := by simp; omega
      rw [hl46] at h46
      have : 58 ^ 46 * 1 ≤ 58 ^ 46 * Multibase.leVal 58 (ds.drop 46) := Nat.mul_le_mul_left _ hpos
      have h2 : 0x1221 * 256 ^ 32 < 58 ^ 46 := by decide
      omega
  -- the two most significant digits
  have h44 := leVal_split ds 44
  have hl44 : (ds.take 44).length = 44 := by simp; omega
  have hlow := Multibase.leVal_lt 58 (by decide) (ds.take 44) (fun d hd => e3 d (List.mem_of_mem_take hd))
  rw [hl44] at h44 hlow
  obtain ⟨a, b, hab⟩ : ∃ a b, ds.drop 44 = [a, b] := by
    have : (ds.drop 44).length = 2 := by simp; omega
    match hd : ds.drop 44, this with
    | [a, b], _ => exact ⟨a, b, rfl⟩
  have hda : a.toNat < 58 := e3 a (List.mem_of_mem_drop (by rw [hab]; simp))
  have hdb : b.toNat < 58 := e3 b (List.mem_of_mem_drop (by rw [hab]; simp))
  rw [hab] at h44
  simp only [Multibase.leVal, Nat.mul_zero, Nat.add_zero] at h44
  have hq : a.toNat + 58 * b.toNat = 1378 := by
    rw [e2] at h44
    have k1 : 1378 * 58 ^ 44 ≤ 0x1220 * 256 ^ 32 := by decide
    have k2 : 0x1221 * 256 ^ 32 ≤ 1379 * 58 ^ 44 := by decide
    generalize a.toNat + 58 * b.toNat = q at h44
    have hlo : 58 ^ 44 * 1378 < 58 ^ 44 * (q + 1) := by rw [Nat.mul_add]; omega
    have hhi : 58 ^ 44 * q < 58 ^ 44 * 1379 := by omega
    have := Nat.lt_of_mul_lt_mul_left hlo
    have := Nat.lt_of_mul_lt_mul_left hhi
    omega
  have ha : a = 44 := u8_ext (by show a.toNat = 44; omega)
  have hb : b = 23 := u8_ext (by show b.toNat = 23; omega)
  have hds : ds.reverse = b :: a :: (ds.take 44).reverse := by
    conv_lhs => rw [← List.take_append_drop 44 ds, hab]
    simp
  refine ⟨(ds.take 44).reverse.map (Multibase.pick Multibase.BASE58_BTC), ?_, ?_⟩
  · rw [Multibase.encodeBase58, hz, e1, List.nil_append, hds, ha, hb]
    rfl
  · have hc : ∀ l : Bytes, (∀ d ∈ l, d.toNat < 58) →
        (Multibase.asBytes (l.map (Multibase.pick Multibase.BASE58_BTC))).length = l.length := by
      intro l hl
      induction l with
      | nil => rfl
      | cons d l ih =>
        obtain ⟨x, hx, _, _⟩ := Multibase.table58B.byte d (hl d (by simp))
        have := ih (fun e he => hl e (by simp [he]))
        simp only [Multibase.asBytes, List.map_cons, List.flatMap_cons, hx, List.length_append, List.length_cons,
          List.length_nil] at this ⊢
        omega
    have h1 := hc ds.reverse (fun d hd => e3 d (List.mem_reverse.mp hd))
    rw [hds, ha, hb] at h1
    have h2 : (23 :: 44 :: (ds.take 44).reverse).map (Multibase.pick Multibase.BASE58_BTC) =
      'Q' :: 'm' :: (ds.take 44).reverse.map (Multibase.pick Multibase.BASE58_BTC) := rfl
    rw [h2] at h1
    rw [h1]; simp [hlen]

end Ngfs.Cid
