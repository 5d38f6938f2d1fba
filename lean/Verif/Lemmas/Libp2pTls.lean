import Verif.Spec.Libp2pTls
import Verif.Lemmas.X509Safe
import Verif.Lemmas.X509Encode
import Verif.Props.X509
import Verif.Props.Identify

/-!
Lemmas for C102 and C103: sizes and parts of encodings.
-/
namespace Ngfs.X509
open Ngfs.Binary Ngfs.Asn1 Ngfs.Spec Ngfs.Identify

/-- The item can be encoded in at most `n` bytes. -/
def Fits (i : Item) (n : Nat) : Prop := ∃ bs, encodeItem i = .ok bs ∧ bs.length ≤ n

/-- The items can be encoded in at most `n` bytes. -/
def FitAll (l : List Item) (n : Nat) : Prop := ∃ bs, encodeItemList l = .ok bs ∧ bs.length ≤ n

theorem length_le {n : Nat} : (encodeLength n).length ≤ 9 := by
  unfold encodeLength
  split
  · simp
  · simp only
    split
    · simp
    · have : ((beBytes 8 n).dropWhile (· = 0)).length ≤ 8 := by
        rw [← beBytes_length 8 n]
        exact (List.dropWhile_sublist _).length_le
      simp only [List.length_cons]
      omega

theorem fits_raw {c : Class} {f : Form} {tag : Nat} {d : Bytes} (ht : tag ≤ 30) :
    ∃ bs, encodeRaw c f tag d = .ok bs ∧ bs.length ≤ d.length + 10 := by
  refine ⟨_, by simp only [encodeRaw, encodeIdentifier]; rw [if_neg (by omega)]; rfl, ?_⟩
  have := length_le (n := d.length)
  simp only [List.length_append, List.length_cons, List.length_nil]
  omega

theorem fit_nil : FitAll [] 0 := ⟨[], rfl, Nat.le_refl _⟩

theorem fit_cons {i : Item} {l : List Item} {n m : Nat} (h1 : Fits i n) (h2 : FitAll l m) : FitAll (i :: l) (n + m) := by
  obtain ⟨a, a1, a2⟩ := h1
  obtain ⟨b, b1, b2⟩ := h2
  refine ⟨a ++ b, by simp only [encodeItemList, a1, b1]; rfl, ?_⟩
  rw [List.length_append]
  omega

theorem fits_sequence {l : List Item} {n : Nat} (h : FitAll l n) : Fits (.ofValue (.sequence l)) (n + 10) := by
  obtain ⟨a, a1, a2⟩ := h
  obtain ⟨b, b1, b2⟩ := fits_raw (c := .universal) (f := .constructed) (tag := 16) (d := a) (by decide)
  exact ⟨b, by simp only [Item.ofValue, encodeItem, encodeValue, a1]; exact b1, by omega⟩

theorem fits_set {l : List Item} {n : Nat} (h : FitAll l n) : Fits (.ofValue (.set l)) (n + 10) := by
  obtain ⟨a, a1, a2⟩ := h
  obtain ⟨b, b1, b2⟩ := fits_raw (c := .universal) (f := .constructed) (tag := 17) (d := a) (by decide)
  exact ⟨b, by simp only [Item.ofValue, encodeItem, encodeValue, a1]; exact b1, by omega⟩

theorem fits_tag {i : Item} {n t : Nat} (ht : t ≤ 30) (h : Fits i n) : Fits (.ofValue (.contextSpecific t i)) (n + 10) := by
  obtain ⟨a, a1, a2⟩ := h
  obtain ⟨b, b1, b2⟩ := fits_raw (c := .contextSpecific) (f := .constructed) (tag := t) (d := a) ht
  exact ⟨b, by simp only [Item.ofValue, encodeItem, encodeValue, a1]; exact b1, by omega⟩

theorem fits_integer (d : Bytes) : Fits (.ofValue (.integer d)) (d.length + 10) := fits_raw (by decide)
theorem fits_boolean (v : Bool) : Fits (.ofValue (.boolean v)) 11 := fits_raw (d := [0]) (by decide)
theorem fits_octets (d : Bytes) : Fits (.ofValue (.octetString d)) (d.length + 10) := fits_raw (by decide)
theorem fits_bits (b : BitString) : Fits b.toAsn1 (b.bytes.length + 11) := by
  obtain ⟨x, y, z⟩ := fits_raw (c := .universal) (f := .primitive) (tag := 3) (d := b.unusedBits :: b.bytes) (by decide)
  exact ⟨x, y, by simp only [List.length_cons] at z; omega⟩
theorem fits_printable (s : String) : Fits (.ofValue (.printableString s)) ((utf8Encode s).length + 10) := fits_raw (by decide)
theorem fits_utf8 (s : String) : Fits (.ofValue (.utf8String s)) ((utf8Encode s).length + 10) := fits_raw (by decide)
theorem fits_null : Fits (.ofValue .null) 10 := fits_raw (d := []) (by decide)

theorem fits_oid {oid : List Nat} {d : Bytes} (h : encodeOid oid = .ok d) : Fits (.ofValue (.objectIdentifier oid)) (d.length + 10) := by
  obtain ⟨b, b1, b2⟩ := fits_raw (c := .universal) (f := .primitive) (tag := 6) (d := d) (by decide)
  exact ⟨b, by simp only [Item.ofValue, encodeItem, encodeValue, h]; exact b1, by omega⟩

theorem fits_time {t : Time} {n : Nat} (h : ∀ s, t = .utcTime s ∨ t = .generalizedTime s → (utf8Encode s).length ≤ n) :
    Fits t.toAsn1 (n + 10) := by
  cases t with
  | utcTime s =>
    obtain ⟨b, b1, b2⟩ := fits_raw (c := .universal) (f := .primitive) (tag := 23) (d := utf8Encode s) (by decide)
    have := h s (.inl rfl)
    exact ⟨b, b1, by omega⟩
  | generalizedTime s =>
    obtain ⟨b, b1, b2⟩ := fits_raw (c := .universal) (f := .primitive) (tag := 24) (d := utf8Encode s) (by decide)
    have := h s (.inr rfl)
    exact ⟨b, b1, by omega⟩

theorem fits_le {i : Item} {n m : Nat} (h : Fits i n) (hm : n ≤ m) : Fits i m := by
  obtain ⟨a, a1, a2⟩ := h
  exact ⟨a, a1, by omega⟩

/-! ### Parts of an encoding -/

theorem infix_list {l : List Item} {i : Item} {b bs : Bytes} (hi : i ∈ l) (h1 : encodeItem i = .ok b)
    (h2 : encodeItemList l = .ok bs) : b <:+: bs := by
  induction l generalizing bs with
  | nil => cases hi
  | cons j l ih =>
    simp only [encodeItemList, bind, Except.bind] at h2
    rcases ha : encodeItem j with e | a
    · rw [ha] at h2; cases h2
    · rw [ha] at h2
      simp only at h2
      rcases hc : encodeItemList l with e | c
      · rw [hc] at h2; cases h2
      · rw [hc] at h2
        simp only [pure, Except.pure, Except.ok.injEq] at h2
        subst h2
        rcases List.mem_cons.mp hi with rfl | hi
        · rw [h1] at ha
          cases ha
          exact ⟨[], c, rfl⟩
        · obtain ⟨s, t, rfl⟩ := ih hi hc
          exact ⟨a ++ s, t, by simp⟩

theorem infix_sequence {l : List Item} {i : Item} {b bs : Bytes} (hi : i ∈ l) (h1 : encodeItem i = .ok b)
    (h2 : encodeItem (.ofValue (.sequence l)) = .ok bs) : b <:+: bs := by
  simp only [Item.ofValue, encodeItem, encodeValue, bind, Except.bind] at h2
  rcases hc : encodeItemList l with e | c
  · rw [hc] at h2; cases h2
  · rw [hc] at h2
    have h3 : encodeRaw .universal .constructed 16 c = .ok bs := h2
    obtain ⟨s, t, rfl⟩ := infix_list hi h1 hc
    simp only [encodeRaw, encodeIdentifier, bind, Except.bind, pure, Except.pure] at h3
    rw [if_neg (by decide)] at h3
    simp only [Except.ok.injEq] at h3
    exact ⟨[Class.universal.bits <<< 6 ||| Form.constructed.bit <<< 5 ||| UInt8.ofNat 16] ++ encodeLength (s ++ b ++ t).length ++ s, t,
      by rw [← h3]; simp only [List.append_assoc]⟩

/-! ### The parts of a libp2p certificate -/

theorem oid_ed25519 : encodeOid [1, 3, 101, 112] = .ok [43, 101, 112] := by simp [encodeOid, var_small]
theorem oid_serial : encodeOid [2, 5, 4, 5] = .ok [85, 4, 5] := by simp [encodeOid, var_small]

theorem encode_info {key : Bytes} (h : key.length = 32) :
    encodeItem (SubjectPublicKeyInfo.mk ed25519Algorithm ⟨0, key⟩).toAsn1 = .ok (ed25519Info key) := by
  simp only [SubjectPublicKeyInfo.toAsn1, AlgorithmIdentifier.toAsn1, ed25519Algorithm, BitString.toAsn1, Item.ofValue, encodeItem,
    encodeValue, encodeItemList, oid_ed25519, Option.toList, bind, Except.bind, pure, Except.pure, encodeRaw, encodeIdentifier]
  simp [h, encodeLength, ed25519Info, Class.bits, Form.bit]
  decide

theorem libp2p_oid : encodeOid [1, 3, 6, 1, 4, 1, 53594, 1, 1] = .ok [43, 6, 1, 4, 1, 131, 162, 90, 1, 1] := by
  have : writeVarU64 53594 = [131, 162, 90] := by
    rw [writeVarU64, varTemp, if_pos (by decide), varTemp, if_pos (by decide), varTemp, if_neg (by decide)]
    decide
  simp [encodeOid, var_small, this]

theorem encode_small {n : Nat} (h : n < 128) : Varint.encodeU64 n = [UInt8.ofNat n] := by
  have h0 : n >>> 7 = 0 := by rw [Nat.shiftRight_eq_div_pow]; omega
  rw [Varint.encodeU64, dif_neg (by simp [h0]), Ngfs.and_7f, Nat.mod_eq_of_lt h]

theorem encode_key {key : Bytes} (h : key.length = 32) : PublicKey.toPb ⟨.ed25519, key⟩ = .ok ([8, 1, 18, 32] ++ key) := by
  simp [PublicKey.toPb, Protobuf.writeUint64, Protobuf.writeBytes, Protobuf.writeTag, Protobuf.VARINT_TYPE, Protobuf.LENGTH_TYPE,
    bind, Except.bind, KeyType.toNat, h, encode_small]

theorem signature_prefix : signaturePrefix = "libp2p-tls-handshake:".toList.map (fun c => UInt8.ofNat c.toNat) := by decide

theorem ed25519_portable : PortableAlgorithm ed25519Algorithm :=
  ⟨⟨1, 3, [101, 112], rfl, by decide, by decide, by decide⟩, by simp [ed25519Algorithm]⟩

theorem libp2p_portable (nb na : String) (key ext : Bytes) : PortableTbs (libp2pTbs nb na key ext) where
  signature := ed25519_portable
  issuer := by
    intro r hr
    obtain rfl := List.mem_singleton.mp hr
    exact ⟨⟨2, 5, [4, 5], rfl, by decide, by decide, by decide⟩, portable_leaf trivial ⟨trivial, trivial⟩⟩
  subject := by
    intro r hr
    obtain rfl := List.mem_singleton.mp hr
    exact ⟨⟨2, 5, [4, 5], rfl, by decide, by decide, by decide⟩, portable_leaf trivial ⟨trivial, trivial⟩⟩
  key := ed25519_portable
  extensions := by
    intro e he
    obtain rfl := List.mem_singleton.mp he
    exact ⟨1, 3, [6, 1, 4, 1, 53594, 1, 1], rfl, by decide, by decide, by decide⟩
  noIssuerId := rfl
  noSubjectId := rfl

theorem fits_algorithm : Fits ed25519Algorithm.toAsn1 23 :=
  fits_le (fits_sequence (fit_cons (fits_oid oid_ed25519) fit_nil)) (by decide)

theorem fits_name : Fits (Name.toAsn1 libp2pName) 54 := by
  refine fits_le (fits_sequence (fit_cons (fits_set (fit_cons (fits_sequence (fit_cons (fits_oid oid_serial)
    (fit_cons (fits_printable "1") fit_nil))) fit_nil)) fit_nil)) ?_
  decide

end Ngfs.X509
