import Verif.Lemmas.Asn1Write
import Verif.Lemmas.Asn1Safe
import Verif.Lemmas.BencodePlain

/-!
Property theorems on the call stack the decoders of nested data need. `Asn1.readItemN n` and `Bencode.parseValueN n` are
the decoders with room for `n` nested calls of `read_item` and of `parse_node`: they end with `.fuel` exactly when a call
nested deeper is made.
-/

/-! ### C182: ASN.1 -/

namespace Ngfs.Asn1
open Ngfs.Binary Ngfs.Spec

/-- A null inside `n` sequences, each the only element of the next. -/
def nested : Nat → Bytes
  | 0 => [0x05, 0x00]
  | n + 1 => 0x30 :: (encodeLength (nested n).length ++ nested n)

theorem derLength_le {n : Nat} {bs : Bytes} (h : DerLength n bs) (hn : n < 2 ^ 32) : 1 ≤ bs.length ∧ bs.length ≤ 5 := by
  rcases h with ⟨-, rfl⟩ | ⟨-, d, ds, rfl, hd, -, he⟩
  · simp
  · have h1 := bigEndian_ge d ds hd
    rw [he] at h1
    have h2 : 256 ^ ds.length < 256 ^ 4 := by omega
    have h3 := (Nat.pow_lt_pow_iff_right (by omega)).mp h2
    simp; omega

theorem nested_length (n : Nat) (h : 6 * n + 2 < 2 ^ 32) :
    2 * n + 2 ≤ (nested n).length ∧ (nested n).length ≤ 6 * n + 2 := by
  induction n with
  | zero => simp [nested]
  | succ n ih =>
    obtain ⟨h1, h2⟩ := ih (by omega)
    obtain ⟨h3, h4⟩ := derLength_le (encodeLength_der (n := (nested n).length) (by omega)) (by omega)
    simp only [nested, List.length_cons, List.length_append]
    omega

theorem nested_tlv (n : Nat) (h : 6 * n + 2 < 2 ^ 32) : Tlv 0 true 16 (nested n) (nested (n + 1)) :=
  ⟨by decide, encodeLength (nested n).length, encodeLength_der (by have := nested_length n h; omega), rfl⟩

/-- It is the encoding of a value. -/
theorem nested_der (n : Nat) (h : 6 * n + 2 < 2 ^ 32) (o : Nat) : ∃ item, DerItem o item (nested n) := by
  induction n generalizing o with
  | zero => exact ⟨_, .mk (.null ⟨by decide, [0], .inl ⟨by decide, rfl⟩, rfl⟩)⟩
  | succ n ih =>
    obtain ⟨item, hi⟩ := ih (by omega) (o + (nested (n + 1)).length - (nested n).length)
    have hs := DerItems.cons hi .nil
    rw [List.append_nil] at hs
    exact ⟨_, .mk (.sequence hs (nested_tlv n (by omega)))⟩

/-- Room for `n` calls is not enough for it. -/
theorem nested_fuel (n : Nat) (h : 6 * n + 2 < 2 ^ 32) (pre post : Bytes) (hl : (pre ++ nested n ++ post).length < 2 ^ 64) :
    (readItemN n ⟨pre ++ nested n ++ post, pre.length⟩).1 = .error .fuel := by
  induction n generalizing pre post with
  | zero => rfl
  | succ n ih =>
    have hlen := nested_length n (by omega)
    obtain ⟨hdr, hb, h2, hv⟩ := readValue_tlv (nested_tlv n (by omega)) (by decide) (by omega) (readItemN n)
    have hv := hv pre post hl
    have hf := ih (by omega) (pre ++ hdr) [] (by simp only [hb, List.length_append] at hl ⊢; simp; omega)
    rw [List.append_nil] at hf
    have hc : (readContents (readItemN n) ⟨clsOf 0, formFor true, 16⟩ (nested n).length
        ⟨(pre ++ hdr) ++ nested n, (pre ++ hdr).length⟩).1 = .error .fuel := by
      have hr : (⟨(pre ++ hdr) ++ nested n, (pre ++ hdr).length⟩ : Reader).remaining > 0 := by
        simp only [Reader.remaining, List.length_append]; omega
      rcases hi : readItemN n ⟨(pre ++ hdr) ++ nested n, (pre ++ hdr).length⟩ with ⟨res, r'⟩
      rw [hi] at hf
      simp only at hf
      subst hf
      have hloop : itemListLoop (readItemN n) ((⟨(pre ++ hdr) ++ nested n, (pre ++ hdr).length⟩ : Reader).remaining + 1)
          ⟨(pre ++ hdr) ++ nested n, (pre ++ hdr).length⟩ = (.error .fuel, r') := by
        simp only [itemListLoop, if_pos hr, hi]
      simp only [readContents, clsOf, readUniversal, formFor, if_true]
      rw [bind_error hloop]
    simp only [readItemN]
    rw [hv, hc]

/-- The claim for ASN.1, in particular for files with certificates: whatever the bytes, a million nested calls, or fewer, are
enough. -/
def C182_asn1_statement : Prop :=
  ∃ d ≤ 1000000, ∀ bytes : Bytes, (readItemN d (Reader.new bytes)).1 ≠ .error .fuel

/-- For every number of calls there is a well-formed value that needs more, of at most six bytes for each call; it is decoded
if there is room. -/
theorem C182_asn1_deep (d : Nat) (h : 6 * d + 2 < 2 ^ 32) : ∃ bytes : Bytes, bytes.length ≤ 6 * d + 2 ∧
    (readItemN d (Reader.new bytes)).1 = .error .fuel ∧ ∃ item, DerItem 0 item bytes := by
  have hl := nested_length d h
  refine ⟨nested d, hl.2, ?_, nested_der d h 0⟩
  have := nested_fuel d h [] [] (by simp; omega)
  simpa [Reader.new] using this

theorem upTo_half (n : Nat) : SafeUpTo (2 * n) (readItemN n) := by
  induction n with
  | zero => intro r hr; exact ⟨rfl, Nat.le_refl _, hr, by simp [readItemN, Binary.throw], fun h => absurd h (by omega)⟩
  | succ n ih =>
    intro r hr
    obtain ⟨a1, a2, a3, a4, a5⟩ := upTo_value ih r hr
    simp only [readItemN]
    rcases hp : readValue (readItemN n) r with ⟨res, r'⟩
    rw [hp] at a1 a2 a3 a4 a5
    cases res with
    | error e => exact ⟨a1, a2, a3, by simpa using a4, fun h => by simpa using a5 (by omega)⟩
    | ok a => exact ⟨a1, a2, a3, by simp, fun _ => by simp⟩

/-- The calls needed are no more than half the bytes, and one. This is what remains of the claim: a limit that grows with the
input. -/
theorem C182_asn1_partial (bytes : Bytes) (d : Nat) (h : bytes.length / 2 + 1 ≤ d) :
    (readItemN d (Reader.new bytes)).1 ≠ .error .fuel ∧ readItemN d (Reader.new bytes) = readItem (Reader.new bytes) := by
  have hu : ∀ n, bytes.length < 2 * n → (readItemN n (Reader.new bytes)).1 ≠ .error .fuel := fun n hn =>
    (upTo_half n (Reader.new bytes) (Nat.zero_le _)).2.2.2.2 (by simpa [Reader.remaining, Reader.new] using hn)
  refine ⟨hu d (by omega), ?_⟩
  have hr : (Reader.new bytes).remaining = bytes.length := by simp [Reader.remaining, Reader.new]
  rw [readItem, hr]
  rcases Nat.le_total d (bytes.length + 1) with hle | hle
  · exact (ext_itemN_le hle _ (hu d (by omega))).symm
  · exact ext_itemN_le hle _ (hu _ (by omega))

/-- For what a server sends the claim holds: a certificate is part of one TLS record, and for that 8321 nested calls are
enough. -/
theorem C182_record_partial (bytes : Bytes) (h : bytes.length ≤ 16640) :
    (readItemN 8321 (Reader.new bytes)).1 ≠ .error .fuel ∧ readItemN 8321 (Reader.new bytes) = readItem (Reader.new bytes) :=
  C182_asn1_partial bytes 8321 (by omega)

end Ngfs.Asn1

/-! ### C182: bencode -/

namespace Ngfs.Bencode
open Ngfs.Spec

/-- Room for `d` calls is not enough for `d + 1` lists one inside the other, whatever follows. -/
theorem lists_fuel (data : Bytes) (d : Nat) : ∀ (o : Nat) (path : String), (∀ i ≤ d, data[o + i]? = some 0x6c) →
    parseValueN d path data o = .error .fuel := by
  induction d with
  | zero => intro o path _; rfl
  | succ d ih =>
    intro o path h
    have h0 := h 0 (by omega)
    have h1 := h 1 (by omega)
    rw [Nat.add_zero] at h0
    have hr := ih (o + 1) (path ++ "/" ++ toString 0) fun i hi => by
      have := h (i + 1) (by omega)
      rwa [show o + 1 + i = o + (i + 1) by omega]
    have e1 := (expectByte_iff (path := path)).mpr ⟨h0, rfl⟩
    simp only [parseValueN, h0, show ((0x6c : UInt8) = 0x69) = False by decide, if_false, if_true, parseList, e1, bind,
      Except.bind, listLoop, h1, show ((0x6c : UInt8) = 0x65) = False by decide, hr, Except.map]

/-- A list inside `n` lists, each the only element of the next. -/
def lists : Nat → Plain
  | 0 => .list []
  | n + 1 => .list [lists n]

theorem lists_ok (n : Nat) : (lists n).Ok := by
  induction n with
  | zero => simp [lists, Plain.Ok, okItems]
  | succ n ih => simp [lists, Plain.Ok, okItems, ih]

theorem lists_encode (n : Nat) : encode (lists n) = List.replicate (n + 1) 0x6c ++ List.replicate (n + 1) 0x65 := by
  induction n with
  | zero => rfl
  | succ n ih =>
    simp only [lists, encode, encodeItems, List.append_nil, ih]
    rw [List.replicate_succ (n := n + 1), List.replicate_succ' (n := n + 1)]
    simp

/-- The claim for torrent files. -/
def C182_torrent_statement : Prop :=
  ∃ d ≤ 1000000, ∀ data : Bytes, parseValueN d "" data 0 ≠ .error .fuel

/-- For every number of calls there is a well-formed value that needs more, of two bytes for each call and two more. -/
theorem C182_bencode_deep (d : Nat) : ∃ p : Plain, p.Ok ∧ (encode p).length = 2 * d + 2 ∧
    parseValueN d "" (encode p) 0 = .error .fuel := by
  refine ⟨lists d, lists_ok d, by rw [lists_encode]; simp; omega, lists_fuel _ d 0 "" fun i hi => ?_⟩
  rw [lists_encode, Nat.zero_add, List.getElem?_append_left (by simp; omega), List.getElem?_replicate, if_pos (by omega)]

/-- The calls needed are no more than the bytes, and one. -/
theorem C182_bencode_partial (data : Bytes) (d : Nat) (h : data.length + 1 ≤ d) :
    parseValueN d "" data 0 ≠ .error .fuel := parseValueN_nofuel data d "" 0 (by omega)

/-- Neither decoder keeps to a million nested calls: files can make them nest deeper. -/
theorem C182_false : ¬ Asn1.C182_asn1_statement ∧ ¬ C182_torrent_statement := by
  constructor
  · intro ⟨d, hd, h⟩
    obtain ⟨bytes, h1, h2, -⟩ := Asn1.C182_asn1_deep d (by omega)
    exact h bytes h2
  · intro ⟨d, hd, h⟩
    obtain ⟨p, -, -, h2⟩ := C182_bencode_deep d
    exact h _ h2

/-- Such a file is accepted if there is room for the calls. -/
example : (parse (encode (lists 5))).isOk = true ∧ (Asn1.readItem (Binary.Reader.new (Asn1.nested 5))).1.isOk = true := by
  constructor <;> decide +kernel

end Ngfs.Bencode
