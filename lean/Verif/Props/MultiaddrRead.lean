import Verif.Spec.MultiaddrRead
import Verif.Lemmas.Cid

/-!
C201: what the bytes of a multiaddress are read as, and when writing it again gives the same bytes.
-/
namespace Ngfs.Multiaddr
open Varint Protobuf Spec

/-- The code at the front of some bytes. -/
theorem decodeVarint_iff (data : Bytes) (n o : Nat) :
    decodeVarint data = some (n, o) ↔ ∃ code rest, data = code ++ rest ∧ Denotes code n ∧ o = code.length := by
  constructor
  · intro h
    simp only [decodeVarint, Cid.readFrom] at h
    cases hs : scanVarint data 0 with
    | none => simp [hs] at h
    | some e =>
      have hb := scanVarint_bounds hs
      simp only [hs] at h
      split at h
      · rename_i p hd
        simp only [Option.some.injEq, Prod.mk.injEq] at h
        obtain ⟨rfl, rfl⟩ := h
        have h0 : slice data 0 e = data.take e := by simp [slice]
        rw [h0] at hd
        exact ⟨data.take e, data.drop e, (List.take_append_drop _ _).symm, (toU64_iff _ _).mp hd, by
          rw [List.length_take]; omega⟩
      · cases h
  · rintro ⟨code, rest, rfl, hd, rfl⟩
    have h1 := Cid.readFrom_at [] code rest hd.1
    simp only [List.nil_append, List.length_nil, Nat.zero_add] at h1
    have h2 : VarInt.toU64 code = .ok n := (toU64_iff _ _).mpr hd
    simp only [decodeVarint, h1, h2]

/-- A component is read, and no more. -/
theorem read_component {code contents : Bytes} {n : Nat} {a : Addr} (hc : Denotes code n) (ha : AddrContents n contents a)
    (rest : Bytes) : Addr.read (code ++ contents ++ rest) = (a, (code ++ contents).length) := by
  have hd : decodeVarint (code ++ contents ++ rest) = some (n, code.length) :=
    (decodeVarint_iff _ _ _).mpr ⟨code, contents ++ rest, by simp, hc, rfl⟩
  have hl : code.length + contents.length ≤ (code ++ contents ++ rest).length := by simp
  have hsl := slice_mid code contents rest
  have hu : ∀ hi lo : UInt8, beU16 (code ++ [hi, lo] ++ rest) code.length = hi.toNat * 256 + lo.toNat := by
    intro hi lo
    simp [beU16, List.getD_eq_getElem?_getD, List.append_assoc]
  simp only [Addr.read, hd]
  cases ha with
  | ip4 h => rw [h] at hl hsl; simp only [if_true, if_pos hl, hsl]; simp [h]
  | ip6 h => rw [h] at hl hsl; rw [if_neg (by decide), if_pos rfl, if_pos hl, hsl]; simp [h]
  | tcp hi lo => rw [if_neg (by decide), if_neg (by decide), if_pos rfl,
      if_pos (show code.length + 2 ≤ (code ++ [hi, lo] ++ rest).length from hl), hu]; simp
  | udp hi lo =>
    rw [if_neg (by decide), if_neg (by decide), if_neg (by decide), if_pos rfl,
      if_pos (show code.length + 2 ≤ (code ++ [hi, lo] ++ rest).length from hl), hu]; simp
  | quic => rw [if_neg (by decide), if_neg (by decide), if_neg (by decide), if_neg (by decide), if_pos rfl]; simp

/-- Whatever is read is a component at the front, or everything. -/
theorem read_cases (bytes : Bytes) : Addr.read bytes = (.invalid bytes, bytes.length) ∨
    ∃ code n contents rest a, bytes = code ++ contents ++ rest ∧ Denotes code n ∧ AddrContents n contents a := by
  simp only [Addr.read]
  split
  · exact .inl rfl
  · rename_i n o hd
    obtain ⟨code, rest, rfl, hc, rfl⟩ := (decodeVarint_iff _ _ _).mp hd
    have two : 2 ≤ rest.length → ∃ hi lo tail, rest = hi :: lo :: tail := by
      match rest with
      | [] => simp
      | [_] => simp
      | a :: b :: t => exact fun _ => ⟨a, b, t, rfl⟩
    simp only [List.length_append]
    repeat' split
    any_goals exact .inl rfl
    · rename_i h1 h2
      exact .inr ⟨code, 4, rest.take 4, rest.drop 4, _, by simp, h1 ▸ hc, .ip4 (by rw [List.length_take]; omega)⟩
    · rename_i h1 h2
      exact .inr ⟨code, 41, rest.take 16, rest.drop 16, _, by simp, h1 ▸ hc, .ip6 (by rw [List.length_take]; omega)⟩
    · rename_i h1 h2
      obtain ⟨hi, lo, tail, rfl⟩ := two (by omega)
      exact .inr ⟨code, 6, [hi, lo], tail, _, by simp, h1 ▸ hc, .tcp hi lo⟩
    · rename_i h1 h2
      obtain ⟨hi, lo, tail, rfl⟩ := two (by omega)
      exact .inr ⟨code, 273, [hi, lo], tail, _, by simp, h1 ▸ hc, .udp hi lo⟩
    · rename_i h1
      exact .inr ⟨code, 460, [], rest, _, by simp, h1 ▸ hc, .quic⟩

/-- A component at the front is the first of what is read. -/
theorem fromBytes_component {code contents : Bytes} {n : Nat} {a : Addr} (hc : Denotes code n) (ha : AddrContents n contents a)
    (rest : Bytes) : fromBytes (code ++ contents ++ rest) = a :: fromBytes rest := by
  have hne : code ++ contents ++ rest ≠ [] := by
    have : code ≠ [] := by rintro rfl; exact not_isVarint_nil hc.1
    simp [this]
  rw [fromBytes, dif_neg hne]
  simp only
  rw [read_component hc ha, List.drop_left]

/-- **C201**: every byte string is read as exactly the address that the format says. -/
theorem C201_read (bytes : Bytes) (addrs : List Addr) : fromBytes bytes = addrs ↔ IsMultiaddr bytes addrs := by
  have sound : ∀ n, ∀ bytes : Bytes, bytes.length = n → IsMultiaddr bytes (fromBytes bytes) := by
    intro n
    induction n using Nat.strongRecOn with
    | _ n ih =>
      intro bytes hn
      by_cases hb : bytes = []
      · subst hb; rw [fromBytes, dif_pos rfl]; exact .nil
      rcases Classical.em (∃ code n contents rest a, bytes = code ++ contents ++ rest ∧ Denotes code n ∧ AddrContents n contents a)
        with ⟨code, m, contents, rest, a, rfl, hc, ha⟩ | hno
      · rw [fromBytes_component hc ha]
        refine .cons ⟨code, m, contents, rfl, hc, ha⟩ (ih rest.length ?_ rest rfl)
        have : 0 < code.length := List.length_pos_iff.mpr (by rintro rfl; exact not_isVarint_nil hc.1)
        simp only [List.length_append] at hn; omega
      · rcases read_cases bytes with hr | hr
        · rw [fromBytes, dif_neg hb]
          simp only [hr, List.drop_length]
          rw [fromBytes, dif_pos rfl]
          refine .other hb ?_
          rintro p rest a rfl ⟨code, m, contents, rfl, hc, ha⟩
          exact hno ⟨code, m, contents, rest, a, rfl, hc, ha⟩
        · exact absurd hr hno
  constructor
  · rintro rfl; exact sound _ bytes rfl
  · intro h
    induction h with
    | nil => rw [fromBytes, dif_pos rfl]
    | cons h more ih =>
      obtain ⟨code, m, contents, rfl, hc, ha⟩ := h
      rw [fromBytes_component hc ha, ih]
    | other ne h =>
      rename_i bytes
      rcases read_cases bytes with hr | ⟨code, m, contents, rest, a, rfl, hc, ha⟩
      · rw [fromBytes, dif_neg ne]
        simp only [hr, List.drop_length]
        rw [fromBytes, dif_pos rfl]
      · exact absurd ⟨code, m, contents, rfl, hc, ha⟩ (h (code ++ contents) rest a rfl)

/-- How a component is written. -/
theorem encode_contents {n : Nat} {contents : Bytes} {a : Addr} (h : AddrContents n contents a) :
    a.encode = encodeU64 n ++ contents ∧ n < 2 ^ 64 := by
  have hp : ∀ hi lo : UInt8, beBytes16 (hi.toNat * 256 + lo.toNat) = [hi, lo] := by
    intro hi lo
    have h1 := u8_lt hi
    have h2 := u8_lt lo
    simp only [beBytes16, List.cons.injEq, and_true, Nat.shiftRight_eq_div_pow]
    constructor <;> apply u8_ext <;> simp only [UInt8.toNat_ofNat'] <;> omega
  cases h <;> simp [Addr.encode, hp]

/-- Varints of one length that denote the same number are the same bytes. -/
theorem varint_same_length : ∀ {p q : Bytes}, IsVarint p → IsVarint q → p.length = q.length → base128 p = base128 q → p = q
  | [], _, hp, _, _, _ => absurd hp not_isVarint_nil
  | _ :: _, [], _, hq, _, _ => absurd hq not_isVarint_nil
  | a :: p, b :: q, hp, hq, hl, hv => by
    simp only [List.length_cons, Nat.add_right_cancel_iff] at hl
    simp only [base128] at hv
    have h1 := u8_lt a
    have h2 := u8_lt b
    by_cases ha : a.toNat < 128
    · have hp' := (isVarint_cons_final ha).mp hp
      subst hp'
      have hq' : q = [] := List.eq_nil_of_length_eq_zero hl.symm
      subst hq'
      have hb : b.toNat < 128 := by
        by_cases hb : b.toNat < 128
        · exact hb
        · exact absurd ((isVarint_cons_more (by omega)).mp hq) not_isVarint_nil
      have : a = b := u8_ext (by simp only [base128] at hv; omega)
      rw [this]
    · have hp' := (isVarint_cons_more (by omega)).mp hp
      have hb : ¬ b.toNat < 128 := by
        intro hb
        have := (isVarint_cons_final hb).mp hq
        subst this
        have : p = [] := List.eq_nil_of_length_eq_zero hl
        subst this
        exact not_isVarint_nil hp'
      have hq' := (isVarint_cons_more (by omega)).mp hq
      have h3 : base128 p = base128 q := by omega
      have h4 : a = b := u8_ext (by omega)
      rw [h4, varint_same_length hp' hq' hl h3]

theorem toBytes_cons (a : Addr) (as : List Addr) : toBytes (a :: as) = a.encode ++ toBytes as := by simp [toBytes]

theorem encodeU64_length_le {code : Bytes} {n : Nat} (h : Denotes code n) : (encodeU64 n).length ≤ code.length :=
  encode_length_min n code h.2.2.1 (by rintro rfl; exact not_isVarint_nil h.1)

/-- **C201**, writing an address that was read never gives more bytes than were read. -/
theorem C201_not_longer (bytes : Bytes) : (toBytes (fromBytes bytes)).length ≤ bytes.length := by
  have h := (C201_read bytes _).mp rfl
  generalize fromBytes bytes = addrs at h
  induction h with
  | nil => simp [toBytes]
  | cons h more ih =>
    obtain ⟨code, m, contents, rfl, hc, ha⟩ := h
    have := encodeU64_length_le hc
    rw [toBytes_cons, (encode_contents ha).1]
    simp only [List.length_append]; omega
  | other ne h => simp [toBytes, Addr.encode]

/-- **C201**, writing an address that was read gives the bytes that were read, unknown parts and all, unless a code takes more bytes than
it needs, and only then does it not. -/
theorem C201_written_back (bytes : Bytes) : toBytes (fromBytes bytes) = bytes ↔ ¬ PaddedCode bytes := by
  constructor
  · intro heq hp
    have : (toBytes (fromBytes bytes)).length < bytes.length := by
      clear heq
      induction hp with
      | here hc ha hs hl =>
        rename_i rest _ _
        rw [fromBytes_component hc ha, toBytes_cons, (encode_contents ha).1]
        have h1 := encodeU64_length_le hs
        have h2 := C201_not_longer rest
        simp only [List.length_append]; omega
      | later h more ih =>
        obtain ⟨code, m, contents, rfl, hc, ha⟩ := h
        rw [fromBytes_component hc ha, toBytes_cons, (encode_contents ha).1]
        have h1 := encodeU64_length_le hc
        simp only [List.length_append]; omega
    rw [heq] at this
    omega
  · intro hp
    have h := (C201_read bytes _).mp rfl
    generalize fromBytes bytes = addrs at h
    induction h with
    | nil => simp [toBytes]
    | cons h more ih =>
      obtain ⟨code, m, contents, rfl, hc, ha⟩ := h
      rw [toBytes_cons, (encode_contents ha).1, ih (fun hm => hp (.later ⟨code, m, contents, rfl, hc, ha⟩ hm))]
      have hlt := (encode_contents ha).2
      have h1 : ¬ (encodeU64 m).length < code.length := fun hl => hp (.here hc ha (denotes_encode hlt) hl)
      have h2 := encodeU64_length_le hc
      rw [varint_same_length (isVarint_encode m) hc.1 (by omega) (by rw [base128_encode, hc.2.2.1])]
    | other ne h => simp [toBytes, Addr.encode]

/-- What is read: an address, a port and the rest (`/p2p/…`, code 421) as it is, which is written back. -/
example : fromBytes [4, 127, 0, 0, 1, 6, 15, 161, 165, 3, 2, 7, 7] = [.ip4 [127, 0, 0, 1], .tcp 4001, .invalid [165, 3, 2, 7, 7]] := by
  decide +kernel

example : toBytes (fromBytes [4, 127, 0, 0, 1, 6, 15, 161, 165, 3, 2, 7, 7]) = [4, 127, 0, 0, 1, 6, 15, 161, 165, 3, 2, 7, 7] := by
  decide +kernel

/-- A code of two bytes where one is enough: what is written is shorter. -/
example : PaddedCode [0x86, 0, 15, 161] ∧ toBytes (fromBytes [0x86, 0, 15, 161]) = [6, 15, 161] :=
  ⟨.here (code := [0x86, 0]) (shorter := [6]) (contents := [15, 161]) (rest := []) (n := 6)
    ⟨⟨[0x86], 0, rfl, by decide, by decide⟩, by decide, by decide, by decide⟩ (.tcp 15 161)
    ⟨⟨[], 6, rfl, by decide, by decide⟩, by decide, by decide, by decide⟩ (by decide), by decide +kernel⟩

end Ngfs.Multiaddr
