import Verif.Lemmas.Asn1Write
import Mathlib.Data.Nat.Digits.Lemmas

/-! Helper lemmas: the distinguished encoding is the only one, and the writer gives it. No claims here. -/
namespace Ngfs.Asn1
open Ngfs.Binary Ngfs.Spec

theorem derLength_unique {n : Nat} {a b : Bytes} (ha : DerLength n a) (hb : DerLength n b) : a = b := by
  rcases ha with ⟨h1, rfl⟩ | ⟨h1, d, ds, rfl, hd, hl, hv⟩ <;> rcases hb with ⟨h2, rfl⟩ | ⟨h2, e, es, rfl, he, hm, hw⟩
  · rfl
  · omega
  · omega
  · have h3 := bigEndian_ge d ds hd
    have h4 := bigEndian_ge e es he
    have h5 := bigEndian_lt (d :: ds)
    have h6 := bigEndian_lt (e :: es)
    rw [hv] at h3 h5
    rw [hw] at h4 h6
    simp only [List.length_cons] at h5 h6
    have h7 : ds.length < es.length + 1 := (Nat.pow_lt_pow_iff_right (a := 256) (by decide)).mp (by omega)
    have h8 : es.length < ds.length + 1 := (Nat.pow_lt_pow_iff_right (a := 256) (by decide)).mp (by omega)
    have h9 : (d :: ds).length = (e :: es).length := by simp only [List.length_cons]; omega
    have := bigEndian_inj h9 (by rw [hv, hw])
    rw [this]

theorem high_inj : ∀ {as bs : Bytes}, (∀ b ∈ as, 128 ≤ b.toNat) → (∀ b ∈ bs, 128 ≤ b.toNat) →
    as.map (fun b => b.toNat % 128) = bs.map (fun b => b.toNat % 128) → as = bs
  | [], [], _, _, _ => rfl
  | [], _ :: _, _, _, h => by simp at h
  | _ :: _, [], _, _, h => by simp at h
  | a :: as, b :: bs, h1, h2, h => by
    simp only [List.map_cons, List.cons.injEq] at h
    have ha := h1 a List.mem_cons_self
    have hb := h2 b List.mem_cons_self
    have ha' := a.toNat_lt
    have hb' := b.toNat_lt
    have hab : a = b := by
      apply UInt8.toNat_inj.mp
      omega
    rw [hab, high_inj (fun x hx => h1 x (List.mem_cons_of_mem _ hx)) (fun x hx => h2 x (List.mem_cons_of_mem _ hx)) h.2]

/-- The digits of a subidentifier, least significant first, are `[0]` or the digits of the number. -/
theorem sub_digits {n : Nat} {bs : Bytes} (h : Subidentifier n bs) :
    bs.reverse.map (fun b => b.toNat % 128) = if n = 0 then [0] else Nat.digits 128 n := by
  obtain ⟨hv, hh, init, last, rfl, hi, hl⟩ := h
  have hlt : ∀ x ∈ ((init ++ [last]).reverse.map fun b : UInt8 => b.toNat % 128), x < 128 := by
    intro x hx
    simp only [List.mem_map] at hx
    obtain ⟨b, -, rfl⟩ := hx
    exact Nat.mod_lt _ (by decide)
  cases init with
  | nil =>
    simp only [List.nil_append, List.reverse_singleton, List.map_cons, List.map_nil, Nat.ofDigits_singleton] at hv ⊢
    split
    · rename_i h0; rw [hv, h0]
    · rename_i h0
      rw [hv, Nat.digits_of_lt 128 n h0 (by omega)]
  | cons b init =>
    have hb := hi b List.mem_cons_self
    have hb' := b.toNat_lt
    have hne : b.toNat ≠ 128 := by
      intro he
      apply hh
      simp only [List.cons_append, List.head?_cons, Option.some.injEq]
      exact UInt8.toNat_inj.mp he
    have hdig := Nat.digits_ofDigits 128 (by decide) _ hlt (by
      intro hn
      simp only [List.cons_append, List.reverse_cons, List.map_append, List.map_cons, List.map_nil, List.getLast_append_of_ne_nil _ (List.cons_ne_nil _ _),
        List.getLast_singleton]
      omega)
    rw [hv] at hdig
    rw [if_neg, hdig]
    intro h0
    rw [h0, Nat.digits_zero] at hdig
    simp at hdig

theorem sub_unique {n : Nat} {a b : Bytes} (ha : Subidentifier n a) (hb : Subidentifier n b) : a = b := by
  have h := (sub_digits ha).trans (sub_digits hb).symm
  obtain ⟨-, -, i, l, rfl, hi, hl⟩ := ha
  obtain ⟨-, -, j, m, rfl, hj, hm⟩ := hb
  simp only [List.reverse_append, List.reverse_singleton, List.singleton_append, List.map_cons, List.cons.injEq] at h
  obtain ⟨h1, h2⟩ := h
  have hlm : l = m := UInt8.toNat_inj.mp (by omega)
  have := high_inj (as := i.reverse) (bs := j.reverse) (by simpa using hi) (by simpa using hj) h2
  rw [List.reverse_inj] at this
  rw [hlm, this]

theorem subs_unique : ∀ {ns : List Nat} {parts : List Bytes}, List.Forall₂ Subidentifier ns parts → ns.flatMap writeVarU64 = parts.flatten
  | _, _, .nil => rfl
  | n :: _, _ :: _, .cons h hs => by
    rw [List.flatMap_cons, List.flatten_cons, subs_unique hs, sub_unique (writeVarU64_sub n) h]

theorem encodeOid_content {parts : List Nat} {d : Bytes} (h : OidContent parts d) (hw : Writable (.objectIdentifier parts)) :
    encodeOid parts = .ok d := by
  obtain ⟨x, y, rest, ps, rfl, hx, hy, hf, rfl⟩ := h
  simp only [Writable] at hw
  have := subs_unique hf
  simp only [encodeOid]
  rw [if_neg (by omega), ← this, List.flatMap_cons, Nat.mul_comm 40 x]

theorem encodeRaw_unique {c tag : Nat} {con : Bool} {d bs : Bytes} (hc : c < 4) (h : Tlv c con tag d bs) (hl : bs.length < 2 ^ 64) :
    encodeRaw (clsOf c) (formFor con) tag d = .ok bs := by
  obtain ⟨ht, len, hlen, rfl⟩ := h
  have hd : d.length < 2 ^ 64 := by
    simp only [List.length_cons, List.length_append] at hl; omega
  obtain ⟨bs', h1, ⟨-, len', hlen', rfl⟩, -⟩ := encodeRaw_tlv (con := con) hc ht hd
  rw [h1, derLength_unique hlen hlen']

theorem tlv_content {c tag : Nat} {con : Bool} {d bs : Bytes} (h : Tlv c con tag d bs) : d.length ≤ bs.length := by
  obtain ⟨_, len, _, rfl⟩ := h
  simp; omega

theorem raw_prim {tag : Nat} {d bs : Bytes} (h : Tlv 0 false tag d bs) (hl : bs.length < 2 ^ 64) :
    encodeRaw .universal .primitive tag d = .ok bs := by
  have := encodeRaw_unique (c := 0) (con := false) (by decide) h hl
  exact this

theorem raw_universal {tag : Nat} {d bs : Bytes} (h : Tlv 0 true tag d bs) (hl : bs.length < 2 ^ 64) :
    encodeRaw .universal .constructed tag d = .ok bs := by
  have := encodeRaw_unique (c := 0) (con := true) (by decide) h hl
  exact this

theorem raw_application {tag : Nat} {d bs : Bytes} (h : Tlv 1 true tag d bs) (hl : bs.length < 2 ^ 64) :
    encodeRaw .application .constructed tag d = .ok bs := by
  have := encodeRaw_unique (c := 1) (con := true) (by decide) h hl
  exact this

theorem raw_contextSpecific {tag : Nat} {d bs : Bytes} (h : Tlv 2 true tag d bs) (hl : bs.length < 2 ^ 64) :
    encodeRaw .contextSpecific .constructed tag d = .ok bs := by
  have := encodeRaw_unique (c := 2) (con := true) (by decide) h hl
  exact this

theorem raw_priv {tag : Nat} {d bs : Bytes} (h : Tlv 3 true tag d bs) (hl : bs.length < 2 ^ 64) :
    encodeRaw .priv .constructed tag d = .ok bs := by
  have := encodeRaw_unique (c := 3) (con := true) (by decide) h hl
  exact this

mutual
/-- A structure that the writer can write is written as its distinguished encoding. -/
theorem der_item : ∀ (item : Item) {o : Nat} {bs : Bytes}, DerItem o item bs → (∀ v, Occurs v item → Writable v) →
    bs.length < 2 ^ 64 → encodeItem item = .ok bs
  | .mk _ _ v, _, _, h, hw, hl => by
    cases h with
    | mk h => rw [encodeItem]; exact der_value v h (hw _ .here) hw hl
theorem der_value : ∀ (v : Value) {o : Nat} {bs : Bytes} {a b : Nat}, DerValue o v bs → Writable v →
    (∀ w, Occurs w (.mk a b v) → Writable w) → bs.length < 2 ^ 64 → encodeValue v = .ok bs
  | .boolean b, _, _, _, _, h, hv, _, hl => by
    simp only [Writable] at hv
    subst hv
    cases h with
    | false h => rw [encodeValue]; exact raw_prim h hl
  | .integer _, _, _, _, _, h, _, _, hl => by
    cases h with
    | integer h => rw [encodeValue]; exact raw_prim h hl
  | .bitString _ _, _, _, _, _, h, _, _, hl => by
    cases h with
    | bitString h => rw [encodeValue]; exact raw_prim h hl
  | .octetString _, _, _, _, _, h, _, _, hl => by
    cases h with
    | octetString h => rw [encodeValue]; exact raw_prim h hl
  | .null, _, _, _, _, h, _, _, hl => by
    cases h with
    | null h => rw [encodeValue]; exact raw_prim h hl
  | .objectIdentifier _, _, _, _, _, h, hv, _, hl => by
    cases h with
    | objectIdentifier hc h =>
      rw [encodeValue, encodeOid_content hc hv]
      exact raw_prim h hl
  | .utf8String _, _, _, _, _, h, _, _, hl => by
    cases h with
    | utf8String h => rw [encodeValue]; exact raw_prim h hl
  | .printableString _, _, _, _, _, h, _, _, hl => by
    cases h with
    | printableString h => rw [encodeValue]; exact raw_prim h hl
  | .utcTime _, _, _, _, _, h, _, _, hl => by
    cases h with
    | utcTime h => rw [encodeValue]; exact raw_prim h hl
  | .generalizedTime _, _, _, _, _, h, _, _, hl => by
    cases h with
    | generalizedTime h => rw [encodeValue]; exact raw_prim h hl
  | .sequence items, _, _, _, _, h, _, hw, hl => by
    cases h with
    | sequence hi h =>
      rw [encodeValue, der_items items hi (fun i hm v hv => hw v (.sequence hm hv)) (Nat.lt_of_le_of_lt (tlv_content h) hl)]
      exact raw_universal h hl
  | .set items, _, _, _, _, h, _, hw, hl => by
    cases h with
    | set hi h =>
      rw [encodeValue, der_items items hi (fun i hm v hv => hw v (.set hm hv)) (Nat.lt_of_le_of_lt (tlv_content h) hl)]
      exact raw_universal h hl
  | .application _ child, _, _, _, _, h, _, hw, hl => by
    cases h with
    | application hi h =>
      rw [encodeValue, der_item child hi (fun v hv => hw v (.application hv)) (Nat.lt_of_le_of_lt (tlv_content h) hl)]
      exact raw_application h hl
  | .contextSpecific _ child, _, _, _, _, h, _, hw, hl => by
    cases h with
    | contextSpecific hi h =>
      rw [encodeValue, der_item child hi (fun v hv => hw v (.contextSpecific hv)) (Nat.lt_of_le_of_lt (tlv_content h) hl)]
      exact raw_contextSpecific h hl
  | .priv _ child, _, _, _, _, h, _, hw, hl => by
    cases h with
    | priv hi h =>
      rw [encodeValue, der_item child hi (fun v hv => hw v (.priv hv)) (Nat.lt_of_le_of_lt (tlv_content h) hl)]
      exact raw_priv h hl
  | .unknown _ _, _, _, _, _, _, hv, _, _ => absurd hv (by simp [Writable])
theorem der_items : ∀ (items : List Item) {o : Nat} {bs : Bytes}, DerItems o items bs →
    (∀ i ∈ items, ∀ v, Occurs v i → Writable v) → bs.length < 2 ^ 64 → encodeItemList items = .ok bs
  | [], _, _, h, _, _ => by
    cases h with
    | nil => rfl
  | i :: items, _, _, h, hw, hl => by
    cases h with
    | cons hi his =>
      simp only [List.length_append] at hl
      rw [encodeItemList, der_item i hi (hw _ List.mem_cons_self) (by omega),
        der_items items his (fun i hm => hw i (List.mem_cons_of_mem _ hm)) (by omega)]
      rfl
end

/-- The first byte of a distinguished encoding is not a dash. -/
theorem der_first {o : Nat} {item : Item} {bs : Bytes} (h : DerItem o item bs) : bs.head? ≠ some 0x2d := by
  have key : ∀ {c tag : Nat} {con : Bool} {d bs : Bytes}, Tlv c con tag d bs → c < 4 → (c = 0 → con = true → tag = 16 ∨ tag = 17) →
      bs.head? ≠ some 0x2d := by
    rintro c tag con d bs ⟨ht, len, -, rfl⟩ hc hcon he
    simp only [List.head?_cons, Option.some.injEq] at he
    have := congrArg UInt8.toNat he
    rw [UInt8.toNat_ofNat'] at this
    cases con <;> simp at this hcon <;> omega
  obtain ⟨hv⟩ := h
  cases hv <;> first
    | (rename_i ht; exact key ht (by decide) (by simp))
    | (rename_i _ ht _; exact key ht (by decide) (by simp))
    | (rename_i ht _; exact key ht (by decide) (by simp))
    | (rename_i ht; exact key (by assumption) (by decide) (by simp))

end Ngfs.Asn1
