import Verif.Lemmas.Asn1

/-! Helper lemmas about the ASN.1 writer. No claims here. -/
namespace Ngfs.Asn1
open Ngfs.Binary Ngfs.Spec

theorem bigEndian_dropWhile (bs : Bytes) : bigEndian (bs.dropWhile (· = 0)) = bigEndian bs := by
  induction bs with
  | nil => rfl
  | cons b bs ih =>
    by_cases h : b = 0
    · simp only [List.dropWhile_cons, h, decide_true, if_true, ih, bigEndian_cons]
      simp
    · simp [List.dropWhile_cons, h]

theorem or_80 : ∀ n < 9, UInt8.ofNat n ||| 0x80 = UInt8.ofNat (128 + n) := by decide +kernel

theorem encodeLength_der {n : Nat} (h : n < 2 ^ 64) : DerLength n (encodeLength n) := by
  unfold encodeLength
  split
  · rename_i h1; exact .inl ⟨h1, rfl⟩
  · rename_i h1
    right
    have hv : bigEndian ((beBytes 8 n).dropWhile (· = 0)) = n := by
      rw [bigEndian_dropWhile, bigEndian_beBytes, Nat.mod_eq_of_lt (by simpa using h)]
    have hlen : ((beBytes 8 n).dropWhile (· = 0)).length ≤ 8 := by
      have := (List.dropWhile_sublist (fun x : UInt8 => decide (x = 0)) (l := beBytes 8 n)).length_le
      simpa using this
    have hhead : ∀ d ds, (beBytes 8 n).dropWhile (· = 0) = d :: ds → d ≠ 0 := by
      intro d ds hd
      have := List.head?_dropWhile_not (fun x : UInt8 => decide (x = 0)) (beBytes 8 n)
      rw [hd] at this
      simpa using this
    generalize (beBytes 8 n).dropWhile (· = 0) = l at hv hlen hhead
    cases l with
    | nil => simp [bigEndian, Nat.ofDigits] at hv; omega
    | cons d ds =>
      refine ⟨by omega, d, ds, ?_, hhead d ds rfl, by omega, hv⟩
      simp only
      rw [if_neg (by simp), or_80 _ (by omega)]

theorem encodeRaw_tlv {c tag : Nat} {con : Bool} {d : Bytes} (hc : c < 4) (ht : tag ≤ 30) (hd : d.length < 2 ^ 64) :
    ∃ bs, encodeRaw (clsOf c) (formFor con) tag d = .ok bs ∧ Tlv c con tag d bs ∧ d.length ≤ bs.length := by
  obtain ⟨-, -, -, h⟩ := ident_byte c hc con tag (by omega)
  refine ⟨_, ?_, ⟨ht, encodeLength d.length, encodeLength_der hd, rfl⟩, by simp; omega⟩
  simp only [encodeRaw, encodeIdentifier]
  rw [if_neg (by omega), h]
  simp [bind, Except.bind, pure, Except.pure]

theorem encodeRaw_ok (c : Nat) (con : Bool) (tag : Nat) (d : Bytes) (hc : c < 4) (ht : tag ≤ 30) :
    ∃ bs, encodeRaw (clsOf c) (formFor con) tag d = .ok bs ∧ d.length ≤ bs.length ∧
      (d.length < 2 ^ 64 → Tlv c con tag d bs) := by
  by_cases hd : d.length < 2 ^ 64
  · obtain ⟨bs, h1, h2, h3⟩ := encodeRaw_tlv (con := con) hc ht hd
    exact ⟨bs, h1, h3, fun _ => h2⟩
  · refine ⟨_, by simp only [encodeRaw, encodeIdentifier]; rw [if_neg (by omega)]; rfl, ?_, fun h => absurd h hd⟩
    simp; omega

/-! ### Base-128 numbers -/

theorem low7 (v : Nat) : UInt8.ofNat (v &&& 0x7f) = UInt8.ofNat (v % 128) := by rw [Ngfs.and_7f]
theorem or_high : ∀ n < 128, (UInt8.ofNat n ||| 0).toNat = n ∧ (UInt8.ofNat n ||| 0x80).toNat = 128 + n := by decide +kernel

theorem varTemp_spec (v : Nat) : ∀ hb : UInt8, hb = 0 ∨ hb = 0x80 → ∃ x xs, varTemp v hb = x :: xs ∧
    (hb = 0 → x.toNat < 128) ∧ (hb = 0x80 → 128 ≤ x.toNat) ∧ (∀ b ∈ xs, 128 ≤ b.toNat) ∧
    Nat.ofDigits 128 ((x :: xs).map fun b => b.toNat % 128) = v ∧
    (v ≠ 0 ∨ hb = 0 → (x :: xs).getLast? ≠ some 0x80) := by
  induction v using Nat.strongRecOn with
  | _ v ih =>
    intro hb hhb
    have hx : ∀ n < 128, (UInt8.ofNat n ||| hb).toNat % 128 = n := by
      intro n hn
      obtain ⟨h1, h2⟩ := or_high n hn
      rcases hhb with rfl | rfl
      · rw [h1]; omega
      · rw [h2]; omega
    have hxl : ∀ n < 128, (hb = 0 → (UInt8.ofNat n ||| hb).toNat < 128) ∧ (hb = 0x80 → 128 ≤ (UInt8.ofNat n ||| hb).toNat) := by
      intro n hn
      obtain ⟨h1, h2⟩ := or_high n hn
      exact ⟨fun h => by rw [h, h1]; exact hn, fun h => by rw [h, h2]; omega⟩
    rw [varTemp]
    split
    · rename_i hge
      have hs : v >>> 7 = v / 128 := by rw [Nat.shiftRight_eq_div_pow]
      obtain ⟨y, ys, e, -, h2, h3, h4, h5⟩ := ih (v >>> 7) (by omega) 0x80 (.inr rfl)
      rw [e, low7]
      have hm : v % 128 < 128 := Nat.mod_lt _ (by decide)
      refine ⟨_, _, rfl, (hxl _ hm).1, (hxl _ hm).2, ?_, ?_, ?_⟩
      · intro b hb'
        rcases List.mem_cons.mp hb' with rfl | h
        · exact h2 rfl
        · exact h3 b h
      · rw [List.map_cons, Nat.ofDigits_cons, h4, hx _ hm, hs]
        omega
      · intro _
        rw [List.getLast?_cons_cons]
        exact h5 (.inl (by omega))
    · rename_i hlt
      have hv : v < 128 := by omega
      refine ⟨_, _, rfl, (hxl _ hv).1, (hxl _ hv).2, by simp, ?_, ?_⟩
      · simp [Nat.ofDigits]; simpa using hx _ hv
      · intro h
        simp only [List.getLast?_singleton, ne_eq, Option.some.injEq]
        intro he
        have := hx _ hv
        rw [he] at this
        simp at this
        rcases h with h | h
        · omega
        · have := (hxl _ hv).1 h
          rw [he] at this
          simp at this

theorem writeVarU64_sub (v : Nat) : Subidentifier v (writeVarU64 v) := by
  obtain ⟨x, xs, e, h1, -, h3, h4, h5⟩ := varTemp_spec v 0 (.inl rfl)
  rw [writeVarU64, e]
  refine ⟨?_, ?_, xs.reverse, x, by simp, by simpa using h3, h1 rfl⟩
  · rw [List.reverse_reverse]; exact h4
  · rw [List.head?_reverse]; exact h5 (.inr rfl)

theorem subs_write (rest : List Nat) : ∃ parts, List.Forall₂ Subidentifier rest parts ∧ rest.flatMap writeVarU64 = parts.flatten := by
  refine ⟨rest.map writeVarU64, ?_, by rw [List.flatMap_def]⟩
  induction rest with
  | nil => exact .nil
  | cons r rest ih => exact .cons (writeVarU64_sub r) ih

theorem prim {o : Nat} {v : Value} {d : Bytes} {tag : Nat} (ht : tag ≤ 30)
    (h : ∀ bs, Tlv 0 false tag d bs → DerValue o v bs) :
    ∃ bs, encodeRaw .universal .primitive tag d = .ok bs ∧ (bs.length < 2 ^ 64 → DerValue o v bs) := by
  obtain ⟨bs, h1, h2, h3⟩ := encodeRaw_ok 0 false tag d (by decide) ht
  exact ⟨bs, h1, fun hl => h bs (h3 (by omega))⟩

theorem cons' {c tag : Nat} (hc : c < 4) (ht : tag ≤ 30) (d : Bytes) :
    ∃ bs, encodeRaw (clsOf c) .constructed tag d = .ok bs ∧ d.length ≤ bs.length ∧
      (bs.length < 2 ^ 64 → Tlv c true tag d bs) := by
  obtain ⟨bs, h1, h2, h3⟩ := encodeRaw_ok c true tag d hc ht
  exact ⟨bs, h1, h2, fun hl => h3 (by omega)⟩

mutual
theorem enc_item : ∀ item : Item, (∀ v, Occurs v item → Writable v) → ∃ bs, encodeItem item = .ok bs ∧
    (bs.length < 2 ^ 64 → ∀ o, ∃ item', SameItem item item' ∧ DerItem o item' bs)
  | .mk a b v, h => by
    obtain ⟨bs, h1, h2⟩ := enc_value v (h v .here) a b h
    refine ⟨bs, by rw [encodeItem, h1], fun hl o => ?_⟩
    obtain ⟨v', h3, h4⟩ := h2 hl o
    exact ⟨_, .mk h3, .mk h4⟩
theorem enc_value : ∀ v : Value, Writable v → ∀ a b, (∀ w, Occurs w (.mk a b v) → Writable w) →
    ∃ bs, encodeValue v = .ok bs ∧ (bs.length < 2 ^ 64 → ∀ o, ∃ v', SameValue v v' ∧ DerValue o v' bs)
  | .boolean b, hw, _, _, _ => by
    simp only [Writable] at hw
    subst hw
    obtain ⟨bs, h1, h2⟩ := prim (o := 0) (v := .boolean false) (tag := 1) (d := [0]) (by decide) (fun bs h => .false h)
    obtain ⟨bs, h1, h2, h3⟩ := encodeRaw_ok 0 false 1 [0] (by decide) (by decide)
    exact ⟨bs, by rw [encodeValue]; exact h1, fun hl o => ⟨_, .refl, .false (h3 (by omega))⟩⟩
  | .integer d, _, _, _, _ => by
    obtain ⟨bs, h1, h2, h3⟩ := encodeRaw_ok 0 false 2 d (by decide) (by decide)
    exact ⟨bs, by rw [encodeValue]; exact h1, fun hl o => ⟨_, .refl, .integer (h3 (by omega))⟩⟩
  | .bitString u d, _, _, _, _ => by
    obtain ⟨bs, h1, h2, h3⟩ := encodeRaw_ok 0 false 3 (u :: d) (by decide) (by decide)
    exact ⟨bs, by rw [encodeValue]; exact h1, fun hl o => ⟨_, .refl, .bitString (h3 (by omega))⟩⟩
  | .octetString d, _, _, _, _ => by
    obtain ⟨bs, h1, h2, h3⟩ := encodeRaw_ok 0 false 4 d (by decide) (by decide)
    exact ⟨bs, by rw [encodeValue]; exact h1, fun hl o => ⟨_, .refl, .octetString (h3 (by omega))⟩⟩
  | .null, _, _, _, _ => by
    obtain ⟨bs, h1, h2, h3⟩ := encodeRaw_ok 0 false 5 [] (by decide) (by decide)
    exact ⟨bs, by rw [encodeValue]; exact h1, fun hl o => ⟨_, .refl, .null (h3 (by simp))⟩⟩
  | .objectIdentifier parts, hw, _, _, _ => by
    match parts, hw with
    | x :: y :: rest, hw =>
      simp only [Writable] at hw
      obtain ⟨hx, hy, hb⟩ := hw
      obtain ⟨ps, hf, he⟩ := subs_write rest
      have e : encodeOid (x :: y :: rest) = .ok (writeVarU64 (x * 40 + y) ++ rest.flatMap writeVarU64) := by
        simp only [encodeOid]; rw [if_neg (by omega)]
      have hoid : OidContent (x :: y :: rest) (writeVarU64 (x * 40 + y) ++ rest.flatMap writeVarU64) := by
        refine ⟨x, y, rest, writeVarU64 (x * 40 + y) :: ps, rfl, hx, hy, ?_, by simp [he]⟩
        rw [Nat.mul_comm 40 x]
        exact .cons (writeVarU64_sub _) hf
      obtain ⟨bs, h1, h2, h3⟩ := encodeRaw_ok 0 false 6 _ (by decide) (by decide)
      exact ⟨bs, by rw [encodeValue, e]; exact h1, fun hl o => ⟨_, .refl, .objectIdentifier hoid (h3 (by omega))⟩⟩
  | .printableString s, _, _, _, _ => by
    obtain ⟨bs, h1, h2, h3⟩ := encodeRaw_ok 0 false 19 (utf8Encode s) (by decide) (by decide)
    exact ⟨bs, by rw [encodeValue]; exact h1, fun hl o => ⟨_, .refl, .printableString (h3 (by omega))⟩⟩
  | .utf8String s, _, _, _, _ => by
    obtain ⟨bs, h1, h2, h3⟩ := encodeRaw_ok 0 false 12 (utf8Encode s) (by decide) (by decide)
    exact ⟨bs, by rw [encodeValue]; exact h1, fun hl o => ⟨_, .refl, .utf8String (h3 (by omega))⟩⟩
  | .utcTime s, _, _, _, _ => by
    obtain ⟨bs, h1, h2, h3⟩ := encodeRaw_ok 0 false 23 (utf8Encode s) (by decide) (by decide)
    exact ⟨bs, by rw [encodeValue]; exact h1, fun hl o => ⟨_, .refl, .utcTime (h3 (by omega))⟩⟩
  | .generalizedTime s, _, _, _, _ => by
    obtain ⟨bs, h1, h2, h3⟩ := encodeRaw_ok 0 false 24 (utf8Encode s) (by decide) (by decide)
    exact ⟨bs, by rw [encodeValue]; exact h1, fun hl o => ⟨_, .refl, .generalizedTime (h3 (by omega))⟩⟩
  | .sequence items, _, _, _, h => by
    obtain ⟨d, g1, g2⟩ := enc_items items (fun i hi v hv => h v (.sequence hi hv))
    obtain ⟨bs, h1, h2, h3⟩ := encodeRaw_ok 0 true 16 d (by decide) (by decide)
    refine ⟨bs, by rw [encodeValue, g1]; exact h1, fun hl o => ?_⟩
    obtain ⟨items', s1, s2⟩ := g2 (by omega) (o + bs.length - d.length)
    exact ⟨_, .sequence s1, .sequence s2 (h3 (by omega))⟩
  | .set items, _, _, _, h => by
    obtain ⟨d, g1, g2⟩ := enc_items items (fun i hi v hv => h v (.set hi hv))
    obtain ⟨bs, h1, h2, h3⟩ := encodeRaw_ok 0 true 17 d (by decide) (by decide)
    refine ⟨bs, by rw [encodeValue, g1]; exact h1, fun hl o => ?_⟩
    obtain ⟨items', s1, s2⟩ := g2 (by omega) (o + bs.length - d.length)
    exact ⟨_, .set s1, .set s2 (h3 (by omega))⟩
  | .application tag child, hw, _, _, h => by
    obtain ⟨d, g1, g2⟩ := enc_item child (fun v hv => h v (.application hv))
    obtain ⟨bs, h1, h2, h3⟩ := encodeRaw_ok 1 true tag d (by decide) hw
    refine ⟨bs, by rw [encodeValue, g1]; exact h1, fun hl o => ?_⟩
    obtain ⟨child', s1, s2⟩ := g2 (by omega) (o + bs.length - d.length)
    exact ⟨_, .application s1, .application s2 (h3 (by omega))⟩
  | .contextSpecific tag child, hw, _, _, h => by
    obtain ⟨d, g1, g2⟩ := enc_item child (fun v hv => h v (.contextSpecific hv))
    obtain ⟨bs, h1, h2, h3⟩ := encodeRaw_ok 2 true tag d (by decide) hw
    refine ⟨bs, by rw [encodeValue, g1]; exact h1, fun hl o => ?_⟩
    obtain ⟨child', s1, s2⟩ := g2 (by omega) (o + bs.length - d.length)
    exact ⟨_, .contextSpecific s1, .contextSpecific s2 (h3 (by omega))⟩
  | .priv tag child, hw, _, _, h => by
    obtain ⟨d, g1, g2⟩ := enc_item child (fun v hv => h v (.priv hv))
    obtain ⟨bs, h1, h2, h3⟩ := encodeRaw_ok 3 true tag d (by decide) hw
    refine ⟨bs, by rw [encodeValue, g1]; exact h1, fun hl o => ?_⟩
    obtain ⟨child', s1, s2⟩ := g2 (by omega) (o + bs.length - d.length)
    exact ⟨_, .priv s1, .priv s2 (h3 (by omega))⟩
  | .unknown _ _, hw, _, _, _ => absurd hw (by simp [Writable])
theorem enc_items : ∀ items : List Item, (∀ i ∈ items, ∀ v, Occurs v i → Writable v) →
    ∃ d, encodeItemList items = .ok d ∧
      (d.length < 2 ^ 64 → ∀ o, ∃ items', SameItems items items' ∧ DerItems o items' d)
  | [], _ => ⟨[], by rw [encodeItemList], fun _ o => ⟨[], .nil, .nil⟩⟩
  | i :: items, h => by
    obtain ⟨b, h1, h2⟩ := enc_item i (fun v hv => h i (by simp) v hv)
    obtain ⟨d, g1, g2⟩ := enc_items items (fun j hj => h j (by simp [hj]))
    refine ⟨b ++ d, by rw [encodeItemList, h1, g1]; rfl, fun hl o => ?_⟩
    simp only [List.length_append] at hl
    obtain ⟨i', s1, s2⟩ := h2 (by omega) o
    obtain ⟨is', t1, t2⟩ := g2 (by omega) (o + b.length)
    exact ⟨i' :: is', .cons s1 t1, .cons s2 t2⟩
end

mutual
/-- The same values occur, up to ranges, in items that are the same up to ranges; the predicates in use do not look
at ranges. -/
theorem readable_same : ∀ {i j : Item}, SameItem i j → (∀ v, Occurs v i → Readable v) → ∀ v, Occurs v j → Readable v
  | _, _, .mk hs, h, v, hv => readable_same_value hs h v hv
theorem readable_same_value : ∀ {x y : Value} {a b c d : Nat}, SameValue x y → (∀ v, Occurs v (.mk a b x) → Readable v) →
    ∀ v, Occurs v (.mk c d y) → Readable v
  | _, _, _, _, _, _, .refl, h, v, hv => by
    cases hv with
    | here => exact h _ .here
    | sequence hi ho => exact h _ (.sequence hi ho)
    | set hi ho => exact h _ (.set hi ho)
    | application ho => exact h _ (.application ho)
    | contextSpecific ho => exact h _ (.contextSpecific ho)
    | priv ho => exact h _ (.priv ho)
  | _, _, _, _, _, _, .sequence hs, h, v, hv => by
    cases hv with
    | here => trivial
    | sequence hi ho => exact readable_same_items hs (fun i hi v hv => h v (.sequence hi hv)) _ hi _ ho
  | _, _, _, _, _, _, .set hs, h, v, hv => by
    cases hv with
    | here => trivial
    | set hi ho => exact readable_same_items hs (fun i hi v hv => h v (.set hi hv)) _ hi _ ho
  | _, _, _, _, _, _, .application hs, h, v, hv => by
    cases hv with
    | here => trivial
    | application ho => exact readable_same hs (fun v hv => h v (.application hv)) _ ho
  | _, _, _, _, _, _, .contextSpecific hs, h, v, hv => by
    cases hv with
    | here => trivial
    | contextSpecific ho => exact readable_same hs (fun v hv => h v (.contextSpecific hv)) _ ho
  | _, _, _, _, _, _, .priv hs, h, v, hv => by
    cases hv with
    | here => trivial
    | priv ho => exact readable_same hs (fun v hv => h v (.priv hv)) _ ho
theorem readable_same_items : ∀ {is js : List Item}, SameItems is js → (∀ i ∈ is, ∀ v, Occurs v i → Readable v) →
    ∀ j ∈ js, ∀ v, Occurs v j → Readable v
  | _, _, .nil, _, j, hj, _, _ => by simp at hj
  | _, _, .cons hs ht, h, j, hj, v, hv => by
    rcases List.mem_cons.mp hj with rfl | hj
    · exact readable_same hs (h _ (by simp)) v hv
    · exact readable_same_items ht (fun i hi => h i (by simp [hi])) j hj v hv
end

end Ngfs.Asn1
