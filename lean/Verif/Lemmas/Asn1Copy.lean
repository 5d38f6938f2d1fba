import Verif.Lemmas.Asn1Unique
import Verif.Lemmas.Asn1Seen
import Verif.Lemmas.Asn1Parts

/-! Writing what was read. No claims here. -/
namespace Ngfs.Asn1
open Ngfs.Binary Ngfs.Spec

theorem encodeOid_seen {ns : List Nat} (h : Kept (.objectIdentifier ns)) : encodeOid (seenOid ns) = encodeOid ns := by
  match ns, h with
  | [], _ => rfl
  | [_], _ => rfl
  | x :: y :: rest, h =>
    simp only [Kept] at h
    simp only [seenOid, encodeOid]
    rw [Nat.mod_eq_of_lt h.1]
    have e : (40 * x + y) / 40 * 40 + (40 * x + y) % 40 = x * 40 + y := by omega
    have r : rest.map (· % 2 ^ 64) = rest := by
      conv_rhs => rw [← List.map_id rest]
      exact List.map_congr_left fun n hn => Nat.mod_eq_of_lt (h.2 n hn)
    rw [e, r]

mutual
theorem encode_seen : ∀ (item : Item), (∀ v, Occurs v item → Kept v) → encodeItem (seenItem item) = encodeItem item
  | .mk a b v, h => by
    simp only [seenItem, encodeItem]
    exact encode_seenValue v (a := a) (b := b) h
theorem encode_seenValue : ∀ (w : Value) {a b : Nat}, (∀ v, Occurs v (.mk a b w) → Kept v) → encodeValue (seenValue w) = encodeValue w
  | .objectIdentifier ns, a, b, h => by
    simp only [seenValue, encodeValue]
    rw [encodeOid_seen (h _ .here)]
  | .sequence items, a, b, h => by
    simp only [seenValue, encodeValue]
    rw [encode_seenItems items fun i hi v hv => h v (.sequence hi hv)]
  | .set items, a, b, h => by
    simp only [seenValue, encodeValue]
    rw [encode_seenItems items fun i hi v hv => h v (.set hi hv)]
  | .application t i, a, b, h => by
    simp only [seenValue, encodeValue]
    rw [encode_seen i fun v hv => h v (.application hv)]
  | .contextSpecific t i, a, b, h => by
    simp only [seenValue, encodeValue]
    rw [encode_seen i fun v hv => h v (.contextSpecific hv)]
  | .priv t i, a, b, h => by
    simp only [seenValue, encodeValue]
    rw [encode_seen i fun v hv => h v (.priv hv)]
  | .boolean _, _, _, _ | .integer _, _, _, _ | .bitString _ _, _, _, _ | .octetString _, _, _, _ | .null, _, _, _
  | .printableString _, _, _, _ | .utf8String _, _, _, _ | .utcTime _, _, _, _ | .generalizedTime _, _, _, _
  | .unknown _ _, _, _, _ => by simp only [seenValue]
theorem encode_seenItems : ∀ (items : List Item), (∀ i ∈ items, ∀ v, Occurs v i → Kept v) →
    encodeItemList (seenItems items) = encodeItemList items
  | [], _ => rfl
  | i :: is, h => by
    simp only [seenItems, encodeItemList]
    rw [encode_seen i (h i (by simp)), encode_seenItems is fun j hj => h j (by simp [hj])]
end

/-! A distinguished encoding has only writable values, `true` and large numbers apart. -/

mutual
theorem writable_item : ∀ (item : Item) {o : Nat} {bs : Bytes}, DerItem o item bs → ∀ v, Occurs v item → Kept v → Writable v
  | .mk a b w, o, bs, h => by
    cases h with
    | mk hv =>
      intro v ho hk
      exact writable_value w hv v ho hk
theorem writable_value : ∀ (w : Value) {o : Nat} {bs : Bytes} {a b : Nat}, DerValue o w bs → ∀ v, Occurs v (.mk a b w) → Kept v → Writable v
  | .boolean _, _, _, _, _, _, v, ho, hk => by cases ho; exact hk
  | .objectIdentifier ns, _, _, _, _, h, v, ho, hk => by
    cases ho
    cases h with
    | objectIdentifier hc ht =>
      obtain ⟨x, y, rest, parts, rfl, hx, hy, -, -⟩ := hc
      simp only [Kept] at hk
      exact ⟨hx, hy, by omega⟩
  | .sequence items, _, _, _, _, h, v, ho, hk => by
    cases h with
    | sequence hi ht =>
      cases ho with
      | here => trivial
      | sequence hm ho => exact writable_items items hi _ hm v ho hk
  | .set items, _, _, _, _, h, v, ho, hk => by
    cases h with
    | set hi ht =>
      cases ho with
      | here => trivial
      | set hm ho => exact writable_items items hi _ hm v ho hk
  | .application t i, _, _, _, _, h, v, ho, hk => by
    cases h with
    | application hi ht =>
      cases ho with
      | here => exact ht.1
      | application ho => exact writable_item i hi v ho hk
  | .contextSpecific t i, _, _, _, _, h, v, ho, hk => by
    cases h with
    | contextSpecific hi ht =>
      cases ho with
      | here => exact ht.1
      | contextSpecific ho => exact writable_item i hi v ho hk
  | .priv t i, _, _, _, _, h, v, ho, hk => by
    cases h with
    | priv hi ht =>
      cases ho with
      | here => exact ht.1
      | priv ho => exact writable_item i hi v ho hk
  | .unknown _ _, _, _, _, _, h, v, ho, hk => by cases h
  | .integer _, _, _, _, _, h, v, ho, hk | .bitString _ _, _, _, _, _, h, v, ho, hk | .octetString _, _, _, _, _, h, v, ho, hk
  | .null, _, _, _, _, h, v, ho, hk | .printableString _, _, _, _, _, h, v, ho, hk | .utf8String _, _, _, _, _, h, v, ho, hk
  | .utcTime _, _, _, _, _, h, v, ho, hk | .generalizedTime _, _, _, _, _, h, v, ho, hk => by cases ho; trivial
theorem writable_items : ∀ (items : List Item) {o : Nat} {bs : Bytes}, DerItems o items bs → ∀ i ∈ items,
    ∀ v, Occurs v i → Kept v → Writable v
  | [], _, _, _, i, hi, _, _, _ => absurd hi (by simp)
  | i :: is, _, _, h, j, hj, v, ho, hk => by
    cases h with
    | cons h1 h2 =>
      rcases List.mem_cons.mp hj with he | hj
      · exact writable_item i h1 v (he ▸ ho) hk
      · exact writable_items is h2 j hj v ho hk
end

/-- Writing what was read from a distinguished encoding. -/
theorem copy_der {o : Nat} {item : Item} {bs : Bytes} (h : DerItem o item bs) (hk : ∀ v, Occurs v item → Kept v) (hl : bs.length < 2 ^ 64) :
    encodeItem (seenItem item) = .ok bs := by
  rw [encode_seen item hk]
  exact der_item item h (fun v hv => writable_item item h v hv (hk v hv)) hl

/-! ### What comes out of the reader -/

/-- What is known about every value that was read. -/
def Read : Value → Prop
  | .objectIdentifier [] => True
  | .objectIdentifier (x :: y :: _) => x * 40 + y < 2 ^ 64
  | .objectIdentifier _ => False
  | .application tag _ | .contextSpecific tag _ | .priv tag _ => tag ≤ 30
  | _ => True

theorem varLoop_bound (n acc : Nat) (r : Reader) (v : Nat) (h : (varLoop n acc r).1 = .ok v) : v < 2 ^ 64 := by
  induction n generalizing acc r with
  | zero => simp [varLoop, Binary.throw] at h
  | succ n ih =>
    rw [varLoop, bind_def] at h
    split at h
    · split at h
      · simp only [pure_def, Except.ok.injEq] at h
        subst h
        refine Nat.or_lt_two_pow (Nat.mod_lt _ (by decide)) ?_
        exact Nat.lt_of_lt_of_le (UInt8.toNat_lt _) (by decide)
      · exact ih _ _ h
    · simp at h

theorem oidLoop_read (n : Nat) (parts : List Nat) (r : Reader) (out : List Nat) (hp : Read (.objectIdentifier parts))
    (h : (oidLoop n parts r).1 = .ok out) : Read (.objectIdentifier out) := by
  induction n generalizing parts r with
  | zero => simp [oidLoop, Binary.throw] at h
  | succ n ih =>
    simp only [oidLoop] at h
    split at h
    · rcases hv : readVarU64 r with ⟨res, r'⟩
      rw [hv] at h
      cases res with
      | error e => simp at h
      | ok part =>
        simp only at h
        split at h
        · simp at h
        · refine ih _ _ ?_ h
          have hb : part < 2 ^ 64 := varLoop_bound (r.remaining + 1) 0 r part (by
            have : (readVarU64 r).1 = .ok part := by rw [hv]
            exact this)
          match parts, hp with
          | [], _ =>
            show part / 40 * 40 + part % 40 < 2 ^ 64
            omega
          | x :: y :: rest, hp => exact hp
    · simp only [Except.ok.injEq] at h
      subst h
      exact hp

theorem identifier_tag {r r' : Reader} {id : Identifier} (h : readIdentifier r = (.ok id, r')) : id.tag ≤ 30 := by
  obtain ⟨b, r1, -, h⟩ := bind_ok_inv h
  simp only at h
  split at h
  · simp [Binary.throw] at h
  · rename_i hne
    simp only [pure_def, Prod.mk.injEq, Except.ok.injEq] at h
    rw [← h.1]
    show (b &&& 0x1f).toNat ≤ 30
    have h1 : (b &&& 0x1f).toNat ≤ 31 := by
      rw [UInt8.toNat_and]; exact Nat.and_le_right
    have h2 : (b &&& 0x1f).toNat ≠ 31 := fun hh => hne (UInt8.toNat_inj.mp hh)
    omega

theorem contents_read {item : RM Item} {id : Identifier} {len : Nat} {r : Reader} {v : Value} (ht : id.tag ≤ 30)
    (h : (readContents item id len r).1 = .ok v) : Read v := by
  simp only [readContents] at h
  cases hcl : id.cls <;> simp only [hcl] at h
  case universal =>
    unfold readUniversal at h
    split at h
    case h_1 =>
      split at h
      · simp at h
      · split at h
        · simp at h
        · rw [bind_def] at h
          split at h
          · split at h
            · simp [pure_def] at h; subst h; trivial
            · split at h
              · simp [pure_def] at h; subst h; trivial
              · simp [Binary.throw] at h
          · simp at h
    case h_3 =>
      split at h
      · simp at h
      · rw [bind_def] at h
        split at h
        · obtain ⟨a, -, rfl⟩ := bind_pure_fst h; trivial
        · simp at h
    case h_5 =>
      split at h
      · simp at h
      · split at h
        · simp at h
        · simp at h; subst h; trivial
    case h_6 =>
      split at h
      · simp at h
      · obtain ⟨a, ha, rfl⟩ := bind_pure_fst h
        exact oidLoop_read _ [] r a trivial ha
    case h_13 => simp at h; subst h; trivial
    all_goals
      split at h
      · simp at h
      · obtain ⟨a, -, rfl⟩ := bind_pure_fst h; trivial
  all_goals
    simp only [readTagged] at h
    cases hf : id.form <;> simp only [hf] at h
    · simp [pure_def] at h; subst h; trivial
    · obtain ⟨a, ha, rfl⟩ := bind_pure_fst h
      exact ht

theorem itemN_read {n : Nat} {r r' : Reader} {a b : Nat} {v : Value} (h : readItemN n r = (.ok (.mk a b v), r')) : Read v := by
  cases n with
  | zero => simp [readItemN, Binary.throw] at h
  | succ n =>
    simp only [readItemN] at h
    rcases hp : readValue (readItemN n) r with ⟨res, r1⟩
    rw [hp] at h
    cases res with
    | error e => simp at h
    | ok w =>
      simp only [Prod.mk.injEq, Except.ok.injEq, Item.mk.injEq] at h
      obtain ⟨⟨-, -, rfl⟩, -⟩ := h
      obtain ⟨id, r2, e1, hp⟩ := bind_ok_inv hp
      obtain ⟨len, r3, -, hp⟩ := bind_ok_inv hp
      obtain ⟨inner, r4, -, hp⟩ := bind_ok_inv hp
      simp only [onReader, Prod.mk.injEq] at hp
      exact contents_read (identifier_tag e1) hp.1

theorem occurs_part {v : Value} {item : Item} (h : Occurs v item) : ∃ a b, Part (.mk a b v) item := by
  induction h with
  | @here a b => exact ⟨a, b, .here⟩
  | sequence hm _ ih => obtain ⟨a, b, h⟩ := ih; exact ⟨a, b, .sequence hm h⟩
  | set hm _ ih => obtain ⟨a, b, h⟩ := ih; exact ⟨a, b, .set hm h⟩
  | application _ ih => obtain ⟨a, b, h⟩ := ih; exact ⟨a, b, .application h⟩
  | contextSpecific _ ih => obtain ⟨a, b, h⟩ := ih; exact ⟨a, b, .contextSpecific h⟩
  | priv _ ih => obtain ⟨a, b, h⟩ := ih; exact ⟨a, b, .priv h⟩

theorem item_read {buf : Bytes} {o : Nat} {item : Item} (ho : o ≤ buf.length) (h : (readItem ⟨buf, o⟩).1 = .ok item) :
    ∀ v, Occurs v item → Read v := by
  rcases hr : readItem ⟨buf, o⟩ with ⟨res, r'⟩
  rw [hr] at h
  simp only at h
  subst h
  obtain ⟨-, -, -, -, hp⟩ := readItemN_placed _ buf o item r' ho hr
  intro v hv
  obtain ⟨a, b, hpart⟩ := occurs_part hv
  obtain ⟨-, -, -, -, m, -, e⟩ := hp _ hpart
  exact itemN_read e

/-! ### When writing fails -/

/-- An element of a kind the reader does not know occurs. -/
def HasUnknown (item : Item) : Prop := ∃ id len, Occurs (.unknown id len) item

theorem rawOk (c : Class) (f : Form) (tag : Nat) (ht : tag ≤ 30) (d : Bytes) : ∃ bs, encodeRaw c f tag d = .ok bs := by
  rw [encodeRaw, encodeIdentifier, if_neg (by omega)]
  exact ⟨_, rfl⟩

mutual
theorem enc_read : ∀ (item : Item), (∀ v, Occurs v item → Read v) →
    (HasUnknown item ∧ encodeItem item = .error .invalidData) ∨ (¬ HasUnknown item ∧ ∃ bs, encodeItem item = .ok bs)
  | .mk a b v, h => by
    rw [encodeItem]
    exact enc_readValue v a b h
theorem enc_readValue : ∀ (w : Value) (a b : Nat), (∀ v, Occurs v (.mk a b w) → Read v) →
    (HasUnknown (.mk a b w) ∧ encodeValue w = .error .invalidData) ∨ (¬ HasUnknown (.mk a b w) ∧ ∃ bs, encodeValue w = .ok bs)
  | .unknown id len, a, b, h => .inl ⟨⟨id, len, .here⟩, by rw [encodeValue]⟩
  | .objectIdentifier ns, a, b, h => by
    refine .inr ⟨fun ⟨_, _, ho⟩ => (nomatch ho), ?_⟩
    rw [encodeValue]
    have hr := h _ .here
    match ns, hr with
    | [], _ => exact rawOk .universal .primitive 6 (by decide) _
    | x :: y :: rest, hr =>
      have : x * 40 + y < 2 ^ 64 := hr
      rw [encodeOid, if_neg (by omega)]
      exact rawOk .universal .primitive 6 (by decide) _
  | .sequence items, a, b, h => by
    rw [encodeValue]
    rcases enc_readItems items fun i hi v hv => h v (.sequence hi hv) with ⟨⟨i, hi, id, len, hu⟩, he⟩ | ⟨hn, bs, he⟩
    · exact .inl ⟨⟨id, len, .sequence hi hu⟩, by rw [he]; rfl⟩
    · refine .inr ⟨fun ⟨id, len, ho⟩ => ?_, by rw [he]; exact rawOk .universal .constructed 16 (by decide) _⟩
      cases ho with
      | sequence hm ho => exact hn _ hm ⟨id, len, ho⟩
  | .set items, a, b, h => by
    rw [encodeValue]
    rcases enc_readItems items fun i hi v hv => h v (.set hi hv) with ⟨⟨i, hi, id, len, hu⟩, he⟩ | ⟨hn, bs, he⟩
    · exact .inl ⟨⟨id, len, .set hi hu⟩, by rw [he]; rfl⟩
    · refine .inr ⟨fun ⟨id, len, ho⟩ => ?_, by rw [he]; exact rawOk .universal .constructed 17 (by decide) _⟩
      cases ho with
      | set hm ho => exact hn _ hm ⟨id, len, ho⟩
  | .application t i, a, b, h => by
    rw [encodeValue]
    rcases enc_read i fun v hv => h v (.application hv) with ⟨⟨id, len, hu⟩, he⟩ | ⟨hn, bs, he⟩
    · exact .inl ⟨⟨id, len, .application hu⟩, by rw [he]; rfl⟩
    · refine .inr ⟨fun ⟨id, len, ho⟩ => ?_, by rw [he]; exact rawOk _ _ _ (h _ .here) _⟩
      cases ho with
      | application ho => exact hn ⟨id, len, ho⟩
  | .contextSpecific t i, a, b, h => by
    rw [encodeValue]
    rcases enc_read i fun v hv => h v (.contextSpecific hv) with ⟨⟨id, len, hu⟩, he⟩ | ⟨hn, bs, he⟩
    · exact .inl ⟨⟨id, len, .contextSpecific hu⟩, by rw [he]; rfl⟩
    · refine .inr ⟨fun ⟨id, len, ho⟩ => ?_, by rw [he]; exact rawOk _ _ _ (h _ .here) _⟩
      cases ho with
      | contextSpecific ho => exact hn ⟨id, len, ho⟩
  | .priv t i, a, b, h => by
    rw [encodeValue]
    rcases enc_read i fun v hv => h v (.priv hv) with ⟨⟨id, len, hu⟩, he⟩ | ⟨hn, bs, he⟩
    · exact .inl ⟨⟨id, len, .priv hu⟩, by rw [he]; rfl⟩
    · refine .inr ⟨fun ⟨id, len, ho⟩ => ?_, by rw [he]; exact rawOk _ _ _ (h _ .here) _⟩
      cases ho with
      | priv ho => exact hn ⟨id, len, ho⟩
  | .boolean _, _, _, _ | .integer _, _, _, _ | .bitString _ _, _, _, _ | .octetString _, _, _, _ | .null, _, _, _
  | .printableString _, _, _, _ | .utf8String _, _, _, _ | .utcTime _, _, _, _ | .generalizedTime _, _, _, _ => by
    refine .inr ⟨fun ⟨_, _, ho⟩ => (nomatch ho), ?_⟩
    rw [encodeValue]
    exact rawOk _ _ _ (by decide) _
theorem enc_readItems : ∀ (items : List Item), (∀ i ∈ items, ∀ v, Occurs v i → Read v) →
    ((∃ i ∈ items, HasUnknown i) ∧ encodeItemList items = .error .invalidData) ∨
    ((∀ i ∈ items, ¬ HasUnknown i) ∧ ∃ bs, encodeItemList items = .ok bs)
  | [], _ => .inr ⟨fun i hi => absurd hi (by simp), [], by rw [encodeItemList]⟩
  | i :: is, h => by
    rw [encodeItemList]
    rcases enc_read i (h i (by simp)) with ⟨hu, he⟩ | ⟨hn, bs, he⟩
    · exact .inl ⟨⟨i, by simp, hu⟩, by rw [he]; rfl⟩
    · rcases enc_readItems is fun j hj => h j (by simp [hj]) with ⟨⟨j, hj, hu⟩, he2⟩ | ⟨hn2, bs2, he2⟩
      · exact .inl ⟨⟨j, by simp [hj], hu⟩, by rw [he, he2]; rfl⟩
      · refine .inr ⟨fun j hj => ?_, bs ++ bs2, by rw [he, he2]; rfl⟩
        rcases List.mem_cons.mp hj with rfl | hj
        · exact hn
        · exact hn2 j hj
end

end Ngfs.Asn1
