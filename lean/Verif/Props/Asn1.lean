import Verif.Lemmas.Asn1Write
import Verif.Lemmas.Asn1Shift
import Verif.Lemmas.Asn1Oid
import Verif.Lemmas.Asn1Copy

/-! Property theorems for ASN.1. -/
namespace Ngfs.Asn1
open Ngfs.Binary Ngfs.Spec

/-! ### C32 -/

/-- **C32**: whatever item the writer encodes, the reader decodes the bytes to the same item, and to the end. -/
def C32_statement : Prop := ∀ item bs, encodeItem item = .ok bs → bs.length < 2 ^ 32 →
  ∃ item', SameItem item item' ∧ readItem ⟨bs, 0⟩ = (.ok item', ⟨bs, bs.length⟩)

/-- **C32** is false: `true` is written as `false`. -/
theorem C32_false : ¬ C32_statement := by
  intro h
  obtain ⟨i, hs, hr⟩ := h (.ofValue (.boolean true)) [1, 1, 0] rfl (by decide)
  have : readItem ⟨[1, 1, 0], 0⟩ = (.ok (.mk 0 3 (.boolean false)), ⟨[1, 1, 0], 3⟩) := rfl
  rw [this] at hr
  simp only [Prod.mk.injEq, Except.ok.injEq] at hr
  rw [← hr.1] at hs
  cases hs with
  | mk hv => cases hv

/-- Nor is **C32** true of object identifiers: the identifier 2.47 comes back as 3.7. -/
theorem C32_oid_false : ∃ bs, encodeItem (.ofValue (.objectIdentifier [2, 47])) = .ok bs ∧
    readItem ⟨bs, 0⟩ = (.ok (.mk 0 bs.length (.objectIdentifier [3, 7])), ⟨bs, bs.length⟩) :=
  ⟨[6, 1, 127], by
    simp [Item.ofValue, encodeItem, encodeValue, encodeOid, writeVarU64, varTemp, encodeRaw, encodeIdentifier, encodeLength,
      Class.bits, Form.bit, bind, Except.bind, pure, Except.pure], rfl⟩

/-- **C32**, the writer's half: items whose values can be written are written in the distinguished encoding. Missing:
`true`, which is written as `false`, and object identifiers of fewer than two components. -/
theorem C32_encodes_der_partial (item : Item) (hw : ∀ v, Occurs v item → Writable v) :
    ∃ bs, encodeItem item = .ok bs ∧
      (bs.length < 2 ^ 64 → ∀ o, ∃ item', SameItem item item' ∧ DerItem o item' bs) := enc_item item hw

/-- **C32**, the reader's half: wherever a distinguished encoding lies in the input, it is decoded to its item, with the
positions as ranges, and the reader stands behind it. Missing: object identifiers whose second component is 40 or more
or whose subidentifiers do not fit in 64 bits. -/
theorem C32_decodes_der_partial {item : Item} {bs : Bytes} (pre post : Bytes) (h : DerItem pre.length item bs)
    (hr : ∀ v, Occurs v item → Readable v) (h32 : bs.length < 2 ^ 32) (hl : (pre ++ bs ++ post).length < 2 ^ 64) :
    readItem ⟨pre ++ bs ++ post, pre.length⟩ = (.ok item, ⟨pre ++ bs ++ post, pre.length + bs.length⟩) :=
  readItem_der h hr h32 pre post rfl hl

/-- **C32**: what becomes of any distinguished encoding, without a condition on its values. It is always decoded, to its item but for
the object identifiers. -/
theorem C32_decodes_any_der {item : Item} {bs : Bytes} (pre post : Bytes) (h : DerItem pre.length item bs) (h32 : bs.length < 2 ^ 32)
    (hl : (pre ++ bs ++ post).length < 2 ^ 64) :
    readItem ⟨pre ++ bs ++ post, pre.length⟩ = (.ok (seenItem item), ⟨pre ++ bs ++ post, pre.length + bs.length⟩) :=
  readItem_seen h h32 pre post rfl hl

/-- **C32**, the other way round: the distinguished encoding that was read is written again byte for byte, unless it has a `true` or an
object identifier with a number beyond 64 bits. -/
theorem C32_writes_back_partial {item : Item} {bs : Bytes} (pre post : Bytes) (h : DerItem pre.length item bs) (h32 : bs.length < 2 ^ 32)
    (hl : (pre ++ bs ++ post).length < 2 ^ 64) (hk : ∀ v, Occurs v item → Kept v) :
    ∃ item', (readItem ⟨pre ++ bs ++ post, pre.length⟩).1 = .ok item' ∧ encodeItem item' = .ok bs :=
  ⟨seenItem item, by rw [readItem_seen h h32 pre post rfl hl], copy_der h hk (Nat.lt_trans h32 (by decide))⟩

/-- **C32** for the items whose values can be written and read. -/
theorem C32_round_trip_partial (item : Item) (hw : ∀ v, Occurs v item → Writable v ∧ Readable v) :
    ∃ bs, encodeItem item = .ok bs ∧ (bs.length < 2 ^ 32 → ∀ pre post : Bytes, (pre ++ bs ++ post).length < 2 ^ 64 →
      ∃ item', SameItem item item' ∧ readItem ⟨pre ++ bs ++ post, pre.length⟩ =
        (.ok item', ⟨pre ++ bs ++ post, pre.length + bs.length⟩)) := by
  obtain ⟨bs, h1, h2⟩ := enc_item item fun v hv => (hw v hv).1
  refine ⟨bs, h1, fun h32 pre post hl => ?_⟩
  obtain ⟨item', hs, hd⟩ := h2 (Nat.lt_trans h32 (by decide)) pre.length
  exact ⟨item', hs, readItem_der hd (readable_same hs fun v hv => (hw v hv).2) h32 pre post rfl hl⟩

/-- An item nested three deep, with an object identifier and a tag. -/
def C32_sample : Item := .ofValue (.sequence [.ofValue (.objectIdentifier [1, 2, 840, 113549]), .ofValue .null,
  .ofValue (.contextSpecific 3 (.ofValue (.set [.ofValue (.integer [1, 0]), .ofValue (.utf8String "é")])))])

example : ∀ v, Occurs v C32_sample → Writable v ∧ Readable v := by
  intro v h
  simp only [C32_sample, Item.ofValue] at h
  cases h with
  | here => exact ⟨trivial, trivial⟩
  | sequence hi h =>
    simp only [List.mem_cons, List.not_mem_nil, or_false] at hi
    rcases hi with rfl | rfl | rfl
    · cases h; exact ⟨by simp [Writable], by simp [Readable]⟩
    · cases h; exact ⟨trivial, trivial⟩
    · cases h with
      | here => exact ⟨by simp [Writable], trivial⟩
      | contextSpecific h =>
        cases h with
        | here => exact ⟨trivial, trivial⟩
        | set hi h =>
          simp only [List.mem_cons, List.not_mem_nil, or_false] at hi
          rcases hi with rfl | rfl <;> (cases h; exact ⟨trivial, trivial⟩)

/-! ### C64 -/

/-- **C64**: an object identifier is decoded to its components or not at all. -/
def C64_statement : Prop := ∀ components d bs item r', OidContent components d → Tlv 0 false 6 d bs →
  bs.length < 2 ^ 32 → readItem ⟨bs, 0⟩ = (.ok item, r') → item = .mk 0 bs.length (.objectIdentifier components)

/-- 2.5.(2^64 + 3) in its distinguished encoding. -/
def C64_witness : Bytes := [0x55, 0x82, 0x80, 0x80, 0x80, 0x80, 0x80, 0x80, 0x80, 0x80, 0x03]

/-- **C64** is false: 2.5.18446744073709551619 is decoded as 2.5.3, the identifier of the common name. -/
theorem C64_false : ¬ C64_statement := by
  intro h
  have hr : readItem ⟨[6, 11] ++ C64_witness, 0⟩ = (.ok (.mk 0 13 (.objectIdentifier [2, 5, 3])),
    ⟨[6, 11] ++ C64_witness, 13⟩) := rfl
  have := h [2, 5, 2 ^ 64 + 3] C64_witness ([6, 11] ++ C64_witness) _ _
    ⟨2, 5, [2 ^ 64 + 3], [[0x55], [0x82, 0x80, 0x80, 0x80, 0x80, 0x80, 0x80, 0x80, 0x80, 0x03]], rfl, by decide, by decide,
      .cons ⟨by decide, by decide, [], 0x55, rfl, by simp, by decide⟩
        (.cons ⟨by decide, by decide, [0x82, 0x80, 0x80, 0x80, 0x80, 0x80, 0x80, 0x80, 0x80], 0x03, rfl, by decide, by decide⟩
          .nil), rfl⟩
    ⟨by decide, [11], .inl ⟨by decide, rfl⟩, rfl⟩ (by decide) hr
  simp at this

/-- **C64** when the second component is below 40 and all numbers fit in 64 bits. Missing: the other identifiers, which
are decoded to different components. -/
theorem C64_exact_partial {x y : Nat} {rest : List Nat} {d bs : Bytes} (h : OidContent (x :: y :: rest) d)
    (ht : Tlv 0 false 6 d bs) (hl : bs.length < 2 ^ 32) (hy : y < 40) (hrest : ∀ n ∈ rest, n < 2 ^ 64) :
    readItem ⟨bs, 0⟩ = (.ok (.mk 0 bs.length (.objectIdentifier (x :: y :: rest))), ⟨bs, bs.length⟩) := by
  have hx : x ≤ 2 := by
    obtain ⟨x', y', rest', _, he, hx, -⟩ := h
    simp only [List.cons.injEq] at he
    omega
  have hd : DerItem 0 (.mk 0 (0 + bs.length) (.objectIdentifier (x :: y :: rest))) bs := .mk (.objectIdentifier h ht)
  have := readItem_der hd (fun v hv => by cases hv; exact ⟨hy, by omega, hrest⟩) hl [] [] rfl
    (by simp only [List.nil_append, List.append_nil]; exact Nat.lt_trans hl (by decide))
  simpa using this

example : OidContent [2, 5, 4, 3] [0x55, 4, 3] ∧ Tlv 0 false 6 [0x55, 4, 3] [6, 3, 0x55, 4, 3] :=
  ⟨⟨2, 5, [4, 3], [[0x55], [4], [3]], rfl, by decide, by decide,
    .cons ⟨by decide, by decide, [], 0x55, rfl, by simp, by decide⟩
      (.cons ⟨by decide, by decide, [], 4, rfl, by simp, by decide⟩
        (.cons ⟨by decide, by decide, [], 3, rfl, by simp, by decide⟩ .nil)), rfl⟩,
    by decide, [3], .inl ⟨by decide, rfl⟩, rfl⟩

/-- **C64**, what is decoded for every object identifier, wherever it lies: the first subidentifier and the further
components modulo 2^64, the first split by 40. Missing: these are not always the components. -/
theorem C64_decoded_partial {x y : Nat} {rest : List Nat} {d bs : Bytes} (h : OidContent (x :: y :: rest) d)
    (ht : Tlv 0 false 6 d bs) (hl : bs.length < 2 ^ 32) (pre post : Bytes) (hlen : (pre ++ bs ++ post).length < 2 ^ 64) :
    readItem ⟨pre ++ bs ++ post, pre.length⟩ =
      (.ok (.mk pre.length (pre.length + bs.length) (.objectIdentifier
        ((40 * x + y) % 2 ^ 64 / 40 :: (40 * x + y) % 2 ^ 64 % 40 :: rest.map (· % 2 ^ 64)))),
        ⟨pre ++ bs ++ post, pre.length + bs.length⟩) := readItem_oid h ht hl pre post hlen

/-- **C64**, exactly when the components are what is decoded: when the second one is below 40 and the further ones fit
in 64 bits. -/
theorem C64_right_iff_partial {x y : Nat} {rest : List Nat} {d bs : Bytes} (h : OidContent (x :: y :: rest) d)
    (ht : Tlv 0 false 6 d bs) (hl : bs.length < 2 ^ 32) :
    (∃ r', readItem ⟨bs, 0⟩ = (.ok (.mk 0 bs.length (.objectIdentifier (x :: y :: rest))), r')) ↔
      y < 40 ∧ ∀ n ∈ rest, n < 2 ^ 64 := by
  constructor
  · rintro ⟨r', hr⟩
    have := C64_decoded_partial h ht hl [] [] (by simp only [List.nil_append, List.append_nil]; exact Nat.lt_trans hl (by decide))
    simp only [List.nil_append, List.append_nil, List.length_nil, Nat.zero_add, hr, Prod.mk.injEq, Except.ok.injEq,
      Item.mk.injEq, Value.objectIdentifier.injEq, List.cons.injEq, true_and] at this
    obtain ⟨⟨-, hy, hrest⟩, -⟩ := this
    refine ⟨by rw [hy]; exact Nat.mod_lt _ (by decide), fun n hn => ?_⟩
    rw [hrest] at hn
    obtain ⟨k, -, rfl⟩ := List.mem_map.mp hn
    exact Nat.mod_lt _ (by decide)
  · rintro ⟨hy, hrest⟩
    exact ⟨_, C64_exact_partial h ht hl hy hrest⟩

/-- 2.47 is decoded as 3.7. -/
example : ∃ d bs, OidContent [2, 47] d ∧ Tlv 0 false 6 d bs ∧
    readItem ⟨bs, 0⟩ = (.ok (.mk 0 3 (.objectIdentifier [3, 7])), ⟨bs, 3⟩) :=
  ⟨[127], [6, 1, 127], ⟨2, 47, [], [[127]], rfl, by decide, by decide,
    .cons ⟨by decide, by decide, [], 127, rfl, by simp, by decide⟩ .nil, rfl⟩, ⟨by decide, [1], .inl ⟨by decide, rfl⟩, rfl⟩, rfl⟩

/-! ### C63 -/

/-- **C63**: on any bytes the reader ends with an item or an error, does not panic, and stays within the input. -/
theorem C63_total (buf : Bytes) (o : Nat) (ho : o ≤ buf.length) :
    ∃ res o', readItem ⟨buf, o⟩ = (res, ⟨buf, o'⟩) ∧ o ≤ o' ∧ o' ≤ buf.length ∧
      res ≠ .error .panic ∧ res ≠ .error .fuel := by
  obtain ⟨a1, a2, a3, a4, a5⟩ := safe_item ⟨buf, o⟩ ho
  rcases h : readItem ⟨buf, o⟩ with ⟨res, r'⟩
  rw [h] at a1 a2 a3 a4 a5
  obtain ⟨b, o'⟩ := r'
  simp only at a1 a2
  subst a1
  exact ⟨res, o', rfl, a2, a3, a4, a5⟩

/-- **C63**: the ranges recorded in an item that was read: the item's own range is what was consumed, every part lies
in the input, the children of a sequence or set lie side by side up to its end, and reading at the position of a part
gives the part. -/
theorem C63_ranges (buf : Bytes) (o : Nat) (ho : o ≤ buf.length) (item : Item) (r' : Reader)
    (h : readItem ⟨buf, o⟩ = (.ok item, r')) :
    r' = ⟨buf, item.stop⟩ ∧ item.start = o ∧ item.stop ≤ buf.length ∧ ∀ c, Part c item →
      o ≤ c.start ∧ c.start + 2 ≤ c.stop ∧ c.stop ≤ item.stop ∧ WellPlaced c ∧
      readItem ⟨buf, c.start⟩ = (.ok c, ⟨buf, c.stop⟩) := by
  obtain ⟨h1, h2, h3, h4, h5⟩ := readItemN_placed _ buf o item r' ho h
  refine ⟨h1, h2, h4, fun c hc => ?_⟩
  obtain ⟨a, b, c', d, m, -, e⟩ := h5 c hc
  exact ⟨by omega, b, c', d, itemN_item (by simp only [InBounds]; omega) e⟩

/-- **C63**: the bytes a part's range delimits, taken out of the input, are read to their end as the same item. -/
theorem C63_slice (buf : Bytes) (o : Nat) (ho : o ≤ buf.length) (item : Item) (r' : Reader)
    (h : readItem ⟨buf, o⟩ = (.ok item, r')) (c : Item) (hc : Part c item) :
    ∃ d, SameItem c d ∧ readItem ⟨slice buf c.start c.stop, 0⟩ =
      (.ok d, ⟨slice buf c.start c.stop, (slice buf c.start c.stop).length⟩) := by
  obtain ⟨-, h2, h3, h4, h5⟩ := readItemN_placed _ buf o item r' ho h
  obtain ⟨a, b, c', -, m, -, e⟩ := h5 c hc
  obtain ⟨d, hs, hd⟩ := alone b (by omega) e
  refine ⟨d, hs, ?_⟩
  rw [hd]
  congr 2
  simp [slice]
  omega

/-- A sequence of a null and a tagged integer behind one byte of something else. -/
example : readItem ⟨[9, 0x30, 7, 5, 0, 0xa0, 3, 2, 1, 6, 8], 1⟩ =
    (.ok (.mk 1 10 (.sequence [.mk 3 5 .null, .mk 5 10 (.contextSpecific 0 (.mk 7 10 (.integer [6])))])),
      ⟨[9, 0x30, 7, 5, 0, 0xa0, 3, 2, 1, 6, 8], 10⟩) := rfl

end Ngfs.Asn1
