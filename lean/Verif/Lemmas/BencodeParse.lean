import Verif.Lemmas.Bencode

/-! Helper lemmas: the bencode parser against the grammar. No claims here. -/
namespace Ngfs.Bencode
open Ngfs.Spec

theorem enc_head {s : Bool} {o : Nat} {path : String} {v : Value} {bs : Bytes} (h : Enc s o path v bs) :
    ∃ b rest, bs = b :: rest ∧ b ≠ 0x65 := by
  cases h with
  | @bytes _ _ data ds hd =>
    obtain ⟨h1, h2, -⟩ := hd
    cases ds with
    | nil => exact absurd rfl h1
    | cons d ds =>
      refine ⟨d, _, rfl, ?_⟩
      rintro rfl
      have := (h2 _ List.mem_cons_self).2
      exact absurd this (by decide)
  | integer => exact ⟨_, _, rfl, by decide⟩
  | list => exact ⟨_, _, rfl, by decide⟩
  | dict => exact ⟨_, _, rfl, by decide⟩

theorem enc_loc {s : Bool} {o : Nat} {path : String} {v : Value} {bs : Bytes} (h : Enc s o path v bs) :
    v.loc = ⟨o, o + bs.length, path⟩ := by
  cases h <;> rfl

/-! ### Soundness -/

/-- What a parser of values returns is encoded at the position. -/
def Sound (node : String → P Value) : Prop := ∀ path data o v o', node path data o = .ok (v, o') →
  ∃ bs, Enc false o path v bs ∧ At data o bs ∧ o' = o + bs.length

theorem listLoop_sound {node : String → P Value} (hn : Sound node) (path : String) (n : Nat) :
    ∀ (i : Nat) (data : Bytes) (o : Nat) (vs : List Value) (o' : Nat), listLoop node path n i data o = .ok (vs, o') →
      ∃ bs, EncItems false o path i vs bs ∧ At data o (bs ++ [0x65]) ∧ o' = o + bs.length + 1 := by
  induction n with
  | zero => intro i data o vs o' h; simp [listLoop] at h
  | succ n ih =>
    intro i data o vs o' h
    simp only [listLoop] at h
    split at h
    · cases h
    · rename_i b hb
      split at h
      · rename_i he
        subst he
        simp only [Except.ok.injEq, Prod.mk.injEq] at h
        obtain ⟨rfl, rfl⟩ := h
        obtain ⟨hlt, -⟩ := List.getElem?_eq_some_iff.mp hb
        exact ⟨[], .nil, at_cons.mpr ⟨hb, at_nil.mpr (by omega)⟩, rfl⟩
      · rcases h1 : node (path ++ "/" ++ toString i) data o with e | ⟨v, o1⟩
        · rw [h1] at h; simp at h
        · rw [h1] at h
          simp only at h
          rcases h2 : listLoop node path n (i + 1) data o1 with e | ⟨ws, o2⟩
          · rw [h2] at h; simp at h
          · rw [h2] at h
            simp only [Except.ok.injEq, Prod.mk.injEq] at h
            obtain ⟨rfl, rfl⟩ := h
            obtain ⟨bs, e1, a1, rfl⟩ := hn _ _ _ _ _ h1
            obtain ⟨cs, e2, a2, rfl⟩ := ih _ _ _ _ _ h2
            refine ⟨bs ++ cs, .cons e1 e2, ?_, by simp; omega⟩
            rw [List.append_assoc]
            exact at_append.mpr ⟨a1, a2⟩

theorem dictLoop_sound {node : String → P Value} (hn : Sound node) (path : String) (n : Nat) :
    ∀ (done m : List (String × Value)) (data : Bytes) (o : Nat) (m' : List (String × Value)) (o' : Nat), IsMap done m →
      dictLoop node path n m data o = .ok (m', o') →
      ∃ es bs, EncEntries false o path es bs ∧ IsMap (done ++ es) m' ∧ At data o (bs ++ [0x65]) ∧ o' = o + bs.length + 1 := by
  induction n with
  | zero => intro done m data o m' o' _ h; simp [dictLoop] at h
  | succ n ih =>
    intro done m data o m' o' hm h
    simp only [dictLoop] at h
    split at h
    · cases h
    · rename_i b hb
      split at h
      · rename_i he
        subst he
        simp only [Except.ok.injEq, Prod.mk.injEq] at h
        obtain ⟨rfl, rfl⟩ := h
        obtain ⟨hlt, -⟩ := List.getElem?_eq_some_iff.mp hb
        exact ⟨[], [], .nil, by simpa using hm, at_cons.mpr ⟨hb, at_nil.mpr (by omega)⟩, rfl⟩
      · rcases h0 : parseUtf8String path data o with e | ⟨k, o1⟩
        · rw [h0] at h; simp at h
        · rw [h0] at h
          simp only at h
          rcases h1 : node (path ++ "/" ++ k) data o1 with e | ⟨v, o2⟩
          · rw [h1] at h; simp at h
          · rw [h1] at h
            simp only at h
            obtain ⟨ds, d1, a0, rfl⟩ := parseUtf8String_sound h0
            obtain ⟨bs, e1, a1, rfl⟩ := hn _ _ _ _ _ h1
            obtain ⟨es, cs, e2, hm2, a2, rfl⟩ := ih (done ++ [(k, v)]) _ _ _ _ _ (isMap_insert hm k v) h
            refine ⟨(k, v) :: es, _, .cons d1 rfl e1 e2, by simpa using hm2, ?_, by simp; omega⟩
            have := at_append.mpr ⟨a0, at_append.mpr ⟨a1, a2⟩⟩
            simpa [List.append_assoc] using this

theorem map_inv {ε α β : Type} {x : Except ε α} {f : α → β} {b : β} (h : x.map f = .ok b) : ∃ a, x = .ok a ∧ b = f a := by
  cases x with
  | error e => cases h
  | ok a => simp only [Except.map, Except.ok.injEq] at h; exact ⟨a, rfl, h.symm⟩

theorem parseValueN_sound (n : Nat) : Sound (parseValueN n) := by
  induction n with
  | zero => intro path data o v o' h; simp [parseValueN] at h
  | succ n ih =>
    intro path data o v o' h
    simp only [parseValueN] at h
    split at h
    · cases h
    · rename_i b hb
      split at h
      · obtain ⟨⟨i, o1⟩, h1, h2⟩ := map_inv h
        simp only [Prod.mk.injEq] at h2
        obtain ⟨rfl, rfl⟩ := h2
        obtain ⟨⟨⟨⟩, o2⟩, e1, h1⟩ := except_bind_inv h1
        obtain ⟨⟨m, o3⟩, e2, h1⟩ := except_bind_inv h1
        obtain ⟨⟨⟨⟩, o4⟩, e3, h1⟩ := except_bind_inv h1
        simp only [Except.ok.injEq, Prod.mk.injEq] at h1
        obtain ⟨rfl, rfl⟩ := h1
        obtain ⟨c1, rfl⟩ := expectByte_iff.mp e1
        obtain ⟨ds, hd, hat, rfl⟩ := parseUsize_sound e2
        obtain ⟨c3, rfl⟩ := expectByte_iff.mp e3
        obtain ⟨hlt, -⟩ := List.getElem?_eq_some_iff.mp c3
        have he : o + (0x69 :: (ds ++ [0x65])).length = o + 1 + ds.length + 1 := by simp; omega
        refine ⟨0x69 :: (ds ++ [0x65]), ?_, at_cons.mpr ⟨c1, at_append.mpr ⟨hat, at_cons.mpr ⟨c3, at_nil.mpr (by omega)⟩⟩⟩, he.symm⟩
        rw [← he]
        exact .integer hd
      · split at h
        · obtain ⟨⟨l, o1⟩, h1, h2⟩ := map_inv h
          simp only [Prod.mk.injEq] at h2
          obtain ⟨rfl, rfl⟩ := h2
          obtain ⟨⟨⟨⟩, o2⟩, e1, h1⟩ := except_bind_inv h1
          obtain ⟨c1, rfl⟩ := expectByte_iff.mp e1
          obtain ⟨bs, e2, a2, rfl⟩ := listLoop_sound ih _ _ _ _ _ _ _ h1
          have he : o + (0x6c :: (bs ++ [0x65])).length = o + 1 + bs.length + 1 := by simp; omega
          refine ⟨0x6c :: (bs ++ [0x65]), ?_, at_cons.mpr ⟨c1, a2⟩, he.symm⟩
          rw [← he]
          exact .list e2
        · split at h
          · obtain ⟨⟨l, o1⟩, h1, h2⟩ := map_inv h
            simp only [Prod.mk.injEq] at h2
            obtain ⟨rfl, rfl⟩ := h2
            obtain ⟨⟨⟨⟩, o2⟩, e1, h1⟩ := except_bind_inv h1
            obtain ⟨c1, rfl⟩ := expectByte_iff.mp e1
            obtain ⟨es, bs, e2, hm, a2, rfl⟩ := dictLoop_sound ih _ _ [] [] _ _ _ _ isMap_nil h1
            have he : o + (0x64 :: (bs ++ [0x65])).length = o + 1 + bs.length + 1 := by simp; omega
            refine ⟨0x64 :: (bs ++ [0x65]), ?_, at_cons.mpr ⟨c1, a2⟩, he.symm⟩
            rw [← he]
            exact .dict e2 hm fun hc => by cases hc
          · split at h
            · obtain ⟨⟨l, o1⟩, h1, h2⟩ := map_inv h
              simp only [Prod.mk.injEq] at h2
              obtain ⟨rfl, rfl⟩ := h2
              obtain ⟨ds, hd, hat, rfl⟩ := parseByteString_sound h1
              exact ⟨_, .bytes hd, hat, rfl⟩
            · cases h

/-! ### Completeness -/

/-- Encodings below a length are parsed. -/
def Complete (s : Bool) (n : Nat) (node : String → P Value) : Prop := ∀ path data o v bs, Enc s o path v bs →
  bs.length < n → At data o bs → data.length < 2 ^ 64 → node path data o = .ok (v, o + bs.length)

theorem listLoop_complete {s : Bool} {n : Nat} {node : String → P Value} (hn : Complete s n node) (path : String)
    {data : Bytes} (hl : data.length < 2 ^ 64) (fuel : Nat) :
    ∀ (i o : Nat) (vs : List Value) (bs : Bytes), EncItems s o path i vs bs → bs.length < n → bs.length < fuel →
      At data o (bs ++ [0x65]) → listLoop node path fuel i data o = .ok (vs, o + bs.length + 1) := by
  induction fuel with
  | zero => intro i o vs bs _ _ h; omega
  | succ fuel ih =>
    intro i o vs bs h hb hf hat
    cases h with
    | nil =>
      have := (at_cons.mp hat).1
      simp [listLoop, this]
    | @cons _ _ _ v vs b bs hv hvs =>
      rw [List.append_assoc] at hat
      obtain ⟨a1, a2⟩ := at_append.mp hat
      obtain ⟨c, rest, rfl, hc⟩ := enc_head hv
      have hc1 := (at_cons.mp a1).1
      simp only [List.length_append, List.length_cons] at hb hf
      have e1 := hn _ data o v _ hv (by simp; omega) a1 hl
      have e2 := ih _ _ vs bs hvs (by omega) (by omega) a2
      simp only [listLoop, hc1, if_neg hc, e1, e2]
      congr 2
      simp
      omega

theorem dictLoop_complete {s : Bool} {n : Nat} {node : String → P Value} (hn : Complete s n node) (path : String)
    {data : Bytes} (hl : data.length < 2 ^ 64) (fuel : Nat) :
    ∀ (o : Nat) (done m es m' : List (String × Value)) (bs : Bytes), EncEntries s o path es bs → IsMap done m →
      IsMap (done ++ es) m' → bs.length < n → bs.length < fuel → At data o (bs ++ [0x65]) →
      dictLoop node path fuel m data o = .ok (m', o + bs.length + 1) := by
  induction fuel with
  | zero => intro o done m es m' bs _ _ _ _ h; omega
  | succ fuel ih =>
    intro o done m es m' bs h hm hm' hb hf hat
    cases h with
    | nil =>
      have := (at_cons.mp hat).1
      have hu : m = m' := isMap_unique hm (by simpa using hm')
      simp [dictLoop, this, hu]
    | @cons _ _ k v es ds kb b bs hd hkb hv hes =>
      rw [List.append_assoc, List.append_assoc] at hat
      obtain ⟨a0, a1⟩ := at_append.mp hat
      obtain ⟨a1, a2⟩ := at_append.mp a1
      subst hkb
      have hc1 : ∃ c, data[o]? = some c ∧ c ≠ 0x65 := by
        obtain ⟨h1, h2, -⟩ := hd
        cases ds with
        | nil => exact absurd rfl h1
        | cons d ds =>
          refine ⟨d, (at_cons.mp a0).1, ?_⟩
          rintro rfl
          have := (h2 _ List.mem_cons_self).2
          exact absurd this (by decide)
      obtain ⟨c, hc1, hc⟩ := hc1
      have hpos : 0 < ds.length := List.length_pos_iff.mpr hd.1
      simp only [List.length_append, List.length_cons] at hb hf
      have e0 := parseUtf8String_complete path hd a0 hl
      have e1 := hn _ data _ v _ hv (by omega) a1 hl
      have e2 := ih _ (done ++ [(k, v)]) (mapInsert k v m) es m' bs hes (isMap_insert hm k v)
        (by simpa using hm') (by omega) (by omega) a2
      simp only [dictLoop, hc1, if_neg hc, e0, e1, e2]
      congr 2
      simp
      omega

theorem parseValueN_complete (s : Bool) (n : Nat) : Complete s n (parseValueN n) := by
  induction n with
  | zero => intro path data o v bs _ h; omega
  | succ n ih =>
    intro path data o v bs h hb hat hl
    cases h with
    | @bytes _ _ bs ds hd =>
      have e := parseByteString_complete path hd hat hl
      obtain ⟨h1, h2, -⟩ := hd
      cases ds with
      | nil => exact absurd rfl h1
      | cons d ds =>
        have hc := (at_cons.mp hat).1
        have hdig := h2 d List.mem_cons_self
        have n1 : d ≠ 0x69 := by rintro rfl; exact absurd hdig.2 (by decide)
        have n2 : d ≠ 0x6c := by rintro rfl; exact absurd hdig.2 (by decide)
        have n3 : d ≠ 0x64 := by rintro rfl; exact absurd hdig.2 (by decide)
        simp only [parseValueN, hc, if_neg n1, if_neg n2, if_neg n3, (isDigit_iff d).mpr hdig, if_true, e, Except.map]
    | @integer _ _ m ds hd =>
      obtain ⟨c1, a1⟩ := at_cons.mp hat
      obtain ⟨a1, a2⟩ := at_append.mp a1
      have c2 := (at_cons.mp a2).1
      have e1 := (expectByte_iff (path := path)).mpr ⟨c1, rfl⟩
      have e2 := parseUsize_complete path hd a1 (by rw [c2]; intro b hb; simp at hb; subst hb; rfl)
      have e3 := (expectByte_iff (path := path)).mpr ⟨c2, rfl⟩
      have he : o + (0x69 :: (ds ++ [0x65])).length = o + 1 + ds.length + 1 := by simp; omega
      simp only [parseValueN, c1, if_true, parseInteger, e1, e2, e3, bind, Except.bind, Except.map, he]
    | @list _ _ items bs hd =>
      obtain ⟨c1, a1⟩ := at_cons.mp hat
      have e1 := (expectByte_iff (path := path)).mpr ⟨c1, rfl⟩
      have hle := (at_eq_slice hat).2
      simp only [List.length_append, List.length_cons, List.length_nil] at hb hle
      have e2 := listLoop_complete ih path hl (data.length + 1) 0 (o + 1) items bs hd (by omega) (by omega) a1
      have he : o + (0x6c :: (bs ++ [0x65])).length = o + 1 + bs.length + 1 := by simp; omega
      simp only [parseValueN, c1, show ((0x6c : UInt8) = 0x69) = False by decide, if_false, if_true, parseList, e1, e2, bind,
        Except.bind, Except.map, he]
    | @dict _ _ es m bs hd hm hs =>
      obtain ⟨c1, a1⟩ := at_cons.mp hat
      have e1 := (expectByte_iff (path := path)).mpr ⟨c1, rfl⟩
      have hle := (at_eq_slice hat).2
      simp only [List.length_append, List.length_cons, List.length_nil] at hb hle
      have e2 := dictLoop_complete ih path hl (data.length + 1) (o + 1) [] [] es m bs hd isMap_nil (by simpa using hm)
        (by omega) (by omega) a1
      have he : o + (0x64 :: (bs ++ [0x65])).length = o + 1 + bs.length + 1 := by simp; omega
      simp only [parseValueN, c1, show ((0x64 : UInt8) = 0x69) = False by decide, show ((0x64 : UInt8) = 0x6c) = False by decide,
        if_false, if_true, parseDict, e1, e2, bind, Except.bind, Except.map, he]

/-! ### No loop is cut off -/

theorem parseUsize_nofuel (path : String) (data : Bytes) (o : Nat) : parseUsize path data o ≠ .error .fuel := by
  simp only [parseUsize]; split
  · simp
  · split <;> simp

theorem expectByte_nofuel (path : String) (b : UInt8) (data : Bytes) (o : Nat) : expectByte path b data o ≠ .error .fuel := by
  simp only [expectByte]; split
  · simp
  · split <;> simp

theorem bind_nofuel {α β : Type} {x : Except PErr α} {f : α → Except PErr β} (h1 : x ≠ .error .fuel)
    (h2 : ∀ a, x = .ok a → f a ≠ .error .fuel) : (x >>= f) ≠ .error .fuel := by
  cases x with
  | error e => intro h; apply h1; simp only [bind, Except.bind, Except.error.injEq] at h; rw [h]
  | ok a => exact h2 a rfl

theorem parseByteString_nofuel (path : String) (data : Bytes) (o : Nat) : parseByteString path data o ≠ .error .fuel := by
  refine bind_nofuel (parseUsize_nofuel _ _ _) fun ⟨n, o1⟩ _ => bind_nofuel (expectByte_nofuel _ _ _ _) fun ⟨_, o2⟩ _ => ?_
  simp only
  split
  · simp
  · split <;> simp

theorem parseUtf8String_nofuel (path : String) (data : Bytes) (o : Nat) : parseUtf8String path data o ≠ .error .fuel := by
  refine bind_nofuel (parseByteString_nofuel _ _ _) fun ⟨n, o1⟩ _ => ?_
  simp only
  split <;> simp

theorem enc_pos {s : Bool} {o : Nat} {path : String} {v : Value} {bs : Bytes} (h : Enc s o path v bs) : 0 < bs.length := by
  obtain ⟨b, r, rfl, -⟩ := enc_head h
  simp

theorem listLoop_nofuel {node : String → P Value} (hs : Sound node) (n : Nat) (path : String) (data : Bytes)
    (hn : ∀ path o, data.length - o < n → node path data o ≠ .error .fuel) (fuel : Nat) :
    ∀ i o, data.length - o < n → data.length - o < fuel → listLoop node path fuel i data o ≠ .error .fuel := by
  induction fuel with
  | zero => intro i o _ h; omega
  | succ fuel ih =>
    intro i o h1 h2
    simp only [listLoop]
    split
    · simp
    · rename_i b hb
      split
      · simp
      · rcases h3 : node (path ++ "/" ++ toString i) data o with e | ⟨v, o1⟩
        · have := hn (path ++ "/" ++ toString i) o h1
          rw [h3] at this
          simpa using this
        · obtain ⟨bs, e1, a1, rfl⟩ := hs _ _ _ _ _ h3
          have hpos := enc_pos e1
          have hle := (at_eq_slice a1).2
          have := ih (i + 1) (o + bs.length) (by omega) (by omega)
          simp only
          rcases h4 : listLoop node path fuel (i + 1) data (o + bs.length) with e | ⟨vs, o2⟩
          · rw [h4] at this; simpa using this
          · simp

theorem dictLoop_nofuel {node : String → P Value} (hs : Sound node) (n : Nat) (path : String) (data : Bytes)
    (hn : ∀ path o, data.length - o < n → node path data o ≠ .error .fuel) (fuel : Nat) :
    ∀ m o, data.length - o < n → data.length - o < fuel → dictLoop node path fuel m data o ≠ .error .fuel := by
  induction fuel with
  | zero => intro i o _ h; omega
  | succ fuel ih =>
    intro m o h1 h2
    simp only [dictLoop]
    split
    · simp
    · rename_i b hb
      split
      · simp
      · rcases h0 : parseUtf8String path data o with e | ⟨k, o0⟩
        · have := parseUtf8String_nofuel path data o
          rw [h0] at this
          simpa using this
        · obtain ⟨ds, d1, a0, rfl⟩ := parseUtf8String_sound h0
          have hle0 := (at_eq_slice a0).2
          simp only
          rcases h3 : node (path ++ "/" ++ k) data (o + (ds ++ 0x3a :: utf8Encode k).length) with e | ⟨v, o1⟩
          · have := hn (path ++ "/" ++ k) (o + (ds ++ 0x3a :: utf8Encode k).length) (by omega)
            rw [h3] at this
            simpa using this
          · obtain ⟨bs, e1, a1, rfl⟩ := hs _ _ _ _ _ h3
            have hpos := enc_pos e1
            have hle := (at_eq_slice a1).2
            exact ih _ _ (by omega) (by omega)

theorem map_nofuel {α β : Type} {x : Except PErr α} {f : α → β} (h : x ≠ .error .fuel) : x.map f ≠ .error .fuel := by
  cases x with
  | error e => simpa [Except.map] using h
  | ok a => simp [Except.map]

theorem parseValueN_nofuel (data : Bytes) (n : Nat) :
    ∀ path o, data.length - o < n → parseValueN n path data o ≠ .error .fuel := by
  induction n with
  | zero => intro path o h; omega
  | succ n ih =>
    intro path o h
    simp only [parseValueN]
    split
    · simp
    · rename_i b hb
      obtain ⟨hlt, -⟩ := List.getElem?_eq_some_iff.mp hb
      split
      · refine map_nofuel (bind_nofuel (expectByte_nofuel _ _ _ _) fun _ _ => bind_nofuel (parseUsize_nofuel _ _ _) fun _ _ =>
          bind_nofuel (expectByte_nofuel _ _ _ _) fun _ _ => by simp)
      · split
        · refine map_nofuel (bind_nofuel (expectByte_nofuel _ _ _ _) fun ⟨_, o1⟩ h1 => ?_)
          obtain ⟨-, rfl⟩ := expectByte_iff.mp h1
          exact listLoop_nofuel (parseValueN_sound n) n path data ih _ _ _ (by omega) (by omega)
        · split
          · refine map_nofuel (bind_nofuel (expectByte_nofuel _ _ _ _) fun ⟨_, o1⟩ h1 => ?_)
            obtain ⟨-, rfl⟩ := expectByte_iff.mp h1
            exact dictLoop_nofuel (parseValueN_sound n) n path data ih _ _ _ (by omega) (by omega)
          · split
            · exact map_nofuel (parseByteString_nofuel _ _ _)
            · simp

/-! ### Parts -/

/-- The part is encoded where it says, within the bounds. -/
def PartAt (s : Bool) (data : Bytes) (c : Value) (lo hi : Nat) : Prop := ∃ cs, Enc s c.loc.start c.loc.path c cs ∧
  At data c.loc.start cs ∧ c.loc.stop = c.loc.start + cs.length ∧ lo ≤ c.loc.start ∧ c.loc.stop ≤ hi

theorem PartAt.mono {s : Bool} {data : Bytes} {c : Value} {lo hi lo' hi' : Nat} (h : PartAt s data c lo hi) (h1 : lo' ≤ lo)
    (h2 : hi ≤ hi') : PartAt s data c lo' hi' := by
  obtain ⟨cs, a, b, d, e, f⟩ := h
  exact ⟨cs, a, b, d, by omega, by omega⟩

theorem partAt_self {s : Bool} {data : Bytes} {o : Nat} {path : String} {v : Value} {bs : Bytes} (h : Enc s o path v bs)
    (hat : At data o bs) : PartAt s data v o (o + bs.length) := by
  have hl := enc_loc h
  exact ⟨bs, by rw [hl]; exact h, by rw [hl]; exact hat, by rw [hl], by rw [hl], by rw [hl]⟩

theorem enc_within {s : Bool} {data : Bytes} {o : Nat} {path : String} {v : Value} {bs : Bytes} (h : Enc s o path v bs) :
    At data o bs → ∀ c, Within c v → PartAt s data c o (o + bs.length) := by
  refine Enc.rec (motive_1 := fun o _ v bs _ => At data o bs → ∀ c, Within c v → PartAt s data c o (o + bs.length))
    (motive_2 := fun o _ _ vs bs _ => At data o bs → ∀ c, ∀ v ∈ vs, Within c v → PartAt s data c o (o + bs.length))
    (motive_3 := fun o _ es bs _ => At data o bs → ∀ c k v, (k, v) ∈ es → Within c v → PartAt s data c o (o + bs.length))
    ?_ ?_ ?_ ?_ ?_ ?_ ?_ ?_ h
  · intro _ _ _ _ hd hat c hc
    cases hc
    exact partAt_self (.bytes hd) hat
  · intro _ _ _ _ hd hat c hc
    cases hc
    exact partAt_self (.integer hd) hat
  · intro _ _ _ _ hd ih hat c hc
    cases hc with
    | here => exact partAt_self (.list hd) hat
    | list hi h => exact (ih (at_append.mp (at_cons.mp hat).2).1 c _ hi h).mono (by omega) (by simp; omega)
  · intro _ _ _ _ _ hd hm hs ih hat c hc
    cases hc with
    | here => exact partAt_self (.dict hd hm hs) hat
    | dict hi h => exact (ih (at_append.mp (at_cons.mp hat).2).1 c _ _ (isMap_mem hm hi) h).mono (by omega) (by simp; omega)
  · intro _ _ _ _ c v hv
    simp at hv
  · intro _ _ _ _ _ _ _ h1 h2 ih1 ih2 hat c v hv hc
    obtain ⟨a1, a2⟩ := at_append.mp hat
    rcases List.mem_cons.mp hv with rfl | hv
    · exact (ih1 a1 c hc).mono (by omega) (by simp)
    · exact (ih2 a2 c v hv hc).mono (by omega) (by simp; omega)
  · intro _ _ _ c k v hv
    simp at hv
  · intro _ _ _ _ _ _ _ _ _ hd hk h1 h2 ih1 ih2 hat c k v hv hc
    obtain ⟨a0, a1⟩ := at_append.mp hat
    obtain ⟨a1, a2⟩ := at_append.mp a1
    rcases List.mem_cons.mp hv with hv | hv
    · simp only [Prod.mk.injEq] at hv
      obtain ⟨rfl, rfl⟩ := hv
      exact (ih1 a1 c hc).mono (by omega) (by simp; omega)
    · exact (ih2 a2 c k v hv hc).mono (by omega) (by simp; omega)

end Ngfs.Bencode
