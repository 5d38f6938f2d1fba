import Verif.Spec.Metainfo
import Verif.Lemmas.Bencode
import Verif.Lemmas.Slice

namespace Ngfs.Torrent
open Spec Spec.Torrent Bencode

theorem bind_ok {ε α β : Type} {x : Except ε α} {f : α → Except ε β} {b : β} :
    (x >>= f) = .ok b ↔ ∃ a, x = .ok a ∧ f a = .ok b := by
  cases x with
  | error e => simp [bind, Except.bind]
  | ok a => simp [bind, Except.bind]

theorem mapM_ok {ε α β : Type} {f : α → Except ε β} : ∀ {l : List α} {r : List β},
    l.mapM f = .ok r ↔ List.Forall₂ (fun a b => f a = .ok b) l r
  | [], r => by
    simp only [List.mapM_nil, pure, Except.pure, Except.ok.injEq]
    constructor
    · rintro rfl; exact .nil
    · intro h; cases h; rfl
  | a :: l, r => by
    rw [List.mapM_cons, bind_ok]
    constructor
    · rintro ⟨b, h1, h2⟩
      obtain ⟨bs, h3, h4⟩ := bind_ok.mp h2
      injection h4 with h4
      subst h4
      exact .cons h1 (mapM_ok.mp h3)
    · intro h
      cases h with
      | cons h1 h2 => exact ⟨_, h1, bind_ok.mpr ⟨_, mapM_ok.mpr h2, rfl⟩⟩

theorem lookup_plain (k : String) : ∀ es : List (String × Value), (plainEntries es).lookup k = (es.lookup k).map plain
  | [] => rfl
  | (k', v) :: es => by
    rw [plainEntries, List.lookup_cons, List.lookup_cons]
    split
    · rfl
    · exact lookup_plain k es

theorem forall₂_plain {γ : Type} {R : Plain → γ → Prop} : ∀ {items : List Value} {r : List γ},
    List.Forall₂ R (plainItems items) r ↔ List.Forall₂ (fun v c => R (plain v) c) items r
  | [], r => by
    rw [plainItems]
    constructor <;> (intro h; cases h; exact .nil)
  | v :: vs, r => by
    rw [plainItems]
    constructor
    · intro h
      cases h with
      | cons h1 h2 => exact .cons h1 (forall₂_plain.mp h2)
    · intro h
      cases h with
      | cons h1 h2 => exact .cons h1 (forall₂_plain.mpr h2)

theorem forall₂_iff {α β : Type} {R S : α → β → Prop} (h : ∀ a b, R a b ↔ S a b) {l : List α} {r : List β} :
    List.Forall₂ R l r ↔ List.Forall₂ S l r := by
  have : R = S := by funext a b; exact propext (h a b)
  rw [this]

theorem asByteString_iff {v : Value} {d : Bytes} : asByteString v = .ok d ↔ plain v = .bytes d := by
  cases v <;> simp [asByteString, plain]

theorem asInteger_iff {v : Value} {n : Nat} : asInteger v = .ok n ↔ plain v = .integer n := by
  cases v <;> simp [asInteger, plain]

theorem asString_iff {v : Value} {s : String} : asString v = .ok s ↔ IsText (plain v) s := by
  unfold asString IsText
  cases h : asByteString v with
  | error e =>
    simp only [reduceCtorEq, false_iff]
    intro h'
    rw [asByteString_iff.mpr h'] at h
    cases h
  | ok d =>
    rw [asByteString_iff.mp h]
    simp only [Plain.bytes.injEq]
    constructor
    · intro h
      split at h
      · rename_i s' hs
        injection h with h
        subst h
        exact (utf8_decode_some hs).symm
      · cases h
    · rintro rfl
      rw [utf8_round_trip]

theorem asList_iff {v : Value} {items : List Value} : asList v = .ok items ↔ ∃ loc, v = .list loc items := by
  cases v <;> simp [asList]

theorem asDictionary_iff {v : Value} {loc : Loc} {es : List (String × Value)} : asDictionary v = .ok (loc, es) ↔ v = .dict loc es := by
  cases v <;> simp [asDictionary]

theorem getRequired_iff {es : List (String × Value)} {k : String} {v : Value} : getRequired es k = .ok v ↔ es.lookup k = some v := by
  unfold getRequired
  split <;> rename_i h <;> simp [h]

theorem plain_list {v : Value} {ps : List Plain} : plain v = .list ps ↔ ∃ loc items, v = .list loc items ∧ ps = plainItems items := by
  cases v <;> simp [plain, eq_comm]

theorem plain_dict {v : Value} {ps : List (String × Plain)} :
    plain v = .dict ps ↔ ∃ loc es, v = .dict loc es ∧ ps = plainEntries es := by
  cases v <;> simp [plain, eq_comm]

/-- `asList` followed by reading each item. -/
theorem listOf_iff {γ : Type} {f : Value → Except Err γ} {R : Plain → γ → Prop} (h : ∀ v c, f v = .ok c ↔ R (plain v) c) {v : Value} {cs : List γ} :
    (asList v >>= fun items => items.mapM f) = .ok cs ↔ ∃ ps, plain v = .list ps ∧ List.Forall₂ R ps cs := by
  rw [bind_ok]
  constructor
  · rintro ⟨items, h1, h2⟩
    obtain ⟨loc, rfl⟩ := asList_iff.mp h1
    exact ⟨_, rfl, forall₂_plain.mpr ((forall₂_iff h).mp (mapM_ok.mp h2))⟩
  · rintro ⟨ps, h1, h2⟩
    obtain ⟨loc, items, rfl, rfl⟩ := plain_list.mp h1
    exact ⟨items, rfl, mapM_ok.mpr ((forall₂_iff h).mpr (forall₂_plain.mp h2))⟩

theorem texts_iff {v : Value} {ss : List String} : (asList v >>= fun items => items.mapM asString) = .ok ss ↔ IsTexts (plain v) ss :=
  listOf_iff fun _ _ => asString_iff

/-! ### Paths -/

theorem joined_cons (c : String) (cs : List String) : joined (c :: cs) = c ++ String.join (cs.map fun d => "/" ++ d) := by
  induction cs generalizing c with
  | nil => simp [joined]
  | cons d cs ih =>
    rw [joined, ih d, List.map_cons, String.join_cons]
    simp only [String.append_assoc]

theorem joinLoop (cs : List String) : ∀ (acc : String), acc ≠ "" →
    cs.foldl (fun path c => (if path.isEmpty then path else path ++ "/") ++ c) acc = acc ++ String.join (cs.map fun d => "/" ++ d) := by
  induction cs with
  | nil => intro acc _; simp
  | cons c cs ih =>
    intro acc h
    rw [List.foldl_cons, if_neg (by rw [String.isEmpty_iff]; exact h), ih _ (by
      intro h'
      have := congrArg String.length h'
      simp only [String.length_append] at this
      have h2 : "/".length = 1 := by decide
      rw [h2] at this
      simp at this), List.map_cons, String.join_cons]
    simp only [String.append_assoc]

theorem joinPath_eq (cs : List String) : joinPath cs = joined (cs.dropWhile (· = "")) := by
  unfold joinPath
  induction cs with
  | nil => rfl
  | cons c cs ih =>
    rw [List.foldl_cons, if_pos (by rfl), List.dropWhile_cons]
    by_cases h : c = ""
    · subst h
      simpa using ih
    · rw [if_neg (by simpa using h), joined_cons]
      have := joinLoop cs c h
      simpa using this

/-! ### Files -/

theorem file_iff {v : Value} {f : File} : parseFile v = .ok f ↔ IsFile (plain v) f := by
  unfold parseFile IsFile
  simp only [bind_ok, Prod.exists, asDictionary_iff, getRequired_iff, asInteger_iff]
  constructor
  · rintro ⟨loc, es, rfl, lv, h1, pv, h2, n, h3, items, h4, cs, h5, h6⟩
    injection h6 with h6
    subst h6
    refine ⟨_, plain pv, cs, rfl, ?_, ?_, texts_iff.mp (bind_ok.mpr ⟨_, h4, h5⟩), joinPath_eq cs⟩
    · rw [lookup_plain, h1]; simp [h3]
    · rw [lookup_plain, h2]; rfl
  · rintro ⟨entries, path, cs, h1, h2, h3, h4, h5⟩
    obtain ⟨loc, es, rfl, rfl⟩ := plain_dict.mp h1
    rw [lookup_plain, Option.map_eq_some_iff] at h2 h3
    obtain ⟨lv, h2, h2'⟩ := h2
    obtain ⟨pv, h3, rfl⟩ := h3
    obtain ⟨items, h6, h7⟩ := bind_ok.mp (texts_iff.mpr h4)
    refine ⟨loc, es, rfl, lv, h2, pv, h3, f.length, h2', items, h6, cs, h7, ?_⟩
    rw [joinPath_eq, ← h5]
    rfl

/-! ### Hashes and lengths -/

theorem splitPieces_spec (data : Bytes) : data.length % 20 = 0 → (splitPieces data).flatten = data ∧ ∀ h ∈ splitPieces data, h.length = 20 := by
  induction data using splitPieces.induct with
  | case1 data h ih =>
    intro hm
    rw [splitPieces, if_pos h]
    obtain ⟨h1, h2⟩ := ih (by rw [List.length_drop]; omega)
    refine ⟨by rw [List.flatten_cons, h1, List.take_append_drop], ?_⟩
    intro x hx
    rcases List.mem_cons.mp hx with rfl | hx
    · rw [List.length_take]; omega
    · exact h2 x hx
  | case2 data h =>
    intro hm
    rw [splitPieces, if_neg h]
    have : data.length = 0 := by omega
    exact ⟨by rw [List.length_eq_zero_iff.mp this]; rfl, by simp⟩

theorem splitPieces_flatten : ∀ (ps : List Bytes), (∀ h ∈ ps, h.length = 20) → splitPieces ps.flatten = ps
  | [], _ => by rw [splitPieces]; rfl
  | p :: ps, h => by
    have hp := h p (by simp)
    rw [List.flatten_cons, splitPieces, if_pos (by rw [List.length_append]; omega), List.take_left' hp, List.drop_left' hp,
      splitPieces_flatten ps (fun x hx => h x (by simp [hx]))]

theorem flatten_length : ∀ (ps : List Bytes), (∀ h ∈ ps, h.length = 20) → ps.flatten.length = 20 * ps.length
  | [], _ => rfl
  | p :: ps, h => by
    have := flatten_length ps (fun x hx => h x (by simp [hx]))
    rw [List.flatten_cons, List.length_append, this, h p (by simp), List.length_cons]
    omega

theorem sumLengths_eq : ∀ (fs : List File) (total : Nat), sumLengths total fs =
    if fs ≠ [] → total + (fs.map File.length).sum < 2 ^ 64 then .ok (total + (fs.map File.length).sum) else .error .panic
  | [], total => by simp [sumLengths]
  | f :: fs, total => by
    rw [sumLengths, addU]
    by_cases h : total + f.length < 2 ^ 64
    · rw [if_pos h, except_ok_bind, sumLengths_eq fs]
      have e : total + ((f :: fs).map File.length).sum = total + f.length + (fs.map File.length).sum := by
        simp only [List.map_cons, List.sum_cons]; omega
      rw [e]
      by_cases hf : fs = []
      · subst hf; simpa using h
      · simp [hf]
    · rw [if_neg h, if_neg (by
        intro h'
        have := h' (by simp)
        simp only [List.map_cons, List.sum_cons] at this
        omega)]
      rfl

theorem parseData_iff {data : Bytes} {v : Value} : parseData data = .ok v ↔ parse data = .ok v := by
  unfold parseData
  split <;> rename_i h <;> simp [h]

/-- The result of `fromBytes`. -/
theorem fromBytes_iff {sha1 : Bytes → Bytes} {data : Bytes} {t : Torrent} :
    fromBytes sha1 data = .ok t ↔ ∃ v loc info, parse data = .ok v ∧ Within (.dict loc info) v ∧ Describes (plain v) (plainEntries info) t ∧
      (∃ vloc es, v = .dict vloc es ∧ es.lookup "info" = some (.dict loc info)) ∧
      t.infoHash = sha1 (slice data loc.start loc.stop) ∧ t.totalLength ≤ t.pieceLength * t.pieces.length ∧ t.pieceLength * t.pieces.length < 2 ^ 64 := by
  unfold fromBytes
  simp only [bind_ok, Prod.exists, asDictionary_iff, getRequired_iff, asInteger_iff, asByteString_iff, parseData_iff]
  constructor
  · rintro ⟨v, h0, vloc, root, rfl, iv, h1, loc, info, rfl, nv, h2, name, h3, av, h4, groups, h5, fv, h6, files, h7, lv, h8, pl, h9, pv, h10, hashes, h11, h⟩
    split at h
    · cases h
    · rename_i hm
      have hm : hashes.length % 20 = 0 := by simpa using hm
      obtain ⟨total, h12, h⟩ := bind_ok.mp h
      obtain ⟨cap, h13, h⟩ := bind_ok.mp h
      split at h
      · cases h
      · rename_i hle
        injection h with h
        subst h
        obtain ⟨k1, k2⟩ := splitPieces_spec hashes hm
        rw [sumLengths_eq] at h12
        rw [mulU] at h13
        split at h12
        · injection h12 with h12
          split at h13
          · injection h13 with h13
            refine ⟨_, loc, info, h0, .dict (lookup_mem h1) .here, ?_, ⟨_, _, rfl, h1⟩, rfl, ?_, ?_⟩
            · obtain ⟨items, g1, g2⟩ := (listOf_iff (R := IsTexts) (f := fun g => asList g >>= fun members => members.mapM asString)
                fun _ _ => texts_iff).mp h5
              obtain ⟨entries, g3, g4⟩ := (listOf_iff (R := IsFile) fun _ _ => file_iff).mp h7
              refine ⟨plainEntries root, plain nv, plain av, items, plain fv, entries, hashes, rfl, ?_, ?_, ?_, ?_, g1, g2, ?_, g3, g4, ?_, ?_, k1.symm, k2, ?_⟩
              · rw [lookup_plain, h1]; rfl
              · rw [lookup_plain, h2]; rfl
              · exact asString_iff.mp h3
              · rw [lookup_plain, h4]; rfl
              · rw [lookup_plain, h6]; rfl
              · rw [lookup_plain, h8]; simp [h9]
              · rw [lookup_plain, h10]; simp [h11]
              · simp only; omega
            · simp only; omega
            · show pl * _ < _
              assumption
          · cases h13
        · cases h12
  · rintro ⟨v, loc, info, h0, -, ⟨root, name, groups, items, files, entries, hashes, hv, d1, d2, d3, d4, d5, d6, d7, d8, d9, d10, d11, d12, d13, d14⟩,
      ⟨vloc, es, rfl, hi⟩, hh, hle, hlt⟩
    obtain rfl : root = plainEntries es := by
      rw [plain] at hv; injection hv with hv; exact hv.symm
    rw [lookup_plain, Option.map_eq_some_iff] at d2 d4 d7 d10 d11
    obtain ⟨nv, e2, rfl⟩ := d2
    obtain ⟨av, e4, rfl⟩ := d4
    obtain ⟨fv, e7, rfl⟩ := d7
    obtain ⟨lv, e10, e10'⟩ := d10
    obtain ⟨pv, e11, e11'⟩ := d11
    refine ⟨_, h0, vloc, es, rfl, _, hi, loc, info, rfl, nv, e2, t.name, asString_iff.mpr d3, av, e4, t.trackerGroups,
      (listOf_iff (R := IsTexts) (f := fun g => asList g >>= fun members => members.mapM asString) fun _ _ => texts_iff).mpr ⟨items, d5, d6⟩,
      fv, e7, t.files, (listOf_iff (R := IsFile) fun _ _ => file_iff).mpr ⟨entries, d8, d9⟩, lv, e10, t.pieceLength, e10', pv, e11, hashes, e11', ?_⟩
    rw [if_neg (by rw [d12, flatten_length _ d13]; omega)]
    rw [d12, splitPieces_flatten _ d13, sumLengths_eq, if_pos (by intro _; omega), except_ok_bind, mulU, if_pos hlt, except_ok_bind,
      if_neg (by omega), Nat.zero_add, ← d14, ← hh]
    rfl

/-! ### Panics -/

theorem bind_panic {α β : Type} {x : Except Err α} {f : α → Except Err β} :
    (x >>= f) = .error .panic ↔ x = .error .panic ∨ ∃ a, x = .ok a ∧ f a = .error .panic := by
  cases x with
  | error e => simp [bind, Except.bind]
  | ok a => simp [bind, Except.bind]

theorem mapM_panic {α β : Type} {f : α → Except Err β} (h : ∀ a, f a ≠ .error .panic) : ∀ {l : List α}, l.mapM f ≠ .error .panic
  | [] => by simp [pure, Except.pure]
  | a :: l => by
    rw [List.mapM_cons]
    intro h'
    rcases bind_panic.mp h' with h1 | ⟨b, -, h1⟩
    · exact h a h1
    · rcases bind_panic.mp h1 with h2 | ⟨bs, -, h2⟩
      · exact mapM_panic h h2
      · cases h2

theorem asByteString_panic {v : Value} : asByteString v ≠ .error .panic := by cases v <;> simp [asByteString]
theorem asInteger_panic {v : Value} : asInteger v ≠ .error .panic := by cases v <;> simp [asInteger]
theorem asList_panic {v : Value} : asList v ≠ .error .panic := by cases v <;> simp [asList]
theorem asDictionary_panic {v : Value} : asDictionary v ≠ .error .panic := by cases v <;> simp [asDictionary]
theorem getRequired_panic {es : List (String × Value)} {k : String} : getRequired es k ≠ .error .panic := by
  unfold getRequired; split <;> simp
theorem asString_panic {v : Value} : asString v ≠ .error .panic := by
  unfold asString
  split
  · rename_i e h; intro h'; injection h' with h'; subst h'; exact asByteString_panic h
  · split <;> simp
theorem parseData_panic {data : Bytes} : parseData data ≠ .error .panic := by unfold parseData; split <;> simp
theorem parseAnnounceList_panic {v : Value} : parseAnnounceList v ≠ .error .panic := by
  unfold parseAnnounceList
  intro h
  rcases bind_panic.mp h with h | ⟨_, -, h⟩
  · exact asList_panic h
  · refine mapM_panic (fun a h => ?_) h
    rcases bind_panic.mp h with h | ⟨_, -, h⟩
    · exact asList_panic h
    · exact mapM_panic (fun _ => asString_panic) h
theorem parseFile_panic {v : Value} : parseFile v ≠ .error .panic := by
  unfold parseFile
  intro h
  simp only [bind_panic, asDictionary_panic, getRequired_panic, asInteger_panic, asList_panic, mapM_panic (fun _ => asString_panic), false_or,
    pure, Except.pure, reduceCtorEq, and_false, exists_false] at h
theorem parseFiles_panic {v : Value} : parseFiles v ≠ .error .panic := by
  unfold parseFiles
  intro h
  rcases bind_panic.mp h with h | ⟨_, -, h⟩
  · exact asList_panic h
  · exact mapM_panic (fun _ => parseFile_panic) h

/-- The only panics are overflows. -/
theorem fromBytes_panic {sha1 : Bytes → Bytes} {data : Bytes} (h : fromBytes sha1 data = .error .panic) :
    ∃ v root info entries files pl hashes, parse data = .ok v ∧ plain v = .dict root ∧ root.lookup "info" = some (.dict info) ∧
      info.lookup "files" = some (.list entries) ∧ List.Forall₂ IsFile entries files ∧ info.lookup "piece length" = some (.integer pl) ∧
      info.lookup "pieces" = some (.bytes hashes) ∧ (2 ^ 64 ≤ (files.map File.length).sum ∨ 2 ^ 64 ≤ pl * (hashes.length / 20)) := by
  unfold fromBytes at h
  simp only [bind_panic, parseData_panic, asDictionary_panic, getRequired_panic, asString_panic, parseAnnounceList_panic, parseFiles_panic, asInteger_panic, asByteString_panic, false_or,
    Prod.exists, asDictionary_iff, getRequired_iff, asInteger_iff, asByteString_iff, parseData_iff] at h
  obtain ⟨v, h0, vloc, root, rfl, iv, h1, loc, info, rfl, nv, h2, name, h3, av, h4, groups, h5, fv, h6, files, h7, lv, h8, pl, h9, pv, h10, hashes, h11, h⟩ := h
  split at h
  · cases h
  · rename_i hm
    have hm : hashes.length % 20 = 0 := by simpa using hm
    obtain ⟨entries, g3, g4⟩ := (listOf_iff (R := IsFile) fun _ _ => file_iff).mp h7
    refine ⟨_, plainEntries root, plainEntries info, entries, files, pl, hashes, h0, rfl, ?_, ?_, g4, ?_, ?_, ?_⟩
    · rw [lookup_plain, h1]; rfl
    · rw [lookup_plain, h6]; simp [g3]
    · rw [lookup_plain, h8]; simp [h9]
    · rw [lookup_plain, h10]; simp [h11]
    · rcases bind_panic.mp h with h | ⟨total, -, h⟩
      · rw [sumLengths_eq] at h
        split at h
        · cases h
        · rename_i hn; left; omega
      · rcases bind_panic.mp h with h | ⟨cap, -, h⟩
        · rw [mulU] at h
          obtain ⟨k1, k2⟩ := splitPieces_spec hashes hm
          have hl := flatten_length _ k2
          rw [k1] at hl
          have e : hashes.length / 20 = (splitPieces hashes).length := by omega
          rw [e]
          split at h
          · cases h
          · right; omega
        · split at h <;> cases h

end Ngfs.Torrent
