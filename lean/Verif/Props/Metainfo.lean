import Verif.Lemmas.Metainfo
import Verif.Props.Bencode

/-! Claims C91-C93: torrent files. -/
namespace Ngfs.Torrent
open Spec Spec.Torrent Bencode

theorem lookup_ok : ∀ {es : List (String × Plain)} {k : String} {p : Plain}, okEntries es → es.lookup k = some p → p.Ok
  | [], _, _, _, h => by cases h
  | (k', v) :: es, k, p, h, hl => by
    rw [List.lookup_cons] at hl
    obtain ⟨h1, h2⟩ := h
    split at hl
    · injection hl with hl; subst hl; exact h1
    · exact lookup_ok h2 hl

/-! ## C91: fields and info hash -/

/-- C91: a torrent file in standard form is accepted if and only if it describes a torrent whose pieces can hold its files; the torrent has the
parts described, and its hash is the hash of the encoding of the `info` dictionary. -/
theorem C91_standard (sha1 : Bytes → Bytes) (p : Plain) (rest : Bytes) (t : Torrent) (hp : p.Ok) (hl : (encode p ++ rest).length < 2 ^ 64) :
    fromBytes sha1 (encode p ++ rest) = .ok t ↔ ∃ info, Describes p info t ∧ t.infoHash = sha1 (encode (.dict info)) ∧
      t.totalLength ≤ t.pieceLength * t.pieces.length ∧ t.pieceLength * t.pieces.length < 2 ^ 64 := by
  obtain ⟨v, h1, h2, h3⟩ := C33_parses_encoding p rest hp hl
  rw [fromBytes_iff]
  constructor
  · rintro ⟨w, loc, info, g1, g2, g3, -, g4, g5, g6⟩
    rw [h1] at g1
    injection g1 with g1
    subst g1
    rw [h2] at g3
    refine ⟨plainEntries info, g3, ?_, g5, g6⟩
    rw [g4]
    exact congrArg sha1 (h3 _ g2)
  · rintro ⟨info, g1, g2, g3, g4⟩
    have g1' := g1
    obtain ⟨root, -, -, -, -, -, -, d0, d1, -⟩ := g1'
    rw [d0, plain_dict] at h2
    obtain ⟨vloc, es, rfl, rfl⟩ := h2
    rw [lookup_plain, Option.map_eq_some_iff] at d1
    obtain ⟨iv, d1, d1'⟩ := d1
    obtain ⟨loc, ies, rfl, rfl⟩ := plain_dict.mp d1'
    have hw : Within (.dict loc ies) (.dict vloc es) := .dict (lookup_mem d1) .here
    refine ⟨_, loc, ies, h1, hw, ?_, ⟨_, _, rfl, d1⟩, ?_, g3, g4⟩
    · rw [plain, ← d0]; exact g1
    · rw [g2]
      exact congrArg sha1 (h3 _ hw).symm

/-- C91: the hash is of the bytes of the `info` dictionary as they lie in the file, also if they are not in standard form. -/
theorem C91_info_hash (sha1 : Bytes → Bytes) (data : Bytes) (t : Torrent) (h : fromBytes sha1 data = .ok t) :
    ∃ v loc root iloc info a bs c, parse data = .ok v ∧ v = .dict loc root ∧ root.lookup "info" = some (.dict iloc info) ∧
      data = a ++ bs ++ c ∧ a.length = iloc.start ∧ Enc false iloc.start iloc.path (.dict iloc info) bs ∧ t.infoHash = sha1 bs ∧
      Describes (plain v) (plainEntries info) t := by
  obtain ⟨v, iloc, info, g1, g2, g3, ⟨loc, root, rfl, g4⟩, g5, -, -⟩ := fromBytes_iff.mp h
  obtain ⟨k1, k2, k3, k4⟩ := C65_parts data _ _ g1 g2
  simp only [Value.loc] at k1 k2 k3 k4
  refine ⟨_, loc, root, iloc, info, data.take iloc.start, slice data iloc.start iloc.stop, data.drop iloc.stop, g1, rfl, g4, ?_, ?_, k4, g5, g3⟩
  · rw [slice, List.append_assoc]
    conv_lhs => rw [← List.take_append_drop iloc.start data]
    congr 1
    have : data.drop iloc.stop = (data.drop iloc.start).drop (iloc.stop - iloc.start) := by rw [List.drop_drop]; congr 1; omega
    rw [this, List.take_append_drop]
  · rw [List.length_take]; omega

/-- C91: a torrent with two files, extra keys and data behind the end. -/
example : fromBytes id (utf8Encode "d8:announce1:x13:announce-listll1:u1:vel1:wee4:infod5:filesld6:lengthi3e4:pathl1:d1:feed6:lengthi0e4:pathl1:geee4:name2:nm12:piece lengthi4e6:pieces20:aaaaaaaaaabbbbbbbbbbee tail") =
    .ok ⟨utf8Encode "d5:filesld6:lengthi3e4:pathl1:d1:feed6:lengthi0e4:pathl1:geee4:name2:nm12:piece lengthi4e6:pieces20:aaaaaaaaaabbbbbbbbbbe",
      "nm", [["u", "v"], ["w"]], [⟨3, "d/f"⟩, ⟨0, "g"⟩], 4, [utf8Encode "aaaaaaaaaabbbbbbbbbb"], 3⟩ := by decide +kernel

/-! ## C92: standard torrents are accepted -/

/-- What BEP 3 demands of a torrent file: an announce URL, and a dictionary with name, length of pieces, hashes of pieces, and either the
length of a single file or a list of files; as many pieces as the files fill. -/
def Standard (p : Plain) : Prop :=
  ∃ root info url name pl hashes total, p = .dict root ∧ root.lookup "announce" = some (.bytes url) ∧
    root.lookup "info" = some (.dict info) ∧ info.lookup "name" = some (.bytes (utf8Encode name)) ∧
    info.lookup "piece length" = some (.integer pl) ∧ info.lookup "pieces" = some (.bytes hashes) ∧ 0 < pl ∧ hashes.length = 20 * ((total + pl - 1) / pl) ∧
    total + pl < 2 ^ 64 ∧
    (info.lookup "length" = some (.integer total) ∨
      ∃ entries files, info.lookup "files" = some (.list entries) ∧ List.Forall₂ IsFile entries files ∧ total = (files.map File.length).sum)

/-- C92: every standard torrent file is accepted. -/
def C92_statement : Prop :=
  ∀ (sha1 : Bytes → Bytes) (p : Plain), p.Ok → Standard p → (encode p).length < 2 ^ 64 → ∃ t, fromBytes sha1 (encode p) = .ok t

/-- C92: torrents of a single file are always refused. -/
theorem C92_single_file_refused (sha1 : Bytes → Bytes) (root info : List (String × Plain)) (rest : Bytes) (hp : (Plain.dict root).Ok)
    (hl : (encode (.dict root) ++ rest).length < 2 ^ 64) (hi : root.lookup "info" = some (.dict info)) (hf : info.lookup "files" = none) (t : Torrent) :
    fromBytes sha1 (encode (.dict root) ++ rest) ≠ .ok t := by
  rw [ne_eq, C91_standard sha1 _ rest t hp hl]
  rintro ⟨info', ⟨root', _, _, _, _, _, _, h0, h1, -, -, -, -, -, h2, -⟩, -⟩
  injection h0 with h0
  subst h0
  rw [hi] at h1
  injection h1 with h1
  injection h1 with h1
  subst h1
  rw [hf] at h2
  cases h2

/-- C92: torrents without a list of trackers are always refused, though it is optional (BEP 12). -/
theorem C92_no_announce_list_refused (sha1 : Bytes → Bytes) (root : List (String × Plain)) (rest : Bytes) (hp : (Plain.dict root).Ok)
    (hl : (encode (.dict root) ++ rest).length < 2 ^ 64) (hf : root.lookup "announce-list" = none) (t : Torrent) :
    fromBytes sha1 (encode (.dict root) ++ rest) ≠ .ok t := by
  rw [ne_eq, C91_standard sha1 _ rest t hp hl]
  rintro ⟨info', ⟨root', _, _, _, _, _, _, h0, -, -, -, h2, -⟩, -⟩
  injection h0 with h0
  subst h0
  rw [hf] at h2
  cases h2

/-- A single empty file. -/
def singleFile : Plain :=
  .dict [("announce", .bytes []), ("info", .dict [("length", .integer 0), ("name", .bytes (utf8Encode "a")), ("piece length", .integer 1), ("pieces", .bytes [])])]

/-- C92 is false. -/
theorem C92_false : ¬ C92_statement := by
  intro h
  have hok : singleFile.Ok := by
    simp only [singleFile, Plain.Ok, okEntries, List.pairwise_cons, List.not_mem_nil, false_imp_iff, implies_true, List.Pairwise.nil, and_true, true_and,
      List.mem_cons, or_false, forall_eq_or_imp, forall_eq]
    decide
  have hlen : (encode singleFile).length < 2 ^ 64 := by
    have : (encode singleFile).length < 200 := by
      simp [singleFile, encode, encodeEntries, decimal]
      decide +kernel
    omega
  obtain ⟨t, ht⟩ := h id singleFile hok ⟨_, _, [], "a", 1, [], 0, rfl, rfl, rfl, rfl, rfl, rfl, by decide, rfl, by decide, .inl rfl⟩ hlen
  have := C92_single_file_refused id _ _ [] hok (by rw [List.append_nil]; exact hlen) rfl rfl t
  rw [List.append_nil] at this
  exact this ht

/-- C92, for torrents with a list of files and a list of trackers. -/
theorem C92_accepted_partial (sha1 : Bytes → Bytes) (root info : List (String × Plain)) (groups : List Plain) (urls : List (List String))
    (hp : (Plain.dict root).Ok) (hs : Standard (.dict root)) (hl : (encode (.dict root)).length < 2 ^ 64)
    (hi : root.lookup "info" = some (.dict info)) (ha : root.lookup "announce-list" = some (.list groups)) (hu : List.Forall₂ IsTexts groups urls)
    (hn : info.lookup "length" = none) :
    ∃ t, fromBytes sha1 (encode (.dict root)) = .ok t ∧ t.trackerGroups = urls ∧ t.infoHash = sha1 (encode (.dict info)) := by
  obtain ⟨root', info', url, name, pl, hashes, total, s0, s1, s2, s3, s4, s5, s6, s7, s8, s9⟩ := hs
  injection s0 with s0
  subst s0
  rw [hi] at s2
  injection s2 with s2
  injection s2 with s2
  subst s2
  rw [hn] at s9
  rcases s9 with s9 | ⟨entries, files, g1, g2, g3⟩
  · cases s9
  obtain ⟨k1, k2⟩ := splitPieces_spec hashes (by omega)
  have hlen := flatten_length _ k2
  rw [k1] at hlen
  have hn : (splitPieces hashes).length = (total + pl - 1) / pl := by omega
  have hd := Nat.div_add_mod (total + pl - 1) pl
  have hm := Nat.mod_lt (total + pl - 1) s6
  refine ⟨⟨sha1 (encode (.dict info)), name, urls, files, pl, splitPieces hashes, total⟩, ?_, rfl, rfl⟩
  have := (C91_standard sha1 (.dict root) [] ⟨sha1 (encode (.dict info)), name, urls, files, pl, splitPieces hashes, total⟩ hp
    (by rw [List.append_nil]; exact hl)).mpr ⟨info, ⟨root, _, _, groups, _, entries, hashes, rfl, hi, s3, rfl, ha, rfl, hu, g1, rfl, g2, s4, s5, k1.symm, k2, g3⟩,
      rfl, by simp only; rw [hn]; omega, by simp only; rw [hn]; omega⟩
  rw [List.append_nil] at this
  exact this

/-! ## C93: no torrent file stops the program -/

/-- C93: reading a torrent file does not panic. -/
def C93_statement : Prop := ∀ (sha1 : Bytes → Bytes) (data : Bytes), fromBytes sha1 data ≠ .error .panic

/-- C93 is false: the lengths of the files are added without a check. -/
theorem C93_false : ¬ C93_statement := by
  intro h
  apply h (fun _ => []) (utf8Encode "d13:announce-listle4:infod5:filesld6:lengthi9223372036854775808e4:pathleed6:lengthi9223372036854775808e4:pathleee4:name1:a12:piece lengthi1e6:pieces0:ee")
  decide +kernel

/-- C93, unless the lengths of the files add up to 2^64 or more, or the lengths of the pieces. -/
theorem C93_overflow_partial (sha1 : Bytes → Bytes) (data : Bytes) (h : fromBytes sha1 data = .error .panic) :
    ∃ v root info entries files pl hashes, parse data = .ok v ∧ plain v = .dict root ∧ root.lookup "info" = some (.dict info) ∧
      info.lookup "files" = some (.list entries) ∧ List.Forall₂ IsFile entries files ∧ info.lookup "piece length" = some (.integer pl) ∧
      info.lookup "pieces" = some (.bytes hashes) ∧ (2 ^ 64 ≤ (files.map File.length).sum ∨ 2 ^ 64 ≤ pl * (hashes.length / 20)) :=
  fromBytes_panic h

/-- C93: nesting of any depth is read: the model's bound on it is never reached. -/
theorem C93_total (sha1 : Bytes → Bytes) (data : Bytes) : fromBytes sha1 data ≠ .error (.parse .fuel) := by
  have key : parseData data ≠ .error (.parse .fuel) := by
    unfold parseData
    split
    · simp
    · rename_i e h
      intro h'
      injection h' with h'
      injection h' with h'
      subst h'
      exact C65_total data h
  have hb : ∀ {α β : Type} {x : Except Err α} {f : α → Except Err β}, (x >>= f) = .error (.parse .fuel) →
      x = .error (.parse .fuel) ∨ ∃ a, x = .ok a ∧ f a = .error (.parse .fuel) := by
    intro α β x f h
    cases x with
    | error e => left; simpa [bind, Except.bind] using h
    | ok a => right; exact ⟨a, rfl, h⟩
  have hm : ∀ {α β : Type} {f : α → Except Err β}, (∀ a, f a ≠ .error (.parse .fuel)) → ∀ {l : List α}, l.mapM f ≠ .error (.parse .fuel) := by
    intro α β f h l
    induction l with
    | nil => simp [pure, Except.pure]
    | cons a l ih =>
      rw [List.mapM_cons]
      intro h'
      rcases hb h' with h1 | ⟨b, -, h1⟩
      · exact h a h1
      · rcases hb h1 with h2 | ⟨bs, -, h2⟩
        · exact ih h2
        · cases h2
  have a1 : ∀ v, asByteString v ≠ .error (.parse .fuel) := by intro v; cases v <;> simp [asByteString]
  have a2 : ∀ v, asInteger v ≠ .error (.parse .fuel) := by intro v; cases v <;> simp [asInteger]
  have a3 : ∀ v, asList v ≠ .error (.parse .fuel) := by intro v; cases v <;> simp [asList]
  have a4 : ∀ v, asDictionary v ≠ .error (.parse .fuel) := by intro v; cases v <;> simp [asDictionary]
  have a5 : ∀ es k, getRequired es k ≠ .error (.parse .fuel) := by intro es k; unfold getRequired; split <;> simp
  have a6 : ∀ v, asString v ≠ .error (.parse .fuel) := by
    intro v
    unfold asString
    split
    · rename_i e h; intro h'; injection h' with h'; subst h'; exact a1 _ h
    · split <;> simp
  have a7 : ∀ v, parseAnnounceList v ≠ .error (.parse .fuel) := by
    intro v h
    rcases hb h with h | ⟨_, -, h⟩
    · exact a3 _ h
    · refine hm (fun a h => ?_) h
      rcases hb h with h | ⟨_, -, h⟩
      · exact a3 _ h
      · exact hm a6 h
  have a8 : ∀ v, parseFile v ≠ .error (.parse .fuel) := by
    intro v h
    rcases hb h with h | ⟨⟨_, d⟩, -, h⟩
    · exact a4 _ h
    rcases hb h with h | ⟨_, -, h⟩
    · exact a5 _ _ h
    rcases hb h with h | ⟨_, -, h⟩
    · exact a5 _ _ h
    rcases hb h with h | ⟨_, -, h⟩
    · exact a2 _ h
    rcases hb h with h | ⟨_, -, h⟩
    · exact a3 _ h
    rcases hb h with h | ⟨_, -, h⟩
    · exact hm a6 h
    · cases h
  intro h
  rcases hb h with h | ⟨_, -, h⟩
  · exact key h
  rcases hb h with h | ⟨⟨_, root⟩, -, h⟩
  · exact a4 _ h
  rcases hb h with h | ⟨_, -, h⟩
  · exact a5 _ _ h
  rcases hb h with h | ⟨⟨loc, info⟩, -, h⟩
  · exact a4 _ h
  rcases hb h with h | ⟨_, -, h⟩
  · exact a5 _ _ h
  rcases hb h with h | ⟨_, -, h⟩
  · exact a6 _ h
  rcases hb h with h | ⟨_, -, h⟩
  · exact a5 _ _ h
  rcases hb h with h | ⟨_, -, h⟩
  · exact a7 _ h
  rcases hb h with h | ⟨_, -, h⟩
  · exact a5 _ _ h
  rcases hb h with h | ⟨fs, -, h⟩
  · rcases hb h with h | ⟨_, -, h⟩
    · exact a3 _ h
    · exact hm a8 h
  rcases hb h with h | ⟨_, -, h⟩
  · exact a5 _ _ h
  rcases hb h with h | ⟨pl, -, h⟩
  · exact a2 _ h
  rcases hb h with h | ⟨_, -, h⟩
  · exact a5 _ _ h
  rcases hb h with h | ⟨hashes, -, h⟩
  · exact a1 _ h
  split at h
  · cases h
  · rcases hb h with h | ⟨_, -, h⟩
    · rw [sumLengths_eq] at h
      split at h <;> cases h
    · rcases hb h with h | ⟨_, -, h⟩
      · rw [mulU] at h
        split at h <;> cases h
      · split at h <;> cases h

end Ngfs.Torrent
