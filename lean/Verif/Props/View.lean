import Verif.Lemmas.View
import Verif.Props.Metainfo

/-! C153-C156: the program that shows torrent files (`src/bin/view.rs`). -/
namespace Ngfs.View
open Ngfs.Bencode Ngfs.Torrent Ngfs.Spec.View Ngfs.Spec.Torrent
open Ngfs.Spec hiding decimal Readable
open Ngfs.Asn1 (txt decimal split_unique decimal_free decimal_inj decimal_ne_nil toHex_free toHex_inj NoDigit)
open Ngfs.Util (toHex)

/-! ## C153: the listings -/

/-- C153: if `view files` or `view trackers` shows the same for two torrent files, then they have the same files, or the
same groups of trackers. -/
def C153_statement : Prop :=
  ∀ (sha1 : Bytes → Bytes) (files : String → Option Bytes) (a b : String) (da db : Bytes) (t u : Torrent),
    files a = some da → files b = some db → fromBytes sha1 da = .ok t → fromBytes sha1 db = .ok u →
    ((main sha1 files ["files", a]).out = (main sha1 files ["files", b]).out → t.files.map File.path = u.files.map File.path) ∧
    ((main sha1 files ["trackers", a]).out = (main sha1 files ["trackers", b]).out → t.trackerGroups = u.trackerGroups)

theorem run_files {sha1 : Bytes → Bytes} {files : String → Option Bytes} {a : String} {da : Bytes} {t : Torrent}
    (ha : files a = some da) (ht : fromBytes sha1 da = .ok t) :
    main sha1 files ["files", a] = ⟨filesText t.files, .success⟩ ∧
    main sha1 files ["trackers", a] = ⟨trackersText t.trackerGroups, .success⟩ ∧
    main sha1 files ["info", a] = ⟨infoText t, .success⟩ ∧
    main sha1 files ["hash", a] = ⟨println (a.toList ++ [' '] ++ toHex t.infoHash), .success⟩ := by
  have e1 : commands.lookup "files" = some .files := by decide
  have e2 : commands.lookup "trackers" = some .trackers := by decide
  have e3 : commands.lookup "info" = some .info := by decide
  have e4 : commands.lookup "hash" = some .hash := by decide
  simp only [main, e1, e2, e3, e4, ha, Command.run, withTorrent, ht, List.nil_append, and_self]

theorem filesText_eq (fs : List File) : filesText fs = joinLines (fs.map fun f => f.path.toList) := by
  simp [filesText, joinLines, println, List.flatMap_map]

/-- The lines of `view trackers`. -/
def trackerLines : List (List String) → List (List Char)
  | [] => []
  | g :: gs => g.map String.toList ++ (if gs = [] then [] else [[]]) ++ trackerLines gs

theorem trackersText_eq : ∀ gs : List (List String), trackersText gs = joinLines (trackerLines gs)
  | [] => rfl
  | g :: gs => by
    rw [trackersText, trackerLines, joinLines_append, joinLines_append, trackersText_eq gs]
    have : groupText g = joinLines (g.map String.toList) := by simp [groupText, joinLines, println, List.flatMap_map]
    rw [this]
    split <;> rfl

theorem split_at {α : Type} {s : α} : ∀ {a a' r r' : List α}, s ∉ a → s ∉ a' → a ++ s :: r = a' ++ s :: r' → a = a' ∧ r = r'
  | [], [], _, _, _, _, h => by simpa using h
  | [], c :: a', _, _, _, h2, h => by
    simp only [List.nil_append, List.cons_append, List.cons.injEq] at h
    exact absurd (List.mem_cons.2 (.inl h.1)) h2
  | c :: a, [], _, _, h1, _, h => by
    simp only [List.nil_append, List.cons_append, List.cons.injEq] at h
    exact absurd (List.mem_cons.2 (.inl h.1.symm)) h1
  | c :: a, d :: a', _, _, h1, h2, h => by
    simp only [List.cons_append, List.cons.injEq] at h
    obtain ⟨h3, h4⟩ := split_at (fun hm => h1 (List.mem_cons_of_mem _ hm)) (fun hm => h2 (List.mem_cons_of_mem _ hm)) h.2
    exact ⟨by rw [h.1, h3], h4⟩

theorem map_toList_inj {a b : List String} (h : a.map String.toList = b.map String.toList) : a = b :=
  List.map_inj_right (fun _ _ h => String.toList_inj.mp h) |>.mp h

/-- An address that is a line of its own. -/
def Line (s : String) : Prop := s ≠ "" ∧ '\n' ∉ s.toList

theorem trackerLines_inj : ∀ (gs hs : List (List String)), gs ≠ [] → hs ≠ [] → (∀ g ∈ gs, ∀ s ∈ g, Line s) →
    (∀ g ∈ hs, ∀ s ∈ g, Line s) → trackerLines gs = trackerLines hs → gs = hs
  | [], _, h, _, _, _, _ => absurd rfl h
  | _ :: _, [], _, h, _, _, _ => absurd rfl h
  | g :: gs, k :: ks, _, _, h1, h2, h => by
    have hg : [] ∉ g.map String.toList := by
      intro hm
      obtain ⟨s, hs, e⟩ := List.mem_map.mp hm
      exact (h1 g (by simp) s hs).1 (String.toList_eq_nil_iff.mp e)
    have hk : [] ∉ k.map String.toList := by
      intro hm
      obtain ⟨s, hs, e⟩ := List.mem_map.mp hm
      exact (h2 k (by simp) s hs).1 (String.toList_eq_nil_iff.mp e)
    rw [trackerLines, trackerLines] at h
    have h' := congrArg (· ++ [[]]) h
    by_cases e1 : gs = [] <;> by_cases e2 : ks = []
    · subst e1 e2
      simp only [if_pos, trackerLines, List.append_nil] at h
      rw [map_toList_inj h]
    · subst e1
      simp only [if_pos, if_neg e2, trackerLines, List.append_nil, List.append_assoc, List.cons_append, List.nil_append] at h'
      have := (split_at hg hk h').2
      simp at this
    · subst e2
      simp only [if_pos, if_neg e1, trackerLines, List.append_nil, List.append_assoc, List.cons_append, List.nil_append] at h'
      have := (split_at hg hk h').2
      simp at this
    · simp only [if_neg e1, if_neg e2, List.append_assoc, List.cons_append, List.nil_append] at h
      obtain ⟨h3, h4⟩ := split_at hg hk h
      rw [map_toList_inj h3, trackerLines_inj gs ks e1 e2 (fun g hg => h1 g (by simp [hg])) (fun g hg => h2 g (by simp [hg])) h4]

theorem trackerLines_ok : ∀ (gs : List (List String)), (∀ g ∈ gs, ∀ s ∈ g, Line s) → ∀ l ∈ trackerLines gs, '\n' ∉ l
  | [], _, l, hl => by simp [trackerLines] at hl
  | g :: gs, h, l, hl => by
    rw [trackerLines, List.mem_append, List.mem_append] at hl
    rcases hl with (hl | hl) | hl
    · obtain ⟨s, hs, rfl⟩ := List.mem_map.mp hl
      exact (h g (by simp) s hs).2
    · split at hl
      · cases hl
      · rw [List.mem_singleton.mp hl]; simp
    · exact trackerLines_ok gs (fun g hg => h g (by simp [hg])) l hl

/-- C153, if no path has a newline in it; for the trackers, if there are any groups and no address is empty or has a newline
in it. Missing: such texts. -/
theorem C153_listings_partial (sha1 : Bytes → Bytes) (files : String → Option Bytes) (a b : String) (da db : Bytes) (t u : Torrent)
    (ha : files a = some da) (hb : files b = some db) (ht : fromBytes sha1 da = .ok t) (hu : fromBytes sha1 db = .ok u) :
    ((∀ f ∈ t.files, '\n' ∉ f.path.toList) → (∀ f ∈ u.files, '\n' ∉ f.path.toList) →
      (main sha1 files ["files", a]).out = (main sha1 files ["files", b]).out → t.files.map File.path = u.files.map File.path) ∧
    (t.trackerGroups ≠ [] → u.trackerGroups ≠ [] → (∀ g ∈ t.trackerGroups, ∀ s ∈ g, Line s) →
      (∀ g ∈ u.trackerGroups, ∀ s ∈ g, Line s) →
      (main sha1 files ["trackers", a]).out = (main sha1 files ["trackers", b]).out → t.trackerGroups = u.trackerGroups) := by
  obtain ⟨e1, e2, -⟩ := run_files ha ht
  obtain ⟨e3, e4, -⟩ := run_files hb hu
  rw [e1, e2, e3, e4]
  constructor
  · intro h1 h2 h
    simp only [filesText_eq] at h
    have := joinLines_inj (by rintro l hl; obtain ⟨f, hf, rfl⟩ := List.mem_map.mp hl; exact h1 f hf)
      (by rintro l hl; obtain ⟨f, hf, rfl⟩ := List.mem_map.mp hl; exact h2 f hf) h
    apply map_toList_inj
    rw [List.map_map, List.map_map]
    exact this
  · intro h1 h2 h3 h4 h
    simp only [trackersText_eq] at h
    exact trackerLines_inj _ _ h1 h2 h3 h4 (joinLines_inj (trackerLines_ok _ h3) (trackerLines_ok _ h4) h)

/-- A torrent file with these two files in a row of entries. -/
def listingOf (entries : String) : Bytes :=
  utf8Encode ("d13:announce-listll1:aee4:infod5:filesl" ++ entries ++ "e4:name1:n12:piece lengthi1e6:pieces0:ee")

/-- One file with a newline in its name. -/
def oneFile : Bytes := listingOf "d6:lengthi0e4:pathl3:a\nbee"
/-- Two files. -/
def twoFiles : Bytes := listingOf "d6:lengthi0e4:pathl1:aeed6:lengthi0e4:pathl1:bee"

theorem oneFile_ok : fromBytes (fun _ => []) oneFile = .ok ⟨[], "n", [["a"]], [⟨0, "a\nb"⟩], 1, [], 0⟩ := by decide +kernel
theorem twoFiles_ok : fromBytes (fun _ => []) twoFiles = .ok ⟨[], "n", [["a"]], [⟨0, "a"⟩, ⟨0, "b"⟩], 1, [], 0⟩ := by decide +kernel

/-- C153 is false: a path with a newline in it looks like two files. -/
theorem C153_false : ¬ C153_statement := by
  intro h
  have := (h (fun _ => []) (fun n => if n = "one" then some oneFile else some twoFiles) "one" "two" oneFile twoFiles _ _
    rfl rfl oneFile_ok twoFiles_ok).1 (by
      rw [(run_files (by rfl) oneFile_ok).1, (run_files (a := "two") (by rfl) twoFiles_ok).1]
      decide +kernel)
  revert this
  decide

/-! ## C154: the printout of the values -/

/-- C154: if `view raw` shows the same for two files, then they hold the same value. -/
def C154_statement : Prop :=
  ∀ (sha1 : Bytes → Bytes) (files : String → Option Bytes) (a b : String) (da db : Bytes) (v w : Value),
    files a = some da → files b = some db → parse da = .ok v → parse db = .ok w →
    (main sha1 files ["raw", a]).out = (main sha1 files ["raw", b]).out → plain v = plain w

theorem run_raw {sha1 : Bytes → Bytes} {files : String → Option Bytes} {a : String} {da : Bytes} {v : Value}
    (ha : files a = some da) (hv : parse da = .ok v) : main sha1 files ["raw", a] = ⟨dump 0 v, .success⟩ := by
  have e : commands.lookup "raw" = some .raw := by decide
  simp only [main, e, ha, Command.run, hv]

/-- C154 is false: the text "5" and the number look the same. -/
theorem C154_false : ¬ C154_statement := by
  intro h
  have h1 : parse (utf8Encode "1:5") = .ok (.bytes ⟨0, 3, ""⟩ [0x35]) := by rfl
  have h2 : parse (utf8Encode "i5e") = .ok (.integer ⟨0, 3, ""⟩ 5) := by rfl
  have := h (fun _ => []) (fun n => if n = "text" then some (utf8Encode "1:5") else some (utf8Encode "i5e")) "text" "number" _ _ _ _
    rfl rfl h1 h2 (by
      rw [run_raw (by rfl) h1, run_raw (a := "number") (by rfl) h2]
      simp only [dump]
      decide +kernel)
  cases this

/-- C154, if all strings are texts that take one line and do not look like a number, a list or a dictionary. Missing: other
strings, such as those shown in hexadecimal or by their length. -/
theorem C154_readable_partial (sha1 : Bytes → Bytes) (files : String → Option Bytes) (a b : String) (da db : Bytes) (v w : Value)
    (ha : files a = some da) (hb : files b = some db) (hv : parse da = .ok v) (hw : parse db = .ok w)
    (rv : Readable (plain v)) (rw' : Readable (plain w))
    (h : (main sha1 files ["raw", a]).out = (main sha1 files ["raw", b]).out) : plain v = plain w := by
  rw [run_raw ha hv, run_raw hb hw] at h
  exact dump_unique rv rw' h

/-- A readable value. -/
example : ∃ v, parse (utf8Encode "d4:infoli10e1:xee") = .ok v ∧ Readable (plain v) ∧
    dump 0 v = "dict\n    info =\n        list\n            10\n            x\n".toList := by
  refine ⟨.dict ⟨0, 17, ""⟩ [("info", .list ⟨7, 16, "/info"⟩ [.integer ⟨8, 12, "/info/0"⟩ 10, .bytes ⟨12, 15, "/info/1"⟩ [0x78]])],
    rfl, ?_, ?_⟩
  · simp only [plain, plainItems, plainEntries, Readable, readableItems, readableEntries, OneLine, and_true, true_and]
    exact ⟨by decide +kernel, "x", by decide +kernel, by decide +kernel, by decide, by decide, .inr ⟨'x', by decide +kernel, by decide⟩⟩
  · simp only [dump, dumpItems, dumpEntries]
    decide +kernel

/-! ## C155: the summary -/

theorem split_last {s : Char} {a a' b b' : List Char} (h1 : s ∉ b) (h2 : s ∉ b') (h : a ++ s :: b = a' ++ s :: b') : a = a' ∧ b = b' := by
  have h' := congrArg List.reverse h
  simp only [List.reverse_append, List.reverse_cons, List.append_assoc, List.singleton_append] at h'
  obtain ⟨h3, h4⟩ := split_unique (by rwa [List.mem_reverse]) (by rwa [List.mem_reverse]) h'
  exact ⟨List.reverse_inj.mp h4, List.reverse_inj.mp h3⟩

theorem println_last {a a' x x' l l' : List Char} (h1 : '\n' ∉ l) (h2 : '\n' ∉ l')
    (h : a ++ println x ++ println l = a' ++ println x' ++ println l') : a ++ println x = a' ++ println x' ∧ l = l' := by
  unfold println at h ⊢
  simp only [← List.append_assoc] at h ⊢
  have h' := List.append_cancel_right h
  rw [List.append_assoc (a ++ x), List.append_assoc (a' ++ x')] at h'
  obtain ⟨h3, h4⟩ := split_last h1 h2 h'
  exact ⟨by rw [h3], h4⟩

theorem labels : '\n' ∉ txt "Tracker groups: " ∧ '\n' ∉ txt "Trackers: " ∧ '\n' ∉ txt "Piece length: " ∧
    '\n' ∉ txt "Pieces: " ∧ '\n' ∉ txt "Files: " ∧ '\n' ∉ txt "Total length: " ∧ '\n' ∉ txt "Info hash: " := by decide +kernel

theorem field {l : List Char} (h : '\n' ∉ l) (n : Nat) : '\n' ∉ l ++ decimal n := no_newline_append h (decimal_free (by decide) n)

/-- **C155**. What `view info` shows determines the info hash, the name, whatever characters are in it, and the numbers; and
what `view hash` shows determines the info hash. -/
theorem C155_summary (sha1 : Bytes → Bytes) (files : String → Option Bytes) (a b : String) (da db : Bytes) (t u : Torrent)
    (ha : files a = some da) (hb : files b = some db) (ht : fromBytes sha1 da = .ok t) (hu : fromBytes sha1 db = .ok u) :
    ((main sha1 files ["info", a]).out = (main sha1 files ["info", b]).out →
      t.infoHash = u.infoHash ∧ t.name = u.name ∧ t.trackerGroups.length = u.trackerGroups.length ∧
      (t.trackerGroups.map List.length).sum = (u.trackerGroups.map List.length).sum ∧ t.pieceLength = u.pieceLength ∧
      t.pieces.length = u.pieces.length ∧ t.files.length = u.files.length ∧ t.totalLength = u.totalLength) ∧
    ((main sha1 files ["hash", a]).out = (main sha1 files ["hash", b]).out → t.infoHash = u.infoHash) := by
  obtain ⟨-, -, e1, e2⟩ := run_files ha ht
  obtain ⟨-, -, e3, e4⟩ := run_files hb hu
  rw [e1, e2, e3, e4]
  constructor
  · intro h
    simp only [infoText] at h
    obtain ⟨l1, l2, l3, l4, l5, l6, l7⟩ := labels
    obtain ⟨h, g6⟩ := println_last (field l6 _) (field l6 _) h
    obtain ⟨h, g5⟩ := println_last (field l5 _) (field l5 _) h
    obtain ⟨h, g4⟩ := println_last (field l4 _) (field l4 _) h
    obtain ⟨h, g3⟩ := println_last (field l3 _) (field l3 _) h
    obtain ⟨h, g2⟩ := println_last (field l2 _) (field l2 _) h
    obtain ⟨h, g1⟩ := println_last (field l1 _) (field l1 _) h
    unfold println at h
    simp only [List.append_assoc, List.singleton_append] at h
    have h := List.append_cancel_left h
    obtain ⟨h1, h2⟩ := split_unique (toHex_free (by decide) _) (toHex_free (by decide) _) h
    have h2 := List.append_cancel_right (List.append_cancel_left h2)
    exact ⟨toHex_inj h1, String.toList_inj.mp h2, decimal_inj (List.append_cancel_left g1), decimal_inj (List.append_cancel_left g2),
      decimal_inj (List.append_cancel_left g3), decimal_inj (List.append_cancel_left g4), decimal_inj (List.append_cancel_left g5),
      decimal_inj (List.append_cancel_left g6)⟩
  · intro h
    have h := List.append_cancel_right h
    rw [List.append_assoc, List.append_assoc] at h
    exact toHex_inj (split_last (s := ' ') (toHex_free (by decide) _) (toHex_free (by decide) _) h).2

example : (main (fun _ => [1, 2]) (fun _ => some twoFiles) ["info", "t"]).out =
    ("Info hash: 0102\nName: n\nTracker groups: 1\nTrackers: 1\nPiece length: 1\nPieces: 0\nFiles: 2\nTotal length: 0\n").toList := by
  decide +kernel

/-! ## C156: when it succeeds -/

theorem holds_iff {data : Bytes} {v : Value} (hl : data.length < 2 ^ 64) : Holds data v ↔ parse data = .ok v :=
  (C65_accepts_exactly data v hl).symm

theorem isTorrent_iff {sha1 : Bytes → Bytes} {data : Bytes} (hl : data.length < 2 ^ 64) :
    (∃ t, IsTorrent data t) ↔ ∃ t, fromBytes sha1 data = .ok t := by
  constructor
  · rintro ⟨t, v, info, h1, h2, h3, h4⟩
    rw [holds_iff hl] at h1
    obtain ⟨vloc, es, loc, ies, rfl, hlook, he⟩ : ∃ vloc es loc ies, v = .dict vloc es ∧ es.lookup "info" = some (.dict loc ies) ∧
        info = plainEntries ies := by
      obtain ⟨root, _, _, _, _, _, _, g1, g2, -⟩ := h2
      cases v with
      | dict vloc es =>
        simp only [plain, Plain.dict.injEq] at g1
        subst g1
        rw [lookup_plain] at g2
        cases hi : es.lookup "info" with
        | none => rw [hi] at g2; cases g2
        | some w =>
          rw [hi] at g2
          simp only [Option.map_some, Option.some.injEq] at g2
          cases w with
          | dict loc ies => simp only [plain, Plain.dict.injEq] at g2; exact ⟨vloc, es, loc, ies, rfl, hi, g2.symm⟩
          | _ => simp [plain] at g2
      | _ => simp [plain] at g1
    subst he
    refine ⟨{ t with infoHash := sha1 (slice data loc.start loc.stop) }, fromBytes_iff.mpr ⟨_, loc, ies, h1, ?_, h2, ⟨vloc, es, rfl, hlook⟩, rfl, h3, h4⟩⟩
    exact .dict (lookup_mem hlook) .here
  · rintro ⟨t, h⟩
    obtain ⟨v, loc, info, g1, g2, g3, g4, g5, g6, g7⟩ := fromBytes_iff.mp h
    exact ⟨t, v, _, (holds_iff hl).mpr g1, g3, g6, g7⟩

/-- The names of the commands. -/
def names : List String := ["trackers", "files", "info", "hash", "raw", "full"]

/-- The program has what it needs: a command, and a file that holds a value if the command is `raw`, and otherwise a torrent. -/
def Given (files : String → Option Bytes) (args : List String) : Prop :=
  ∃ name filename more data, args = name :: filename :: more ∧ name ∈ names ∧ files filename = some data ∧
    (if name = "raw" then ∃ v, Holds data v else ∃ t, IsTorrent data t)

theorem lookup_command (name : String) :
    (name ∉ names → commands.lookup name = none) ∧
    (name ∈ names → ∃ c, commands.lookup name = some c ∧ (c = .raw ↔ name = "raw") ∧ (c = .full ↔ name = "full")) := by
  constructor
  · intro h
    simp only [names, List.mem_cons, List.not_mem_nil, or_false, not_or] at h
    obtain ⟨h1, h2, h3, h4, h5, h6⟩ := h
    have e (a : String) (h : name ≠ a) : (name == a) = false := by simpa using h
    simp only [commands, List.lookup_cons, e _ h1, e _ h2, e _ h3, e _ h4, e _ h5, e _ h6, List.lookup_nil]
  · intro h
    simp only [names, List.mem_cons, List.not_mem_nil, or_false] at h
    rcases h with rfl | rfl | rfl | rfl | rfl | rfl <;> exact ⟨_, rfl, by decide, by decide⟩

theorem run_success {sha1 : Bytes → Bytes} {c : Command} {filename : String} {data : Bytes} :
    (c.run sha1 filename data).exit = .success ↔
      if c = .raw then ∃ v, parse data = .ok v else ∃ t, fromBytes sha1 data = .ok t := by
  have key : ∀ (before : List Char) (text : Torrent → List Char), (withTorrent sha1 data before text).exit = .success ↔
      ∃ t, fromBytes sha1 data = .ok t := by
    intro before text
    unfold withTorrent
    cases h : fromBytes sha1 data with
    | ok t => simp
    | error e => cases e <;> simp [Result.ofErr]
  have hp : ∀ t, fromBytes sha1 data = .ok t → ∃ v, parse data = .ok v := by
    intro t h
    obtain ⟨v, _, _, h1, -⟩ := fromBytes_iff.mp h
    exact ⟨v, h1⟩
  cases c with
  | raw =>
    simp only [Command.run, if_pos]
    cases h : parse data <;> simp
  | full =>
    simp only [Command.run, reduceCtorEq, if_false]
    cases h : parse data with
    | ok v => exact key _ _
    | error e =>
      simp only [reduceCtorEq, false_iff]
      rintro ⟨t, ht⟩
      obtain ⟨v, hv⟩ := hp t ht
      rw [h] at hv
      cases hv
  | _ => simp only [Command.run, reduceCtorEq, if_false]; exact key _ _

/-- **C156**. The program succeeds exactly if it is given a command and a file of the right kind. If it does not, it has
shown nothing that was in a file, except that `full` shows the values of a file that is no torrent. -/
theorem C156_status (sha1 : Bytes → Bytes) (files : String → Option Bytes) (args : List String)
    (hl : ∀ name data, files name = some data → data.length < 2 ^ 64) :
    ((main sha1 files args).exit = .success ↔ Given files args) ∧
    ((main sha1 files args).exit ≠ .success → (main sha1 files args).out = [] ∨
      (main sha1 files args).out = "Commands:\n  trackers\n  files\n  info\n  hash\n  raw\n  full\n".toList ∨
      args.head? = some "full") := by
  have hu : usage = "Commands:\n  trackers\n  files\n  info\n  hash\n  raw\n  full\n".toList := by decide +kernel
  match args with
  | [] =>
    refine ⟨⟨fun h => (by cases h), fun ⟨_, _, _, _, h, _⟩ => by cases h⟩, fun _ => .inr (.inl hu)⟩
  | name :: rest =>
    obtain ⟨n1, n2⟩ := lookup_command name
    by_cases hn : name ∈ names
    · obtain ⟨c, hc, hraw, hfull⟩ := n2 hn
      match rest with
      | [] =>
        simp only [main, hc]
        exact ⟨⟨fun h => (by cases h), fun ⟨_, _, _, _, h, _⟩ => by cases h⟩, fun _ => .inl (by first | rfl | trivial)⟩
      | filename :: more =>
        cases hf : files filename with
        | none =>
          simp only [main, hc, hf]
          refine ⟨⟨fun h => (by cases h), fun ⟨_, _, _, _, h, _, h', _⟩ => ?_⟩, fun _ => .inl (by first | rfl | trivial)⟩
          cases h
          rw [hf] at h'
          cases h'
        | some data =>
          have hd := hl _ _ hf
          simp only [main, hc, hf]
          constructor
          · rw [run_success]
            have e : Given files (name :: filename :: more) ↔
                if name = "raw" then ∃ v, Holds data v else ∃ t, IsTorrent data t := by
              constructor
              · rintro ⟨_, _, _, _, h, -, h', h''⟩
                cases h
                rw [hf] at h'
                cases h'
                exact h''
              · intro h
                exact ⟨_, _, _, _, rfl, hn, hf, h⟩
            rw [e]
            by_cases hr : name = "raw"
            · rw [if_pos (hraw.mpr hr), if_pos hr]
              simp only [holds_iff hd]
            · rw [if_neg (fun h => hr (hraw.mp h)), if_neg hr, isTorrent_iff hd]
          · intro h
            by_cases hfl : c = .full
            · exact .inr (.inr (by rw [hfull.mp hfl]; rfl))
            · left
              have key : ∀ (text : Torrent → List Char), (withTorrent sha1 data [] text).exit ≠ .success →
                  (withTorrent sha1 data [] text).out = [] := by
                intro text
                unfold withTorrent
                cases fromBytes sha1 data with
                | ok t => intro h; exact absurd rfl h
                | error e => intro _; cases e <;> rfl
              cases c with
              | full => exact absurd rfl hfl
              | raw =>
                simp only [Command.run] at h ⊢
                cases hp : parse data with
                | ok v => rw [hp] at h; exact absurd rfl h
                | error e => rfl
              | _ => exact key _ h
    · simp only [main, n1 hn]
      refine ⟨⟨fun h => (by cases h), fun ⟨_, _, _, _, h, h', _⟩ => ?_⟩, fun _ => .inr (.inl hu)⟩
      cases h
      exact absurd h' hn

/-- Both files are torrents, so that the program succeeds. -/
example : Given (fun _ => some twoFiles) ["files", "t", "and more"] :=
  ⟨"files", "t", ["and more"], twoFiles, rfl, by decide, rfl, (by
    rw [if_neg (by decide)]
    exact (isTorrent_iff (sha1 := fun _ => []) (by decide +kernel)).mpr ⟨_, twoFiles_ok⟩)⟩

end Ngfs.View
