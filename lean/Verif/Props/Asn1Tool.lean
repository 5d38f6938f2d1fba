import Verif.Model.Asn1Tool
import Verif.Lemmas.Asn1Copy
import Verif.Props.Asn1
import Verif.Props.Pem

/-! Property theorems for the program that shows and copies ASN.1 files. -/
namespace Ngfs.Asn1
open Ngfs.Binary Ngfs.Spec

/-! ### C195 -/

/-- The file holds the data: as it is, or as PEM text. -/
def HoldsData (raw data : Bytes) : Prop := raw = data ∨
  ∃ (label : String) (h body f : Bytes), Header (utf8Encode label) h ∧ BodyText body ∧ Footer (utf8Encode label) f ∧ raw = h ++ body ++ f ∧
    bodyData body = some data

/-- **C195**: of a file that holds the distinguished encoding of a structure, as it is or as PEM text, `asn1 --output` writes a copy with
exactly these bytes; a file with something more behind the structure is refused. -/
def C195_statement : Prop := ∀ (n : Nat) (files : String → Option Bytes) (canWrite : String → Bool) (opt : ToolOpt) (name : String)
    (raw bs post : Bytes) (item : Item), 6 ≤ n → files opt.input = some raw → HoldsData raw (bs ++ post) → DerItem 0 item bs →
    (bs ++ post).length < 2 ^ 32 → opt.output = some name → canWrite name = true →
    (post = [] → (toolMain n files canWrite opt).written = some (name, bs)) ∧
    (post ≠ [] → (toolMain n files canWrite opt).written = none)

private theorem data_pem {n : Nat} {raw data : Bytes} (hn : 6 ≤ n) (h : HoldsData raw data) (hd : data.head? ≠ some 0x2d) :
    toolData n raw = .ok data := by
  unfold toolData
  rcases h with rfl | ⟨label, h, body, f, hh, hb, hf, rfl, hd⟩
  · rw [if_neg hd]
  · have h1 : (h ++ body ++ f).head? = some 0x2d := by
      obtain ⟨d1, d2, nl, ⟨k, rfl⟩, -, -, -, rfl⟩ := hh
      simp [List.replicate_succ]
    rw [if_pos h1, Pem.decodePem_ok n hn hh hb hf hd]

private theorem main_eq {n : Nat} {files : String → Option Bytes} {canWrite : String → Bool} {opt : ToolOpt} {raw bs post : Bytes}
    {item : Item} (hn : 6 ≤ n) (hf : files opt.input = some raw) (hh : HoldsData raw (bs ++ post)) (hd : DerItem 0 item bs)
    (hl : (bs ++ post).length < 2 ^ 32) :
    toolMain n files canWrite opt = toolOutput canWrite opt.output (seenItem item) ((toolPrinter opt.ranges).print (seenItem item)) := by
  have h1 : (bs ++ post).head? ≠ some 0x2d := by
    have := der_first hd
    cases bs with
    | nil =>
      cases hd with
      | mk hv =>
        have no : ∀ c con tag d, ¬ Tlv c con tag d [] := by rintro _ _ _ _ ⟨_, _, _, hh⟩; simp at hh
        cases hv <;> exact absurd (by assumption) (no _ _ _ _)
    | cons b bs => exact this
  have h2 := readItem_seen hd (by simp only [List.length_append] at hl; omega) [] post rfl
    (by simp only [List.nil_append]; exact Nat.lt_trans hl (by decide))
  simp only [List.nil_append] at h2
  simp only [toolMain, hf, data_pem hn hh h1, h2]

/-- **C195** is false: `true` comes out as `false`. -/
theorem C195_false : ¬ C195_statement := by
  intro h
  have h1 := (h 6 (fun _ => some [1, 1, 0xff]) (fun _ => true) ⟨false, "", some ""⟩ "" [1, 1, 0xff] [1, 1, 0xff] [] (.mk 0 3 (.boolean true))
    (by decide) rfl (.inl rfl) (.mk (.true ⟨by decide, [1], .inl ⟨by decide, rfl⟩, rfl⟩)) (by decide) rfl rfl).1 rfl
  have h2 : (toolMain 6 (fun _ => some [1, 1, 0xff]) (fun _ => true) ⟨false, "", some ""⟩).written = some ("", [1, 1, 0]) := rfl
  rw [h2] at h1
  simp at h1

/-- **C195** for the structures without `true` and without numbers beyond 64 bits in object identifiers: the copy has the bytes of the
structure. Missing: those, and what follows the structure, which is dropped without notice. -/
theorem C195_copied_partial (n : Nat) (files : String → Option Bytes) (canWrite : String → Bool) (opt : ToolOpt) (name : String)
    (raw bs post : Bytes) (item : Item) (hn : 6 ≤ n) (hf : files opt.input = some raw) (hh : HoldsData raw (bs ++ post))
    (hd : DerItem 0 item bs) (hl : (bs ++ post).length < 2 ^ 32) (ho : opt.output = some name) (hw : canWrite name = true)
    (hk : ∀ v, Occurs v item → Kept v) :
    (toolMain n files canWrite opt).written = some (name, bs) ∧ (toolMain n files canWrite opt).stop = .success := by
  have he := copy_der hd hk (by simp only [List.length_append] at hl; omega)
  rw [main_eq hn hf hh hd hl, ho]
  simp only [toolOutput, he, hw, if_true]
  trivial

/-- What follows the structure is never refused, with or without a copy to be written. -/
theorem C195_rest_ignored (n : Nat) (files files' : String → Option Bytes) (canWrite : String → Bool) (opt : ToolOpt)
    (raw raw' bs post : Bytes) (item : Item) (hn : 6 ≤ n) (hf : files opt.input = some raw) (hh : HoldsData raw bs)
    (hf' : files' opt.input = some raw') (hh' : HoldsData raw' (bs ++ post)) (hd : DerItem 0 item bs) (hl : (bs ++ post).length < 2 ^ 32) :
    toolMain n files' canWrite opt = toolMain n files canWrite opt := by
  rw [main_eq hn hf' hh' hd hl, main_eq (post := []) hn hf (by rw [List.append_nil]; exact hh) hd
    (by simp only [List.append_nil, List.length_append] at hl ⊢; omega)]

/-- The structure is shown, with the names of X.509 and long byte strings cut off, if its object identifiers are within what the reader knows. -/
theorem C195_shown (n : Nat) (files : String → Option Bytes) (canWrite : String → Bool) (opt : ToolOpt)
    (raw bs post : Bytes) (item : Item) (hn : 6 ≤ n) (hf : files opt.input = some raw) (hh : HoldsData raw (bs ++ post))
    (hd : DerItem 0 item bs) (hl : (bs ++ post).length < 2 ^ 32) (hr : ∀ v, Occurs v item → Readable v) :
    Printer.print ⟨true, some X509.lookupLongName, opt.ranges⟩ item <+: (toolMain n files canWrite opt).out ∧
    (opt.output = none → toolMain n files canWrite opt = ⟨Printer.print ⟨true, some X509.lookupLongName, opt.ranges⟩ item, none, .success⟩) := by
  have hl1 : bs.length < 2 ^ 32 := by simp only [List.length_append] at hl; omega
  have hl2 : ([] ++ bs ++ []).length < 2 ^ 64 := by simp; omega
  have h1 := readItem_seen hd hl1 [] [] rfl hl2
  rw [readItem_der hd hr hl1 [] [] rfl hl2] at h1
  simp only [Prod.mk.injEq, Except.ok.injEq, and_true] at h1
  rw [main_eq hn hf hh hd hl, ← h1]
  constructor
  · unfold toolOutput
    split
    · exact List.prefix_rfl
    · split
      · exact List.prefix_rfl
      · split
        · exact List.prefix_append _ _
        · exact List.prefix_rfl
  · intro ho
    rw [ho]
    rfl

/-- No file makes the program panic, and reading ends. -/
theorem C195_no_panic (n : Nat) (files : String → Option Bytes) (canWrite : String → Bool) (opt : ToolOpt) :
    (toolMain n files canWrite opt).stop ≠ .read .panic ∧ (toolMain n files canWrite opt).stop ≠ .read .fuel ∧
    (toolMain n files canWrite opt).stop ≠ .write .panic := by
  unfold toolMain
  cases files opt.input with
  | none => exact ⟨nofun, nofun, nofun⟩
  | some raw =>
    simp only
    cases toolData n raw with
    | error e => exact ⟨nofun, nofun, nofun⟩
    | ok data =>
      simp only
      obtain ⟨res, o', hr, -, -, h1, h2⟩ := C63_total data 0 (Nat.zero_le _)
      rw [hr]
      cases res with
      | error e =>
        simp only [ne_eq, Except.error.injEq, ToolEnd.read.injEq, reduceCtorEq, not_false_eq_true, and_true] at h1 h2 ⊢
        exact ⟨h1, h2⟩
      | ok item =>
        simp only
        unfold toolOutput
        split
        · exact ⟨nofun, nofun, nofun⟩
        · rcases enc_read item (item_read (Nat.zero_le _) (by rw [hr])) with ⟨-, he⟩ | ⟨-, bs, he⟩
          · rw [he]; exact ⟨nofun, nofun, nofun⟩
          · rw [he]
            simp only
            split <;> exact ⟨nofun, nofun, nofun⟩

/-- Of whatever can be read a copy is made, unless an element of unknown kind occurs in it. -/
theorem C195_copies_known (n : Nat) (files : String → Option Bytes) (canWrite : String → Bool) (opt : ToolOpt) (name : String)
    (raw data : Bytes) (item : Item) (hf : files opt.input = some raw) (hd : toolData n raw = .ok data)
    (hi : (readItem ⟨data, 0⟩).1 = .ok item) (ho : opt.output = some name) (hw : canWrite name = true) :
    ((∃ id len, Occurs (.unknown id len) item) → (toolMain n files canWrite opt).stop = .write .invalidData) ∧
    ((¬ ∃ id len, Occurs (.unknown id len) item) →
      ∃ bs, encodeItem item = .ok bs ∧ (toolMain n files canWrite opt).written = some (name, bs) ∧
        (toolMain n files canWrite opt).stop = .success) := by
  simp only [toolMain, hf, hd, hi, toolOutput, ho]
  rcases enc_read item (item_read (Nat.zero_le _) hi) with ⟨hu, he⟩ | ⟨hu, bs, he⟩
  · exact ⟨fun _ => by rw [he], fun h => absurd hu h⟩
  · refine ⟨fun h => absurd h hu, fun _ => ⟨bs, he, ?_⟩⟩
    rw [he]
    simp only [hw, if_true]
    trivial

/-- Only a run that succeeds and was asked for a copy writes one, and under the name that was asked for. -/
theorem C195_no_stray_file (n : Nat) (files : String → Option Bytes) (canWrite : String → Bool) (opt : ToolOpt) (name : String) (bs : Bytes)
    (h : (toolMain n files canWrite opt).written = some (name, bs)) :
    opt.output = some name ∧ canWrite name = true ∧ (toolMain n files canWrite opt).stop = .success := by
  unfold toolMain at h ⊢
  cases hf : files opt.input with
  | none => rw [hf] at h; simp at h
  | some raw =>
    rw [hf] at h
    simp only at h ⊢
    cases hd : toolData n raw with
    | error e => rw [hd] at h; simp at h
    | ok data =>
      rw [hd] at h
      simp only at h ⊢
      cases hr : (readItem ⟨data, 0⟩).1 with
      | error e => rw [hr] at h; simp at h
      | ok item =>
        rw [hr] at h
        simp only at h ⊢
        unfold toolOutput at h ⊢
        cases ho : opt.output with
        | none => rw [ho] at h; simp at h
        | some m =>
          rw [ho] at h
          simp only at h ⊢
          cases he : encodeItem item with
          | error e => rw [he] at h; simp at h
          | ok d =>
            rw [he] at h
            simp only at h ⊢
            by_cases hw : canWrite m = true
            · rw [if_pos hw] at h ⊢
              simp only [Option.some.injEq, Prod.mk.injEq] at h
              exact ⟨by rw [h.1], h.1 ▸ hw, rfl⟩
            · rw [if_neg hw] at h; simp at h

/-- An object identifier that is shown wrongly is copied correctly: 2.47, with the rest behind it dropped. -/
example : (toolMain 6 (fun _ => some [0x30, 3, 6, 1, 127, 9, 9]) (fun _ => true) ⟨true, "in", some "out"⟩).written =
    some ("out", [0x30, 3, 6, 1, 127]) :=
  (C195_copied_partial 6 _ _ _ _ _ [0x30, 3, 6, 1, 127] [9, 9]
    (.mk 0 5 (.sequence [.mk 2 5 (.objectIdentifier [2, 47])])) (by decide) rfl (.inl rfl)
    (.mk (.sequence (d := [6, 1, 127]) (.cons (b := [6, 1, 127]) (bs := []) (.mk (.objectIdentifier (d := [127])
      ⟨2, 47, [], [[127]], rfl, by decide, by decide, .cons ⟨by decide, by decide, [], 127, rfl, by simp, by decide⟩ .nil, rfl⟩
      ⟨by decide, [1], .inl ⟨by decide, rfl⟩, rfl⟩)) .nil) ⟨by decide, [3], .inl ⟨by decide, rfl⟩, rfl⟩)) (by decide) rfl rfl
    (by
      intro v hv
      cases hv with
      | here => trivial
      | sequence hm hv =>
        simp only [List.mem_singleton] at hm
        subst hm
        cases hv
        exact ⟨by decide, by simp⟩)).1

/-- A structure with an element of unknown kind is shown but not copied. -/
example : (toolMain 6 (fun _ => some [0x30, 2, 0x80, 0]) (fun _ => true) ⟨false, "in", some "out"⟩).stop = .write .invalidData :=
  (C195_copies_known 6 _ _ _ "out" _ [0x30, 2, 0x80, 0] (.mk 0 4 (.sequence [.mk 2 4 (.unknown ⟨.contextSpecific, .primitive, 0⟩ 0)]))
    rfl rfl (by with_unfolding_all rfl) rfl rfl).1 ⟨_, _, .sequence (List.mem_singleton.mpr rfl) .here⟩

end Ngfs.Asn1
