import Verif.Lemmas.BinaryWrite
import Verif.Lemmas.BinarySafe

/-!
# Binary reader and writer: C18 - C21
-/
namespace Ngfs.Binary

open Ngfs.Spec

/-! ## C18: the reader never leaves its buffer -/

/-- Everything that can be put together from the public operations of the reader: single
operations, arbitrary (data-dependent) sequencing, nested readers, lists of such things.
`peeks` marks programs that look at the rest of the buffer without consuming it
(`remaining_data`, `expect_eof`) outside a nested reader. -/
inductive Built : (peeks : Bool) → {α : Type} → RM α → Prop
  | pure {b : Bool} {α : Type} (v : α) : Built b (Pure.pure v : RM α)
  | throw {b : Bool} {α : Type} (e : BinErr) (h1 : e ≠ .panic) (h2 : e ≠ .fuel) :
      Built b (throw e : RM α)
  | bind {b : Bool} {α β : Type} {p : RM α} {f : α → RM β} (hp : Built b p)
      (hf : ∀ a, Built b (f a)) : Built b (p >>= f)
  | u8 {b : Bool} : Built b readU8
  | u16 {b : Bool} : Built b readU16
  | u24 {b : Bool} : Built b readU24
  | u32 {b : Bool} : Built b readU32
  | u64 {b : Bool} : Built b readU64
  | quicVarint {b : Bool} : Built b readQuicVarint
  | fixed {b : Bool} (n : Nat) : Built b (readFixed n)
  | len8Bytes {b : Bool} : Built b readLen8Bytes
  | len16Bytes {b : Bool} : Built b readLen16Bytes
  | len24Bytes {b : Bool} : Built b readLen24Bytes
  | len8List {b c : Bool} {α : Type} {item : RM α} (h : Built c item) : Built b (readLen8List item)
  | len16List {b c : Bool} {α : Type} {item : RM α} (h : Built c item) : Built b (readLen16List item)
  | len24List {b c : Bool} {α : Type} {item : RM α} (h : Built c item) : Built b (readLen24List item)
  | nested {b c : Bool} {α : Type} (n : Nat) {p : Reader → RM α} (h : ∀ r, Built c (p r)) :
      Built b (readNested n >>= fun inner => onReader inner (p inner))
  | remainingData : Built true remainingData
  | expectEof : Built true expectEof

/-- C18. Whatever is built from the reader's operations, from any legal state, on success and on
failure: the buffer is untouched, the position only moves forward and stays within the buffer,
nothing is read out of bounds (no panic) and no loop runs forever. -/
theorem C18_reads_in_bounds {b : Bool} {α : Type} {p : RM α} (h : Built b p) : Safe p := by
  induction h with
  | pure v => exact safe_pure v
  | throw e h1 h2 => exact safe_throw h1 h2
  | bind _ _ ih1 ih2 => exact safe_bind ih1 ih2
  | u8 => exact safe_u8
  | u16 => exact safe_uint 2
  | u24 => exact safe_uint 3
  | u32 => exact safe_uint 4
  | u64 => exact safe_uint 8
  | quicVarint => exact safe_quicVarint
  | fixed n => exact safe_fixed n
  | len8Bytes => exact safe_len8Bytes
  | len16Bytes => exact safe_len16Bytes
  | len24Bytes => exact safe_len24Bytes
  | len8List _ ih => exact safe_len8List ih
  | len16List _ ih => exact safe_len16List ih
  | len24List _ ih => exact safe_len24List ih
  | nested n _ ih => exact safe_nested n (fun inner hi => ⟨(ih inner inner hi).2.2.2.1, (ih inner inner hi).2.2.2.2⟩)
  | remainingData => exact safe_remainingData
  | expectEof => exact safe_expectEof

/-- C18. A nested reader of `n` bytes sees the next `n` bytes and none behind them, whatever is done with it, and the
outer reader stands behind them. -/
theorem C18_nested_confined (n : Nat) (r : Reader) (inner r' : Reader) (h : readNested n r = (.ok inner, r')) :
    r' = ⟨r.buf, r.offset + n⟩ ∧ inner.offset = r.offset ∧ inner.buf.length = r.offset + n ∧
    inner.buf <+: r.buf ∧ ∀ {b : Bool} {α : Type} {p : RM α}, Built b p → r.offset ≤ (p inner).2.offset ∧
      (p inner).2.offset ≤ r.offset + n := by
  obtain ⟨e, s, h1, h2⟩ := bind_ok_inv h
  simp only [checkAvailable] at h1
  split at h1
  · split at h1
    · rename_i hl
      simp only [Prod.mk.injEq, Except.ok.injEq] at h1
      obtain ⟨rfl, rfl⟩ := h1
      simp only [act_apply, Prod.mk.injEq, Except.ok.injEq] at h2
      obtain ⟨rfl, rfl⟩ := h2
      have hlen : (r.buf.take (r.offset + n)).length = r.offset + n := by simp; omega
      refine ⟨rfl, rfl, hlen, List.take_prefix _ _, fun hb => ?_⟩
      have hi : InBounds ⟨r.buf.take (r.offset + n), r.offset⟩ := by simp only [InBounds, hlen]; omega
      obtain ⟨e1, e2, e3, -⟩ := C18_reads_in_bounds hb _ hi
      refine ⟨e2, ?_⟩
      have e3' : _ ≤ _ := e3
      rwa [e1, hlen] at e3'
    · simp at h1
  · simp at h1

/-- C18. A successful read depends only on the bytes before the position where it stopped: any
other buffer that agrees with the first one up to there gives the same result and position. -/
theorem C18_depends_on_consumed_only {α : Type} {p : RM α} (h : Built false p)
    (buf buf' : Bytes) (o : Nat) (v : α) (r' : Reader) (ho : o ≤ buf.length)
    (hp : p ⟨buf, o⟩ = (.ok v, r'))
    (hsame : buf'.take r'.offset = buf.take r'.offset) (hlen : r'.offset ≤ buf'.length) :
    p ⟨buf', o⟩ = (.ok v, ⟨buf', r'.offset⟩) := by
  have key : ∀ (b : Bool) (α : Type) (p : RM α), Built b p → b = false → NoPeek p := by
    intro b α p h
    induction h with
    | pure v => intro _; exact noPeek_pure v
    | throw e _ _ => intro _; exact noPeek_throw e
    | bind h1 h2 ih1 ih2 =>
      intro hb
      exact noPeek_bind (C18_reads_in_bounds h1) (fun a => C18_reads_in_bounds (h2 a)) (ih1 hb)
        (fun a => ih2 a hb)
    | u8 => intro _; exact noPeek_u8
    | u16 => intro _; exact noPeek_uint 2
    | u24 => intro _; exact noPeek_uint 3
    | u32 => intro _; exact noPeek_uint 4
    | u64 => intro _; exact noPeek_uint 8
    | quicVarint =>
      intro _
      have hl : ∀ n v, NoPeek (varintLoop n v) := by
        intro n
        induction n with
        | zero => intro v; exact noPeek_pure v
        | succ n ih =>
          intro v
          exact noPeek_bind safe_u8 (fun _ => safe_varintLoop _ _) noPeek_u8 (fun b => ih _)
      exact noPeek_bind safe_u8 (fun _ => safe_varintLoop _ _) noPeek_u8 (fun _ => hl _ _)
    | fixed n => intro _; exact noPeek_fixed n
    | len8Bytes => intro _; exact noPeek_bind safe_u8 (fun _ => safe_fixed _) noPeek_u8 (fun _ => noPeek_fixed _)
    | len16Bytes =>
      intro _
      exact noPeek_bind (safe_uint 2) (fun _ => safe_fixed _) (noPeek_uint 2) (fun _ => noPeek_fixed _)
    | len24Bytes =>
      intro _
      exact noPeek_bind (safe_uint 3) (fun _ => safe_fixed _) (noPeek_uint 3) (fun _ => noPeek_fixed _)
    | len8List hi _ =>
      intro _
      exact noPeek_bind safe_u8 (fun _ => safe_fixedList (C18_reads_in_bounds hi) _) noPeek_u8
        (fun _ => noPeek_nested _ _)
    | len16List hi _ =>
      intro _
      exact noPeek_bind (safe_uint 2) (fun _ => safe_fixedList (C18_reads_in_bounds hi) _) (noPeek_uint 2)
        (fun _ => noPeek_nested _ _)
    | len24List hi _ =>
      intro _
      exact noPeek_bind (safe_uint 3) (fun _ => safe_fixedList (C18_reads_in_bounds hi) _) (noPeek_uint 3)
        (fun _ => noPeek_nested _ _)
    | nested n _ _ => intro _; exact noPeek_nested n _
    | remainingData => intro hb; cases hb
    | expectEof => intro hb; cases hb
  exact key false α p h rfl buf buf' o v r' ho hp hsame hlen

/-- C18. Fixed-size reads: from a position behind `pre`, reading `n` bytes succeeds exactly when
`n` more bytes are there, returns exactly them and moves by `n`; otherwise the position stays. -/
theorem C18_fixed_exact (pre rest : Bytes) (n : Nat) (hl : pre.length + rest.length < 2 ^ 64) :
    (n ≤ rest.length →
      readFixed n ⟨pre ++ rest, pre.length⟩ = (.ok (rest.take n), ⟨pre ++ rest, pre.length + n⟩)) ∧
    (rest.length < n →
      ∃ e, readFixed n ⟨pre ++ rest, pre.length⟩ = (.error e, ⟨pre ++ rest, pre.length⟩)) := by
  constructor
  · intro hn
    have h := readsAs_fixed' (n := n) (rest.take n) (by simp [hn]) pre (rest.drop n)
      (by simp only [List.length_append, List.length_take, List.length_drop]; omega)
    rw [List.append_assoc, List.take_append_drop, List.length_take, Nat.min_eq_left hn] at h
    exact h
  · intro hn
    by_cases hu : pre.length + n < usizeLimit
    · exact ⟨.unexpectedEof pre.length n, by
        rw [readFixed]; apply bind_error; simp [checkAvailable, hu]; omega⟩
    · exact ⟨.sizeOverflow pre.length n, by
        rw [readFixed]; apply bind_error; simp [checkAvailable, hu]⟩

/-- C18. A nested reader of `n` bytes sees exactly the `n` bytes the parent announced: they are the
last bytes of its buffer, and the parent continues behind them. -/
theorem C18_nested_sees_only_its_bytes (pre body post : Bytes)
    (hl : (pre ++ body ++ post).length < 2 ^ 64) :
    readNested body.length ⟨pre ++ body ++ post, pre.length⟩
      = (.ok ⟨pre ++ body, pre.length⟩, ⟨pre ++ body ++ post, pre.length + body.length⟩) := by
  rw [readNested, bind_ok (checkAvailable_at pre body post hl), act_apply]
  have : pre.length + body.length = (pre ++ body).length := by simp
  rw [this, List.take_left]

example : Built true (do
    let n ← readU8
    let xs ← readLen16List (do let a ← readU16; let d ← readLen8Bytes; pure (a, d))
    let rest ← remainingData
    pure (n, xs, rest)) :=
  .bind .u8 fun _ => .bind (.len16List (.bind .u16 fun _ => .bind (.len8Bytes (b := false)) fun _ => .pure _))
    fun _ => .bind .remainingData fun _ => .pure _

/-! ## C19: round trip -/

/-- C19. An integer that fits its width (8, 16, 24, 32, 64 bits) is appended as that many bytes,
most significant first, and read back from wherever they end up. -/
theorem C19_integers (w n : Nat) (hn : n < 256 ^ w) :
    ∃ enc : Bytes, enc.length = w ∧ bigEndian enc = n ∧ ReadsAs (readUint w) enc n ∧
      (w = 1 → Appends (writeU8 (UInt8.ofNat n)) enc ∧ ReadsAs readU8 enc (UInt8.ofNat n)) ∧
      (w = 2 → Appends (writeU16 n) enc ∧ ReadsAs readU16 enc n) ∧
      (w = 3 → Appends (writeU24 n) enc ∧ ReadsAs readU24 enc n) ∧
      (w = 4 → Appends (writeU32 n) enc ∧ ReadsAs readU32 enc n) ∧
      (w = 8 → Appends (writeU64 n) enc ∧ ReadsAs readU64 enc n) := by
  refine ⟨beBytes w n, beBytes_length w n, ?_, readsAs_uint_be hn, ?_, ?_, ?_, ?_, ?_⟩
  · rw [bigEndian_beBytes, Nat.mod_eq_of_lt hn]
  · rintro rfl
    have e : beBytes 1 n = [UInt8.ofNat n] := by simp [beBytes]
    rw [e]
    exact ⟨fun s => rfl, readsAs_u8 _⟩
  · rintro rfl; exact ⟨fun s => rfl, readsAs_uint_be hn⟩
  · rintro rfl; exact ⟨fun s => rfl, readsAs_uint_be hn⟩
  · rintro rfl; exact ⟨fun s => rfl, readsAs_uint_be hn⟩
  · rintro rfl; exact ⟨fun s => rfl, readsAs_uint_be hn⟩

/-- C19. Conversely every `w` bytes are read as the number they write in base 256. -/
theorem C19_integers_read (bs : Bytes) : ReadsAs (readUint bs.length) bs (bigEndian bs) := by
  have := readsAs_uint bs
  rwa [beNat_eq] at this

/-- C19. Length-prefixed byte strings. -/
theorem C19_byte_strings (d : Bytes) :
    (d.length < 2 ^ 8 → ∃ enc, Appends (writeLen8Bytes d) enc ∧ enc.length = 1 + d.length ∧
      ReadsAs readLen8Bytes enc d) ∧
    (d.length < 2 ^ 16 → ∃ enc, Appends (writeLen16Bytes d) enc ∧ enc.length = 2 + d.length ∧
      ReadsAs readLen16Bytes enc d) ∧
    (d.length < 2 ^ 24 → ∃ enc, Appends (writeLen24Bytes d) enc ∧ enc.length = 3 + d.length ∧
      ReadsAs readLen24Bytes enc d) := by
  refine ⟨fun h => ?_, fun h => ?_, fun h => ?_⟩
  · refine ⟨_, fun s => ?_, ?_, readsAs_len8 (by omega)⟩
    · rw [len8Bytes_eq, if_pos (by omega)]; rfl
    · simp; omega
  · refine ⟨_, fun s => ?_, ?_, readsAs_len16 (by omega)⟩
    · rw [len16Bytes_eq, if_pos (by omega)]
    · simp
  · refine ⟨_, fun s => ?_, ?_, readsAs_len24 h⟩
    · rw [len24Bytes_eq, if_pos h]
    · simp

/-- C19. Length-prefixed lists of anything that itself round-trips: if every item is written as a
non-empty byte string that its reader reads back, and the total fits the prefix, then the list is
written as the prefix and the items, and read back as the same list. -/
theorem C19_lists {α : Type} (write : α → WM Unit) (read : RM α) (enc : α → Bytes) (items : List α)
    (hw : ∀ a ∈ items, Appends (write a) (enc a)) (hr : ∀ a ∈ items, ReadsAs read (enc a) a)
    (hne : ∀ a ∈ items, enc a ≠ []) :
    ((items.flatMap enc).length < 2 ^ 8 → ∃ out, Appends (writeLen8List write items) out ∧
      out.length = 1 + (items.flatMap enc).length ∧ ReadsAs (readLen8List read) out items) ∧
    ((items.flatMap enc).length < 2 ^ 16 → ∃ out, Appends (writeLen16List write items) out ∧
      out.length = 2 + (items.flatMap enc).length ∧ ReadsAs (readLen16List read) out items) ∧
    ((items.flatMap enc).length < 2 ^ 24 → ∃ out, Appends (writeLen24List write items) out ∧
      out.length = 3 + (items.flatMap enc).length ∧ ReadsAs (readLen24List read) out items) := by
  have hg : ∀ a ∈ items, Grows (write a) := fun a ha => Grows.of_appends (hw a ha)
  have hi := appends_items hw
  have hf : List.Forall₂ (fun e v => ReadsAs read e v ∧ 0 < e.length) (items.map enc) items := by
    clear hi hg hw
    induction items with
    | nil => exact .nil
    | cons a as ih =>
      refine .cons ⟨hr a (by simp), List.length_pos_iff.mpr (hne a (by simp))⟩ (ih ?_ ?_)
      · intro b hb; exact hr b (by simp [hb])
      · intro b hb; exact hne b (by simp [hb])
  have hfl : (items.map enc).flatten = items.flatMap enc := by simp [List.flatMap]
  refine ⟨fun h => ?_, fun h => ?_, fun h => ?_⟩
  · refine ⟨_, fun s => ?_, ?_, by have := readsAs_len8List hf (by rw [hfl]; omega); rw [hfl] at this; exact this⟩
    · rw [len8List_eq _ _ hg, hi]
      have : (s ++ [0] ++ items.flatMap enc).drop (s.length + 1) = items.flatMap enc := by
        have : s.length + 1 = (s ++ [(0 : UInt8)]).length := by simp
        rw [this, List.drop_left]
      simp only [this]
      rw [if_pos (by omega)]; rfl
    · simp only [List.length_cons]; omega
  · refine ⟨_, fun s => ?_, ?_, by have := readsAs_len16List hf (by rw [hfl]; omega); rw [hfl] at this; exact this⟩
    · rw [len16List_eq _ _ hg, hi]
      have : (s ++ [0, 0] ++ items.flatMap enc).drop (s.length + 2) = items.flatMap enc := by
        have : s.length + 2 = (s ++ [(0 : UInt8), 0]).length := by simp
        rw [this, List.drop_left]
      simp only [this]
      rw [if_pos (by omega)]
    · simp only [List.length_append, beBytes_length]
  · refine ⟨_, fun s => ?_, ?_, by have := readsAs_len24List hf (by rw [hfl]; exact h); rw [hfl] at this; exact this⟩
    · rw [len24List_eq _ _ hg, hi]
      have : (s ++ [0, 0, 0] ++ items.flatMap enc).drop (s.length + 3) = items.flatMap enc := by
        have : s.length + 3 = (s ++ [(0 : UInt8), 0, 0]).length := by simp
        rw [this, List.drop_left]
      simp only [this]
      rw [if_pos h]
    · simp only [List.length_append, beBytes_length]

example : ReadsAs readU24 [0x01, 0x02, 0x03] 66051 := by
  have := C19_integers_read [0x01, 0x02, 0x03]
  have e : bigEndian [0x01, 0x02, 0x03] = 66051 := by decide
  rw [e] at this
  exact this

/-! ## C20: length-prefixed writes are all-or-nothing -/

/-- C20, byte strings: either the prefix (the exact length, big endian) and the whole content are
appended, or the output is unchanged; failure happens exactly when the content does not fit. -/
theorem C20_byte_strings (d s : Bytes) :
    (if d.length < 2 ^ 8 then ∃ p, writeLen8Bytes d s = (.ok (), s ++ (p ++ d)) ∧ p.length = 1 ∧ bigEndian p = d.length
      else writeLen8Bytes d s = (.error .valueTooLarge, s)) ∧
    (if d.length < 2 ^ 16 then ∃ p, writeLen16Bytes d s = (.ok (), s ++ (p ++ d)) ∧ p.length = 2 ∧ bigEndian p = d.length
      else writeLen16Bytes d s = (.error .valueTooLarge, s)) ∧
    (if d.length < 2 ^ 24 then ∃ p, writeLen24Bytes d s = (.ok (), s ++ (p ++ d)) ∧ p.length = 3 ∧ bigEndian p = d.length
      else writeLen24Bytes d s = (.error .valueTooLarge, s)) := by
  refine ⟨?_, ?_, ?_⟩
  · split
    · rename_i h
      refine ⟨[UInt8.ofNat d.length], ?_, rfl, ?_⟩
      · rw [len8Bytes_eq, if_pos (by omega)]
      · rw [bigEndian_cons, toNat_ofNat_lt (by omega)]; simp [bigEndian, Nat.ofDigits]
    · rename_i h; rw [len8Bytes_eq, if_neg (by omega)]
  · split
    · rename_i h
      refine ⟨beBytes 2 d.length, ?_, by simp, ?_⟩
      · rw [len16Bytes_eq, if_pos (by omega)]
      · rw [bigEndian_beBytes]; apply Nat.mod_eq_of_lt; norm_num at *; omega
    · rename_i h; rw [len16Bytes_eq, if_neg (by omega)]
  · split
    · rename_i h
      refine ⟨beBytes 3 d.length, ?_, by simp, ?_⟩
      · rw [len24Bytes_eq, if_pos h]
      · rw [bigEndian_beBytes]; apply Nat.mod_eq_of_lt; norm_num at *; omega
    · rename_i h; rw [len24Bytes_eq, if_neg h]

/-- What a length-prefixed write of width `w` bytes must do: with `content` the outcome of writing
the items behind the prefix, either append prefix and content, or fail and leave the output alone;
and fail exactly if an item failed or the content does not fit. -/
def AllOrNothing (w : Nat) (write : WM Unit) (items : WM Unit) (s : Bytes) : Prop :=
  match items (s ++ List.replicate w 0) with
  | (.ok (), s') => ∃ content, s' = s ++ List.replicate w 0 ++ content ∧
      if content.length < 256 ^ w then
        ∃ p, write s = (.ok (), s ++ (p ++ content)) ∧ p.length = w ∧ bigEndian p = content.length
      else write s = (.error .valueTooLarge, s)
  | (.error e, _) => write s = (.error e, s)

/-- C20, lists: for item writers that only add bytes (even when they fail half-way). -/
theorem C20_lists {α : Type} (item : α → WM Unit) (items : List α)
    (h : ∀ a ∈ items, Grows (item a)) (s : Bytes) :
    AllOrNothing 1 (writeLen8List item items) (writeItems item items) s ∧
    AllOrNothing 2 (writeLen16List item items) (writeItems item items) s ∧
    AllOrNothing 3 (writeLen24List item items) (writeItems item items) s := by
  refine ⟨?_, ?_, ?_⟩
  · unfold AllOrNothing
    show match writeItems item items (s ++ [0]) with | (.ok (), s') => _ | (.error e, _) => _
    obtain ⟨t, ht⟩ := grows_items h (s ++ [0])
    have heq := len8List_eq item items h s
    rcases hw : writeItems item items (s ++ [0]) with ⟨r, s'⟩
    rw [hw] at ht heq
    simp only at ht
    subst ht
    cases r with
    | error e => exact heq
    | ok u =>
      refine ⟨t, rfl, ?_⟩
      have hd : (s ++ [0] ++ t).drop (s.length + 1) = t := by
        have : s.length + 1 = (s ++ [(0 : UInt8)]).length := by simp
        rw [this, List.drop_left]
      simp only [hd] at heq
      split
      · rename_i hc
        rw [if_pos (by omega)] at heq
        refine ⟨[UInt8.ofNat t.length], heq, rfl, ?_⟩
        rw [bigEndian_cons, toNat_ofNat_lt (by omega)]; simp [bigEndian, Nat.ofDigits]
      · rename_i hc
        rwa [if_neg (by omega)] at heq
  · unfold AllOrNothing
    show match writeItems item items (s ++ [0, 0]) with | (.ok (), s') => _ | (.error e, _) => _
    obtain ⟨t, ht⟩ := grows_items h (s ++ [0, 0])
    have heq := len16List_eq item items h s
    rcases hw : writeItems item items (s ++ [0, 0]) with ⟨r, s'⟩
    rw [hw] at ht heq
    simp only at ht
    subst ht
    cases r with
    | error e => exact heq
    | ok u =>
      refine ⟨t, rfl, ?_⟩
      have hd : (s ++ [0, 0] ++ t).drop (s.length + 2) = t := by
        have : s.length + 2 = (s ++ [(0 : UInt8), 0]).length := by simp
        rw [this, List.drop_left]
      simp only [hd] at heq
      split
      · rename_i hc
        rw [if_pos (by omega)] at heq
        refine ⟨beBytes 2 t.length, heq, by simp, ?_⟩
        rw [bigEndian_beBytes, Nat.mod_eq_of_lt hc]
      · rename_i hc
        rwa [if_neg (by omega)] at heq
  · unfold AllOrNothing
    show match writeItems item items (s ++ [0, 0, 0]) with | (.ok (), s') => _ | (.error e, _) => _
    obtain ⟨t, ht⟩ := grows_items h (s ++ [0, 0, 0])
    have heq := len24List_eq item items h s
    rcases hw : writeItems item items (s ++ [0, 0, 0]) with ⟨r, s'⟩
    rw [hw] at ht heq
    simp only at ht
    subst ht
    cases r with
    | error e => exact heq
    | ok u =>
      refine ⟨t, rfl, ?_⟩
      have hd : (s ++ [0, 0, 0] ++ t).drop (s.length + 3) = t := by
        have : s.length + 3 = (s ++ [(0 : UInt8), 0, 0]).length := by simp
        rw [this, List.drop_left]
      simp only [hd] at heq
      split
      · rename_i hc
        rw [if_pos (by omega)] at heq
        refine ⟨beBytes 3 t.length, heq, by simp, ?_⟩
        rw [bigEndian_beBytes, Nat.mod_eq_of_lt hc]
      · rename_i hc
        rwa [if_neg (by omega)] at heq

/-- C20 for the 16-bit nested block, in full: as for the other length-prefixed writes. -/
def C20_nested_statement : Prop :=
  ∀ (f : WM Unit), Grows f → ∀ s, AllOrNothing 2 (writeU16Nested f) f s

/-- C20 for the 16-bit nested block does not hold: content of 65536 bytes is accepted and
announced as empty. -/
theorem C20_nested_false : ¬ C20_nested_statement := by
  intro h
  obtain ⟨d, hdl⟩ : ∃ d : Bytes, d.length = 65536 := ⟨List.replicate 65536 0, List.length_replicate⟩
  have h1 := h (writeRaw d) (grows_raw _) []
  unfold AllOrNothing at h1
  simp only [writeRaw] at h1
  obtain ⟨c, hc, h2⟩ := h1
  have hl : c.length = 65536 := by
    have := congrArg List.length hc
    simp only [List.length_append] at this
    omega
  rw [if_neg (by rw [hl]; norm_num)] at h2
  have h3 := u16Nested_eq (writeRaw d) (grows_raw _) []
  have h2' : writeU16Nested (writeRaw d) [] = (.error .valueTooLarge, []) := h2
  rw [h2'] at h3
  simp [writeRaw] at h3

/-- C20 for the 16-bit nested block, the part that holds: if the content is shorter than 65536
bytes (or fails), the write is all-or-nothing. Missing: refusal of longer content. -/
theorem C20_nested_partial (f : WM Unit) (hf : Grows f) (s : Bytes)
    (hsmall : (f (s ++ [0, 0])).2.length < s.length + 2 + 65536) :
    AllOrNothing 2 (writeU16Nested f) f s := by
  unfold AllOrNothing
  show match f (s ++ [0, 0]) with | (.ok (), s') => _ | (.error e, _) => _
  obtain ⟨t, ht⟩ := hf (s ++ [0, 0])
  have heq := u16Nested_eq f hf s
  rcases hw : f (s ++ [0, 0]) with ⟨r, s'⟩
  rw [hw] at ht heq hsmall
  simp only at ht
  subst ht
  cases r with
  | error e => exact heq
  | ok u =>
    have hd : (s ++ [0, 0] ++ t).drop (s.length + 2) = t := by
      have : s.length + 2 = (s ++ [(0 : UInt8), 0]).length := by simp
      rw [this, List.drop_left]
    simp only [hd] at heq
    have hc : t.length < 256 ^ 2 := by
      simp only [List.length_append, List.length_cons, List.length_nil] at hsmall; omega
    refine ⟨t, rfl, ?_⟩
    rw [if_pos hc]
    refine ⟨beBytes 2 t.length, heq, by simp, ?_⟩
    rw [bigEndian_beBytes, Nat.mod_eq_of_lt hc]

/-- C20: what the nested block does with content of any length: the announced length is the
content's length modulo 65536. -/
theorem C20_nested_announces_mod (f : WM Unit) (content s : Bytes) (hf : Appends f content) :
    ∃ p, writeU16Nested f s = (.ok (), s ++ (p ++ content)) ∧ p.length = 2 ∧
      bigEndian p = content.length % 65536 := by
  have heq := u16Nested_eq f (Grows.of_appends hf) s
  rw [hf] at heq
  have hd : (s ++ [0, 0] ++ content).drop (s.length + 2) = content := by
    have : s.length + 2 = (s ++ [(0 : UInt8), 0]).length := by simp
    rw [this, List.drop_left]
  simp only [hd] at heq
  exact ⟨_, heq, by simp, by rw [bigEndian_beBytes]; norm_num⟩

example : AllOrNothing 2 (writeLen16List writeLen8Bytes [[1, 2], [3]])
    (writeItems writeLen8Bytes [[1, 2], [3]]) [9] :=
  (C20_lists writeLen8Bytes [[1, 2], [3]] (fun a _ => grows_len8Bytes a) [9]).2.1

/-! ## C21: QUIC integers -/

/-- C21. Every integer below 2^62 is read back unchanged, from wherever it was written. -/
theorem C21_round_trip (v : Nat) (h : v < 2 ^ 62) :
    ∃ enc, Appends (writeQuicVarint v) enc ∧ ReadsAs readQuicVarint enc v := by
  have := readsAs_quicVarint v
  rw [Nat.mod_eq_of_lt h] at this
  exact ⟨quicVarintBytes v, fun _ => rfl, this⟩

/-- C21. The shortest of the 1, 2, 4 and 8 byte forms is used: any byte string of a legal length
that is read as `v` is at least as long as what is written for `v`. -/
theorem C21_shortest (v : Nat) (h : v < 2 ^ 62) (enc enc' : Bytes)
    (hw : Appends (writeQuicVarint v) enc) (hr : ReadsAs readQuicVarint enc' v) :
    enc.length ≤ enc'.length ∧ enc.length ∈ [1, 2, 4, 8] := by
  have he : enc = quicVarintBytes v := by
    have := hw []
    simpa [writeQuicVarint, writeRaw] using this.symm
  subst he
  rw [quicVarintBytes_length]
  refine ⟨?_, by split <;> [simp; split <;> [simp; split <;> simp]]⟩
  cases enc' with
  | nil =>
    have := hr [] [] (by simp)
    have hu : readU8 ⟨[], 0⟩ = (.error (.unexpectedEof 0 1), ⟨[], 0⟩) := by
      rw [readU8]; apply bind_error; simp [checkAvailable]
    have h0 : readQuicVarint ⟨[], 0⟩ = (.error (.unexpectedEof 0 1), ⟨[], 0⟩) := by
      rw [readQuicVarint]; exact bind_error hu
    simp [h0] at this
  | cons b rest =>
    -- pad the rest so that the form announced by the first byte is complete
    obtain ⟨k, hk⟩ : ∃ k, (b >>> (6 : UInt8)).toNat = k := ⟨_, rfl⟩
    have hk4 : k < 4 := by rw [← hk, u8_shift6]; have := u8_lt b; omega
    let full := rest ++ List.replicate 8 (0 : UInt8)
    have hsz : 2 ^ k - 1 ≤ 7 := by
      have : k = 0 ∨ k = 1 ∨ k = 2 ∨ k = 3 := by omega
      rcases this with rfl | rfl | rfl | rfl <;> norm_num
    by_cases hbig : (b :: rest).length < 9
    · have hlen : (full.take (2 ^ k - 1)).length = 2 ^ k - 1 := by simp [full]; omega
      have h1 := readsAs_quic hk hlen
      have h2 := h1 [] (full.drop (2 ^ k - 1)) (by
        simp only [List.length_append, List.length_cons, List.length_nil, List.length_drop, hlen, full,
          List.length_replicate] at *; omega)
      have h3 := hr [] (List.replicate 8 0) (by
        simp only [List.length_append, List.length_cons, List.length_nil, List.length_replicate] at *; omega)
      have hbuf : [] ++ (b :: full.take (2 ^ k - 1)) ++ full.drop (2 ^ k - 1)
          = [] ++ (b :: rest) ++ List.replicate 8 (0 : UInt8) := by simp [full]
      rw [hbuf] at h2
      rw [h2] at h3
      simp only [Prod.mk.injEq, Except.ok.injEq, Reader.mk.injEq, List.length_nil, Nat.zero_add,
        List.length_cons, hlen] at h3
      obtain ⟨hv, _, hl⟩ := h3
      have hv' : v < 64 * 256 ^ (2 ^ k - 1) := by
        rw [← hv]
        have a1 : b.toNat % 64 < 64 := Nat.mod_lt _ (by norm_num)
        have a2 := bigEndian_lt (full.take (2 ^ k - 1))
        rw [hlen] at a2
        nlinarith
      rw [List.length_cons, ← hl]
      have : k = 0 ∨ k = 1 ∨ k = 2 ∨ k = 3 := by omega
      rcases this with rfl | rfl | rfl | rfl <;> norm_num at hv' ⊢ <;> split_ifs <;> omega
    · split_ifs <;> omega

/-- C21. Different integers have different encodings, and no encoding is a prefix of another. -/
theorem C21_prefix_free (v v' : Nat) (h : v < 2 ^ 62) (h' : v' < 2 ^ 62) (enc enc' : Bytes)
    (hw : Appends (writeQuicVarint v) enc) (hw' : Appends (writeQuicVarint v') enc')
    (hp : enc <+: enc') : v = v' ∧ enc = enc' := by
  have he : enc = quicVarintBytes v := by
    have := hw []
    simpa [writeQuicVarint, writeRaw] using this.symm
  have he' : enc' = quicVarintBytes v' := by
    have := hw' []
    simpa [writeQuicVarint, writeRaw] using this.symm
  have hb : ∀ v, (quicVarintBytes v).length ≤ 8 := by
    intro v; rw [quicVarintBytes_length]; split_ifs <;> omega
  obtain ⟨t, ht⟩ := hp
  have hlt : enc'.length < 2 ^ 64 := by
    rw [he']; exact lt_of_le_of_lt (hb v') (by norm_num)
  have r := readsAs_quicVarint v [] t (by rw [List.nil_append, ← he, ht]; exact hlt)
  have r' := readsAs_quicVarint v' [] [] (by rw [List.nil_append, List.append_nil, ← he']; exact hlt)
  rw [List.nil_append, ← he, ht] at r
  rw [List.nil_append, List.append_nil, ← he', r] at r'
  simp only [Prod.mk.injEq, Except.ok.injEq, Nat.mod_eq_of_lt h, Nat.mod_eq_of_lt h', Reader.mk.injEq,
    true_and] at r'
  exact ⟨r'.1, by rw [he, he', r'.1]⟩

/-- C21, the boundary: from 2^62 on the writer does not refuse but writes a different number
(the value modulo 2^62). -/
theorem C21_too_large_is_corrupted (v : Nat) (h : 2 ^ 62 ≤ v) :
    ∃ enc v', Appends (writeQuicVarint v) enc ∧ ReadsAs readQuicVarint enc v' ∧ v' ≠ v :=
  ⟨quicVarintBytes v, v % 2 ^ 62, fun _ => rfl, readsAs_quicVarint v, by
    have := Nat.mod_lt v (show 0 < 2 ^ 62 by norm_num); omega⟩

/-- RFC 9000 appendix A.1 sample values. -/
example : quicVarintBytes 151288809941952652 = [0xc2, 0x19, 0x7c, 0x5e, 0xff, 0x14, 0xe8, 0x8c] := by decide
example : quicVarintBytes 494878333 = [0x9d, 0x7f, 0x3e, 0x7d] := by decide
example : quicVarintBytes 15293 = [0x7b, 0xbd] := by decide

end Ngfs.Binary
