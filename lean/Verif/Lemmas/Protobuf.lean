import Verif.Lemmas.Varint
import Verif.Lemmas.Slice
import Verif.Model.Protobuf
import Verif.Spec.Protobuf

/-! Helper lemmas about the protobuf reader and writer. -/
namespace Ngfs.Protobuf
open Varint Spec

theorem scanVarint_eq (data : Bytes) (o : Nat) :
    scanVarint data o = match data[o]? with
      | some b => if b.toNat < 128 then some (o + 1) else scanVarint data (o + 1)
      | none => none := by
  rw [scanVarint]
  split
  · rename_i b hb
    simp only [hb, u8_and_80_beq, decide_eq_true_eq]
  · rename_i hb; simp only [hb]

theorem scanVarint_varint (pre p post : Bytes) (hp : IsVarint p) :
    scanVarint (pre ++ p ++ post) pre.length = some (pre.length + p.length) := by
  induction p generalizing pre with
  | nil => exact (not_isVarint_nil hp).elim
  | cons b p ih =>
    have hget : (pre ++ b :: p ++ post)[pre.length]? = some b := by simp
    rw [scanVarint_eq, hget]
    by_cases hb : b.toNat < 128
    · simp only [hb, if_true]
      rw [isVarint_cons_final hb] at hp
      subst hp; simp
    · simp only [hb, if_false]
      rw [isVarint_cons_more (by omega)] at hp
      have := ih (pre ++ [b]) hp
      simp only [List.length_append, List.length_cons, List.length_nil, List.append_assoc,
        List.cons_append, List.nil_append] at this ⊢
      rw [this]; congr 1; omega

theorem scanVarint_sound {data : Bytes} {o e : Nat} (h : scanVarint data o = some e) :
    IsVarint (slice data o e) := by
  induction n : data.length - o using Nat.strongRecOn generalizing o with
  | _ n ih =>
    have hb := scanVarint_bounds h
    have hlt : o < data.length := by omega
    rw [scanVarint_eq, List.getElem?_eq_getElem hlt] at h
    have hs : slice data o e = data[o] :: slice data (o + 1) e := by
      simp only [slice]
      rw [List.drop_eq_getElem_cons hlt]
      obtain ⟨k, hk⟩ : ∃ k, e - o = k + 1 := ⟨e - o - 1, by omega⟩
      rw [hk, List.take_succ_cons]
      congr 2; omega
    simp only at h
    rw [hs]
    split at h
    · rename_i hlast
      rw [isVarint_cons_final hlast]
      cases h
      simp [slice]
    · rename_i hlast
      rw [isVarint_cons_more (by omega)]
      exact ih _ (by omega) h rfl

theorem toU64_iff (bs : Bytes) (n : Nat) : decodeU64 bs = .ok n ↔ Denotes bs n := by
  rw [decodeU64_ok_iff, Denotes]
  constructor
  · rintro ⟨a, b, c, d⟩; exact ⟨a, b, c.symm, d⟩
  · rintro ⟨a, b, c, d⟩; exact ⟨a, b, c.symm, d⟩

theorem denotes_encode {n : Nat} (h : n < 2 ^ 64) : Denotes (encodeU64 n) n :=
  (toU64_iff _ _).mp (decode_encode h)

theorem readVarint_at (pre p post : Bytes) (hp : IsVarint p) (c : ReadCase) :
    (Reader.mk pre.length (pre ++ p ++ post)).readVarint c
      = .ok (p, ⟨pre.length + p.length, pre ++ p ++ post⟩) := by
  simp only [Reader.readVarint, scanVarint_varint pre p post hp, slice_mid]

theorem read_at (pre p post : Bytes) (c : ReadCase) (hlen : (pre ++ p ++ post).length < 2 ^ 64) :
    (Reader.mk pre.length (pre ++ p ++ post)).read p.length c
      = .ok (p, ⟨pre.length + p.length, pre ++ p ++ post⟩) := by
  have h1 : ¬ (pre.length + p.length ≥ usizeLimit) := by
    simp only [List.length_append] at hlen; simp only [usizeLimit]; omega
  have h2 : pre.length + p.length ≤ (pre ++ p ++ post).length := by simp
  simp only [Reader.read, if_neg h1, if_pos h2, slice_mid]

/-- The tag arithmetic. -/
theorem tag_split (t : Nat) : t = 8 * (t >>> 3) + (t &&& 7) := by
  rw [and_7, Nat.shiftRight_eq_div_pow]; omega

theorem readField_complete (pre bs post : Bytes) (f : FieldRef) (hf : IsField bs f)
    (ho : f.offset = pre.length) (hlen : (pre ++ bs ++ post).length < 2 ^ 64) :
    (Reader.mk pre.length (pre ++ bs ++ post)).readField
      = .ok (some f, ⟨pre.length + bs.length, pre ++ bs ++ post⟩) := by
  obtain ⟨tag, payload, rfl, htag, hsum, hwt, hdata⟩ := hf
  have hne : tag ≠ [] := by rintro rfl; exact not_isVarint_nil htag.1
  have hpos : 0 < tag.length := List.length_pos_iff.mpr hne
  have hnot : ¬ ((Reader.mk pre.length (pre ++ (tag ++ payload) ++ post)).offset
      ≥ (Reader.mk pre.length (pre ++ (tag ++ payload) ++ post)).data.length) := by
    simp; omega
  have hassoc : pre ++ (tag ++ payload) ++ post = pre ++ tag ++ (payload ++ post) := by
    simp [List.append_assoc]
  rw [Reader.readField, if_neg hnot]
  simp only [hassoc, readVarint_at pre tag (payload ++ post) htag.1, bind, Except.bind,
    VarInt.toU64, (toU64_iff tag f.tag).mpr htag]
  have hwt' : f.tag &&& 7 = f.wireType := by rw [and_7]; omega
  have hfn : f.tag >>> 3 = f.fieldNumber := by rw [Nat.shiftRight_eq_div_pow]; omega
  have hassoc2 : pre ++ tag ++ (payload ++ post) = (pre ++ tag) ++ payload ++ post := by
    simp [List.append_assoc]
  have hl2 : pre.length + tag.length = (pre ++ tag).length := by simp
  have hlen2 : ((pre ++ tag) ++ payload ++ post).length < 2 ^ 64 := by
    rw [hassoc, hassoc2] at hlen; exact hlen
  have key : (Reader.mk (pre.length + tag.length) (pre ++ tag ++ (payload ++ post))).readData
      pre.length (f.tag &&& 7)
      = .ok (f.data, ⟨pre.length + (tag ++ payload).length, pre ++ tag ++ (payload ++ post)⟩) := by
    rw [hwt', hl2, hassoc2]
    have hfin : (pre ++ tag).length + payload.length = pre.length + (tag ++ payload).length := by
      simp; omega
    rcases hd : f.data with v | v | v | v
    · rw [hd] at hdata
      obtain ⟨h0, rfl, hv⟩ := hdata
      simp only [h0, Reader.readData, readVarint_at _ payload post hv, bind, Except.bind, hfin]
    · rw [hd] at hdata
      obtain ⟨h0, rfl, hv⟩ := hdata
      have := read_at (pre ++ tag) payload post .bits32 hlen2
      rw [hv] at this
      simp only [h0, Reader.readData, this, bind, Except.bind]
      rw [← hfin, hv]
    · rw [hd] at hdata
      obtain ⟨h0, rfl, hv⟩ := hdata
      have := read_at (pre ++ tag) payload post .bits64 hlen2
      rw [hv] at this
      simp only [h0, Reader.readData, this, bind, Except.bind]
      rw [← hfin, hv]
    · rw [hd] at hdata
      obtain ⟨h0, len, rfl, hv⟩ := hdata
      have e1 : pre ++ tag ++ (len ++ v) ++ post = pre ++ tag ++ len ++ (v ++ post) := by
        simp [List.append_assoc]
      have e2 : pre ++ tag ++ len ++ (v ++ post) = (pre ++ tag ++ len) ++ v ++ post := by
        simp [List.append_assoc]
      have e3 : (pre ++ tag).length + len.length = (pre ++ tag ++ len).length := by simp; omega
      have := read_at (pre ++ tag ++ len) v post .bytes (by rw [← e2, ← e1]; exact hlen2)
      simp only [h0, Reader.readData, Reader.readLengthDelimited]
      rw [e1, readVarint_at (pre ++ tag) len (v ++ post) hv.1]
      simp only [bind, Except.bind, VarInt.toUsize, (toU64_iff len v.length).mpr hv]
      rw [e2, e3, this]
      simp only [List.length_append, Except.ok.injEq, Prod.mk.injEq, Reader.mk.injEq, true_and]
      refine ⟨by omega, trivial⟩
  rw [key]
  simp only [Except.ok.injEq, Prod.mk.injEq, Option.some.injEq, and_true]
  cases f
  simp only at *
  simp [ho, hwt', hfn]

theorem readField_sound {r r' : Reader} {f : FieldRef} (h : r.readField = .ok (some f, r')) :
    r'.data = r.data ∧ r'.offset ≤ r.data.length ∧ r.offset < r'.offset ∧
    f.offset = r.offset ∧ IsField (slice r.data r.offset r'.offset) f := by
  have hprog := readField_progress h
  unfold Reader.readField at h
  split at h
  · cases h
  · simp only [bind, Except.bind] at h
    split at h
    · cases h
    · rename_i x hx
      obtain ⟨v, r1⟩ := x
      simp only at h
      have hb1 := readVarint_bounds hx
      have hv : v = slice r.data r.offset r1.offset ∧ IsVarint v := by
        unfold Reader.readVarint at hx
        split at hx
        · rename_i e he
          cases hx
          exact ⟨rfl, scanVarint_sound he⟩
        · cases hx
      split at h
      · cases h
      · rename_i tag htag
        have htag' := (toU64_iff _ _).mp htag
        split at h
        · cases h
        · rename_i y hy
          obtain ⟨d, r2⟩ := y
          simp only [Except.ok.injEq, Prod.mk.injEq, Option.some.injEq] at h
          obtain ⟨rfl, rfl⟩ := h
          have hb2 := readData_bounds hy
          have hdata : r2.data = r.data := hb2.1.trans hb1.1
          have hcut : slice r.data r.offset r2.offset =
              slice r.data r.offset r1.offset ++ slice r.data r1.offset r2.offset := by
            simp only [slice]
            have : r2.offset - r.offset = (r1.offset - r.offset) + (r2.offset - r1.offset) := by omega
            rw [this, List.take_add, List.drop_drop]
            congr 3; omega
          have hs := tag_split tag
          have hw8 : tag &&& 7 < 8 := by rw [and_7]; omega
          -- payload facts
          have hpay : r2.offset ≤ r.data.length ∧
              IsPayload (tag &&& 7) (slice r.data r1.offset r2.offset) d := by
            unfold Reader.readData at hy
            split at hy
            · rename_i hw
              simp only [bind, Except.bind] at hy
              split at hy
              · cases hy
              · rename_i z hz
                cases hy
                have hbz := readVarint_bounds hz
                unfold Reader.readVarint at hz
                split at hz
                · rename_i e he
                  cases hz
                  rw [hb1.1] at he hbz
                  exact ⟨hbz.2.2, hw, by rw [hb1.1], by rw [hb1.1]; exact scanVarint_sound he⟩
                · cases hz
            · rename_i hw
              simp only [bind, Except.bind] at hy
              split at hy
              · cases hy
              · rename_i z hz
                cases hy
                have hbz := read_bounds hz
                rw [hb1.1] at hbz
                have hzl : z.1 = slice r.data r1.offset z.2.offset := by
                  unfold Reader.read at hz
                  split at hz
                  · cases hz
                  · simp only at hz
                    split at hz
                    · cases hz; simp [hb1.1]
                    · cases hz
                refine ⟨hbz.2.2, hw, hzl.symm, ?_⟩
                rw [hzl, slice_length hbz.2.2]; omega
            · rename_i hw
              simp only [bind, Except.bind, Reader.readLengthDelimited] at hy
              split at hy
              · cases hy
              · rename_i z hz
                split at hz
                · cases hz
                · rename_i w hwv
                  obtain ⟨lv, r3⟩ := w
                  simp only at hz
                  split at hz
                  · cases hz
                  · rename_i n hn
                    cases hy
                    have hb3 := readVarint_bounds hwv
                    have hbz := read_bounds hz
                    rw [hb3.1, hb1.1] at hbz
                    rw [hb1.1] at hb3
                    have hlv : lv = slice r.data r1.offset r3.offset := by
                      unfold Reader.readVarint at hwv
                      split at hwv
                      · cases hwv; rw [hb1.1]
                      · cases hwv
                    have hzl : z.1 = slice r.data r3.offset z.2.offset := by
                      unfold Reader.read at hz
                      split at hz
                      · cases hz
                      · simp only at hz
                        split at hz
                        · cases hz; simp [hb3.1]
                        · cases hz
                    refine ⟨hbz.2.2, hw, lv, ?_, ?_⟩
                    · rw [hlv, hzl]
                      simp only [slice]
                      have : z.2.offset - r1.offset
                          = (r3.offset - r1.offset) + (z.2.offset - r3.offset) := by omega
                      rw [this, List.take_add, List.drop_drop]
                      congr 3; omega
                    · have : z.1.length = n := by
                        rw [hzl, slice_length hbz.2.2]; omega
                      rw [this]
                      exact (toU64_iff _ _).mp hn
            · rename_i hw
              simp only [bind, Except.bind] at hy
              split at hy
              · cases hy
              · rename_i z hz
                cases hy
                have hbz := read_bounds hz
                rw [hb1.1] at hbz
                have hzl : z.1 = slice r.data r1.offset z.2.offset := by
                  unfold Reader.read at hz
                  split at hz
                  · cases hz
                  · simp only at hz
                    split at hz
                    · cases hz; simp [hb1.1]
                    · cases hz
                refine ⟨hbz.2.2, hw, hzl.symm, ?_⟩
                rw [hzl, slice_length hbz.2.2]; omega
            · cases hy
          refine ⟨hdata, hpay.1, hprog.2.1, rfl, ?_⟩
          refine ⟨v, slice r.data r1.offset r2.offset, ?_, htag', hs, hw8, hpay.2⟩
          rw [hcut, ← hv.1]

/-- Reading a concatenation of well-formed fields runs the loop body on each of them in order. -/
theorem forFields_message {σ : Type} (step : σ → FieldRef → Except FromPBError σ) {bs : Bytes}
    {fs : List FieldRef} (pre : Bytes) (h : IsMessage pre.length bs fs)
    (hlen : (pre ++ bs).length < 2 ^ 64) (s : σ) :
    forFields step s ⟨pre.length, pre ++ bs⟩ = fs.foldlM step s := by
  induction fs generalizing pre bs s with
  | nil =>
    cases h
    rw [forFields]
    have : (Reader.mk pre.length (pre ++ [])).readField = .ok (none, ⟨pre.length, pre ++ []⟩) := by
      rw [Reader.readField, if_pos (by simp)]
    split
    · rename_i h; rw [this] at h; cases h
    · rfl
    · rename_i h; rw [this] at h; cases h
  | cons f fs ih =>
    cases h with
    | @cons _ b rest _ _ hf ho hm =>
      have hr := readField_complete pre b rest f hf ho (by rwa [List.append_assoc])
      rw [List.append_assoc] at hr
      rw [forFields]
      split
      · rename_i h; rw [hr] at h; cases h
      · rename_i h; rw [hr] at h; cases h
      · rename_i h
        rw [hr] at h
        simp only [Except.ok.injEq, Prod.mk.injEq, Option.some.injEq] at h
        obtain ⟨rfl, rfl⟩ := h
        rw [List.foldlM_cons]
        cases hst : step s f with
        | error e => rfl
        | ok s' =>
          simp only [bind, Except.bind]
          have := ih (pre ++ b) (bs := rest) (by simpa using hm)
            (by rwa [List.append_assoc]) s'
          simpa using this

/-- Conversely, if the loop ends well, its input from the current offset is a concatenation of fields. -/
theorem forFields_ok {σ : Type} (step : σ → FieldRef → Except FromPBError σ) (s t : σ) (r : Reader)
    (hle : r.offset ≤ r.data.length) (h : forFields step s r = .ok t) :
    ∃ fs, IsMessage r.offset (r.data.drop r.offset) fs ∧ fs.foldlM step s = .ok t := by
  induction n : r.data.length - r.offset using Nat.strongRecOn generalizing s r with
  | _ n ih =>
    rw [forFields] at h
    split at h
    · cases h
    · rename_i hr
      refine ⟨[], ?_, by simpa [pure, Except.pure] using h⟩
      have : r.offset ≥ r.data.length := by
        by_contra hc
        unfold Reader.readField at hr
        rw [if_neg (by omega)] at hr
        simp only [bind, Except.bind] at hr
        split at hr
        · cases hr
        · split at hr
          · cases hr
          · split at hr
            · cases hr
            · cases hr
      rw [List.drop_eq_nil_of_le this]
      exact .nil _
    · rename_i f r' hr
      have hs := readField_sound hr
      split at h
      · cases h
      · rename_i s' hst
        obtain ⟨fs, hm, hf⟩ := ih (r'.data.length - r'.offset) (by rw [hs.1]; omega) s' r'
          (by rw [hs.1]; exact hs.2.1) h rfl
        refine ⟨f :: fs, ?_, ?_⟩
        · rw [drop_eq_slice_append (Nat.le_of_lt hs.2.2.1)]
          apply IsMessage.cons hs.2.2.2.2 hs.2.2.2.1
          rw [slice_length hs.2.1]
          rw [hs.1] at hm
          rw [show r.offset + (r'.offset - r.offset) = r'.offset by omega]
          exact hm
        · rw [List.foldlM_cons, hst]; exact hf

theorem foldlM_collect (fs acc : List FieldRef) :
    fs.foldlM (m := Except FromPBError) (fun acc f => .ok (acc ++ [f])) acc = .ok (acc ++ fs) := by
  induction fs generalizing acc with
  | nil => simp [pure, Except.pure]
  | cons f fs ih => simp only [List.foldlM_cons, bind, Except.bind]; rw [ih]; simp

theorem readFields_iff (data : Bytes) (hlen : data.length < 2 ^ 64) (fs : List FieldRef) :
    readFields data = .ok fs ↔ IsMessage 0 data fs := by
  constructor
  · intro h
    obtain ⟨gs, hm, hg⟩ := forFields_ok _ _ _ (Reader.new data) (by simp [Reader.new]) h
    rw [foldlM_collect] at hg
    simp only [List.nil_append, Except.ok.injEq] at hg
    subst hg
    simpa [Reader.new] using hm
  · intro h
    have := forFields_message (fun acc f => .ok (acc ++ [f])) [] (bs := data) (by simpa using h)
      (by simpa using hlen) []
    simp only [List.nil_append, List.length_nil] at this
    rw [readFields, Reader.new, this, foldlM_collect]; simp

end Ngfs.Protobuf
