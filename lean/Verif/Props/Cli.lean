import Verif.Model.Cli
import Verif.Props.Cid
import Verif.Props.Protobuf

/-! Property C171: the command-line tool. -/
namespace Ngfs.Cli
open Varint Protobuf Spec

theorem rest_cons (a b : String) (more : List String) : rest (a :: b :: more) = .ok more := by
  unfold rest
  rw [if_neg (by simp)]
  rfl

/-- **C171**, the check of the variable-length numbers: whatever numbers are drawn, every one is reported good, in order; the command does not fail. -/
theorem C171_varint (w : World) (hw : ∀ p ∈ w.draws, p.1 < 2 ^ 64) (tool : String) (more : List String) :
    main w (tool :: "varint" :: more) = .ok (w.draws.zipIdx.map fun p => .ok p.2 (p.1.1 >>> (p.1.2 % 64))) := by
  have hround : ∀ i v, v < 2 ^ 64 → varintRound i v = .ok (.ok i v) := by
    intro i v hv
    have hd := denotes_encode hv
    have h1 : Cid.readFrom (encodeU64 v) 0 = some (encodeU64 v, (encodeU64 v).length) := by
      have := Cid.readFrom_at [] (encodeU64 v) [] hd.1
      simpa using this
    unfold varintRound
    rw [h1]
    simp only [C08_scalar_round_trip.1 v hv]
    simp
  have hloop : ∀ (draws : List (Nat × Nat)) (i : Nat), (∀ p ∈ draws, p.1 < 2 ^ 64) →
      varintLoop i draws = .ok ((draws.zipIdx i).map fun p => .ok p.2 (p.1.1 >>> (p.1.2 % 64))) := by
    intro draws
    induction draws with
    | nil => intro i _; rfl
    | cons p ps ih =>
      intro i h
      obtain ⟨raw, b⟩ := p
      have hraw : raw < 2 ^ 64 := h _ (List.mem_cons_self ..)
      have hv : raw >>> (b % 64) < 2 ^ 64 := Nat.lt_of_le_of_lt (Nat.shiftRight_le _ _) hraw
      unfold varintLoop
      rw [hround i _ hv, ih (i + 1) fun p hp => h p (List.mem_cons_of_mem _ hp)]
      rfl
  have : main w (tool :: "varint" :: more) = varintLoop 0 w.draws := by
    simp [main, getArgument, rest_cons, bind, Except.bind]
  rw [this, hloop _ 0 hw]

theorem main_cid (w : World) (tool : String) (s : String) (more : List String) :
    main w (tool :: "cid" :: s :: more) = cidCommand (s :: more) := by
  simp [main, getArgument, rest_cons, bind, Except.bind]

theorem cidCommand_ok {s : String} {c : Cid.CID} (h : Cid.fromText s.toList = .ok c) (more : List String) :
    cidCommand (s :: more) = .ok [.plain c.toText] := by
  simp only [cidCommand, getArgument, List.getElem?_cons_zero, bind, Except.bind, h]

theorem cidCommand_error {s : String} {e : Cid.ParseError} (h : Cid.fromText s.toList = .error e) (more : List String) :
    cidCommand (s :: more) = .error (.cid e) := by
  simp only [cidCommand, getArgument, List.getElem?_cons_zero, bind, Except.bind, h]

theorem fromText_valid {s : List Char} {c : Cid.CID} (h : Cid.fromText s = .ok c) : ValidCid c := by
  have hb : ∀ bytes, Cid.fromBytesV1 bytes = .ok c → ValidCid c := by
    intro bytes h
    have := Cid.fromBytesV1_valid h
    unfold ValidCid
    simp only [this.1]
    exact ⟨this.2.1, this.2.2.1⟩
  unfold Cid.fromText at h
  split at h
  · cases hd : Cid.liftDecode (Multibase.decodeNoprefix s .base58BTC) with
    | error e => rw [hd] at h; cases h
    | ok bytes =>
      rw [hd] at h
      simp only [bind, Except.bind] at h
      unfold Cid.fromBytes at h
      split at h
      · rename_i h0
        obtain ⟨hash, hh, rfl⟩ := (Cid.isCidV0_iff _).mp h0
        cases h
        exact ⟨rfl, rfl, by simpa using hh⟩
      · exact hb _ h
  · cases hd : Cid.liftDecode (Multibase.decode s) with
    | error e => rw [hd] at h; cases h
    | ok bytes =>
      rw [hd] at h
      exact hb _ h

/-- **C171**, identifiers: for every text the tool either reports an error or prints one identifier; what it prints stands for the same
identifier as what it was given, and given that it prints it again. -/
theorem C171_cid (w : World) (tool s : String) (more : List String) :
    (∃ e, Cid.fromText s.toList = .error e ∧ ∃ err, main w (tool :: "cid" :: s :: more) = .error err) ∨
    (∃ c, Cid.fromText s.toList = .ok c ∧ main w (tool :: "cid" :: s :: more) = .ok [.plain c.toText] ∧
      (c.toBytes.length < 2 ^ 64 → Cid.fromText c.toText = .ok c ∧
        main w [tool, "cid", String.ofList c.toText] = .ok [.plain c.toText])) := by
  rw [main_cid]
  cases h : Cid.fromText s.toList with
  | error e => exact .inl ⟨e, rfl, _, cidCommand_error h more⟩
  | ok c =>
    refine .inr ⟨c, rfl, cidCommand_ok h more, fun hl => ?_⟩
    have hrt := Cid.C16_text_round_trip c (fromText_valid h) hl
    refine ⟨hrt, ?_⟩
    rw [main_cid]
    exact cidCommand_ok (by rw [String.toList_ofList]; exact hrt) []

/-- **C171**, the message: writing any 64-bit number as a message and reading it back shows one field with that number. -/
theorem C171_pbuf (value : Int) (h1 : -2 ^ 63 ≤ value) (h2 : value < 2 ^ 63) : ∃ o, writePbuf value = .ok [.field o 3 value] := by
  obtain ⟨data, hd, hr⟩ := C04_field_sequence_round_trip [.int64 3 value] (by simp [WriteOp.Typed]; exact ⟨h1, h2⟩)
  have hw : writeInt64 [] 3 value = .ok data := by
    simp only [List.foldlM_cons, WriteOp.run, bind, Except.bind] at hd
    cases hx : writeInt64 [] 3 value with
    | error e => rw [hx] at hd; cases hd
    | ok x => rw [hx] at hd; exact hd
  have hl : data.length < 2 ^ 64 := by
    have h := hw
    unfold writeInt64 at h
    rw [writeUint64_ok] at h
    cases h
    have e1 : ∀ n, n < 2 ^ 64 → (encodeU64 n).length ≤ 10 := fun n hn => encode_length_le (Nat.lt_trans hn (by decide)) (by decide)
    have e2 := e1 (asU64 value) (asU64_lt value)
    simp only [encField, payloadOf, List.nil_append, List.length_append]
    have e3 := e1 (8 * 3 + wireTypeOf (.varInt (encodeU64 (asU64 value)))) (by simp [wireTypeOf])
    omega
  obtain ⟨fs, hf, ha⟩ := hr hl
  rcases fs with _ | ⟨f, _ | ⟨g, fs⟩⟩
  · cases ha
  · rcases ha with _ | ⟨⟨hn, hv⟩, _⟩
    refine ⟨f.offset, ?_⟩
    unfold writePbuf
    rw [hw]
    simp only [hf, showFields, hv, hn, bind, Except.bind]
  · rcases ha with _ | ⟨_, hh⟩
    cases hh

/-- **C171**, no crash: whatever the arguments, the tool does not panic. -/
theorem C171_no_panic (w : World) (hw : ∀ p ∈ w.draws, p.1 < 2 ^ 64) (args : List String) : main w args ≠ .error .panic := by
  rcases args with _ | ⟨tool, _ | ⟨command, more⟩⟩
  · simp [main, getArgument, bind, Except.bind]
  · simp [main, getArgument, bind, Except.bind]
  · by_cases hc : command = "cid"
    · subst hc
      cases more with
      | nil => simp [main, getArgument, rest_cons, bind, Except.bind, cidCommand]
      | cons s more =>
        rw [main_cid]
        cases h : Cid.fromText s.toList with
        | error e => rw [cidCommand_error h]; simp
        | ok c => rw [cidCommand_ok h]; simp
    · by_cases hv : command = "varint"
      · subst hv
        rw [C171_varint w hw]; simp
      · by_cases hg : command = "getkey"
        · subst hg
          cases more with
          | nil => simp [main, getArgument, rest_cons, bind, Except.bind, getkeyCommand]
          | cons name more =>
            have : main w (tool :: "getkey" :: name :: more) = getkeyCommand w.file w.rsaDer (name :: more) := by
              simp [main, getArgument, rest_cons, bind, Except.bind]
            rw [this]
            simp only [getkeyCommand, getArgument, List.getElem?_cons_zero, bind, Except.bind]
            cases w.file name with
            | none => exact fun h => by cases h
            | some data =>
              simp only
              generalize Identify.PublicKey.fromPb data = R
              cases R with
              | error e => exact fun h => by cases h
              | ok k =>
                simp only
                split
                · exact fun h => by cases h
                · exact fun h => by cases h
        · by_cases hp : command = "write-pbuf"
          · subst hp
            obtain ⟨o, ho⟩ := C171_pbuf (-1234567890123456789) (by decide) (by decide)
            have : main w (tool :: "write-pbuf" :: more) = writePbuf (-1234567890123456789) := by
              simp [main, getArgument, rest_cons, bind, Except.bind]
            rw [this, ho]; simp
          · simp [main, getArgument, bind, Except.bind, hc, hv, hg, hp]

example : main ⟨[(300, 64), (2 ^ 64 - 1, 63)], fun _ => none, fun _ => false⟩ ["cli", "varint"] = .ok [.ok 0 300, .ok 1 1] :=
  C171_varint _ (by decide) _ _
example : Cid.fromText "bafkqaaa".toList = .ok ⟨.v1, .raw, .unknown 0, []⟩ := by decide +kernel

end Ngfs.Cli
