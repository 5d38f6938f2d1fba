import Verif.Props.NegotiateFailure
import Verif.Props.Handler

/-!
C207: what the success of a protocol handler says, and which failures it reports.
-/
namespace Ngfs.Handler
open Io Cid Bitswap Dagpb Varint Spec Spec.Io
open Protobuf hiding Reader

/-- **C207**, the claim: the bitswap handler reports success only if the peer ended the stream behind whole messages that can
all be decoded. -/
def C207_statement : Prop :=
  ∀ (sha256 blake2b256 : Bytes → Bytes) (want : Option (List Char)) (r : Reader),
    (handle sha256 blake2b256 want r).1 = .ready (.ok ()) →
    ∃ bs ms, view r = (bs, .eof) ∧ Messages bs ms ∧ ∀ d ∈ ms, ∃ m, Message.fromPb d = .ok m

/-- **C207** is false: a stream that breaks with "unexpected end of file" counts as ended. -/
theorem C207_false : ¬ C207_statement := by
  intro h
  obtain ⟨bs, ms, hv, -⟩ := h id id none ⟨⟨[.error .unexpectedEof], [], [.ok], [.ok], []⟩, []⟩ (by decide +kernel)
  have he : _ = End.eof := congrArg Prod.snd hv
  revert he
  decide

/-- **C207** is false of peers that end their streams in an orderly way, too: a message that cannot be decoded ends the handler
with success, and what follows is not read. -/
theorem C207_false_undecodable : ¬ ∀ (sha256 blake2b256 : Bytes → Bytes) (want : Option (List Char)) (r : Reader),
    (handle sha256 blake2b256 want r).1 = .ready (.ok ()) → (view r).2 = .eof →
    ∃ bs ms, view r = (bs, .eof) ∧ Messages bs ms ∧ ∀ d ∈ ms, ∃ m, Message.fromPb d = .ok m := by
  intro h
  obtain ⟨bs, ms, hv, hm, hd⟩ := h id id none ⟨⟨[.ready [1, 0x0a], .ready []], [], [.ok], [.ok], []⟩, []⟩
    (by decide +kernel) (by decide +kernel)
  have hb : bs = [1, 0x0a] := by
    have : _ = bs := congrArg Prod.fst hv
    rw [← this]; decide +kernel
  have hp : Prefixed ([1, 0x0a] : Bytes) [0x0a] := ⟨[1], rfl, ⟨[], 1, rfl, by simp, by decide⟩, by decide, by decide⟩
  cases hm with
  | nil => cases hb
  | cons h1 h2 =>
    have hu := prefixed_unique (r' := []) h1 hp (by simpa using hb)
    obtain ⟨m', hm'⟩ := hd _ List.mem_cons_self
    rw [hu.2.1] at hm'
    have hx : (Message.fromPb ([0x0a] : Bytes)).toOption = none := by decide +kernel
    rw [hm'] at hx
    cases hx

/-! ### What is used of the stream -/

/-- What a step of a handler does with the answers of the stream for writing, flushing and shutting down. -/
structure Does (x : Poll (Except Error Unit)) (t t' : Transport) : Prop where
  writes : ∃ used, t.writes = used ++ t'.writes
  flushes : ∃ used, t.flushes = used ++ t'.flushes
  shutdowns : ∃ used, t.shutdowns = used ++ t'.shutdowns
  well : (∀ k, x ≠ .ready (.error (.io k))) → UsedWell WriteEvent.error t.writes t'.writes ∧
    UsedWell DoneEvent.error t.flushes t'.flushes ∧ UsedWell DoneEvent.error t.shutdowns t'.shutdowns

theorem Does.same {x : Poll (Except Error Unit)} {t t' : Transport} (h : t' = { t with reads := t'.reads }) : Does x t t' := by
  rw [h]
  exact ⟨⟨[], rfl⟩, ⟨[], rfl⟩, ⟨[], rfl⟩, fun _ => ⟨usedWell_refl _ _, usedWell_refl _ _, usedWell_refl _ _⟩⟩

theorem Does.after {x y : Poll (Except Error Unit)} {t t1 t2 : Transport} (h1 : Does x t t1)
    (hx : ∀ k, x ≠ .ready (.error (.io k))) (h2 : Does y t1 t2) : Does y t t2 := by
  obtain ⟨u, hu⟩ := h1.writes
  obtain ⟨v, hv⟩ := h1.flushes
  obtain ⟨w, hw⟩ := h1.shutdowns
  obtain ⟨u', hu'⟩ := h2.writes
  obtain ⟨v', hv'⟩ := h2.flushes
  obtain ⟨w', hw'⟩ := h2.shutdowns
  refine ⟨⟨u ++ u', by rw [hu, hu', List.append_assoc]⟩, ⟨v ++ v', by rw [hv, hv', List.append_assoc]⟩,
    ⟨w ++ w', by rw [hw, hw', List.append_assoc]⟩, ?_⟩
  intro hn
  obtain ⟨a1, a2, a3⟩ := h1.well hx
  obtain ⟨b1, b2, b3⟩ := h2.well hn
  exact ⟨usedWell_trans a1 b1, usedWell_trans a2 b2, usedWell_trans a3 b3⟩

/-- Writing, flushing or shutting down may fail in this way. -/
def EndingFails (t : Transport) (k : IoKind) : Prop := SendingFails t k ∨ DoneEvent.error k ∈ t.shutdowns

theorem endingFails_later {x : Poll (Except Error Unit)} {t t' : Transport} {k : IoKind} (h : Does x t t')
    (hf : EndingFails t' k) : EndingFails t k := by
  rcases hf with hf | hf
  · exact .inl (sendingFails_later h.writes h.flushes hf)
  · obtain ⟨w, hw⟩ := h.shutdowns
    exact .inr (by rw [hw]; exact List.mem_append_right _ hf)

/-- The answer of a handler to a result of its stream. -/
def lift : Poll (Except IoKind Unit) → Poll (Except Error Unit)
  | .pending => .pending
  | .ready (.error k) => .ready (.error (.io k))
  | .ready (.ok ()) => .ready (.ok ())

theorem sends_does {x : Poll (Except IoKind Unit)} {t t' : Transport} (h : Sends x t t') (hs : t'.shutdowns = t.shutdowns) :
    Does (lift x) t t' := by
  refine ⟨h.writes, h.flushes, ⟨[], by rw [hs, List.nil_append]⟩, fun hn => ?_⟩
  have hn' : ∀ k, x ≠ .ready (.error k) := by
    rintro k rfl
    exact hn k rfl
  refine ⟨(h.well hn').1, (h.well hn').2, ?_⟩
  rw [hs]; exact usedWell_refl _ _

theorem finish_does (r : Reader) (log : List Event) : Does (finish r log).1 r.t (finish r log).2.1.t ∧
    ∀ k, (finish r log).1 = .ready (.error (.io k)) → EndingFails r.t k := by
  have hs := flush_sends r.t
  have hd := sends_does hs (by unfold flush; rfl)
  unfold finish
  generalize flush r.t = F at hs hd
  obtain ⟨x, t⟩ := F
  rcases x with _ | (k | ⟨⟩)
  · exact ⟨hd, nofun⟩
  · exact ⟨hd, fun k' hk => by cases hk; exact .inl (hs.only k rfl)⟩
  · simp only
    obtain ⟨used, h1, h2, h3⟩ := flushLoop_used t.shutdowns
    have key : ∀ {x : Poll (Except Error Unit)}, x = lift (flushLoop t.shutdowns).1 →
        Does x t { t with shutdowns := (flushLoop t.shutdowns).2 } := by
      rintro x rfl
      refine ⟨⟨[], rfl⟩, ⟨[], rfl⟩, ⟨used, h1⟩, fun hn => ⟨usedWell_refl _ _, usedWell_refl _ _, used, h1, ?_⟩⟩
      refine h3 fun k hk => hn k ?_
      rw [hk]; rfl
    unfold shutdown
    generalize flushLoop t.shutdowns = S at *
    obtain ⟨y, es⟩ := S
    rcases y with _ | (k | ⟨⟩)
    · exact ⟨hd.after nofun (key rfl), nofun⟩
    · refine ⟨hd.after nofun (key rfl), fun k' hk => ?_⟩
      cases hk
      refine endingFails_later hd (.inr ?_)
      show DoneEvent.error k ∈ t.shutdowns
      rw [h1]
      exact List.mem_append_left _ (h2 k rfl)
    · exact ⟨hd.after nofun (key rfl), nofun⟩

theorem showBlocks_io (sha256 blake2b256 : Bytes → Bytes) (bs : List Block) : ∀ (i : Nat) (log : List Event) (k : IoKind),
    (showBlocks sha256 blake2b256 i bs log).1 ≠ .error (.io k) := by
  induction bs with
  | nil => intro i log k h; cases h
  | cons b bs ih =>
    intro i log k h
    have hb : (showBlock sha256 blake2b256 i b log).1 ≠ .error (.io k) := by
      unfold showBlock
      intro h
      repeat' split at h
      all_goals cases h
    unfold showBlocks at h
    generalize showBlock sha256 blake2b256 i b log = S at *
    obtain ⟨e | ⟨⟩, log'⟩ := S
    · exact hb h
    · exact ih _ _ _ h

theorem request_shutdowns (r : Reader) (data : Bytes) : (request r data).2.t.shutdowns = r.t.shutdowns := by
  obtain ⟨ws, fl, pre, h, -, -⟩ := request_spec r data
  rw [h]

theorem ask_does (want : Option (List Char)) (r : Reader) : Does (ask want r).1 r.t (ask want r).2.1.t ∧
    (∀ k, (ask want r).1 = .ready (.error (.io k)) → EndingFails r.t k) ∧ view (ask want r).2.1 = view r := by
  have hrefl : ∀ x, Does x r.t r.t := fun x => .same rfl
  cases want with
  | none => exact ⟨hrefl _, (fun _ hk => by cases hk), rfl⟩
  | some text =>
    unfold ask
    dsimp only
    split
    · exact ⟨hrefl _, nofun, rfl⟩
    · split
      · exact ⟨hrefl _, nofun, rfl⟩
      · rename_i pb _
        have hs := request_sends r pb
        have hd := sends_does hs (request_shutdowns r pb)
        have hv := request_view r pb
        generalize request r pb = Q at *
        obtain ⟨_ | (k | ⟨⟩), r1⟩ := Q
        · exact ⟨hd, nofun, hv⟩
        · exact ⟨hd, fun k' hk => by cases hk; exact .inl (hs.only k rfl), hv⟩
        · exact ⟨hd, nofun, hv⟩

/-- All of these messages can be decoded. -/
def Decodable (ms : List Bytes) : Prop := ∀ d ∈ ms, ∃ m, Message.fromPb d = .ok m

theorem loop_does (sha256 blake2b256 : Bytes → Bytes) (fuel : Nat) : ∀ (r : Reader) (log : List Event),
    (loop sha256 blake2b256 fuel r log).2.1.t = { r.t with reads := (loop sha256 blake2b256 fuel r log).2.1.t.reads } := by
  induction fuel with
  | zero => intro r log; rfl
  | succ fuel ih =>
    intro r log
    have hk := (readOptLengthPrefixed_quiet r).1
    unfold loop
    generalize readOptLengthPrefixed r = P at hk
    obtain ⟨x, r1⟩ := P
    rcases x with _ | (k' | (_ | data))
    · exact hk
    · exact hk
    · exact hk
    · simp only at hk ⊢
      cases Message.fromPb data with
      | error e => exact hk
      | ok message =>
        simp only
        cases message.toPb with
        | error e => exact hk
        | ok encoded =>
          simp only
          generalize showBlocks sha256 blake2b256 0 message.blocks _ = S
          obtain ⟨e | ⟨⟩, log'⟩ := S
          · exact hk
          · simp only
            rw [ih, hk]

theorem loop_reads (sha256 blake2b256 : Bytes → Bytes) (fuel : Nat) : ∀ (r : Reader) (log : List Event), scriptSize r.t.reads < fuel →
    (∀ k, (loop sha256 blake2b256 fuel r log).1 = .ready (.error (.io k)) →
      ∃ bs ms rest e, view r = (bs ++ rest, e) ∧ Messages bs ms ∧ Decodable ms ∧ Reads (rest, e) (.error k)) ∧
    ((loop sha256 blake2b256 fuel r log).1 = .ready (.ok ()) →
      ∃ bs ms rest e, view r = (bs ++ rest, e) ∧ Messages bs ms ∧ Decodable ms ∧
        (Reads (rest, e) (.ok none) ∨ ∃ d err, Reads (rest, e) (.ok (some d)) ∧ Message.fromPb d = .error err)) := by
  induction fuel with
  | zero => intro r log h; omega
  | succ fuel ih =>
    intro r log hf
    have hs := readOptLengthPrefixed_spec r
    unfold loop
    generalize readOptLengthPrefixed r = P at hs
    obtain ⟨x, r1⟩ := P
    have here : ∀ {y}, Reads (view r) y → Reads ((view r).1, (view r).2) y := fun h => h
    rcases x with _ | (k' | (_ | data))
    · exact ⟨nofun, nofun⟩
    · refine ⟨?_, nofun⟩
      intro k hk
      cases hk
      exact ⟨[], [], (view r).1, (view r).2, rfl, .nil, nofun, here hs.1⟩
    · refine ⟨nofun, fun _ => ⟨[], [], (view r).1, (view r).2, rfl, .nil, nofun, .inl (here hs.1)⟩⟩
    · obtain ⟨m, hm, ht⟩ := hs.2 data rfl
      have hsz := ht.size
      have hpos := List.length_pos_iff.mpr (prefixed_ne_nil hm)
      obtain ⟨b0, e0, hv, hv1⟩ := ht.view
      simp only
      cases hmsg : Message.fromPb data with
      | error e =>
        exact ⟨nofun, fun _ => ⟨[], [], (view r).1, (view r).2, rfl, .nil, nofun, .inr ⟨data, e, here hs.1, hmsg⟩⟩⟩
      | ok message =>
        simp only
        cases message.toPb with
        | error e => exact ⟨nofun, nofun⟩
        | ok encoded =>
          simp only
          have hio := showBlocks_io sha256 blake2b256 message.blocks 0
            (log ++ [.received data.length, .encodedMatches (encoded == data)])
          generalize showBlocks sha256 blake2b256 0 message.blocks _ = S at hio
          obtain ⟨e | ⟨⟩, log'⟩ := S
          · refine ⟨fun k hk => ?_, nofun⟩
            cases hk
            exact absurd rfl (hio k)
          · simp only
            have hcons : ∀ {bs ms}, Messages bs ms → Decodable ms → Messages (m ++ bs) (data :: ms) ∧ Decodable (data :: ms) := by
              intro bs ms h1 h2
              refine ⟨.cons hm h1, ?_⟩
              intro d hd
              rcases List.mem_cons.mp hd with rfl | hd
              · exact ⟨message, hmsg⟩
              · exact h2 d hd
            obtain ⟨i1, i2⟩ := ih r1 log' (by omega)
            refine ⟨fun k hk => ?_, fun hk => ?_⟩
            · obtain ⟨bs, ms, rest, e, h1, h2, h3, h4⟩ := i1 k hk
              rw [hv1] at h1
              cases h1
              exact ⟨m ++ bs, data :: ms, rest, e0, by rw [hv, List.append_assoc], (hcons h2 h3).1, (hcons h2 h3).2, h4⟩
            · obtain ⟨bs, ms, rest, e, h1, h2, h3, h4⟩ := i2 hk
              rw [hv1] at h1
              cases h1
              exact ⟨m ++ bs, data :: ms, rest, e0, by rw [hv, List.append_assoc], (hcons h2 h3).1, (hcons h2 h3).2, h4⟩

/-- **C207**, partial: success of the bitswap handler says that the peer sent whole messages that can all be decoded, and
behind them ended the stream, or the stream broke with "unexpected end of file", or a whole message came that cannot be
decoded. Missing: that it is the first of these (`C207_false`, `C207_false_undecodable`). -/
theorem C207_success_partial (sha256 blake2b256 : Bytes → Bytes) (want : Option (List Char)) (r : Reader)
    (h : (handle sha256 blake2b256 want r).1 = .ready (.ok ())) :
    ∃ bs ms rest e, view r = (bs ++ rest, e) ∧ Messages bs ms ∧ Decodable ms ∧
      ((rest = [] ∧ (e = .eof ∨ e = .error .unexpectedEof)) ∨
        ∃ m d rest' err, rest = m ++ rest' ∧ Prefixed m d ∧ Message.fromPb d = .error err) := by
  obtain ⟨-, -, hv⟩ := ask_does want r
  unfold handle at h
  generalize ask want r = A at *
  obtain ⟨_ | (e | ⟨⟩), r1, log⟩ := A
  · cases h
  · cases h
  · simp only at h hv
    have hl := (loop_reads sha256 blake2b256 _ r1 log (Nat.lt_succ_self _)).2
    generalize loop sha256 blake2b256 (scriptSize r1.t.reads + 1) r1 log = L at *
    obtain ⟨_ | (e | ⟨⟩), r2, log2⟩ := L
    · cases h
    · cases h
    · obtain ⟨bs, ms, rest, e, h1, h2, h3, h4⟩ := hl rfl
      rw [hv] at h1
      refine ⟨bs, ms, rest, e, h1, h2, h3, ?_⟩
      rcases h4 with h4 | ⟨d, err, h4, h5⟩
      · left
        generalize hg : (rest, e) = v at h4
        cases h4 with
        | over => cases hg; exact ⟨rfl, .inl rfl⟩
        | overBroken => cases hg; exact ⟨rfl, .inr rfl⟩
      · right
        generalize hg : (rest, e) = v at h4
        cases h4 with
        | message rest' e' hm => cases hg; exact ⟨_, d, rest', err, rfl, hm, h5⟩

/-- **C207**, partial: a failure of the stream that the bitswap handler reports is one: of writing, flushing or shutting down; or
of reading, in a way that C205 allows, behind whole messages that can be decoded. -/
theorem C207_only_partial (sha256 blake2b256 : Bytes → Bytes) (want : Option (List Char)) (r : Reader) {k : IoKind}
    (h : (handle sha256 blake2b256 want r).1 = .ready (.error (.io k))) :
    SendingFails r.t k ∨ DoneEvent.error k ∈ r.t.shutdowns ∨
    ∃ bs ms rest e, view r = (bs ++ rest, e) ∧ Messages bs ms ∧ Decodable ms ∧ Reads (rest, e) (.error k) := by
  obtain ⟨hd, ho, hv⟩ := ask_does want r
  unfold handle at h
  generalize ask want r = A at *
  obtain ⟨_ | (e | ⟨⟩), r1, log⟩ := A
  · cases h
  · cases h
    exact (ho k rfl).imp_right .inl
  · simp only at h hv hd
    have hl := (loop_reads sha256 blake2b256 _ r1 log (Nat.lt_succ_self _)).1
    have ht := loop_does sha256 blake2b256 (scriptSize r1.t.reads + 1) r1 log
    generalize loop sha256 blake2b256 (scriptSize r1.t.reads + 1) r1 log = L at *
    obtain ⟨_ | (e | ⟨⟩), r2, log2⟩ := L
    · cases h
    · cases h
      rw [hv] at hl
      exact .inr (.inr (hl k rfl))
    · simp only at h ht
      have hf := endingFails_later (x := .pending) (.same ht) ((finish_does r2 log2).2 k h)
      exact (endingFails_later hd hf).imp_right .inl

/-- **C207**, partial: as long as the bitswap handler does not report a failure of the stream, no write, no flush and no shutdown
of it has failed. -/
theorem C207_reports_partial (sha256 blake2b256 : Bytes → Bytes) (want : Option (List Char)) (r : Reader)
    (h : ∀ k, (handle sha256 blake2b256 want r).1 ≠ .ready (.error (.io k))) :
    UsedWell WriteEvent.error r.t.writes (handle sha256 blake2b256 want r).2.1.t.writes ∧
    UsedWell DoneEvent.error r.t.flushes (handle sha256 blake2b256 want r).2.1.t.flushes ∧
    UsedWell DoneEvent.error r.t.shutdowns (handle sha256 blake2b256 want r).2.1.t.shutdowns := by
  refine Does.well ?_ h
  obtain ⟨hd, -, -⟩ := ask_does want r
  unfold handle
  generalize ask want r = A at *
  obtain ⟨_ | (e | ⟨⟩), r1, log⟩ := A
  · exact hd
  · exact hd
  · simp only at hd ⊢
    have ht := loop_does sha256 blake2b256 (scriptSize r1.t.reads + 1) r1 log
    generalize loop sha256 blake2b256 (scriptSize r1.t.reads + 1) r1 log = L at *
    obtain ⟨_ | (e | ⟨⟩), r2, log2⟩ := L
    · exact hd.after nofun (.same ht)
    · exact hd.after nofun (.same ht)
    · exact hd.after nofun ((Does.same (x := .pending) ht).after nofun (finish_does r2 log2).1)

/-- **C207**, the identify handler: a failure of the stream that it reports is one of writing, flushing or shutting down; and as
long as it reports none, there was none. -/
theorem C207_identify (publicKey : Bytes) (r : Reader) :
    (∀ k, (identify publicKey r).1 = .ready (.error (.io k)) → SendingFails r.t k ∨ DoneEvent.error k ∈ r.t.shutdowns) ∧
    ((∀ k, (identify publicKey r).1 ≠ .ready (.error (.io k))) →
      UsedWell WriteEvent.error r.t.writes (identify publicKey r).2.1.t.writes ∧
      UsedWell DoneEvent.error r.t.flushes (identify publicKey r).2.1.t.flushes ∧
      UsedWell DoneEvent.error r.t.shutdowns (identify publicKey r).2.1.t.shutdowns) := by
  suffices h : (∀ k, (identify publicKey r).1 = .ready (.error (.io k)) → EndingFails r.t k) ∧
      Does (identify publicKey r).1 r.t (identify publicKey r).2.1.t from ⟨h.1, h.2.well⟩
  unfold identify
  split
  · exact ⟨nofun, .same rfl⟩
  · rename_i pb _
    have hs := writeLengthPrefixed_sends r.t pb
    have hsh : (writeLengthPrefixed r.t pb).2.shutdowns = r.t.shutdowns := by
      obtain ⟨ws, pre, h, -, -⟩ := writeLengthPrefixed_spec r.t pb
      rw [h]
    have hd := sends_does hs hsh
    generalize writeLengthPrefixed r.t pb = W at *
    obtain ⟨_ | (k | ⟨⟩), t⟩ := W
    · exact ⟨nofun, hd⟩
    · exact ⟨fun k' hk => by cases hk; exact .inl (hs.only k rfl), hd⟩
    · obtain ⟨h1, h2⟩ := finish_does { r with t := t } []
      exact ⟨fun k hk => endingFails_later hd (h2 k hk), hd.after nofun h1⟩

example : (identify (List.replicate 32 7) ⟨⟨[], [.accept 9, .error .brokenPipe], [.ok], [.ok], []⟩, []⟩).1 =
    .ready (.error (.io .brokenPipe)) := by decide +kernel

/-- Shutting down fails; the peer is cut off inside a message. -/
example : (handle id id none ⟨⟨[.ready [0], .ready []], [], [.ok], [.error .brokenPipe], []⟩, []⟩).1 =
    .ready (.error (.io .brokenPipe)) := by decide +kernel
example : (handle id id none ⟨⟨[.ready [0, 5, 1], .ready []], [], [.ok], [.ok], []⟩, []⟩).1 =
    .ready (.error (.io .unexpectedEof)) := by decide +kernel
example : (handle id id none ⟨⟨[.ready [0, 0], .ready []], [], [.ok], [.ok], []⟩, []⟩).1 = .ready (.ok ()) := by decide +kernel

end Ngfs.Handler
