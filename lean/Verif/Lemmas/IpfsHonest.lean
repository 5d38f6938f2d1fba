import Verif.Lemmas.Ipfs

/-! The negotiation succeeds with an honest remote. -/
namespace Ngfs.Io
open Varint Spec Spec.Io Spec.Ipfs Tls

theorem writeAllLoop_takes (ws : List WriteEvent) : ∀ (out sent : Bytes) (n : Nat), WillTake ws (out.length + n) →
    (writeAllLoop ws out sent).1 = .ready (.ok ()) ∧ WillTake (writeAllLoop ws out sent).2.1 n := by
  induction ws with
  | nil =>
    intro out sent n h
    rcases out with _ | ⟨o, os⟩
    · exact ⟨rfl, by simpa [writeAllLoop] using h⟩
    · have := h.2
      simp at this
  | cons w ws ih =>
    intro out sent n h
    rcases out with _ | ⟨o, os⟩
    · exact ⟨rfl, by simpa [writeAllLoop] using h⟩
    · have hw := h.1 w List.mem_cons_self
      have hws : ∀ e ∈ ws, e = .pending ∨ ∃ m, 0 < m ∧ e = .accept m := fun e he => h.1 e (List.mem_cons_of_mem _ he)
      have hn := h.2
      rcases hw with rfl | ⟨m, hm, rfl⟩
      · simp only [writeAllLoop]
        refine ih _ _ _ ⟨hws, ?_⟩
        simpa using hn
      · simp only [writeAllLoop]
        rw [if_neg (by omega)]
        refine ih _ _ _ ⟨hws, ?_⟩
        have hp : ((WriteEvent.accept m) != .pending) = true := by simp
        rw [List.filter_cons_of_pos (p := fun e => e != WriteEvent.pending) hp] at hn
        simp only [List.length_cons, List.length_drop] at hn ⊢
        omega

theorem flushLoop_done (es : List DoneEvent) (n : Nat) (h : WillFlush es (n + 1)) :
    (flushLoop es).1 = .ready (.ok ()) ∧ WillFlush (flushLoop es).2 n := by
  induction es with
  | nil => have := h.2; simp at this
  | cons e es ih =>
    have hes : ∀ x ∈ es, x = .pending ∨ x = .ok := fun x hx => h.1 x (List.mem_cons_of_mem _ hx)
    have hn := h.2
    rcases h.1 e List.mem_cons_self with rfl | rfl
    · exact ih ⟨hes, by simpa using hn⟩
    · refine ⟨rfl, hes, ?_⟩
      have hp : (DoneEvent.ok != .pending) = true := by decide
      rw [List.filter_cons_of_pos (p := fun e => e != DoneEvent.pending) hp] at hn
      simp only [List.length_cons] at hn
      show n ≤ (es.filter fun e => e != .pending).length
      omega

theorem request_honest (r : Reader) (data : Bytes) (n k : Nat) (hw : WillTake r.t.writes ((framed data).length + n))
    (hf : WillFlush r.t.flushes (k + 1)) : (request r data).1 = .ready (.ok ()) ∧ WillTake (request r data).2.t.writes n ∧
      WillFlush (request r data).2.t.flushes k := by
  unfold request writeLengthPrefixed
  have h1 := writeAllLoop_takes r.t.writes (encodeU64 data.length) r.t.sent (data.length + n) (by
    have := hw.2
    refine ⟨hw.1, ?_⟩
    simp only [framed, List.length_append] at this
    omega)
  unfold writeAll
  generalize writeAllLoop r.t.writes (encodeU64 data.length) r.t.sent = W at h1
  obtain ⟨x, ws, sent⟩ := W
  obtain ⟨rfl, h1⟩ := h1
  simp only
  have h2 := writeAllLoop_takes ws data sent n h1
  generalize writeAllLoop ws data sent = W at h2
  obtain ⟨x, ws, sent⟩ := W
  obtain ⟨rfl, h2⟩ := h2
  simp only [flush]
  have h3 := flushLoop_done r.t.flushes k hf
  exact ⟨h3.1, h2, h3.2⟩

theorem readLengthPrefixed_quiet (r : Reader) : Quiet r (readLengthPrefixed r).2 := by
  rw [readLengthPrefixed_snd]; exact readOptLengthPrefixed_quiet r

theorem select_honest (r : Reader) (protocol m rest : Bytes) (e : End) (n k : Nat) (hv : view r = (m ++ rest, e))
    (hm : Prefixed m protocol) (hw : WillTake r.t.writes ((framed protocol).length + n)) (hf : WillFlush r.t.flushes (k + 1)) :
    (select r protocol).1 = .ready (.ok .accepted) ∧ WillTake (select r protocol).2.t.writes n ∧
      WillFlush (select r protocol).2.t.flushes k := by
  obtain ⟨h1, h2, h3⟩ := request_honest r protocol n k hw hf
  refine ⟨((C39_select_exact r protocol h1).1).mpr ⟨m, rest, e, hv, hm⟩, ?_⟩
  unfold select
  generalize request r protocol = Q at *
  obtain ⟨q, r1⟩ := Q
  simp only at h1 h2 h3
  subst h1
  simp only
  have hq := readLengthPrefixed_quiet r1
  generalize readLengthPrefixed r1 = S at hq
  obtain ⟨y, r2⟩ := S
  have hw2 : r2.t.writes = r1.t.writes := by rw [hq.1]
  have hf2 : r2.t.flushes = r1.t.flushes := by rw [hq.1]
  rcases y with _ | (k | d) <;> simp only
  · rw [hw2, hf2]; exact ⟨h2, h3⟩
  · rw [hw2, hf2]; exact ⟨h2, h3⟩
  · split
    · rw [hw2, hf2]; exact ⟨h2, h3⟩
    · split <;> rw [hw2, hf2] <;> exact ⟨h2, h3⟩

theorem select_quiet (r : Reader) (protocol : Bytes) : Quiet (request r protocol).2 (select r protocol).2 := by
  unfold select
  generalize request r protocol = Q
  obtain ⟨_ | (k | ⟨⟩), r1⟩ := Q
  · exact .refl _
  · exact .refl _
  · simp only
    have hq := readLengthPrefixed_quiet r1
    generalize readLengthPrefixed r1 = S at hq
    obtain ⟨_ | (k | d), r2⟩ := S <;> simp only
    · exact hq
    · exact hq
    · split
      · exact hq
      · split <;> exact hq

theorem select_limits (r : Reader) (protocol : Bytes) (hr : r.limits = []) : (select r protocol).2.limits = [] := by
  have h := (select_quiet r protocol).2
  rw [(request_reads r protocol).2, hr] at h
  exact List.length_eq_zero_iff.mp h

theorem select_sent (r : Reader) (protocol : Bytes) :
    ∃ pre, (select r protocol).2.t.sent = r.t.sent ++ pre ∧ pre <+: framed protocol ∧
      ∀ x, (select r protocol).1 = .ready (.ok x) → pre = framed protocol := by
  obtain ⟨ws, fl, pre, h1, h2, h3⟩ := request_spec r protocol
  have hq := (select_quiet r protocol).1
  refine ⟨pre, by rw [hq, h1], h2, fun x hx => h3 ?_⟩
  unfold select at hx
  generalize request r protocol = Q at hx
  obtain ⟨_ | (k | ⟨⟩), r1⟩ := Q
  · cases hx
  · cases hx
  · rfl

theorem list_sent (r : Reader) :
    ∃ pre, (list r).2.t.sent = r.t.sent ++ pre ∧ pre <+: framed lsMessage ∧
      ∀ x, (list r).1 = .ready (.ok x) → pre = framed lsMessage := by
  obtain ⟨ws, fl, pre, h1, h2, h3⟩ := request_spec r lsMessage
  unfold list
  generalize request r lsMessage = Q at h1 h3
  obtain ⟨q, r1⟩ := Q
  simp only at h1 h3
  subst h1
  rcases q with _ | (k | ⟨⟩)
  · exact ⟨pre, rfl, h2, fun x hx => by cases hx⟩
  · exact ⟨pre, rfl, h2, fun x hx => by cases hx⟩
  · have h4 := h3 rfl
    simp only
    generalize hr1 : ({ r with t := { r.t with writes := ws, flushes := fl, sent := r.t.sent ++ pre } } : Reader) = r1
    have hs1 : r1.t.sent = r.t.sent ++ pre := by rw [← hr1]
    have hq : Quiet r1 (readOptVarint r1).2 := await_quiet _ _
    unfold readVarint
    generalize readOptVarint r1 = V at hq
    obtain ⟨_ | (k | (_ | v)), r2⟩ := V <;> simp only [orEof] <;> simp only at hq
    · exact ⟨pre, by rw [hq.1, hs1], h2, fun _ _ => h4⟩
    · exact ⟨pre, by rw [hq.1, hs1], h2, fun _ _ => h4⟩
    · exact ⟨pre, by rw [hq.1, hs1], h2, fun _ _ => h4⟩
    · split
      · exact ⟨pre, by rw [hq.1, hs1], h2, fun _ _ => h4⟩
      · have := (listLoop_sent (scriptSize r2.t.reads + 1) (r2.take v) []).1
        refine ⟨pre, ?_, h2, fun _ _ => h4⟩
        show (listLoop (scriptSize r2.t.reads + 1) (r2.take v) []).2.t.sent = _
        rw [this, Reader.take, hq.1, hs1]

theorem handshake_eq (r : Reader) : (handshake r).2 = (select r multistreamId).2 := by
  unfold handshake
  generalize select r multistreamId = P
  obtain ⟨x, r'⟩ := P
  rcases x with _ | (k | (_ | _)) <;> rfl

theorem listLoop_honest (fuel : Nat) : ∀ (r : Reader) (acc names : List Bytes) (bs left : Bytes), scriptSize r.t.reads < fuel →
    view r = (bs ++ left, .eof) → Messages bs names → (left = [] ∨ Unfinished left) →
    (listLoop fuel r acc).1 = .ready (.ok (acc ++ names)) := by
  induction fuel with
  | zero => intro r acc names bs left h; omega
  | succ fuel ih =>
    intro r acc names bs left hf hv hm hleft
    cases hm with
    | nil =>
      rw [List.nil_append] at hv
      unfold listLoop readLengthPrefixed
      by_cases hl : left = []
      · subst hl
        have h1 := (C40_read_exact r (.ok none)).mpr (by rw [hv]; exact .over)
        generalize readOptLengthPrefixed r = P at h1
        obtain ⟨x, r'⟩ := P
        simp only at h1
        subst h1
        simp [orEof]
      · have h1 := (C40_read_exact r (.error .unexpectedEof)).mpr (by rw [hv]; exact .cut (hleft.resolve_left hl) hl)
        generalize readOptLengthPrefixed r = P at h1
        obtain ⟨x, r'⟩ := P
        simp only at h1
        subst h1
        simp [orEof]
    | @cons b bs' m ms hp hms =>
      rw [List.append_assoc] at hv
      have h1 := (C40_read_exact r (.ok (some m))).mpr (by rw [hv]; exact .message _ _ hp)
      have hs := readOptLengthPrefixed_spec r
      unfold listLoop readLengthPrefixed
      generalize readOptLengthPrefixed r = P at h1 hs
      obtain ⟨x, r'⟩ := P
      simp only at h1
      subst h1
      simp only [orEof]
      obtain ⟨b', hb', ht⟩ := hs.2 m rfl
      have hsz := ht.size
      have hpos := List.length_pos_iff.mpr (prefixed_ne_nil hb')
      obtain ⟨bs2, e2, h3, h4⟩ := ht.view
      rw [hv] at h3
      have h3' := congrArg Prod.fst h3
      have h3e := congrArg Prod.snd h3
      simp only at h3' h3e
      obtain ⟨-, -, hrest⟩ := prefixed_unique hp hb' h3'
      have := ih r' (acc ++ [m]) ms bs' left (by omega) (by rw [h4, ← hrest, ← h3e]) hms hleft
      rw [this]
      simp

theorem list_honest (r : Reader) (names : List Bytes) (p body rest : Bytes) (e : End) (n k : Nat)
    (hv : view r = (p ++ (body ++ rest), e)) (hp : IsVarint p) (hp10 : p.length ≤ 10) (hb : body.length = base128 p % 2 ^ 64)
    (hmax : body.length ≤ 65536) (hlist : Listing body names)
    (hw : WillTake r.t.writes ((framed lsMessage).length + n)) (hf : WillFlush r.t.flushes (k + 1)) :
    (list r).1 = .ready (.ok names) ∧ WillTake (list r).2.t.writes n ∧ WillFlush (list r).2.t.flushes k := by
  obtain ⟨h1, h2, h3⟩ := request_honest r lsMessage n k hw hf
  have hrv := request_view r lsMessage
  unfold list
  generalize request r lsMessage = Q at *
  obtain ⟨q, r1⟩ := Q
  simp only at h1 h2 h3 hrv
  subst h1
  simp only
  rw [hv] at hrv
  have hs := readOptVarint_spec r1
  have hq : Quiet r1 (readOptVarint r1).2 := await_quiet _ _
  unfold readVarint
  generalize readOptVarint r1 = V at hs hq
  obtain ⟨x, r2⟩ := V
  have high : ∀ q : Bytes, (∀ b ∈ q, 128 ≤ b.toNat) → ∀ s, p ++ (body ++ rest) = q ++ s → q.length = 10 ∨ s = [] → False := by
    intro q hqh s he hor
    refine varint_vs_high hp hp10 hqh ?_ he
    rcases hor with h | rfl
    · omega
    · have := congrArg List.length he
      simp only [List.append_nil, List.length_append] at this
      omega
  rcases x with _ | (k' | (_ | v))
  · obtain ⟨q, hq1, hq2⟩ := hs
    rw [hrv] at hq1
    exact (high q (feed_pending hq2).1 [] (by rw [List.append_nil]; exact congrArg Prod.fst hq1) (.inr rfl)).elim
  · exfalso
    rcases hs with ⟨-, q, rest', e', hq1, -, hq3⟩ | ⟨q, e', hq1, hq2, -⟩
    · obtain ⟨q', b, rfl, hq4, hq5⟩ := feed_over hq3
      simp only at hq1
      rw [hrv] at hq1
      have := congrArg Prod.fst hq1
      simp only [List.append_assoc] at this
      exact high q' hq4 _ this (.inl hq5)
    · simp only at hq1
      rw [hrv] at hq1
      exact high q (feed_pending hq2).1 [] (by rw [List.append_nil]; exact congrArg Prod.fst hq1) (.inr rfl)
  · exfalso
    obtain ⟨-, hs | hs⟩ := hs <;> simp only at hs <;> rw [hrv] at hs <;> have := congrArg Prod.fst hs <;> simp at this <;>
      exact isVarint_not_high hp (by rw [this.1]; simp)
  · obtain ⟨q, hq1, -, hq3⟩ := hs
    simp only at hq1 hq3 hq ⊢
    obtain ⟨hv1, hv2, hv3⟩ := feed_finished hq3
    obtain ⟨after, e', hv4, hv5⟩ := hq1.view
    rw [hrv] at hv4
    have hv6 := congrArg Prod.fst hv4
    have hve := congrArg Prod.snd hv4
    simp only at hv6 hve
    obtain ⟨rfl, hv7⟩ := Mplex.isVarint_unique hp hv1 hv6
    subst hv7 hve
    rw [← hb] at hv3
    subst hv3
    simp only [orEof]
    rw [if_neg (by omega)]
    obtain ⟨bs, left, hbody, hms, hleft⟩ := hlist
    have hview : view (r2.take body.length) = (bs ++ left, .eof) := by
      have : view (r2.take body.length) = trunc body.length (view r2) := rfl
      rw [this, hv5]
      unfold trunc
      rw [if_pos (by simp only [List.length_append]; omega)]
      simp only
      rw [List.take_left, hbody]
    have hl := listLoop_honest (scriptSize r2.t.reads + 1) (r2.take body.length) [] names bs left (Nat.lt_succ_self _) hview hms hleft
    have hqq := listLoop_quiet (scriptSize r2.t.reads + 1) (r2.take body.length) []
    generalize listLoop (scriptSize r2.t.reads + 1) (r2.take body.length) [] = L at hl hqq
    obtain ⟨y, r3⟩ := L
    simp only at hl hqq ⊢
    subst hl
    have hw3 : r3.t.writes = r1.t.writes := by rw [hqq.1, Reader.take, hq.1]
    have hf3 : r3.t.flushes = r1.t.flushes := by rw [hqq.1, Reader.take, hq.1]
    refine ⟨rfl, ?_, ?_⟩
    · show WillTake r3.t.writes n
      rw [hw3]; exact h2
    · show WillFlush r3.t.flushes k
      rw [hf3]; exact h3

end Ngfs.Io

namespace Ngfs.Ipfs
open Io Varint Spec Spec.Io Spec.Ipfs Tls

theorem upgrade_keeps {P : List ReadEvent → Prop} (hP : Closed P) (r : Reader) (protocol : Bytes) (hb : P r.t.reads) :
    P (upgrade r protocol).2.t.reads := by
  unfold upgrade
  have h1 := select_keeps hP r multistreamId hb
  rw [← handshake_eq] at h1
  generalize handshake r = H at h1
  obtain ⟨_ | (k | ⟨⟩), r1⟩ := H
  · exact h1
  · exact h1
  simp only at h1 ⊢
  have h2 := list_keeps hP r1 h1
  generalize list r1 = L at h2
  obtain ⟨_ | (k | names), r2⟩ := L
  · exact h2
  · exact h2
  simp only at h2 ⊢
  have h3 := select_keeps hP r2 protocol h2
  generalize select r2 protocol = T at h3
  obtain ⟨_ | (k | (_ | _)), r3⟩ := T <;> exact h3

/-- A negotiation that succeeds: what the remote said, and that all that follows is left. -/
theorem upgrade_ok (r : Reader) (hl : r.limits = []) (ho : Settles r.t.reads) (protocol : Bytes) (names : List Bytes)
    (h : (upgrade r protocol).1 = .ready (.ok names)) :
    ∃ said rest e, content r.t.reads = (said ++ rest, e) ∧ Negotiation multistreamId protocol names said ∧
      content (upgrade r protocol).2.t.reads = (rest, e) ∧
      (upgrade r protocol).2.t.sent = r.t.sent ++ framed multistreamId ++ framed lsMessage ++ framed protocol := by
  have hvw : ∀ r : Reader, r.limits = [] → view r = content r.t.reads := fun r h => by simp [Spec.Io.view, h]
  have hlim : ∀ (r : Reader) (q : Bytes), r.limits = [] → (select r q).2.limits = [] := by
    intro r q hr
    exact select_limits r q hr
  unfold upgrade at h ⊢
  have hh := @handshake_ok r
  have he := handshake_eq r
  generalize handshake r = H at *
  obtain ⟨x, r1⟩ := H
  rcases x with _ | (k | ⟨⟩)
  · simp at h
  · simp at h
  simp only at h hh he ⊢
  subst he
  obtain ⟨m1, rest1, e1, h2, h3, h4, h5⟩ := select_accepted (hh trivial).1
  have hl1 := hlim r multistreamId hl
  have ho1 := select_keeps settles_closed r multistreamId ho
  rw [hvw _ hl] at h2
  rw [hvw _ hl1] at h4
  generalize select r multistreamId = S at *
  obtain ⟨x, r1⟩ := S
  simp only at h h4 h5 hl1 ho1 ⊢
  have hlo := list_ok r1 hl1 ho1
  have ho2 := list_keeps settles_closed r1 ho1
  generalize list r1 = L at *
  obtain ⟨x, r2⟩ := L
  rcases x with _ | (k | names')
  · simp at h
  · simp at h
  simp only at h hlo ho2 ⊢
  obtain ⟨i1, i2, p, after, e, i3, i4, i5, i6, i7⟩ := hlo names' rfl
  have hsa := @select_accepted r2 protocol
  have ho3 := select_keeps settles_closed r2 protocol ho2
  have hl3 := hlim r2 protocol i2
  generalize select r2 protocol = T at *
  obtain ⟨x, r3⟩ := T
  rcases x with _ | (k | (_ | _))
  · simp at h
  · simp at h
  · simp only at h hsa ho3 hl3 ⊢
    cases h
    obtain ⟨m3, rest3, e3, j1, j2, j3, j4⟩ := hsa trivial
    rw [hvw _ i2] at j1
    rw [hvw _ hl3] at j3
    rw [h4] at i3
    cases i3
    rcases i7 with ⟨body, rest, rfl, k2, k3, k4⟩ | ⟨-, k1⟩
    · rw [j1] at k4
      cases k4
      exact ⟨m1 ++ (p ++ (body ++ m3)), rest3, _, by rw [h2]; simp, ⟨m1, p, body, m3, rfl, h3, i4, i5, k2, by omega, k3, j2⟩, j3,
        by rw [j4, i1, h5]⟩
    · exfalso
      have := readData_content k1
      rw [j1] at this
      exact prefixed_ne_nil j2 (List.append_eq_nil_iff.mp this).1
  · simp at h

/-- Whatever the remote says, nothing is sent but the header, the request for the list and the name, in this order. -/
theorem upgrade_sent (r : Reader) (protocol : Bytes) :
    ∃ pre, (upgrade r protocol).2.t.sent = r.t.sent ++ pre ∧ pre <+: framed multistreamId ++ framed lsMessage ++ framed protocol := by
  have hsel := fun (r : Reader) (q : Bytes) => select_sent r q
  unfold upgrade
  have hh := @handshake_ok r
  have he := handshake_eq r
  generalize handshake r = H at *
  obtain ⟨x, r1⟩ := H
  simp only at he hh
  subst he
  obtain ⟨pre1, a1, a2, a3⟩ := hsel r multistreamId
  have hp : ∀ {a : Bytes} {b c : Bytes}, a <+: b → a <+: b ++ c := fun h => h.trans (List.prefix_append _ _)
  rcases x with _ | (k | ⟨⟩)
  · exact ⟨pre1, a1, hp (hp a2)⟩
  · exact ⟨pre1, a1, hp (hp a2)⟩
  simp only
  have a4 := a3 _ (hh rfl).1
  subst a4
  generalize select r multistreamId = S at *
  obtain ⟨y, r1⟩ := S
  simp only at a1 ⊢
  obtain ⟨pre2, b1, b2, b3⟩ := list_sent r1
  generalize list r1 = L at *
  obtain ⟨x, r2⟩ := L
  have first : ∃ pre, r2.t.sent = r.t.sent ++ pre ∧ pre <+: framed multistreamId ++ framed lsMessage ++ framed protocol := by
    refine ⟨framed multistreamId ++ pre2, by rw [b1, a1, List.append_assoc], ?_⟩
    rw [List.append_assoc]
    exact (List.prefix_append_right_inj _).mpr (hp b2)
  rcases x with _ | (k | names')
  · exact first
  · exact first
  simp only at b1 b3 ⊢
  have b4 := b3 names' rfl
  subst b4
  obtain ⟨pre3, c1, c2, -⟩ := hsel r2 protocol
  have last : ∃ pre, (select r2 protocol).2.t.sent = r.t.sent ++ pre ∧
      pre <+: framed multistreamId ++ framed lsMessage ++ framed protocol := by
    refine ⟨framed multistreamId ++ framed lsMessage ++ pre3, by rw [c1, b1, a1]; simp, ?_⟩
    exact (List.prefix_append_right_inj _).mpr c2
  generalize select r2 protocol = T at last
  obtain ⟨x, r3⟩ := T
  rcases x with _ | (k | (_ | _)) <;> exact last

/-- A negotiation with a remote that says what it should. -/
theorem upgrade_honest (r : Reader) (hl : r.limits = []) (ho : Orderly r.t.reads) (protocol : Bytes) (names : List Bytes)
    (said rest : Bytes) (e : End) (n k : Nat) (hv : content r.t.reads = (said ++ rest, e))
    (hs : Negotiation multistreamId protocol names said)
    (hw : WillTake r.t.writes ((framed multistreamId ++ framed lsMessage ++ framed protocol).length + n))
    (hf : WillFlush r.t.flushes (k + 3)) :
    (upgrade r protocol).1 = .ready (.ok names) ∧ WillTake (upgrade r protocol).2.t.writes n ∧
      WillFlush (upgrade r protocol).2.t.flushes k := by
  have hvw : ∀ r : Reader, r.limits = [] → view r = content r.t.reads := fun r h => by simp [Spec.Io.view, h]
  obtain ⟨m1, p, body, m3, rfl, s1, s2, s3, s4, s5, s6, s7⟩ := hs
  simp only [List.append_assoc] at hv
  have hw1 : WillTake r.t.writes ((framed multistreamId).length + ((framed lsMessage).length + ((framed protocol).length + n))) := by
    refine ⟨hw.1, ?_⟩
    have := hw.2
    simp only [List.length_append] at this
    omega
  obtain ⟨a1, a2, a3⟩ := select_honest r multistreamId m1 (p ++ (body ++ (m3 ++ rest))) e _ (k + 2) (by rw [hvw _ hl, hv]) s1 hw1 hf
  have hl1 := select_limits r multistreamId hl
  have ho1 := select_keeps orderly_closed r multistreamId ho
  obtain ⟨m1', rest1, e1, b1, b2, b3, -⟩ := select_accepted a1
  rw [hvw _ hl, hv] at b1
  obtain ⟨-, -, b4⟩ := prefixed_unique s1 b2 (congrArg Prod.fst b1)
  have b5 : e = e1 := congrArg Prod.snd b1
  subst b4 b5
  have hhs : handshake r = (.ready (.ok ()), (select r multistreamId).2) := by
    unfold handshake
    generalize select r multistreamId = S at a1
    obtain ⟨x, r1⟩ := S
    simp only at a1
    subst a1
    rfl
  unfold upgrade
  rw [hhs]
  simp only
  generalize select r multistreamId = S at *
  obtain ⟨x, r1⟩ := S
  simp only at a2 a3 hl1 ho1 b3 ⊢
  obtain ⟨c1, c2, c3⟩ := list_honest r1 names p body (m3 ++ rest) e _ (k + 1) b3 s2 s3 s4 s5 s6 a2 a3
  obtain ⟨-, d2, p', after, e', d3, d4, d5, d6, d7⟩ := list_ok r1 hl1 (orderly_settles ho1) names c1
  rw [← hvw _ hl1, b3] at d3
  obtain ⟨rfl, d8⟩ := Mplex.isVarint_unique s2 d4 (congrArg Prod.fst d3)
  have d9 : e = e' := congrArg Prod.snd d3
  subst d8 d9
  have hm3 := List.length_pos_iff.mpr (prefixed_ne_nil s7)
  rcases d7 with ⟨body', rest', f1, f2, -, f4⟩ | ⟨f1, -⟩
  · obtain ⟨rfl, rfl⟩ := List.append_inj f1 (by omega)
    generalize list r1 = L at *
    obtain ⟨x, r2⟩ := L
    simp only at c1 c2 c3 d2 f4 ⊢
    subst c1
    simp only
    obtain ⟨g1, g2, g3⟩ := select_honest r2 protocol m3 rest e n k (by rw [hvw _ d2, f4]) s7 c2 c3
    generalize select r2 protocol = T at *
    obtain ⟨x, r3⟩ := T
    simp only at g1 g2 g3
    subst g1
    exact ⟨rfl, g2, g3⟩
  · exfalso
    simp only [List.length_append] at f1
    omega

end Ngfs.Ipfs
