import Verif.Props.TlsEnd
import Verif.Props.TlsRead
import Verif.Spec.TlsHandshake

/-!
C148: two ends of a TLS connection and somebody between them who can do with the bytes on the way whatever they like,
but does not have the keys.
-/
namespace Ngfs.Tls

/-- What stands before the zeros at the end is unique. -/
theorem strip_unique {c c' : Bytes} {t t' : UInt8} {p p' : Nat} (ht : t ≠ 0) (ht' : t' ≠ 0)
    (h : c ++ [t] ++ List.replicate p 0 = c' ++ [t'] ++ List.replicate p' 0) : c = c' ∧ t = t' := by
  induction p generalizing p' with
  | zero =>
    cases p' with
    | zero =>
      simp only [List.replicate_zero, List.append_nil] at h
      have := List.append_inj' h rfl
      exact ⟨this.1, by simpa using this.2⟩
    | succ p' =>
      rw [List.replicate_succ', ← List.append_assoc] at h
      simp only [List.replicate_zero, List.append_nil] at h
      have := List.append_inj' h rfl
      exact absurd (by simpa using this.2) ht
  | succ p ih =>
    cases p' with
    | zero =>
      rw [List.replicate_succ', ← List.append_assoc] at h
      simp only [List.replicate_zero, List.append_nil] at h
      have := List.append_inj' h rfl
      exact absurd (by simpa using this.2.symm) ht'
    | succ p' =>
      rw [List.replicate_succ', List.replicate_succ', ← List.append_assoc, ← List.append_assoc] at h
      exact ih (List.append_inj' h rfl).1

theorem protects_unique {X K : Type} {cr : Crypto X K} {key : EncryptionKey} {n : Nat} {w : WireRecord} {m m' : UInt8 × Bytes}
    (hm : m.1 ≠ 0) (hm' : m'.1 ≠ 0) (h : Protects cr key n w m.1 m.2) (h' : Protects cr key n w m'.1 m'.2) : m = m' := by
  obtain ⟨p, h⟩ := h
  obtain ⟨p', h'⟩ := h'
  rw [h] at h'
  obtain ⟨h1, h2⟩ := strip_unique hm hm' (Option.some.inj h')
  exact Prod.ext h2 h1

theorem protectsAll_length {X K : Type} {cr : Crypto X K} {key : EncryptionKey} :
    ∀ {ws : List WireRecord} {ms : List (UInt8 × Bytes)} {n : Nat}, ProtectsAll cr key n ws ms → ws.length = ms.length
  | [], [], _, _ => rfl
  | _ :: _, _ :: _, _, h => by simp [protectsAll_length h.2.2]
  | [], _ :: _, _, h => absurd h id
  | _ :: _, [], _, h => absurd h id

theorem protectsAll_get {X K : Type} {cr : Crypto X K} {key : EncryptionKey} :
    ∀ {ws : List WireRecord} {ms : List (UInt8 × Bytes)} {n : Nat}, ProtectsAll cr key n ws ms → ∀ (i : Nat) (w : WireRecord),
      ws[i]? = some w → ∃ m, ms[i]? = some m ∧ w.Legal ∧ Protects cr key (n + i) w m.1 m.2
  | _ :: _, m :: _, _, h, 0, w, hw => by
    simp only [List.getElem?_cons_zero, Option.some.injEq] at hw
    subst hw
    exact ⟨m, rfl, h.1, h.2.1⟩
  | _ :: ws, _ :: ms, n, h, i + 1, w, hw => by
    obtain ⟨m, h1, h2, h3⟩ := protectsAll_get h.2.2 i w (by simpa using hw)
    exact ⟨m, by simpa using h1, h2, by rw [show n + (i + 1) = n + 1 + i by omega]; exact h3⟩
  | [], [], _, _, i, w, hw => by simp at hw
  | [], _ :: _, _, h, _, _, _ => absurd h id
  | _ :: _, [], _, h, _, _, _ => absurd h id

/-- Of the messages the peer sent, those taken in are the first ones. -/
theorem taken_is_beginning {X K : Type} {cr : Crypto X K} {key : EncryptionKey} {n : Nat} {taken ws : List WireRecord}
    {msgs ms : List (UInt8 × Bytes)} (h : ProtectsAll cr key n taken msgs) (ht : ∀ m ∈ msgs, m.1 ≠ 0)
    (h' : ProtectsAll cr key n ws ms) (ht' : ∀ m ∈ ms, m.1 ≠ 0)
    (hf : ∀ w ∈ taken, ∀ i < taken.length, ∀ typ content, typ ≠ 0 → Protects cr key (n + i) w typ content → ws[i]? = some w) :
    msgs <+: ms := by
  have hl := protectsAll_length h
  have key : ∀ (i : Nat) (m : UInt8 × Bytes), msgs[i]? = some m → ms[i]? = some m := by
    intro i m hm
    have hi := (List.getElem?_eq_some_iff.mp hm).1
    have hw : taken[i]? = some (taken[i]'(by omega)) := List.getElem?_eq_getElem _
    obtain ⟨m1, h1, -, h2⟩ := protectsAll_get h i _ hw
    rw [hm] at h1
    cases h1
    have hmn := ht m (List.mem_of_getElem? hm)
    have hws := hf _ (List.mem_of_getElem? hw) i (by omega) _ _ hmn h2
    obtain ⟨m2, h3, -, h4⟩ := protectsAll_get h' i _ hws
    rw [h3, protects_unique hmn (ht' m2 (List.mem_of_getElem? h3)) h2 h4]
  rw [List.prefix_iff_eq_take]
  apply List.ext_getElem?
  intro i
  by_cases hi : i < msgs.length
  · rw [List.getElem?_take_of_lt hi, List.getElem?_eq_getElem hi]
    exact (key i _ (List.getElem?_eq_getElem hi)).symm
  · rw [List.getElem?_eq_none (by omega), List.getElem?_eq_none (by rw [List.length_take]; omega)]

/-- At the end of the stream nothing is left to be read. -/
def Conn.Drained (c : Conn) : Prop := c.readState = .eof → c.incomingDecrypted = []

theorem fill_drained {X K : Type} (cr : Crypto X K) (n : Nat) : ∀ (c : Conn), c.readState = .active →
    c.incomingDecrypted = [] → (c.fillLoop cr n).2.Drained := by
  induction n with
  | zero => intro c h _ he; exact absurd (h.symm.trans he) (by simp)
  | succ n ih =>
    intro c h h0
    unfold Conn.fillLoop
    rcases c.plaintext.pollRecv with ⟨_ | (e | u), p⟩
    · intro _; exact h0
    · intro _; exact h0
    · simp only
      rcases pollReceiveEncryptedMessage cr p.receiver c.seqenc.serverSequenceNo c.seqenc.trafficSecrets.server with ⟨res, r, k, raw⟩
      simp only
      split
      · intro _; exact h0
      · intro _; exact h0
      · exact ih _ h h0
      · intro he; exact absurd (h.symm.trans he) (by simp)
      · split
        · intro _; exact h0
        · intro _; exact h0
      · intro _; exact h0
      · intro _; exact h0

theorem step_drained {X K : Type} (cr : Crypto X K) (c : Conn) (h : c.Drained) (op : ConnOp) : (op.step cr c).2.Drained := by
  by_cases hr : ∃ room, op = .read room
  · obtain ⟨room, rfl⟩ := hr
    simp only [ConnOp.step]
    unfold Conn.pollRead
    rcases hs : c.readState with _ | _ | e
    · simp only
      have hf : (c.pollFillIncoming cr).2.Drained := by
        unfold Conn.pollFillIncoming
        split
        · exact h
        · exact fill_drained cr _ c hs (List.eq_nil_of_length_eq_zero (by omega))
      generalize c.pollFillIncoming cr = P at hf
      obtain ⟨_ | (e | u), c'⟩ := P
      · exact hf
      · exact hf
      · intro he
        have := hf he
        simp only at this ⊢
        rw [this]; rfl
    · exact h
    · exact h
  · obtain ⟨h1, -⟩ := step_rx cr c op fun room e => hr ⟨room, e⟩
    simp only [Conn.rx, Prod.mk.injEq] at h1
    intro he
    have h2 := h1.2.2.2.2.2
    have h3 := h1.2.2.2.2.1
    rw [h3]
    exact h (h2.symm.trans he)

theorem run_drained {X K : Type} (cr : Crypto X K) (ops : List ConnOp) : ∀ (c : Conn), c.Drained → (connRun cr c ops).2.Drained := by
  induction ops with
  | nil => exact fun c h => h
  | cons op ops ih => exact fun c h => ih _ (step_drained cr c h op)

theorem appData_dataMessages (acc : List Bytes) : appData (dataMessages acc) = acc.flatten := by
  induction acc with
  | nil => rfl
  | cons d acc ih =>
    simp only [dataMessages, List.map_cons, appData, if_true, List.flatten_cons] at ih ⊢
    rw [ih]

theorem appData_prefix {a b : List (UInt8 × Bytes)} (h : a <+: b) : appData a <+: appData b := by
  obtain ⟨r, rfl⟩ := h
  rw [appData_append]
  exact List.prefix_append _ _

/-- What has been taken in is a beginning of what has been sent. -/
theorem msgs_beginning_unread {X K : Type} {cr : Crypto X K} {a0 a b0 b : Conn} {acc : List Bytes} {k : Nat} {closed : Bool}
    {got : Bytes} {msgs : List (UInt8 × Bytes)} (hab : PeerOf a0 b0)
    (hfresh : a0.plaintext.inner.sent = [] ∧ a0.plaintext.outgoing = [])
    (hs : SendInv cr a0 acc k closed a) (hi : ReadInv cr b0 got msgs b)
    (hf : NotForged cr a0.seqenc.trafficSecrets.client a0.seqenc.clientSequenceNo
      (a.plaintext.inner.sent ++ a.plaintext.outgoing) b0.plaintext.unread) :
    msgs <+: dataMessages acc ++ (if closed then [closeMessage] else []) ∧ got ++ b.incomingDecrypted = appData msgs ∧
    got <+: acc.flatten := by
  obtain ⟨_, _, hs⟩ := hs
  obtain ⟨ws, -, h1, h2, h3⟩ := hs.stream
  simp only [Conn.tx] at h1 h2
  rw [hfresh.1, hfresh.2, List.nil_append, List.nil_append] at h1
  obtain ⟨all, taken, hr⟩ := hi.received
  have hd := hi.data
  rw [hab.nothing, List.nil_append] at hd
  have hauth := hr.auth
  rw [hab.key, hab.number] at hauth
  have htypes : ∀ m ∈ dataMessages acc ++ (if closed then [closeMessage] else []), m.1 ≠ 0 := by
    intro m hm
    rcases List.mem_append.mp hm with hm | hm
    · obtain ⟨d, -, rfl⟩ := List.mem_map.mp hm
      simp
    · cases closed
      · simp at hm
      · simp only [if_true, List.mem_singleton] at hm
        rw [hm]; simp [closeMessage]
  have hframed := hr.framed
  rw [List.append_assoc] at hframed
  have hpre : msgs <+: dataMessages acc ++ (if closed then [closeMessage] else []) := by
    refine taken_is_beginning hauth hr.types h2 htypes ?_
    intro w hw i hi'
    refine hf all ws _ hr.legal hframed ?_ h1 w (hr.sub.subset hw) i (Nat.lt_of_lt_of_le hi' hr.sub.length_le)
    intro w' hw'
    obtain ⟨i, hi', hii⟩ := List.getElem_of_mem hw'
    obtain ⟨-, -, hl, -⟩ := protectsAll_get h2 i w' (List.getElem?_eq_some_iff.mpr ⟨hi', hii⟩)
    exact hl
  refine ⟨hpre, hd, ?_⟩
  have happ : appData (dataMessages acc ++ (if closed then [closeMessage] else [])) = acc.flatten := by
    rw [appData_append, appData_dataMessages]
    cases closed <;> simp [appData, closeMessage]
  rw [← happ]
  exact (List.prefix_append _ _).trans (hd ▸ appData_prefix hpre)

theorem unread_new {p : PlaintextStream} (h : p.receiver = .new) : p.unread = readData p.inner.reads := by
  rw [PlaintextStream.unread, h]; rfl

/-- The same for an end that has received nothing yet. -/
theorem msgs_beginning {X K : Type} {cr : Crypto X K} {a0 a b0 b : Conn} {acc : List Bytes} {k : Nat} {closed : Bool}
    {got : Bytes} {msgs : List (UInt8 × Bytes)} (hab : OtherEnd a0 b0)
    (hfresh : a0.plaintext.inner.sent = [] ∧ a0.plaintext.outgoing = [])
    (hs : SendInv cr a0 acc k closed a) (hi : ReadInv cr b0 got msgs b)
    (hf : NotForged cr a0.seqenc.trafficSecrets.client a0.seqenc.clientSequenceNo
      (a.plaintext.inner.sent ++ a.plaintext.outgoing) (readData b0.plaintext.inner.reads)) :
    msgs <+: dataMessages acc ++ (if closed then [closeMessage] else []) ∧ got ++ b.incomingDecrypted = appData msgs ∧
    got <+: acc.flatten :=
  msgs_beginning_unread hab.toPeerOf hfresh hs hi (by rw [unread_new hab.receiver]; exact hf)

/-- **C148**. Whatever calls the two ends make and whatever their transports do, whatever bytes arrive, made up,
changed, repeated or left out by somebody without the keys: the bytes read are a beginning of those that the other end's
writes accepted. And if a read reports the end of the stream (and the other end made no empty writes), then the other end
did shut down, and everything that it wrote has been read. -/
theorem C148_nobody_between {X K : Type} (cr : Crypto X K) (hc : cr.Correct) (a b : Conn) (hab : PeerOf a b)
    (hiv : a.seqenc.trafficSecrets.client.writeIv.length = 12) (hact : a.plaintext.writeState = .active)
    (hfresh : a.plaintext.inner.sent = [] ∧ a.plaintext.outgoing = []) (ops ops' : List ConnOp)
    (hf : NotForged cr a.seqenc.trafficSecrets.client a.seqenc.clientSequenceNo
      ((connRun cr a ops).2.plaintext.inner.sent ++ (connRun cr a ops).2.plaintext.outgoing) b.plaintext.unread) :
    readBytes (connRun cr b ops').1 <+: (accepted (connRun cr a ops).1).flatten ∧
    ((∀ d ∈ accepted (connRun cr a ops).1, d ≠ []) →
      ∀ room, 0 < room → .read room (.ready (.ok [])) ∈ (connRun cr b ops').1 →
      .shutdown ∈ ops ∧ readBytes (connRun cr b ops').1 = (accepted (connRun cr a ops).1).flatten) := by
  obtain ⟨closed, hs, hcl, -⟩ := sendInv_run hc hiv ops (sendInv_init cr a hact)
  obtain ⟨msgs, hi, he, -⟩ := readInv_run cr b (by rw [hab.key]; exact hiv) ops' b [] []
    (readInv_init cr b (by rw [hab.active]; simp))
  obtain ⟨hpre, hd, hgot⟩ := msgs_beginning_unread hab hfresh hs hi hf
  rw [List.nil_append] at hpre hd hgot
  refine ⟨hgot, ?_⟩
  · intro hne room hroom hmem
    obtain ⟨m, hm, hm'⟩ := he ⟨room, hroom, hmem⟩
    have hm2 := hpre.subset hm
    have hclose : IsCloseNotify m := by
      rcases hm' with h | rfl
      · exact h
      · exfalso
        rcases List.mem_append.mp hm2 with h | h
        · obtain ⟨d, hd1, hd2⟩ := List.mem_map.mp h
          simp only [Prod.mk.injEq, true_and] at hd2
          exact hne d hd1 hd2
        · cases closed <;> simp [closeMessage] at h
    have hnot : ∀ d ∈ dataMessages (accepted (connRun cr a ops).1), ¬ IsCloseNotify d := by
      rintro d hd ⟨h, -⟩
      obtain ⟨x, -, rfl⟩ := List.mem_map.mp hd
      simp at h
    have hc1 : closed = true := by
      cases closed with
      | true => rfl
      | false =>
        simp only [Bool.false_eq_true, if_false, List.append_nil] at hm2
        exact absurd hclose (hnot m hm2)
    subst hc1
    refine ⟨(hcl rfl).resolve_left (by simp), ?_⟩
    -- all messages have been taken in
    have hall : msgs = dataMessages (accepted (connRun cr a ops).1) ++ [closeMessage] := by
      simp only [if_true] at hpre
      rcases List.prefix_concat_iff.mp hpre with h | h
      · exact h
      · exact absurd hclose (hnot m (h.subset hm))
    have heof := hi.eof.mpr ⟨m, hm, hclose⟩
    have := run_drained cr ops' b (by intro h; rw [hab.active] at h; cases h) heof
    rw [this, List.append_nil, hall] at hd
    rw [hd]
    rw [appData_append, appData_dataMessages]
    simp [appData, closeMessage]

/-! The hypotheses can be met. Of three records, the first and the last arrive, the first one twice; before them comes one
that is made up, and the second one arrives too early and not again. -/

theorem wire_begins {all xs : List WireRecord} {rest : Bytes} (h1 : ∀ w ∈ all, w.Legal) (h2 : ∀ w ∈ xs, w.Legal)
    (h : wire xs = wire all ++ rest) : all <+: xs := by
  induction all generalizing xs with
  | nil => exact List.nil_prefix
  | cons w all ih =>
    cases xs with
    | nil =>
      have := congrArg List.length h
      simp at this; omega
    | cons x xs =>
      simp only [wire_cons, List.append_assoc] at h
      obtain ⟨rfl, h'⟩ := bytes_append_inj (h2 x (by simp)) (h1 w (by simp)) h
      exact (List.prefix_cons_inj _).mpr (ih (fun w hw => h1 w (by simp [hw])) (fun w hw => h2 w (by simp [hw])) h')

/-- A way to see, for given records, that none is forged. -/
theorem notForged_of {X K : Type} {cr : Crypto X K} {key : EncryptionKey} {n0 : Nat} {peer arrived : Bytes} (rs xs : List WireRecord)
    (h1 : peer = wire rs) (h2 : arrived = wire xs) (l1 : ∀ w ∈ rs, w.fragment.length ≤ 2 ^ 14 + 256)
    (l2 : ∀ w ∈ xs, w.fragment.length ≤ 2 ^ 14 + 256)
    (hk : ∀ w ∈ xs, ∀ i < xs.length, (cr.aeadDecrypt key.aeadAlg key.writeKey (nonceSpec key.writeIv (n0 + i)) w.header
      w.fragment).isSome = true → rs[i]? = some w) : NotForged cr key n0 peer arrived := by
  rw [h1, h2]
  intro all ws rest g1 g2 g3 g4 w hw i hi typ content _ ⟨pad, hp⟩
  have hall := wire_begins g1 l2 g2
  have hws : ws = rs :=
    List.IsPrefix.eq_of_length_le (wire_begins g3 l1 (rest := []) (by rw [List.append_nil]; exact g4))
      (wire_begins l1 g3 (rest := []) (by rw [List.append_nil]; exact g4.symm)).length_le
  rw [hws]
  refine hk w (hall.subset hw) i (Nat.lt_of_lt_of_le hi hall.length_le) ?_
  rw [hp]; rfl

/-- The records that the sending end of C145's examples sends. -/
def exampleRecords : List WireRecord :=
  [⟨23, 3, 3, [1, 2, 23] ++ List.replicate 4 4 ++ List.replicate 8 4 ++ [23, 3, 3, 0]⟩,
   ⟨23, 3, 3, [3, 23] ++ List.replicate 11 4 ++ [5] ++ [23, 3, 3, 0]⟩,
   ⟨23, 3, 3, [1, 0, 21] ++ List.replicate 11 4 ++ [6] ++ [23, 3, 3, 0]⟩]

/-- The records that arrive. -/
def exampleArrived : List WireRecord :=
  ⟨23, 3, 3, [9, 9, 9, 23] ++ List.replicate 16 0⟩ :: [exampleRecords[1], exampleRecords[0], exampleRecords[0], exampleRecords[2]]

def exampleAttack : Conn := exampleOther ([.ready ((wire exampleArrived).take 3), .pending,
  .ready ((wire exampleArrived).drop 3)] ++ List.replicate 8 (.ready []))

theorem exampleAttack_notForged : NotForged toyCrypto exampleSender.seqenc.trafficSecrets.client
    exampleSender.seqenc.clientSequenceNo ((connRun toyCrypto exampleSender exampleOps).2.plaintext.inner.sent ++
      (connRun toyCrypto exampleSender exampleOps).2.plaintext.outgoing) exampleAttack.plaintext.unread :=
  notForged_of exampleRecords exampleArrived (by decide +kernel) (by decide +kernel) (by decide +kernel) (by decide +kernel)
    (by decide +kernel)

example : PeerOf exampleSender exampleAttack ∧ exampleSender.plaintext.writeState = .active ∧
    accepted (connRun toyCrypto exampleSender exampleOps).1 = [[1, 2], [3]] ∧
    readBytes (connRun toyCrypto exampleAttack (List.replicate 8 (.read 5))).1 = [1, 2] := by
  refine ⟨⟨rfl, rfl, rfl, rfl⟩, rfl, by decide +kernel, by decide +kernel⟩

end Ngfs.Tls
