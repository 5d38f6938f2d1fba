import Verif.Lemmas.TlsReadAll

/-! Lemmas for C145: whatever the transport does, what is read is a beginning of what was written. -/
namespace Ngfs.Tls

/-- The receiver has no whole record. -/
theorem popRecord_short (r : RecordReceiver) (h : r.incoming.length < 5 ∨
    ∃ (w : WireRecord) (rest : Bytes), w.Legal ∧ r.incoming ++ rest = w.bytes ∧ r.incoming.length < w.bytes.length) :
    r.popRecord.2.incoming = r.incoming ∧ ∀ o, r.popRecord.1 ≠ .ready (.ok (some o)) := by
  unfold RecordReceiver.popRecord
  by_cases h5 : r.incoming.length < 5
  · rw [if_pos h5]
    rcases r.readState with _ | _ | e <;> exact ⟨rfl, nofun⟩
  · rw [if_neg h5]
    obtain ⟨w, rest, hw, h, hlt⟩ := h.resolve_left h5
    simp only
    have hl : w.fragment.length < 65536 := by unfold WireRecord.Legal at hw; omega
    have e3 : (r.incoming.drop 3).take 2
        = [UInt8.ofNat (w.fragment.length / 256), UInt8.ofNat (w.fragment.length % 256)] := by
      have e1 : r.incoming = w.bytes.take r.incoming.length := by rw [← h]; simp
      rw [e1]
      obtain ⟨k, hk⟩ := Nat.exists_eq_add_of_le (Nat.le_of_not_lt h5)
      rw [hk, Nat.add_comm 5 k]
      simp [WireRecord.bytes, WireRecord.header]
    rw [WireRecord.bytes_length] at hlt
    rw [e3, beNat_two, len_two hl, if_neg, if_pos (by omega)]
    · rcases r.readState with _ | _ | e <;> exact ⟨rfl, nofun⟩
    · unfold WireRecord.Legal at hw; unfold maxCiphertextRecordSize; omega

theorem receive_short {X K : Type} (cr : Crypto X K) (r : RecordReceiver) (n : Nat) (key : EncryptionKey)
    (h : r.popRecord.2.incoming = r.incoming ∧ ∀ o, r.popRecord.1 ≠ .ready (.ok (some o))) :
    ∃ res r' raw, pollReceiveEncryptedMessage cr r n key = (res, r', n, raw) ∧ r'.incoming = r.incoming ∧
      (∀ m, res ≠ .ready (.ok (some m))) := by
  have hcc : pollReceiveRecordIgnoreCc r = r.popRecord := by
    unfold pollReceiveRecordIgnoreCc
    rw [ignoreCcLoop]
    obtain ⟨_, h2⟩ := h
    rcases hp : r.popRecord with ⟨res, r'⟩
    rw [hp] at h2
    rcases res with _ | (e | (_ | o))
    · rfl
    · rfl
    · rfl
    · exact absurd rfl (h2 o)
  unfold pollReceiveEncryptedMessage
  rw [hcc]
  obtain ⟨h1, h2⟩ := h
  rcases hp : r.popRecord with ⟨res, r'⟩
  rw [hp] at h1 h2
  rcases res with _ | (e | (_ | o))
  · exact ⟨_, _, _, rfl, h1, nofun⟩
  · exact ⟨_, _, _, rfl, h1, nofun⟩
  · exact ⟨_, _, _, rfl, h1, nofun⟩
  · exact absurd rfl (h2 o)

/-- What the reader can still get: of the records `ws` that carry `accs` and perhaps the end, some have arrived, some
are with the transport, and the rest never come. -/
structure SafeRx {X K : Type} (cr : Crypto X K) (c : Conn) (accs : List Bytes) (closed : Bool) (ws : List WireRecord)
    (never : Bytes) : Prop where
  iv : c.seqenc.trafficSecrets.server.writeIv.length = 12
  frame : c.plaintext.receiver.incoming ++ readData c.plaintext.inner.reads ++ never = wire ws
  prot : ProtectsAll cr c.seqenc.trafficSecrets.server c.seqenc.serverSequenceNo ws
    (dataMessages accs ++ if closed then [closeMessage] else [])
  outer : ∀ w ∈ ws, w.Outer

/-- What a read leaves, if it gave `d`. -/
def SafeStep {X K : Type} (cr : Crypto X K) (left : Bytes) (c' : Conn) (d : Bytes) : Prop :=
  (∃ accs' closed' ws' never', SafeRx cr c' accs' closed' ws' never' ∧
    left = d ++ (c'.incomingDecrypted ++ accs'.flatten)) ∨
  (c'.readState = .eof ∧ ∃ rest, left = d ++ (c'.incomingDecrypted ++ rest))

theorem safe_fill {X K : Type} {cr : Crypto X K} {c : Conn} {accs : List Bytes} {closed : Bool} {ws : List WireRecord}
    {never : Bytes} (h : SafeRx cr c accs closed ws never) (n : Nat) :
    SafeStep cr (c.incomingDecrypted ++ accs.flatten) (c.fillLoop cr (n + 1)).2 [] := by
  obtain ⟨hiv, hfr, hpr, hout⟩ := h
  rw [Conn.fillLoop]
  have hdata := pollRecv_data c.plaintext
  rcases hp : c.plaintext.pollRecv with ⟨res, p⟩
  rw [hp] at hdata
  simp only at hdata
  rw [← hdata] at hfr
  rcases res with _ | (e | u)
  · exact Or.inl ⟨accs, closed, ws, never, ⟨hiv, hfr, hpr, hout⟩, rfl⟩
  · exact Or.inl ⟨accs, closed, ws, never, ⟨hiv, hfr, hpr, hout⟩, rfl⟩
  · simp only
    have hcase : (p.receiver.incoming.length < 5 ∨ ∃ (w : WireRecord) (rest : Bytes), w.Legal ∧
          p.receiver.incoming ++ rest = w.bytes ∧ p.receiver.incoming.length < w.bytes.length) ∨
        ∃ w ws' more, ws = w :: ws' ∧ p.receiver.incoming = w.bytes ++ more ∧
          more ++ readData p.inner.reads ++ never = wire ws' := by
      rcases ws with _ | ⟨w, ws⟩
      · left; left
        have := congrArg List.length hfr
        simp only [List.length_append, wire_nil, List.length_nil] at this
        omega
      · rw [List.append_assoc] at hfr
        rcases wire_cut w ws _ _ hfr with ⟨more, hm, hmr⟩ | ⟨hlt, rest, hrest⟩
        · exact Or.inr ⟨w, ws, more, rfl, hm, by rw [List.append_assoc]; exact hmr⟩
        · refine Or.inl (Or.inr ⟨w, rest, ?_, hrest, hlt⟩)
          rcases accs with _ | ⟨a, accs⟩
          · rcases closed with _ | _
            · exact absurd hpr id
            · exact hpr.1
          · exact hpr.1
    rcases hcase with hs | ⟨w, ws', more, rfl, hm, hmr⟩
    · obtain ⟨res, r', raw, he, h1, h2⟩ := receive_short cr p.receiver c.seqenc.serverSequenceNo
        c.seqenc.trafficSecrets.server (popRecord_short p.receiver hs)
      rw [he]
      have hfr' : r'.incoming ++ readData p.inner.reads ++ never = wire ws := by rw [h1]; exact hfr
      rcases res with _ | (e | (_ | m))
      · exact Or.inl ⟨accs, closed, ws, never, ⟨hiv, hfr', hpr, hout⟩, rfl⟩
      · exact Or.inl ⟨accs, closed, ws, never, ⟨hiv, hfr', hpr, hout⟩, rfl⟩
      · exact Or.inl ⟨accs, closed, ws, never, ⟨hiv, hfr', hpr, hout⟩, rfl⟩
      · exact absurd rfl (h2 m)
    · have ho : w.Outer := hout w (by simp)
      rcases accs with _ | ⟨a, accs⟩
      · rcases closed with _ | _
        · exact absurd hpr id
        · obtain ⟨hw, hpp, _⟩ := hpr
          obtain ⟨raw, he⟩ := receive_close cr p.receiver _ _ w more hiv hw ho hm hpp
          rw [he]
          exact Or.inr ⟨rfl, _, rfl⟩
      · obtain ⟨hw, hpp, hpr'⟩ := hpr
        obtain ⟨raw, he⟩ := receive_data cr p.receiver _ _ w more a hiv hw ho hm hpp
        rw [he]
        refine Or.inl ⟨accs, closed, ws', never, ⟨hiv, hmr, hpr', fun v hv => hout v (by simp [hv])⟩, ?_⟩
        simp

theorem safe_read {X K : Type} {cr : Crypto X K} {c : Conn} {accs : List Bytes} {closed : Bool} {ws : List WireRecord}
    {never : Bytes} (h : SafeRx cr c accs closed ws never) (room : Nat) :
    SafeStep cr (c.incomingDecrypted ++ accs.flatten) (c.pollRead cr room).2
      (readBytes [.read room (c.pollRead cr room).1]) := by
  have hfill : SafeStep cr (c.incomingDecrypted ++ accs.flatten) (c.pollFillIncoming cr).2 [] := by
    unfold Conn.pollFillIncoming
    split
    · exact Or.inl ⟨accs, closed, ws, never, h, rfl⟩
    · exact safe_fill h _
  unfold Conn.pollRead
  rcases hr : c.readState with _ | _ | e
  · simp only
    rcases hf : c.pollFillIncoming cr with ⟨res, c'⟩
    rw [hf] at hfill
    rcases res with _ | (e | u)
    · exact hfill
    · exact hfill
    · simp only
      have hb : readBytes [.read room (.ready (.ok (c'.incomingDecrypted.take (min c'.incomingDecrypted.length room))))]
          = c'.incomingDecrypted.take (min c'.incomingDecrypted.length room) := by simp [readBytes]
      rw [hb]
      rcases hfill with ⟨accs', closed', ws', never', h1, h2⟩ | ⟨h1, rest, h2⟩
      · refine Or.inl ⟨accs', closed', ws', never', ⟨h1.iv, h1.frame, h1.prot, h1.outer⟩, ?_⟩
        rw [h2, ← List.append_assoc (List.take _ _), List.take_append_drop]
        rfl
      · refine Or.inr ⟨h1, rest, ?_⟩
        rw [h2, ← List.append_assoc (List.take _ _), List.take_append_drop]
        rfl
  · exact Or.inl ⟨accs, closed, ws, never, h, rfl⟩
  · exact Or.inl ⟨accs, closed, ws, never, h, rfl⟩

theorem safeRx_congr {X K : Type} {cr : Crypto X K} {c c' : Conn} {accs closed ws never}
    (h : SafeRx cr c accs closed ws never) (hrx : c'.rx = c.rx) : SafeRx cr c' accs closed ws never := by
  simp only [Conn.rx, Prod.mk.injEq] at hrx
  obtain ⟨h1, h2, h3, h4, h5, h6⟩ := hrx
  exact ⟨by rw [h4]; exact h.iv, by rw [h1, h2]; exact h.frame, by rw [h4, h3]; exact h.prot, h.outer⟩

theorem safe_run {X K : Type} {cr : Crypto X K} (ops : List ConnOp) :
    ∀ {c : Conn} {accs : List Bytes} {closed : Bool} {ws : List WireRecord} {never : Bytes}, SafeRx cr c accs closed ws never →
    readBytes (connRun cr c ops).1 <+: c.incomingDecrypted ++ accs.flatten := by
  induction ops with
  | nil => intro c accs closed ws never _; exact List.nil_prefix
  | cons op ops ih =>
    intro c accs closed ws never h
    simp only [connRun]
    rw [readBytes_one]
    by_cases hr : ∃ room, op = .read room
    · obtain ⟨room, rfl⟩ := hr
      simp only [ConnOp.step]
      rcases safe_read h room with ⟨accs', closed', ws', never', h1, h2⟩ | ⟨h1, rest, h2⟩
      · rw [h2]
        exact (List.prefix_append_right_inj _).mpr (ih h1)
      · rw [h2, (eof_run cr ops _ h1).1]
        exact (List.prefix_append_right_inj _).mpr List.nil_prefix
    · obtain ⟨h1, h2⟩ := step_rx cr c op fun room e => hr ⟨room, e⟩
      have := ih (safeRx_congr h h1)
      simp only [Conn.rx, Prod.mk.injEq] at h1
      rw [h1.2.2.2.2.1] at this
      rw [h2, List.nil_append]
      exact this

end Ngfs.Tls
