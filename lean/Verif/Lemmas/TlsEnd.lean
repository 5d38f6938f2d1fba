import Verif.Lemmas.TlsConn

/-! Lemmas for C144: what a successful shutdown of a TLS connection leaves behind. -/
namespace Ngfs.Tls

theorem finishShutdown_ok (c : Conn) (h : c.finishShutdown.1 = .ready (.ok ())) :
    c.finishShutdown.2.plaintext.outgoing = [] ∧ c.finishShutdown.2.plaintext.writeState.IsError ∧
      c.plaintext.inner.shutdowns = .ok :: c.finishShutdown.2.plaintext.inner.shutdowns := by
  obtain ⟨_, _, _, hok, _⟩ := pollFlush_frame c.plaintext
  have hsh : c.plaintext.pollFlush.2.inner.shutdowns = c.plaintext.inner.shutdowns := by
    unfold PlaintextStream.pollFlush
    rcases writeLoop c.plaintext.inner.writes c.plaintext.outgoing c.plaintext.inner.sent with ⟨res, ws, o, s⟩
    rcases res with _ | (k | u)
    · rfl
    · rfl
    · simp only
      unfold Transport.pollFlush
      simp only
      rcases c.plaintext.inner.flushes with _ | ⟨e, es⟩
      · rfl
      · cases e <;> rfl
  unfold Conn.finishShutdown Conn.pollFlushEncrypted at h ⊢
  rcases hp : c.plaintext.pollFlush with ⟨res, p⟩
  rw [hp] at h hok hsh
  simp only at h hok hsh ⊢
  rcases res with _ | (e | u)
  · cases h
  · cases h
  · simp only at h ⊢
    obtain ⟨ho, _⟩ := hok rfl
    unfold Transport.pollShutdown at h ⊢
    rw [hsh] at h ⊢
    rcases hs : c.plaintext.inner.shutdowns with _ | ⟨ev, es⟩
    · rw [hs] at h; cases h
    · rw [hs] at h
      rcases ev with _ | _ | k
      · cases h
      · exact ⟨ho, trivial, rfl⟩
      · cases h

/-- A shutdown that has succeeded. -/
theorem sendInv_shutdown_ok {X K : Type} {cr : Crypto X K} (hc : cr.Correct) {c0 c : Conn} {acc : List Bytes} {k : Nat}
    {closed : Bool} (hiv : c0.seqenc.trafficSecrets.client.writeIv.length = 12) (h : SendInv cr c0 acc k closed c)
    (hok : (c.pollShutdown cr).1 = .ready (.ok ())) :
    (∃ k', SendInv cr c0 acc k' true (c.pollShutdown cr).2) ∧ (c.pollShutdown cr).2.plaintext.outgoing = [] ∧
      (c.pollShutdown cr).2.plaintext.writeState.IsError ∧
      c.plaintext.inner.shutdowns = .ok :: (c.pollShutdown cr).2.plaintext.inner.shutdowns := by
  obtain ⟨extra, hk, h⟩ := h
  unfold Conn.pollShutdown at hok ⊢
  rcases hws : c.plaintext.writeState with _ | _ | e
  · rw [hws] at hok
    simp only at hok ⊢
    have hcl : closed = false := by simpa using h.closed_iff hws
    subst hcl
    have hex : extra = 0 := by
      by_contra hne
      have : extra = 1 := by have := h.extra_le; omega
      have := h.extra_err this
      simp only [Conn.tx] at this
      rw [hws] at this
      exact this
    subst hex
    have happ := tx_appendRecord hc (msgs := dataMessages acc) (closed := (false = true)) hiv
      [AlertLevel.warning.toRaw, AlertDescription.closeNotify.toRaw] .alert (by simpa using h) (by simp) hws
    have hsame : (c.appendRecord cr [AlertLevel.warning.toRaw, AlertDescription.closeNotify.toRaw] .alert).2.plaintext.inner
        = c.plaintext.inner := by
      unfold Conn.appendRecord encryptRecord
      split
      · rename_i he
        split at he
        · cases he
        · simp only at he
          split at he
          · cases he
          · simp only [Prod.mk.injEq, true_and] at he
            rw [← he]
      · rename_i he
        split at he
        · simp only [Prod.mk.injEq] at he; rw [← he.2]
        · simp only at he
          split at he
          · simp only [Prod.mk.injEq] at he; rw [← he.2]
          · cases he
    unfold Conn.appendCloseNotify at hok ⊢
    rcases ha : c.appendRecord cr [AlertLevel.warning.toRaw, AlertDescription.closeNotify.toRaw] .alert
      with ⟨res, c''⟩
    rw [ha] at happ hok hsame
    rcases happ with ⟨h1, h2, _⟩ | ⟨e, extra, h1, h2⟩
    · have h1 : res = .ok () := h1
      subst h1
      simp only at hok ⊢
      obtain ⟨f1, f2, f3⟩ := finishShutdown_ok _ hok
      refine ⟨⟨acc.length + 1, 0, by simp, ?_⟩, f1, f2, ?_⟩
      · have e : ((ContentType.alert.toRaw, [AlertLevel.warning.toRaw, AlertDescription.closeNotify.toRaw]) :
            UInt8 × Bytes) = closeMessage := rfl
        rw [e] at h2
        simp only [if_true]
        exact tx_finishShutdown ⟨h2.secrets, h2.seqNo, h2.stream, h2.seals, h2.extra_le, nofun, nofun, fun _ => trivial⟩
      · simp only at f3 hsame
        rw [← hsame]
        exact f3
    · have h1 : res = .error e := h1
      subst h1
      cases hok
  · rw [hws] at hok
    have hcl : closed = true := h.closed_shut hws
    subst hcl
    obtain ⟨f1, f2, f3⟩ := finishShutdown_ok _ hok
    exact ⟨⟨k, extra, hk, tx_finishShutdown h⟩, f1, f2, f3⟩
  · rw [hws] at hok; cases hok

/-- Once sending is in the error state, no call changes anything about sending. -/
theorem errored_step {X K : Type} (cr : Crypto X K) (c : Conn) (h : c.plaintext.writeState.IsError) (op : ConnOp) :
    (op.step cr c).2.tx = c.tx := by
  cases op with
  | read room => exact pollRead_tx cr c room
  | _ =>
    simp only [ConnOp.step, Conn.pollWrite, Conn.pollFlush, Conn.pollShutdown]
    rcases hw : c.plaintext.writeState with _ | _ | e
    · exact absurd h (by rw [hw]; exact id)
    · exact absurd h (by rw [hw]; exact id)
    · rfl

/-- ... and no write is accepted any more. -/
theorem errored_run {X K : Type} (cr : Crypto X K) (ops : List ConnOp) (c : Conn) (h : c.plaintext.writeState.IsError) :
    (connRun cr c ops).2.tx = c.tx ∧ accepted (connRun cr c ops).1 = [] := by
  induction ops generalizing c with
  | nil => exact ⟨rfl, rfl⟩
  | cons op ops ih =>
    have h1 := errored_step cr c h op
    have h2 : (op.step cr c).2.plaintext.writeState.IsError := by
      have := congrArg Tx.writeState h1
      simp only [Conn.tx] at this
      rw [this]; exact h
    obtain ⟨h3, h4⟩ := ih _ h2
    refine ⟨h3.trans h1, ?_⟩
    simp only [connRun]
    rw [accepted_one, h4, List.append_nil]
    cases op with
    | write buf =>
      simp only [ConnOp.step, Conn.pollWrite]
      rcases hw : c.plaintext.writeState with _ | _ | e
      · rw [hw] at h; exact absurd h id
      · rw [hw] at h; exact absurd h id
      · rfl
    | _ => rfl

theorem shutdown_ok_run {X K : Type} {cr : Crypto X K} (hc : cr.Correct) {c0 : Conn}
    (hiv : c0.seqenc.trafficSecrets.client.writeIv.length = 12) (ops : List ConnOp) (c : Conn) (acc : List Bytes)
    (k : Nat) (closed : Bool) (h : SendInv cr c0 acc k closed c)
    (hok : .shutdown (.ready (.ok ())) ∈ (connRun cr c ops).1) :
    (∃ k', SendInv cr c0 (acc ++ accepted (connRun cr c ops).1) k' true (connRun cr c ops).2) ∧
      (connRun cr c ops).2.plaintext.outgoing = [] := by
  induction ops generalizing c acc k closed with
  | nil => simp [connRun] at hok
  | cons op ops ih =>
    simp only [connRun, List.mem_cons] at hok ⊢
    rw [accepted_one, ← List.append_assoc]
    by_cases h0 : (op.step cr c).1 = .shutdown (.ready (.ok ()))
    · have hop : op = .shutdown := by
        cases op <;> simp_all [ConnOp.step]
      subst hop
      have h1 : (c.pollShutdown cr).1 = .ready (.ok ()) := by
        simp only [ConnOp.step] at h0
        injection h0
      obtain ⟨⟨k', h2⟩, h3, h4, _⟩ := sendInv_shutdown_ok hc hiv h h1
      obtain ⟨h5, h6⟩ := errored_run cr ops (ConnOp.step cr c .shutdown).2 h4
      rw [h6, List.append_nil]
      refine ⟨⟨k', ?_⟩, ?_⟩
      · obtain ⟨extra, h7, h8⟩ := h2
        refine ⟨extra, ?_, ?_⟩
        · simpa [ConnOp.step, accepted] using h7
        · rw [h5]
          simpa [ConnOp.step, accepted] using h8
      · have := congrArg Tx.outgoing h5
        simp only [Conn.tx] at this
        rw [this]; exact h3
    · have hok := hok.resolve_left fun e => h0 e.symm
      obtain ⟨cl1, h1, _, _⟩ := sendInv_step hc hiv h op
      exact ih _ _ _ _ h1 hok

end Ngfs.Tls
