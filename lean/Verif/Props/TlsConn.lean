import Verif.Lemmas.TlsConn
import Verif.Props.TlsRecord

/-!
C26 (no nonce is used twice), C27 (what is written arrives as records in order), C31 for TLS
(nothing is written after shutdown), for every history of calls and every behaviour of the transport.
-/
namespace Ngfs.Tls

/-- A connection as the examples use it: fresh, over a transport that takes everything. -/
def exampleConn (reads : List ReadEvent) : Conn :=
  Conn.new (.new ⟨reads, [.accept 3, .pending, .accept 1000, .accept 1000], [.ok, .ok, .ok], [.ok], []⟩ .new)
    ⟨0, 0, ⟨⟨[], .aes128Gcm, List.replicate 16 4, List.replicate 12 4⟩,
      ⟨[], .aes128Gcm, List.replicate 16 5, List.replicate 12 5⟩⟩, ⟨.sha256, .aes128Gcm⟩⟩

/-! ## C26: nonces -/

/-- C26. Whatever calls are made on a connection and whatever the transport does (errors included), the
calls of the cipher for sending are those with the nonces of records number `n`, `n+1`, `n+2`, ... in order,
each number once. -/
theorem C26_nonce_sequence {X K : Type} (cr : Crypto X K) (hc : cr.Correct) (c : Conn)
    (hiv : c.seqenc.trafficSecrets.client.writeIv.length = 12) (hact : c.plaintext.writeState = .active)
    (ops : List ConnOp) :
    ∃ k, k ≤ ops.length ∧ (connRun cr c ops).2.plaintext.seals = c.plaintext.seals ++
      (List.range k).map (fun i => ⟨c.seqenc.trafficSecrets.client.writeKey,
        nonceSpec c.seqenc.trafficSecrets.client.writeIv (c.seqenc.clientSequenceNo + i)⟩) := by
  obtain ⟨closed, ⟨extra, hk, h⟩, _, _⟩ := sendInv_run hc hiv ops (sendInv_init cr c hact)
  refine ⟨_, ?_, h.seals⟩
  simp only [List.nil_append, Nat.zero_add] at hk
  rcases closed <;> simp [dataMessages] at hk ⊢ <;> omega

/-- C26. No nonce is used twice under a key, for up to 2^64 calls. -/
theorem C26_nonces_distinct {X K : Type} (cr : Crypto X K) (hc : cr.Correct) (c : Conn)
    (hiv : c.seqenc.trafficSecrets.client.writeIv.length = 12) (hact : c.plaintext.writeState = .active)
    (hfresh : c.plaintext.seals = []) (ops : List ConnOp) (hn : c.seqenc.clientSequenceNo + ops.length ≤ 2 ^ 64) :
    (connRun cr c ops).2.plaintext.seals.Nodup := by
  obtain ⟨k, hk, h⟩ := C26_nonce_sequence cr hc c hiv hact ops
  rw [h, hfresh, List.nil_append]
  exact sealsFrom_nodup _ _ _ (by omega)

/-- C26: different record numbers below 2^64 have different nonces. -/
theorem C26_nonce_injective (iv : Bytes) (n m : Nat) (hn : n < 2 ^ 64) (hm : m < 2 ^ 64) :
    nonceSpec iv n = nonceSpec iv m ↔ n = m :=
  ⟨nonceSpec_inj iv hn hm, fun h => by rw [h]⟩

/-- C26: during the handshake the cipher is called at most once for sending. -/
theorem C26_handshake_one_record {X K : Type} (cr : Crypto X K) (s : ServerHelloState X) (sm : ServerMessages X)
    (s' : SendFinishedState) (h : onServerMessages cr s sm = (.afterReceiveServerMessages s' : ECState X K))
    (hiv : s.seqenc.trafficSecrets.client.writeIv.length = 12) :
    s'.plaintext.seals = s.plaintext.seals ++ [⟨s.seqenc.trafficSecrets.client.writeKey,
      nonceSpec s.seqenc.trafficSecrets.client.writeIv s.seqenc.clientSequenceNo⟩] := by
  unfold onServerMessages at h
  split at h
  · cases h
  split at h
  · cases h
  split at h
  · cases h
  split at h
  · cases h
  · rename_i p he
    injection h with h
    subst h
    simp only
    unfold encryptRecord at he
    rw [makeNonce_eq _ hiv] at he
    split at he
    · cases he
    · simp only at he
      split at he
      · cases he
      · simp only [Prod.mk.injEq, true_and] at he
        rw [← he]

example : toyCrypto.Correct ∧ (exampleConn []).plaintext.writeState = .active ∧
    (connRun toyCrypto (exampleConn []) [.write [1, 2], .write [3], .write [3], .shutdown]).2.plaintext.seals.length = 3 := by
  refine ⟨toyCrypto_correct, rfl, ?_⟩
  decide +kernel

/-! ## C27: the write stream -/

/-- C27. For every history of calls and every behaviour of the transport: the bytes passed to the
transport, followed by those waiting, are whole records; the first of them carry, one for one and in
order, the pieces of data that the write calls accepted; after them, only if shutdown was called, one
record with the alert "close notify". -/
theorem C27_write_stream {X K : Type} (cr : Crypto X K) (hc : cr.Correct) (c : Conn)
    (hiv : c.seqenc.trafficSecrets.client.writeIv.length = 12) (hact : c.plaintext.writeState = .active)
    (ops : List ConnOp) :
    ∃ (ws : List WireRecord) (closed : Bool), (closed = true → .shutdown ∈ ops) ∧
      (connRun cr c ops).2.plaintext.inner.sent ++ (connRun cr c ops).2.plaintext.outgoing
        = c.plaintext.inner.sent ++ c.plaintext.outgoing ++ wire ws ∧
      ProtectsAll cr c.seqenc.trafficSecrets.client c.seqenc.clientSequenceNo ws
        (dataMessages (accepted (connRun cr c ops).1) ++ if closed then [closeMessage] else []) ∧
      ∀ w ∈ ws, w.Outer := by
  obtain ⟨closed, ⟨extra, hk, h⟩, hcl, _⟩ := sendInv_run hc hiv ops (sendInv_init cr c hact)
  obtain ⟨ws, _, h1, h2, h3⟩ := h.stream
  exact ⟨ws, closed, fun hh => (hcl hh).resolve_left (by simp), h1, h2, h3⟩

/-- C27: once flush or shutdown has answered "done", nothing is waiting any more. -/
theorem C27_flush_means_sent {X K : Type} (cr : Crypto X K) (c : Conn) :
    (c.pollFlush.1 = .ready (.ok ()) → c.pollFlush.2.plaintext.outgoing = []) ∧
    ((c.pollShutdown cr).1 = .ready (.ok ()) → (c.pollShutdown cr).2.plaintext.outgoing = []) := by
  have hfl : ∀ c : Conn, c.pollFlushEncrypted.1 = .ready (.ok ()) → c.pollFlushEncrypted.2.plaintext.outgoing = [] := by
    intro c h
    exact ((pollFlush_frame c.plaintext).2.2.2.1 h).1
  have hfin : ∀ c : Conn, c.finishShutdown.1 = .ready (.ok ()) → c.finishShutdown.2.plaintext.outgoing = [] := by
    intro c h
    unfold Conn.finishShutdown at h ⊢
    have := hfl c
    rcases hp : c.pollFlushEncrypted with ⟨res, c'⟩
    rw [hp] at h this
    rcases res with _ | (e | u)
    · cases h
    · cases h
    · simp only at h ⊢
      have ho := this rfl
      rcases ht : c'.plaintext.inner.pollShutdown with ⟨ev, t⟩
      rw [ht] at h
      rcases ev with _ | _ | k
      · cases h
      · exact ho
      · cases h
  constructor
  · intro h
    unfold Conn.pollFlush at h ⊢
    rcases hw : c.plaintext.writeState with _ | _ | e
    · rw [hw] at h; exact hfl c h
    · rw [hw] at h; cases h
    · rw [hw] at h; cases h
  · intro h
    unfold Conn.pollShutdown at h ⊢
    rcases hw : c.plaintext.writeState with _ | _ | e
    · rw [hw] at h
      simp only at h ⊢
      rcases ha : c.appendCloseNotify cr with ⟨res, c'⟩
      rw [ha] at h
      rcases res with e | u
      · cases h
      · exact hfin _ h
    · rw [hw] at h; exact hfin c h
    · rw [hw] at h; cases h

/-- C27: a write that succeeds accepts something (unless there was nothing to write), and no more than was offered. -/
theorem C27_write_progress {X K : Type} (cr : Crypto X K) (c c' : Conn) (buf : Bytes) (n : Nat)
    (h : c.pollWrite cr buf = (.ready (.ok n), c')) : n ≤ buf.length ∧ (buf ≠ [] → 0 < n) := by
  have hn : n = min buf.length maxPlaintextRecordSize := by
    unfold Conn.pollWrite at h
    rcases hw : c.plaintext.writeState with _ | _ | e
    · rw [hw] at h
      simp only at h
      rcases hp : c.pollFlushEncrypted with ⟨res, c1⟩
      rw [hp] at h
      rcases res with _ | (e | u)
      · cases h
      · cases h
      · simp only at h
        rcases ha : c1.appendRecord cr (buf.take (min buf.length maxPlaintextRecordSize)) .applicationData with ⟨r2, c2⟩
        rw [ha] at h
        rcases r2 with e | u
        · cases h
        · simp only [Prod.mk.injEq, Poll.ready.injEq, Except.ok.injEq] at h
          exact h.1.symm
    · rw [hw] at h; cases h
    · rw [hw] at h; cases h
  subst hn
  refine ⟨Nat.min_le_left _ _, fun hne => ?_⟩
  have := List.length_pos_iff.mpr hne
  unfold maxPlaintextRecordSize
  omega

theorem protectsAll_decrypt {X K : Type} (cr : Crypto X K) (key : EncryptionKey) (hiv : key.writeIv.length = 12)
    (n : Nat) (ws : List WireRecord) (acc : List Bytes) (tail : List (UInt8 × Bytes))
    (h : ProtectsAll cr key n ws (dataMessages acc ++ tail)) (i : Nat) (d : Bytes) (hi : acc[i]? = some d) :
    ∃ w, ws[i]? = some w ∧ decryptMessage cr (n + i) key w.bytes = .ok (.applicationData d, d) := by
  induction acc generalizing n ws i with
  | nil => simp at hi
  | cons a acc ih =>
    rcases ws with _ | ⟨w, ws⟩
    · exact absurd h id
    · obtain ⟨h1, h2, h3⟩ := h
      rcases i with _ | i
      · simp only [List.getElem?_cons_zero, Option.some.injEq] at hi
        subst hi
        refine ⟨w, rfl, ?_⟩
        rw [Nat.add_zero, decryptMessage_protects cr key hiv n w h1 23 (by decide) a h2]
        rfl
      · obtain ⟨w', hw', hd⟩ := ih (n + 1) ws h3 i (by simpa using hi)
        refine ⟨w', by simpa using hw', ?_⟩
        rw [show n + (i + 1) = n + 1 + i by omega]
        exact hd

/-- C27, seen from the peer: it decrypts record number `i` of the stream to the `i`-th piece that was accepted. -/
theorem C27_peer_reads {X K : Type} (cr : Crypto X K) (hc : cr.Correct) (c : Conn)
    (hiv : c.seqenc.trafficSecrets.client.writeIv.length = 12) (hact : c.plaintext.writeState = .active)
    (ops : List ConnOp) :
    ∃ ws : List WireRecord,
      (connRun cr c ops).2.plaintext.inner.sent ++ (connRun cr c ops).2.plaintext.outgoing
        = c.plaintext.inner.sent ++ c.plaintext.outgoing ++ wire ws ∧
      ∀ i d, (accepted (connRun cr c ops).1)[i]? = some d →
        ∃ w, ws[i]? = some w ∧
          decryptMessage cr (c.seqenc.clientSequenceNo + i) c.seqenc.trafficSecrets.client w.bytes
            = .ok (.applicationData d, d) := by
  obtain ⟨ws, closed, _, h1, h2, _⟩ := C27_write_stream cr hc c hiv hact ops
  exact ⟨ws, h1, fun i d hi => protectsAll_decrypt cr _ hiv _ ws _ _ h2 i d hi⟩

example : accepted (connRun toyCrypto (exampleConn []) [.write [1, 2], .write [3], .write [3], .shutdown]).1 = [[1, 2], [3]] ∧
    (connRun toyCrypto (exampleConn []) [.write [1, 2], .write [3], .write [3], .shutdown]).2.plaintext.inner.sent.length = 24 + 23 + 24 := by
  decide +kernel

/-! ## C31: after shutdown -/

/-- Sending has been ended. -/
def Conn.WriteEnded (c : Conn) : Prop := c.plaintext.writeState ≠ .active

theorem tx_writeState {c c' : Conn} (h : c'.tx = c.tx) : c'.plaintext.writeState = c.plaintext.writeState :=
  congrArg Tx.writeState h

theorem finishShutdown_frame (c : Conn) :
    c.finishShutdown.2.plaintext.inner.sent ++ c.finishShutdown.2.plaintext.outgoing
      = c.plaintext.inner.sent ++ c.plaintext.outgoing ∧
    (c.WriteEnded → c.finishShutdown.2.WriteEnded) := by
  unfold Conn.finishShutdown
  obtain ⟨h1, _, h3, _, _⟩ := pollFlush_frame c.plaintext
  have hend : c.WriteEnded → c.plaintext.pollFlush.2.writeState ≠ .active := by
    intro hw h
    rcases h3 with h3 | h3
    · exact hw (h3.symm.trans h)
    · rw [h] at h3; exact h3
  unfold Conn.pollFlushEncrypted
  rcases hp : c.plaintext.pollFlush with ⟨res, p⟩
  rw [hp] at h1 hend
  rcases res with _ | (e | u)
  · exact ⟨h1, hend⟩
  · exact ⟨h1, hend⟩
  · simp only at h1 hend ⊢
    have hs := transport_pollShutdown_sent p.inner
    rcases ht : p.inner.pollShutdown with ⟨ev, t⟩
    rw [ht] at hs
    replace hs : t.sent = p.inner.sent := hs
    rw [← hs] at h1
    rcases ev with _ | _ | k
    · exact ⟨h1, hend⟩
    · exact ⟨h1, fun _ => by simp [Conn.WriteEnded]⟩
    · exact ⟨h1, hend⟩

/-- C31: shutdown ends sending, whatever it answers. -/
theorem C31_shutdown_ends {X K : Type} (cr : Crypto X K) (c : Conn) : (c.pollShutdown cr).2.WriteEnded := by
  unfold Conn.pollShutdown
  rcases hw : c.plaintext.writeState with _ | _ | e
  · simp only
    unfold Conn.appendCloseNotify Conn.appendRecord
    split
    · split at *
      · rename_i h; cases h
      · rename_i h; cases h; simp [Conn.WriteEnded]
    · exact (finishShutdown_frame _).2 (by simp [Conn.WriteEnded])
  · exact (finishShutdown_frame c).2 (by rw [Conn.WriteEnded, hw]; simp)
  · simp [Conn.WriteEnded, hw]

theorem ended_step {X K : Type} (cr : Crypto X K) (c : Conn) (h : c.WriteEnded) (op : ConnOp) :
    (op.step cr c).2.WriteEnded ∧
    (op.step cr c).2.plaintext.inner.sent ++ (op.step cr c).2.plaintext.outgoing
      = c.plaintext.inner.sent ++ c.plaintext.outgoing ∧
    (∀ buf, op = .write buf → ∃ e, (op.step cr c).1 = .write buf (.ready (.error e))) ∧
    (op = .flush → ∃ e, (op.step cr c).1 = .flush (.ready (.error e))) := by
  cases op with
  | read room =>
    have ht := pollRead_tx cr c room
    refine ⟨?_, ?_, nofun, nofun⟩
    · simp only [ConnOp.step, Conn.WriteEnded]
      rw [tx_writeState ht]; exact h
    · exact congrArg (fun t : Tx => t.sent ++ t.outgoing) ht
  | write buf =>
    simp only [ConnOp.step]
    unfold Conn.pollWrite
    unfold Conn.WriteEnded at h
    rcases hw : c.plaintext.writeState with _ | _ | e
    · exact absurd hw h
    · refine ⟨h, rfl, fun b hb => ?_, nofun⟩
      injection hb with hb; subst hb
      exact ⟨_, rfl⟩
    · refine ⟨h, rfl, fun b hb => ?_, nofun⟩
      injection hb with hb; subst hb
      exact ⟨_, rfl⟩
  | flush =>
    simp only [ConnOp.step]
    unfold Conn.pollFlush
    unfold Conn.WriteEnded at h
    rcases hw : c.plaintext.writeState with _ | _ | e
    · exact absurd hw h
    · exact ⟨h, rfl, nofun, fun _ => ⟨_, rfl⟩⟩
    · exact ⟨h, rfl, nofun, fun _ => ⟨_, rfl⟩⟩
  | shutdown =>
    refine ⟨C31_shutdown_ends cr c, ?_, nofun, nofun⟩
    simp only [ConnOp.step]
    unfold Conn.pollShutdown
    rcases hw : c.plaintext.writeState with _ | _ | e
    · exact absurd hw h
    · exact (finishShutdown_frame c).1
    · rfl

/-- The writes among the events all failed. -/
def AllWritesFail (evs : List ConnEvent) : Prop :=
  ∀ buf a, ConnEvent.write buf a ∈ evs → ∃ e, a = .ready (.error e)

theorem C31_ended_run {X K : Type} (cr : Crypto X K) (c : Conn) (h : c.WriteEnded) (ops : List ConnOp) :
    AllWritesFail (connRun cr c ops).1 ∧
    (connRun cr c ops).2.plaintext.inner.sent ++ (connRun cr c ops).2.plaintext.outgoing
      = c.plaintext.inner.sent ++ c.plaintext.outgoing := by
  induction ops generalizing c with
  | nil => exact ⟨nofun, rfl⟩
  | cons op ops ih =>
    obtain ⟨h1, h2, h3, _⟩ := ended_step cr c h op
    obtain ⟨h4, h5⟩ := ih _ h1
    refine ⟨?_, h5.trans h2⟩
    intro buf a hmem
    simp only [connRun, List.mem_cons] at hmem
    rcases hmem with hmem | hmem
    · cases op with
      | write b =>
        obtain ⟨e, he⟩ := h3 b rfl
        rw [he] at hmem
        injection hmem with _ hmem
        exact ⟨e, hmem⟩
      | _ => simp [ConnOp.step] at hmem
    · exact h4 buf a hmem

/-- C31 (TLS). After a call of shutdown (whatever it answered), in every further history of calls,
every write fails, and nothing is added to what is sent. -/
theorem C31_tls_nothing_after_shutdown {X K : Type} (cr : Crypto X K) (c : Conn) (ops : List ConnOp) :
    let c' := (c.pollShutdown cr).2
    AllWritesFail (connRun cr c' ops).1 ∧
    (connRun cr c' ops).2.plaintext.inner.sent ++ (connRun cr c' ops).2.plaintext.outgoing
      = c'.plaintext.inner.sent ++ c'.plaintext.outgoing :=
  C31_ended_run cr _ (C31_shutdown_ends cr c) ops

example : ((exampleConn []).pollShutdown toyCrypto).1 = .pending ∧
    (ConnOp.step toyCrypto ((exampleConn []).pollShutdown toyCrypto).2 (.write [1])).1
      = .write [1] (.ready (.error (.ioError .brokenPipe))) := by
  constructor
  · rfl
  · rfl

end Ngfs.Tls
