import Verif.Spec.TlsConn
import Verif.Lemmas.TlsRecord
import Mathlib.Data.List.Nodup

/-! Facts about established connections. -/
namespace Ngfs.Tls

open Ngfs.Binary

/-- Everything that concerns sending. -/
structure Tx where
  sent : Bytes
  outgoing : Bytes
  writeState : WriteState
  seals : List SealCall
  seqNo : Nat
  secrets : TrafficSecrets

def Conn.tx (c : Conn) : Tx :=
  ⟨c.plaintext.inner.sent, c.plaintext.outgoing, c.plaintext.writeState, c.plaintext.seals,
    c.seqenc.clientSequenceNo, c.seqenc.trafficSecrets⟩

theorem pollRead_sent (t : Transport) : t.pollRead.2.sent = t.sent := by
  unfold Transport.pollRead; rcases t.reads with _ | ⟨e, es⟩ <;> rfl

theorem receiveAndAdd_sent (r : RecordReceiver) (t : Transport) :
    (pollReceiveAndAddData r t).2.2.sent = t.sent := by
  have h := pollRead_sent t
  unfold pollReceiveAndAddData
  rcases hp : t.pollRead with ⟨e, t'⟩
  rw [hp] at h
  rcases e with _ | d | k
  · exact h
  · cases d <;> exact h
  · exact h

theorem pollRecv_frame (p : PlaintextStream) :
    p.pollRecv.2.inner.sent = p.inner.sent ∧ p.pollRecv.2.outgoing = p.outgoing ∧
      p.pollRecv.2.writeState = p.writeState ∧ p.pollRecv.2.seals = p.seals := by
  unfold PlaintextStream.pollRecv
  have h := receiveAndAdd_sent p.receiver p.inner
  rcases hp : pollReceiveAndAddData p.receiver p.inner with ⟨res, r, t⟩
  rw [hp] at h
  exact ⟨h, rfl, rfl, rfl⟩

theorem tx_of_pollRecv (c : Conn) (rs : ReadState) (r : RecordReceiver) (n : Nat) (d : Bytes) :
    Conn.tx ⟨{ c.plaintext.pollRecv.2 with receiver := r }, { c.seqenc with serverSequenceNo := n }, d, rs⟩ = c.tx := by
  obtain ⟨h1, h2, h3, h4⟩ := pollRecv_frame c.plaintext
  simp only [Conn.tx, h1, h2, h3, h4]

/-- Reading does not concern what is sent. -/
theorem fillLoop_tx {X K : Type} (cr : Crypto X K) (n : Nat) (c : Conn) : (c.fillLoop cr n).2.tx = c.tx := by
  induction n generalizing c with
  | zero => rfl
  | succ n ih =>
    unfold Conn.fillLoop
    have h0 := fun rs d => tx_of_pollRecv c rs c.plaintext.pollRecv.2.receiver c.seqenc.serverSequenceNo d
    have h1 := fun rs r k d => tx_of_pollRecv c rs r k d
    rcases hp : c.plaintext.pollRecv with ⟨res, p⟩
    rw [hp] at h0 h1
    simp only at h0 h1
    rcases res with _ | (e | u)
    · exact h0 _ _
    · exact h0 _ _
    · simp only
      rcases hm : pollReceiveEncryptedMessage cr p.receiver c.seqenc.serverSequenceNo
        c.seqenc.trafficSecrets.server with ⟨res, r, k, raw⟩
      rcases res with _ | (e | (_ | m))
      · exact h1 _ _ _ _
      · exact h1 _ _ _ _
      · exact h1 _ _ _ _
      · cases m with
        | handshake hs =>
          cases hs with
          | newSessionTicket t =>
            simp only
            rw [ih]
            exact h1 _ _ _ _
          | _ => exact h1 _ _ _ _
        | alert al =>
          simp only
          split <;> exact h1 _ _ _ _
        | _ => exact h1 _ _ _ _

theorem pollRead_tx {X K : Type} (cr : Crypto X K) (c : Conn) (room : Nat) : (c.pollRead cr room).2.tx = c.tx := by
  unfold Conn.pollRead
  rcases c.readState with _ | _ | e <;> try rfl
  simp only
  have h : (c.pollFillIncoming cr).2.tx = c.tx := by
    unfold Conn.pollFillIncoming
    split
    · rfl
    · exact fillLoop_tx cr _ c
  rcases hp : c.pollFillIncoming cr with ⟨res, c'⟩
  rw [hp] at h
  rcases res with _ | (e | u) <;> exact h

/-! ### Sending -/

theorem writeLoop_sent (ws : List WriteEvent) (o s : Bytes) :
    (writeLoop ws o s).2.2.2 ++ (writeLoop ws o s).2.2.1 = s ++ o := by
  induction ws generalizing o s with
  | nil => cases o <;> rfl
  | cons w ws ih =>
    rcases o with _ | ⟨b, bs⟩
    · rfl
    · rcases w with _ | n | k
      · rfl
      · rw [writeLoop, ih, List.append_assoc, List.take_append_drop]
      · rfl

theorem writeLoop_done (ws : List WriteEvent) (o s : Bytes)
    (h : (writeLoop ws o s).1 = .ready (.ok ())) : (writeLoop ws o s).2.2.1 = [] := by
  induction ws generalizing o s with
  | nil => cases o <;> simp_all [writeLoop]
  | cons w ws ih =>
    rcases o with _ | ⟨b, bs⟩
    · rfl
    · rcases w with _ | n | k
      · simp [writeLoop] at h
      · rw [writeLoop] at h ⊢; exact ih _ _ h
      · simp [writeLoop] at h

theorem transport_pollFlush_sent (t : Transport) : t.pollFlush.2.sent = t.sent := by
  unfold Transport.pollFlush; rcases t.flushes with _ | ⟨e, es⟩ <;> rfl

theorem transport_pollShutdown_sent (t : Transport) : t.pollShutdown.2.sent = t.sent := by
  unfold Transport.pollShutdown; rcases t.shutdowns with _ | ⟨e, es⟩ <;> rfl

def WriteState.IsError : WriteState → Prop
  | .error _ => True
  | _ => False

/-- Flushing moves bytes, and can record an error. -/
theorem pollFlush_frame (p : PlaintextStream) :
    p.pollFlush.2.inner.sent ++ p.pollFlush.2.outgoing = p.inner.sent ++ p.outgoing ∧
      p.pollFlush.2.seals = p.seals ∧
      (p.pollFlush.2.writeState = p.writeState ∨ p.pollFlush.2.writeState.IsError) ∧
      (p.pollFlush.1 = .ready (.ok ()) → p.pollFlush.2.outgoing = [] ∧ p.pollFlush.2.writeState = p.writeState) ∧
      (p.pollFlush.1 = .pending → p.pollFlush.2.writeState = p.writeState) := by
  unfold PlaintextStream.pollFlush
  have h1 := writeLoop_sent p.inner.writes p.outgoing p.inner.sent
  have h2 := writeLoop_done p.inner.writes p.outgoing p.inner.sent
  rcases hw : writeLoop p.inner.writes p.outgoing p.inner.sent with ⟨res, ws, o, s⟩
  rw [hw] at h1 h2
  simp only at h1 h2
  rcases res with _ | (k | u)
  · exact ⟨h1, rfl, .inl rfl, nofun, fun _ => rfl⟩
  · exact ⟨h1, rfl, .inr trivial, nofun, nofun⟩
  · have ho := h2 rfl
    simp only
    have hs := transport_pollFlush_sent { p.inner with writes := ws, sent := s }
    rcases hf : Transport.pollFlush { p.inner with writes := ws, sent := s } with ⟨e, t⟩
    rw [hf] at hs
    have hs' : t.sent = s := hs
    rw [← hs'] at h1
    rcases e with _ | _ | k
    · exact ⟨h1, rfl, .inl rfl, nofun, fun _ => rfl⟩
    · exact ⟨h1, rfl, .inl rfl, fun _ => ⟨ho, rfl⟩, fun _ => rfl⟩
    · exact ⟨h1, rfl, .inl rfl, nofun, nofun⟩

/-- The nonces of the records numbered from `n`. -/
def sealsFrom (key : EncryptionKey) (n k : Nat) : List SealCall :=
  (List.range k).map (fun i => ⟨key.writeKey, nonceSpec key.writeIv (n + i)⟩)

theorem sealsFrom_succ (key : EncryptionKey) (n k : Nat) :
    sealsFrom key n (k + 1) = sealsFrom key n k ++ [⟨key.writeKey, nonceSpec key.writeIv (n + k)⟩] := by
  simp [sealsFrom, List.range_succ]

/-- The state of sending after the messages `msgs` since `c0`. `extra` counts a failed encryption. -/
structure TxInv {X K : Type} (cr : Crypto X K) (c0 : Tx) (msgs : List (UInt8 × Bytes)) (extra : Nat)
    (closed : Prop) (c : Tx) : Prop where
  secrets : c.secrets = c0.secrets
  seqNo : c.seqNo = c0.seqNo + msgs.length
  stream : ∃ ws, ws.length = msgs.length ∧
    c.sent ++ c.outgoing = c0.sent ++ c0.outgoing ++ wire ws ∧
    ProtectsAll cr c0.secrets.client c0.seqNo ws msgs ∧ ∀ w ∈ ws, w.Outer
  seals : c.seals = c0.seals ++ sealsFrom c0.secrets.client c0.seqNo (msgs.length + extra)
  extra_le : extra ≤ 1
  extra_err : extra = 1 → c.writeState.IsError
  closed_iff : c.writeState = .active → ¬ closed
  closed_shut : c.writeState = .inShutdown → closed

theorem protectsAll_snoc {X K : Type} {cr : Crypto X K} {key : EncryptionKey} {n : Nat} {ws : List WireRecord}
    {ms : List (UInt8 × Bytes)} {w : WireRecord} {m : UInt8 × Bytes} (h : ProtectsAll cr key n ws ms)
    (hl : w.Legal) (hw : Protects cr key (n + ms.length) w m.1 m.2) :
    ProtectsAll cr key n (ws ++ [w]) (ms ++ [m]) := by
  induction ws generalizing n ms with
  | nil =>
    rcases ms with _ | ⟨a, ms⟩
    · exact ⟨hl, hw, trivial⟩
    · exact absurd h id
  | cons x ws ih =>
    rcases ms with _ | ⟨a, ms⟩
    · exact absurd h id
    · obtain ⟨h1, h2, h3⟩ := h
      refine ⟨h1, h2, ih h3 ?_⟩
      rw [show n + 1 + ms.length = n + (a :: ms).length by simp; omega]
      exact hw

/-- The failure of an encryption. -/
theorem encryptRecord_err {X K : Type} (cr : Crypto X K) (key : EncryptionKey) (hiv : key.writeIv.length = 12)
    (n : Nat) (p p' : PlaintextStream) (data : Bytes) (ct : ContentType) (e : TlsErr)
    (h : encryptRecord cr p data ct key n = (.error e, p')) :
    p' = p ∨ p' = { p with seals := p.seals ++ [⟨key.writeKey, nonceSpec key.writeIv n⟩] } := by
  unfold encryptRecord at h
  split at h
  · simp only [Prod.mk.injEq] at h; exact .inl h.2.symm
  · simp only [makeNonce_eq _ hiv] at h
    split at h
    · simp only [Prod.mk.injEq] at h; exact .inr h.2.symm
    · simp at h

theorem tx_appendRecord {X K : Type} {cr : Crypto X K} (hc : cr.Correct) {c0 : Tx} {msgs closed} {c : Conn}
    (hiv : c0.secrets.client.writeIv.length = 12) (data : Bytes) (ct : ContentType)
    (h : TxInv cr c0 msgs 0 closed c.tx) (hclosed : ¬ closed) (hact : c.tx.writeState = .active) :
    ((c.appendRecord cr data ct).1 = .ok () ∧ TxInv cr c0 (msgs ++ [(ct.toRaw, data)]) 0 closed (c.appendRecord cr data ct).2.tx
        ∧ (c.appendRecord cr data ct).2.tx.writeState = .active) ∨
      (∃ e extra, (c.appendRecord cr data ct).1 = .error e ∧ TxInv cr c0 msgs extra closed (c.appendRecord cr data ct).2.tx) := by
  unfold Conn.appendRecord
  have hs : c.seqenc.trafficSecrets = c0.secrets := h.secrets
  have hn : c.seqenc.clientSequenceNo = c0.seqNo + msgs.length := h.seqNo
  have hiv' : c.seqenc.trafficSecrets.client.writeIv.length = 12 := by rw [hs]; exact hiv
  rcases he : encryptRecord cr c.plaintext data ct c.seqenc.trafficSecrets.client c.seqenc.clientSequenceNo
    with ⟨res, p'⟩
  rcases res with e | u
  · right
    have hseal : p'.inner.sent = c.plaintext.inner.sent ∧ p'.outgoing = c.plaintext.outgoing ∧
        (p'.seals = c.plaintext.seals ∨ p'.seals = c.plaintext.seals ++
          [⟨c.seqenc.trafficSecrets.client.writeKey, nonceSpec c.seqenc.trafficSecrets.client.writeIv
            c.seqenc.clientSequenceNo⟩]) := by
      rcases encryptRecord_err cr _ hiv' _ _ _ _ _ _ he with rfl | rfl
      · exact ⟨rfl, rfl, .inl rfl⟩
      · exact ⟨rfl, rfl, .inr rfl⟩
    obtain ⟨h1, h2, h3⟩ := hseal
    have hstream := h.stream
    simp only [Conn.tx] at hstream
    rw [← h1, ← h2] at hstream
    have hseals : c.plaintext.seals = _ := h.seals
    rcases h3 with h3 | h3
    · exact ⟨e, 0, rfl, h.secrets, h.seqNo, hstream, h3.trans hseals, by omega, nofun, nofun, nofun⟩
    · refine ⟨e, 1, rfl, h.secrets, h.seqNo, hstream, ?_, le_rfl, fun _ => trivial, nofun, nofun⟩
      simp only [Conn.tx]
      rw [h3, hseals, hs, hn, Nat.add_zero, sealsFrom_succ, List.append_assoc]
  · left
    obtain ⟨_, w, hw, ho1, ho2, ho3, hp, _, hprot⟩ := encryptRecord_ok cr hc _ hiv' _ _ _ _ _ he
    refine ⟨rfl, ⟨h.secrets, ?_, ?_, ?_, by omega, nofun, fun _ => hclosed, ?_⟩, ?_⟩
    · simp [Conn.tx, hn]; omega
    · obtain ⟨ws, hl, hst, hpa, hou⟩ := h.stream
      refine ⟨ws ++ [w], by simp [hl], ?_, ?_, ?_⟩
      · simp only [Conn.tx] at hst ⊢
        rw [hp]
        simp only
        rw [← List.append_assoc, hst]
        simp [wire_append, wire_cons, wire_nil]
      · rw [hs, hn] at hprot
        exact protectsAll_snoc hpa hw hprot
      · intro x hx
        rcases List.mem_append.mp hx with hx | hx
        · exact hou x hx
        · rw [List.mem_singleton.mp hx]; exact ⟨ho1, ho2, ho3⟩
    · have hseals : c.plaintext.seals = _ := h.seals
      simp only [Conn.tx]
      rw [hp]
      simp only
      rw [hseals, hs, hn, Nat.add_zero, Nat.add_zero, List.length_append, List.length_singleton, sealsFrom_succ,
        List.append_assoc]
    · intro hx; rw [hp] at hx; simp only [Conn.tx] at hx hact; rw [hact] at hx; cases hx
    · rw [hp]; exact hact

end Ngfs.Tls

namespace Ngfs.Tls

/-! ### Nonces -/

theorem digits_inj (k n m : Nat) (h : ∀ i, i < k → n / 256 ^ i % 256 = m / 256 ^ i % 256) :
    n % 256 ^ k = m % 256 ^ k := by
  induction k with
  | zero => simp [Nat.mod_one]
  | succ k ih =>
    rw [Nat.mod_pow_succ, Nat.mod_pow_succ, ih (fun i hi => h i (by omega)), h k (by omega)]

theorem nonceSpec_inj (iv : Bytes) {n m : Nat} (hn : n < 2 ^ 64) (hm : m < 2 ^ 64)
    (h : nonceSpec iv n = nonceSpec iv m) : n = m := by
  unfold nonceSpec at h
  have h := List.append_cancel_left h
  have hd : ∀ i, i < 8 → n / 256 ^ (7 - i) % 256 = m / 256 ^ (7 - i) % 256 := by
    intro i hi
    have h2 := congrArg (fun l => l[i]?) h
    simp only [List.getElem?_map, List.getElem?_range hi, Option.map_some, Option.some.injEq] at h2
    have h3 := congrArg UInt8.toNat ((UInt8.xor_right_inj _).mp h2)
    rwa [UInt8.toNat_ofNat', UInt8.toNat_ofNat', Nat.mod_mod, Nat.mod_mod] at h3
  have := digits_inj 8 n m (fun i hi => by
    have := hd (7 - i) (by omega)
    rwa [show 7 - (7 - i) = i by omega] at this)
  have e : (256 : Nat) ^ 8 = 2 ^ 64 := by norm_num
  rw [e, Nat.mod_eq_of_lt hn, Nat.mod_eq_of_lt hm] at this
  exact this

theorem sealsFrom_nodup (key : EncryptionKey) (n k : Nat) (h : n + k ≤ 2 ^ 64) : (sealsFrom key n k).Nodup := by
  unfold sealsFrom
  refine List.Nodup.map_on ?_ List.nodup_range
  intro a ha b hb hab
  rw [List.mem_range] at ha hb
  simp only [SealCall.mk.injEq, true_and] at hab
  have := nonceSpec_inj key.writeIv (n := n + a) (m := n + b) (by omega) (by omega) hab
  omega

/-! ### One call -/

theorem tx_flush {X K : Type} {cr : Crypto X K} {c0 : Tx} {msgs extra closed} {c : Conn}
    (h : TxInv cr c0 msgs extra closed c.tx) : TxInv cr c0 msgs extra closed c.pollFlushEncrypted.2.tx := by
  obtain ⟨h1, h2, h3, h4, h5⟩ := pollFlush_frame c.plaintext
  unfold Conn.pollFlushEncrypted
  refine ⟨h.secrets, h.seqNo, ?_, ?_, h.extra_le, ?_, ?_, ?_⟩
  · obtain ⟨ws, ha, hb, hc⟩ := h.stream
    exact ⟨ws, ha, h1.trans hb, hc⟩
  · exact h2.trans h.seals
  · intro he
    rcases h3 with h3 | h3
    · show (c.plaintext.pollFlush.2.writeState).IsError
      rw [h3]; exact h.extra_err he
    · exact h3
  · intro he
    have he : c.plaintext.pollFlush.2.writeState = .active := he
    rcases h3 with h3 | h3
    · exact h.closed_iff (h3.symm.trans he)
    · rw [he] at h3; exact absurd h3 id
  · intro he
    have he : c.plaintext.pollFlush.2.writeState = .inShutdown := he
    rcases h3 with h3 | h3
    · exact h.closed_shut (h3.symm.trans he)
    · rw [he] at h3; exact absurd h3 id

theorem tx_congr {X K : Type} {cr : Crypto X K} {c0 : Tx} {msgs extra closed} {c c' : Tx}
    (h : TxInv cr c0 msgs extra closed c) (h1 : c'.sent ++ c'.outgoing = c.sent ++ c.outgoing)
    (h2 : c'.seals = c.seals) (h3 : c'.seqNo = c.seqNo) (h4 : c'.secrets = c.secrets)
    (h5 : c'.writeState.IsError) : TxInv cr c0 msgs extra closed c' := by
  refine ⟨h4.trans h.secrets, h3.trans h.seqNo, ?_, h2.trans h.seals, h.extra_le, fun _ => h5, ?_, ?_⟩
  · obtain ⟨ws, ha, hb, hc⟩ := h.stream
    exact ⟨ws, ha, h1.trans hb, hc⟩
  · intro he; rw [he] at h5; exact absurd h5 id
  · intro he; rw [he] at h5; exact absurd h5 id

theorem tx_finishShutdown {X K : Type} {cr : Crypto X K} {c0 : Tx} {msgs extra closed} {c : Conn}
    (h : TxInv cr c0 msgs extra closed c.tx) : TxInv cr c0 msgs extra closed c.finishShutdown.2.tx := by
  unfold Conn.finishShutdown
  have hf := tx_flush h
  rcases hp : c.pollFlushEncrypted with ⟨res, c'⟩
  rw [hp] at hf
  rcases res with _ | (e | u)
  · exact hf
  · exact hf
  · simp only
    have hs := transport_pollShutdown_sent c'.plaintext.inner
    rcases ht : c'.plaintext.inner.pollShutdown with ⟨ev, t⟩
    rw [ht] at hs
    replace hs : t.sent = c'.plaintext.inner.sent := hs
    have hsame : Conn.tx { c' with plaintext := { c'.plaintext with inner := t } } = c'.tx := by
      simp only [Conn.tx, hs]
    rcases ev with _ | _ | k
    · simp only; rw [hsame]; exact hf
    · exact tx_congr hf (by simp only [Conn.tx, hs]) rfl rfl rfl trivial
    · simp only; rw [hsame]; exact hf

/-- The state of sending after a history with `k` calls in which the pieces `acc` were accepted. -/
def SendInv {X K : Type} (cr : Crypto X K) (c0 : Conn) (acc : List Bytes) (k : Nat) (closed : Bool) (c : Conn) : Prop :=
  ∃ extra, acc.length + closed.toNat + extra ≤ k ∧
    TxInv cr c0.tx (dataMessages acc ++ if closed then [closeMessage] else []) extra (closed = true) c.tx

theorem accepted_one (ev : ConnEvent) (rest : List ConnEvent) :
    accepted (ev :: rest) = accepted [ev] ++ accepted rest := by
  cases ev with
  | write buf a =>
    rcases a with _ | (e | n) <;> rfl
  | _ => rfl

theorem sendInv_step {X K : Type} {cr : Crypto X K} (hc : cr.Correct) {c0 c : Conn} {acc : List Bytes} {k : Nat}
    {closed : Bool} (hiv : c0.seqenc.trafficSecrets.client.writeIv.length = 12)
    (h : SendInv cr c0 acc k closed c) (op : ConnOp) :
    ∃ closed', SendInv cr c0 (acc ++ accepted [(op.step cr c).1]) (k + 1) closed' (op.step cr c).2 ∧
      (closed' = true → closed = true ∨ op = .shutdown) ∧ (closed = true → closed' = true) := by
  obtain ⟨extra, hk, h⟩ := h
  cases op with
  | read room =>
    refine ⟨closed, ⟨extra, ?_, ?_⟩, .inl, id⟩
    · simp [accepted, ConnOp.step]; omega
    · simp only [ConnOp.step, accepted, List.append_nil]
      rw [pollRead_tx]
      exact h
  | flush =>
    refine ⟨closed, ⟨extra, ?_, ?_⟩, .inl, id⟩
    · simp [accepted, ConnOp.step]; omega
    · simp only [ConnOp.step, accepted, List.append_nil]
      unfold Conn.pollFlush
      rcases c.plaintext.writeState with _ | _ | e
      · exact tx_flush h
      · exact h
      · exact h
  | write buf =>
    simp only [ConnOp.step]
    unfold Conn.pollWrite
    have keep : ∃ closed' : Bool, SendInv cr c0 (acc ++ []) (k + 1) closed' c ∧
        (closed' = true → closed = true ∨ ConnOp.write buf = .shutdown) ∧ (closed = true → closed' = true) :=
      ⟨closed, ⟨extra, by simp; omega, by simpa using h⟩, .inl, id⟩
    rcases hws : c.plaintext.writeState with _ | _ | e
    · simp only
      have hcl : ¬ (closed = true) := h.closed_iff hws
      have hcl : closed = false := by simpa using hcl
      subst hcl
      have hex : extra = 0 := by
        by_contra hne
        have : extra = 1 := by have := h.extra_le; omega
        have := h.extra_err this
        simp only [Conn.tx] at this
        rw [hws] at this
        exact this
      subst hex
      have hf := tx_flush h
      obtain ⟨_, _, _, hok, hpe⟩ := pollFlush_frame c.plaintext
      rcases hp : c.pollFlushEncrypted with ⟨res, c'⟩
      rw [hp] at hf
      rcases res with _ | (e | u)
      · exact ⟨false, ⟨0, by simp [accepted] at hk ⊢; omega, by simpa [accepted] using hf⟩, nofun, id⟩
      · exact ⟨false, ⟨0, by simp [accepted] at hk ⊢; omega, by simpa [accepted] using hf⟩, nofun, id⟩
      · simp only
        have hact : c'.tx.writeState = .active := by
          unfold Conn.pollFlushEncrypted at hp
          simp only [Prod.mk.injEq] at hp
          have := (hok hp.1).2
          rw [← hp.2]
          exact this.trans hws
        have happ := tx_appendRecord hc (msgs := dataMessages acc) (closed := (false = true)) hiv
          (buf.take (min buf.length maxPlaintextRecordSize)) .applicationData (by simpa using hf) (by simp) hact
        rcases ha : c'.appendRecord cr (buf.take (min buf.length maxPlaintextRecordSize)) .applicationData
          with ⟨res, c''⟩
        rw [ha] at happ
        rcases happ with ⟨h1, h2, _⟩ | ⟨e, extra, h1, h2⟩
        · have h1 : res = .ok () := h1
          subst h1
          refine ⟨false, ⟨0, by simp [accepted] at hk ⊢; omega, ?_⟩, nofun, id⟩
          simpa [accepted, dataMessages, ContentType.toRaw] using h2
        · have h1 : res = .error e := h1
          subst h1
          refine ⟨false, ⟨extra, ?_, ?_⟩, nofun, id⟩
          · have := h2.extra_le
            simp [accepted] at hk ⊢; omega
          · simpa [accepted] using h2
    · exact keep
    · exact keep
  | shutdown =>
    simp only [ConnOp.step, accepted, List.append_nil]
    unfold Conn.pollShutdown
    rcases hws : c.plaintext.writeState with _ | _ | e
    · simp only
      have hcl : ¬ (closed = true) := h.closed_iff hws
      have hcl : closed = false := by simpa using hcl
      subst hcl
      have hex : extra = 0 := by
        by_contra hne
        have : extra = 1 := by have := h.extra_le; omega
        have := h.extra_err this
        simp only [Conn.tx] at this
        rw [hws] at this
        exact this
      subst hex
      have happ := tx_appendRecord hc (msgs := dataMessages acc) (closed := (false = true)) hiv
        [AlertLevel.warning.toRaw, AlertDescription.closeNotify.toRaw] .alert (by simpa using h) (by simp) hws
      unfold Conn.appendCloseNotify
      rcases ha : c.appendRecord cr [AlertLevel.warning.toRaw, AlertDescription.closeNotify.toRaw] .alert
        with ⟨res, c''⟩
      rw [ha] at happ
      rcases happ with ⟨h1, h2, _⟩ | ⟨e, extra, h1, h2⟩
      · have h1 : res = .ok () := h1
        subst h1
        refine ⟨true, ⟨0, by simp at hk ⊢; omega, ?_⟩, fun _ => .inr trivial, nofun⟩
        have e : ((ContentType.alert.toRaw, [AlertLevel.warning.toRaw, AlertDescription.closeNotify.toRaw]) :
            UInt8 × Bytes) = closeMessage := rfl
        rw [e] at h2
        simp only [if_true]
        exact tx_finishShutdown ⟨h2.secrets, h2.seqNo, h2.stream, h2.seals, h2.extra_le, nofun, nofun, fun _ => trivial⟩
      · have h1 : res = .error e := h1
        subst h1
        refine ⟨false, ⟨extra, ?_, ?_⟩, nofun, id⟩
        · have := h2.extra_le
          simp at hk ⊢; omega
        · simpa using h2
    · exact ⟨closed, ⟨extra, by omega, tx_finishShutdown h⟩, .inl, id⟩
    · exact ⟨closed, ⟨extra, by omega, h⟩, .inl, id⟩

theorem sendInv_run {X K : Type} {cr : Crypto X K} (hc : cr.Correct) {c0 : Conn}
    (hiv : c0.seqenc.trafficSecrets.client.writeIv.length = 12) (ops : List ConnOp) {c : Conn} {acc : List Bytes}
    {k : Nat} {closed : Bool} (h : SendInv cr c0 acc k closed c) :
    ∃ closed', SendInv cr c0 (acc ++ accepted (connRun cr c ops).1) (k + ops.length) closed' (connRun cr c ops).2 ∧
      (closed' = true → closed = true ∨ .shutdown ∈ ops) ∧ (closed = true → closed' = true) := by
  induction ops generalizing c acc k closed with
  | nil => exact ⟨closed, by simpa [connRun, accepted] using h, .inl, id⟩
  | cons op ops ih =>
    obtain ⟨cl1, h1, h2, h3⟩ := sendInv_step hc hiv h op
    obtain ⟨cl2, h4, h5, h6⟩ := ih h1
    refine ⟨cl2, ?_, ?_, fun hh => h6 (h3 hh)⟩
    · simp only [connRun]
      rw [accepted_one, ← List.append_assoc, List.length_cons, show k + (ops.length + 1) = k + 1 + ops.length by omega]
      exact h4
    · intro hh
      rcases h5 hh with hh | hh
      · rcases h2 hh with hh | hh
        · exact .inl hh
        · exact .inr (by simp [hh])
      · exact .inr (List.mem_cons_of_mem _ hh)

theorem sendInv_init {X K : Type} (cr : Crypto X K) (c0 : Conn) (h : c0.plaintext.writeState = .active) :
    SendInv cr c0 [] 0 false c0 := by
  refine ⟨0, by simp, rfl, by simp [dataMessages], ⟨[], by simp [dataMessages], by simp [wire], ?_⟩, ?_, by omega, nofun, by simp, ?_⟩
  · simp [dataMessages, ProtectsAll]
  · simp [dataMessages, sealsFrom]
  · intro hh
    have hh : c0.plaintext.writeState = .inShutdown := hh
    rw [h] at hh; cases hh

end Ngfs.Tls
