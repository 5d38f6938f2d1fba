import Verif.Lemmas.TlsWake
import Verif.Props.TlsHonest

/-! C161 and C162: a task that waits for a TLS connection is woken, and it is woken only when there is something to do. -/
namespace Ngfs.Tls

open Ngfs.Binary

/-- C161. A handshake that answers "pending" will be polled again: while it has bytes of its own to send, the transport
will wake it when it takes more, and otherwise it has woken itself or the transport will wake it when bytes come. -/
theorem C161_handshake_woken {X K : Type} (cr : Crypto X K) (s : ECState X K) (h : (establishPoll cr s).1 = .pending) :
    ((establishPoll cr s).2.Sending → (establishWakes cr s).Writer) ∧
      (¬ (establishPoll cr s).2.Sending → (establishWakes cr s).Reader) :=
  establishLoop_waits cr 6 s .none h

/-- C161. So do reads, ... -/
theorem C161_read_woken {X K : Type} (cr : Crypto X K) (c : Conn) (room : Nat) (h : (c.pollRead cr room).1 = .pending) :
    (c.readWakes cr).Reader := by
  unfold Conn.pollRead at h
  unfold Conn.readWakes
  rcases hr : c.readState with _ | _ | e
  · rw [hr] at h
    dsimp only at h ⊢
    unfold Conn.pollFillIncoming at h
    unfold Conn.fillWakes
    split
    · rename_i hi; rw [if_pos hi] at h; cases h
    · rename_i hi
      rw [if_neg hi] at h
      obtain ⟨es, h1, h2, h3⟩ := fillLoop_wakes cr (c.plaintext.inner.reads.length + 1) c .none
      left
      generalize c.fillLoop cr _ = q at h h2
      obtain ⟨_ | (e | ⟨⟩), c'⟩ := q
      · rw [h2 rfl]; omega
      · cases h
      · cases h
  · rw [hr] at h; cases h
  · rw [hr] at h; cases h

/-- C161. (It would be woken even if `poll_fill_incoming` did not wake it: the transport has its waker, or data has come and
`poll_receive_data` has woken it.) -/
theorem C161_read_woken_anyway {X K : Type} (cr : Crypto X K) (c : Conn) (room : Nat) (h : (c.pollRead cr room).1 = .pending) :
    (c.readWakes cr).reading = true ∨
      ∃ es, c.plaintext.inner.reads = es ++ (c.pollRead cr room).2.plaintext.inner.reads ∧ 0 < pieces es := by
  unfold Conn.pollRead at h ⊢
  unfold Conn.readWakes
  rcases hr : c.readState with _ | _ | e
  · rw [hr] at h
    dsimp only at h ⊢
    unfold Conn.pollFillIncoming at h ⊢
    unfold Conn.fillWakes
    by_cases hi : c.incomingDecrypted.length > 0
    · rw [if_pos hi] at h; cases h
    · rw [if_neg hi] at h
      rw [if_neg hi, if_neg hi]
      have hf := fillLoop_reader cr (c.plaintext.inner.reads.length + 1) c .none
      generalize c.fillLoop cr _ = q at h hf
      obtain ⟨_ | (e | ⟨⟩), c'⟩ := q
      · exact hf rfl
      · cases h
      · cases h
  · rw [hr] at h; cases h
  · rw [hr] at h; cases h

/-- C161. ... writes, ... -/
theorem C161_write_woken {X K : Type} (cr : Crypto X K) (c : Conn) (buf : Bytes) (h : (c.pollWrite cr buf).1 = .pending) :
    c.writeWakes.Writer := by
  unfold Conn.pollWrite at h
  unfold Conn.writeWakes
  rcases hw : c.plaintext.writeState with _ | _ | e
  · rw [hw] at h
    refine flushWakes_pending _ _ ?_
    unfold Conn.pollFlushEncrypted at h
    dsimp only at h
    generalize c.plaintext.pollFlush = q at h
    obtain ⟨_ | (e | ⟨⟩), p⟩ := q
    · rfl
    · cases h
    · dsimp only at h
      split at h <;> cases h
  · rw [hw] at h; cases h
  · rw [hw] at h; cases h

/-- C161. ... flushes ... -/
theorem C161_flush_woken (c : Conn) (h : c.pollFlush.1 = .pending) : c.flushWakes.Writer := by
  unfold Conn.pollFlush at h
  unfold Conn.flushWakes
  rcases hw : c.plaintext.writeState with _ | _ | e
  · rw [hw] at h
    exact flushWakes_pending _ _ h
  · rw [hw] at h; cases h
  · rw [hw] at h; cases h

theorem finish_woken (c : Conn) (w : Wakes) (h : c.finishShutdown.1 = .pending) : (c.finishWakes w).Writer := by
  unfold Conn.finishShutdown at h
  unfold Conn.finishWakes
  have hf := flushWakes_pending c.plaintext w
  unfold Conn.pollFlushEncrypted at h ⊢
  dsimp only at h ⊢
  generalize c.plaintext.pollFlush = q at h hf ⊢
  obtain ⟨_ | (e | ⟨⟩), p⟩ := q
  · exact hf rfl
  · cases h
  · dsimp only at h ⊢
    generalize p.inner.pollShutdown = q at h ⊢
    obtain ⟨_ | _ | k, t⟩ := q
    · rfl
    · cases h
    · cases h

/-- C161. ... and shutdowns. -/
theorem C161_shutdown_woken {X K : Type} (cr : Crypto X K) (c : Conn) (h : (c.pollShutdown cr).1 = .pending) :
    (c.shutdownWakes cr).Writer := by
  unfold Conn.pollShutdown at h
  unfold Conn.shutdownWakes
  rcases hw : c.plaintext.writeState with _ | _ | e
  · rw [hw] at h
    dsimp only at h ⊢
    generalize c.appendCloseNotify cr = q at h ⊢
    obtain ⟨e | ⟨⟩, c'⟩ := q
    · cases h
    · exact finish_woken _ _ h
  · rw [hw] at h
    exact finish_woken _ _ h
  · rw [hw] at h; cases h

/-- C161. An honest server is reached (C160) by a task that is polled only when it has been woken: each of the polls but
the last is answered by "pending" with a wake-up to come. -/
theorem C161_honest_server_reached {X K : Type} (cr : Crypto X K) (hw : cr.Works) (hx : cr.Expands) (hc : cr.Correct)
    (transport : Transport) (ht : transport.sent = []) (config : ClientConfig) (protocolNames : List String) (privateKey : K)
    (publicKey random sessionId ch : Bytes)
    (hch : handshakeBytes (X := X)
      (.clientHello (makeClientHello random sessionId publicKey config.serverName protocolNames)) = .ok ch)
    (husable : config.clientAuth.Usable cr)
    (f : Flight X) (hf : f.Legal cr) (ciphers : Ciphers) (hsSecret : Bytes) (hsServer : EncryptionKey)
    (hagreed : Agreed cr f.sh f.shRaw privateKey ch ciphers hsSecret hsServer)
    (hone : ∀ s1 s2, Extension.keyShareServerHello ⟨.x25519, s1⟩ ∈ f.sh.extensions →
      Extension.keyShareServerHello ⟨.x25519, s2⟩ ∈ f.sh.extensions → s1 = s2)
    (hauth : f.Authenticated cr config ch ciphers hsServer)
    (total rest : Bytes) (hbring : WillBring transport.reads total)
    (harr : Arrived cr f.shRaw f.encrypted hsServer total rest)
    (htake : WillTake transport.writes (ch.length + 16650)) (hflush : WillFlush transport.flushes 2) :
    ∃ k conn, (establishPoll cr (pollTimes cr k
        (initialState transport config protocolNames privateKey publicKey random sessionId))).1 = .ready (.ok conn) ∧
      ∀ j, j < k → (establishWakes cr (pollTimes cr j
          (initialState transport config protocolNames privateKey publicKey random sessionId : ECState X K))).Reader ∨
        (establishWakes cr (pollTimes cr j
          (initialState transport config protocolNames privateKey publicKey random sessionId : ECState X K))).Writer := by
  obtain ⟨k, conn, _, hp, hr, _⟩ := C160_honest_server_reached cr hw hx hc transport ht config protocolNames privateKey
    publicKey random sessionId ch hch husable f hf ciphers hsSecret hsServer hagreed hone hauth total rest hbring harr htake
    hflush
  refine ⟨k, conn, hr, fun j hj => ?_⟩
  have h := C161_handshake_woken cr _ (hp j hj)
  by_cases hs : (establishPoll cr (pollTimes cr j
    (initialState transport config protocolNames privateKey publicKey random sessionId : ECState X K))).2.Sending
  · exact .inr (h.1 hs)
  · exact .inl (h.2 hs)

/-! ### C162 -/

/-- C162, as claimed: a read that waits has woken its own task at most once for every piece of data it has received. -/
def C162_statement : Prop :=
  ∀ (X K : Type) (cr : Crypto X K) (c : Conn) (room : Nat), (c.pollRead cr room).1 = .pending →
    ∃ es, c.plaintext.inner.reads = es ++ (c.pollRead cr room).2.plaintext.inner.reads ∧
      (c.readWakes cr).self ≤ pieces es

/-- What is true of reads instead: a read that waits wakes its own task once more than it has received pieces of data;
any other read, as often as it has received pieces of data. -/
theorem C162_reading_partial {X K : Type} (cr : Crypto X K) (c : Conn) (room : Nat) :
    ∃ es, c.plaintext.inner.reads = es ++ (c.pollRead cr room).2.plaintext.inner.reads ∧
      ((c.pollRead cr room).1 = .pending → (c.readWakes cr).self = pieces es + 1) ∧
      ((c.pollRead cr room).1 ≠ .pending → (c.readWakes cr).self = pieces es) := by
  unfold Conn.pollRead Conn.readWakes
  rcases hr : c.readState with _ | _ | e
  · dsimp only
    unfold Conn.pollFillIncoming Conn.fillWakes
    by_cases hi : c.incomingDecrypted.length > 0
    · rw [if_pos hi, if_pos hi]
      exact ⟨[], rfl, (fun hh => by cases hh), fun _ => rfl⟩
    · rw [if_neg hi, if_neg hi]
      obtain ⟨es, h1, h2, h3⟩ := fillLoop_wakes cr (c.plaintext.inner.reads.length + 1) c .none
      rw [show (Wakes.none).self = 0 from rfl, Nat.zero_add] at h2 h3
      refine ⟨es, ?_⟩
      generalize c.fillLoop cr _ = q at h1 h2 h3
      obtain ⟨_ | (e | ⟨⟩), c'⟩ := q
      · exact ⟨h1, fun _ => h2 rfl, fun hh => absurd rfl hh⟩
      · exact ⟨h1, (fun hh => by cases hh), fun _ => h3 (fun hh => by cases hh)⟩
      · exact ⟨h1, (fun hh => by cases hh), fun _ => h3 (fun hh => by cases hh)⟩
  · exact ⟨[], rfl, (fun hh => by cases hh), fun _ => rfl⟩
  · exact ⟨[], rfl, (fun hh => by cases hh), fun _ => rfl⟩

/-- While the transport is silent, a waiting read wakes its own task and leaves everything as it was: the task is polled
without end. -/
theorem C162_silence_spins {X K : Type} (cr : Crypto X K) (c : Conn) (room : Nat) (hr : c.readState = .active)
    (hi : c.incomingDecrypted = []) (ht : c.plaintext.inner.reads = []) :
    c.pollRead cr room = (.pending, c) ∧ (c.readWakes cr).self = 1 := by
  unfold Conn.pollRead Conn.readWakes Conn.pollFillIncoming Conn.fillWakes
  rw [hr, hi, ht]
  unfold Conn.fillLoop Conn.fillLoopWakes PlaintextStream.pollRecv pollReceiveAndAddData PlaintextStream.recvWakes
    Transport.readWakes Transport.pollRead
  rw [ht]
  exact ⟨rfl, rfl⟩

/-- C162 for the handshake: over any number of polls, the task wakes itself at most once for every piece of data that the
transport brings. -/
theorem C162_handshake_partial {X K : Type} (cr : Crypto X K) (transport : Transport) (config : ClientConfig)
    (protocolNames : List String) (privateKey : K) (publicKey random sessionId : Bytes) (n : Nat) :
    selfWakes cr n (initialState transport config protocolNames privateKey publicKey random sessionId : ECState X K) ≤
      pieces transport.reads := by
  have h := selfWakes_pieces cr n
    (initialState transport config protocolNames privateKey publicKey random sessionId : ECState X K)
  have hr : pieces (initialState transport config protocolNames privateKey publicKey random sessionId :
      ECState X K).reads ≤ pieces transport.reads := by
    unfold initialState
    dsimp only
    split
    · exact Nat.zero_le _
    · exact Nat.le_refl _
  omega

theorem finishWakes_self (c : Conn) (w : Wakes) : (c.finishWakes w).self = w.self := by
  unfold Conn.finishWakes
  dsimp only
  split
  · rw [(onDone_self _ _).1, (flushWakes_self _ _).1]
  · rw [(flushWakes_self _ _).1]

/-- C162 for the other calls: writes, flushes and shutdowns never wake their own task. -/
theorem C162_writing_partial {X K : Type} (cr : Crypto X K) (c : Conn) :
    c.writeWakes.self = 0 ∧ c.flushWakes.self = 0 ∧ (c.shutdownWakes cr).self = 0 := by
  refine ⟨?_, ?_, ?_⟩
  · unfold Conn.writeWakes
    split
    · exact (flushWakes_self _ _).1
    · rfl
  · unfold Conn.flushWakes
    split
    · exact (flushWakes_self _ _).1
    · rfl
  · unfold Conn.shutdownWakes
    split
    · rfl
    · exact finishWakes_self _ _
    · split
      · rfl
      · exact finishWakes_self _ _

/-! ### Counterexample and examples -/

/-- A connection whose transport is silent. -/
def silentConn : Conn :=
  Conn.new (PlaintextStream.new ⟨[], [], [], [], []⟩ .new)
    ⟨0, 0, ⟨toyHsKey, toyHsKey⟩, ⟨.sha256, .aes128Gcm⟩⟩

/-- C162 is false: a read of a connection whose transport is silent wakes its own task each time it is polled. -/
theorem C162_false : ¬ C162_statement := by
  intro h
  have hs := C162_silence_spins honestCrypto silentConn 1 rfl rfl rfl
  obtain ⟨es, h1, h2⟩ := h _ _ honestCrypto silentConn 1 (by rw [hs.1])
  rw [hs.1] at h1
  rw [hs.2] at h2
  have : es = [] := List.append_cancel_right (as := es) (bs := silentConn.plaintext.inner.reads) (by rw [List.nil_append]; exact h1.symm)
  subst this
  exact absurd h2 (by decide)

/-- The client of the example waits for ServerHello, and the transport gives these answers. -/
def waitingClient (reads : List ReadEvent) : ECState Unit Unit :=
  .afterSendClientHello ⟨toyConfig, (), [], PlaintextStream.new ⟨reads, [], [], [], []⟩ .new⟩

/-- The polls that wait, with a wake-up to come: half a record has come, so that nobody but the task itself will wake it;
nothing has come; the hello cannot be sent. -/
example : (establishPoll honestCrypto (waitingClient [.ready [22, 3]])).1 = .pending ∧
    establishWakes honestCrypto (waitingClient [.ready [22, 3]]) = ⟨1, false, false⟩ ∧
    (establishPoll honestCrypto (waitingClient [.pending])).1 = .pending ∧
    establishWakes honestCrypto (waitingClient [.pending]) = ⟨0, true, false⟩ := by decide +kernel

example : (establishPoll honestCrypto (.begin ⟨toyConfig, (), [],
      { PlaintextStream.new ⟨[], [.accept 1, .pending], [], [], []⟩ .new with outgoing := [1, 2] }⟩ : ECState Unit Unit)).1 = .pending ∧
    establishWakes honestCrypto (.begin ⟨toyConfig, (), [],
      { PlaintextStream.new ⟨[], [.accept 1, .pending], [], [], []⟩ .new with outgoing := [1, 2] }⟩ : ECState Unit Unit) =
      ⟨0, false, true⟩ := by decide +kernel

/-- A connection with something to send, whose transport gives these answers. -/
def busyConn (writes : List WriteEvent) (flushes shutdowns : List DoneEvent) : Conn :=
  { silentConn with plaintext := { silentConn.plaintext with inner := ⟨[.pending], writes, flushes, shutdowns, []⟩, outgoing := [1, 2] } }

/-- A read, a write, a flush and a shutdown that wait. -/
example : ((busyConn [] [] []).pollRead honestCrypto 5).1 = .pending ∧
    ((busyConn [.accept 1, .pending] [] []).pollWrite honestCrypto [7]).1 = .pending ∧
    (busyConn [.accept 2] [.pending] []).pollFlush.1 = .pending := by decide +kernel

example : ((busyConn [.accept 1, .accept 1000] [.ok] [.pending]).pollShutdown honestCrypto).1 = .pending := by decide +kernel

end Ngfs.Tls
