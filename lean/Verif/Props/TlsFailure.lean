import Verif.Lemmas.TlsFailure
import Verif.Props.TlsHandshake

/-! C203: a TLS client reports the failures of its transport, and only those. -/
namespace Ngfs.Tls

open Ngfs.Binary

/-- C203. Connecting reports a failure of the transport only if the transport has failed in this way, and the end of the
stream only if the stream has ended. The hypothesis is that checking a certificate does not itself give such an error. -/
theorem C203_connecting_only {X K : Type} (cr : Crypto X K)
    (hv : ∀ a b e, cr.verifyCertificate a b = .error e → e.foreign = false) (transport : Transport)
    (config : ClientConfig) (protocolNames : List String) (privateKey : K) (publicKey random sessionId : Bytes) (k : Nat)
    (e : TlsErr)
    (h : (establishPoll cr (pollTimes cr k
      (initialState transport config protocolNames privateKey publicKey random sessionId))).1 = .ready (.error e)) :
    transport.Explains False e :=
  (establishLoop_caused hv 6 (pollTimes_caused hv k
    (initialState_caused transport config protocolNames privateKey publicKey random sessionId))).2.1 e h

/-- C203. And it does report them: as long as connecting waits, and if it succeeds, the transport has not failed. -/
theorem C203_connecting_reports {X K : Type} (cr : Crypto X K) (transport : Transport)
    (config : ClientConfig) (protocolNames : List String) (privateKey : K) (publicKey random sessionId : Bytes) (k : Nat)
    (hp : ∀ j, j < k → (establishPoll cr (pollTimes cr j
      (initialState transport config protocolNames privateKey publicKey random sessionId))).1 = .pending) :
    ((establishPoll cr (pollTimes cr k
      (initialState transport config protocolNames privateKey publicKey random sessionId))).1 = .pending →
        ∃ t, (establishPoll cr (pollTimes cr k
          (initialState transport config protocolNames privateKey publicKey random sessionId))).2.transport? = some t ∧
          NoFailure transport t) ∧
    ∀ c, (establishPoll cr (pollTimes cr k
      (initialState transport config protocolNames privateKey publicKey random sessionId))).1 = .ready (.ok c) →
        NoFailure transport c.plaintext.inner :=
  establishLoop_intact cr 6 (pollTimes_intact cr k
    (initialState_intact transport config protocolNames privateKey publicKey random sessionId) hp)

/-- C203. On the connection: whatever is read, written, flushed and shut down, in any order, a call reports a failure of the
transport only if the transport has failed in this way, and the end of the stream only if the stream has ended; except that
"broken pipe" is also the answer to a call that comes after one that asked for the connection to be shut down. -/
theorem C203_connection_only {X K : Type} (cr : Crypto X K)
    (hv : ∀ a b e, cr.verifyCertificate a b = .error e → e.foreign = false) (transport : Transport)
    (config : ClientConfig) (protocolNames : List String) (privateKey : K) (publicKey random sessionId : Bytes) (k : Nat)
    (c : Conn)
    (h : (establishPoll cr (pollTimes cr k
      (initialState transport config protocolNames privateKey publicKey random sessionId))).1 = .ready (.ok c))
    (before : List ConnOp) (op : ConnOp) (e : TlsErr) (he : (op.step cr (connRun cr c before).2).1.failure = some e) :
    transport.Explains (ConnOp.shutdown ∈ before) e := by
  obtain ⟨h1, h2⟩ := (establishLoop_caused hv 6 (pollTimes_caused hv k
    (initialState_caused transport config protocolNames privateKey publicKey random sessionId))).2.2 c h
  have h3 := (connRun_caused cr before (t0 := transport) (down := False) (c := c) ⟨h1, fun e he => by rw [h2] at he; cases he⟩).1
  exact explains_mono (fun hd => hd.elim False.elim id) ((step_caused cr h3 op).1 e he)

/-- C203. A read, which shutting down is no concern of, never reports "broken pipe" unless the transport did. -/
theorem C203_read_only {X K : Type} (cr : Crypto X K)
    (hv : ∀ a b e, cr.verifyCertificate a b = .error e → e.foreign = false) (transport : Transport)
    (config : ClientConfig) (protocolNames : List String) (privateKey : K) (publicKey random sessionId : Bytes) (k : Nat)
    (c : Conn)
    (h : (establishPoll cr (pollTimes cr k
      (initialState transport config protocolNames privateKey publicKey random sessionId))).1 = .ready (.ok c))
    (before : List ConnOp) (room : Nat) (e : TlsErr)
    (he : ((connRun cr c before).2.pollRead cr room).1 = .ready (.error e)) : transport.Explains False e := by
  obtain ⟨h1, h2⟩ := (establishLoop_caused hv 6 (pollTimes_caused hv k
    (initialState_caused transport config protocolNames privateKey publicKey random sessionId))).2.2 c h
  have h3 := (connRun_caused cr before (t0 := transport) (down := False) (c := c) ⟨h1, fun e he => by rw [h2] at he; cases he⟩).1
  exact (pollRead_caused cr h3 room).1 e he

/-- C203. And it does report them: as long as no call has answered with an error, the transport has not failed, from the
beginning of connecting. -/
theorem C203_connection_reports {X K : Type} (cr : Crypto X K)
    (hv : ∀ a b e, cr.verifyCertificate a b = .error e → e.foreign = false) (transport : Transport)
    (config : ClientConfig) (protocolNames : List String) (privateKey : K) (publicKey random sessionId : Bytes) (k : Nat)
    (hp : ∀ j, j < k → (establishPoll cr (pollTimes cr j
      (initialState transport config protocolNames privateKey publicKey random sessionId))).1 = .pending) (c : Conn)
    (h : (establishPoll cr (pollTimes cr k
      (initialState transport config protocolNames privateKey publicKey random sessionId))).1 = .ready (.ok c))
    (ops : List ConnOp) (hn : ∀ ev ∈ (connRun cr c ops).1, ev.failure = none) :
    NoFailure transport (connRun cr c ops).2.plaintext.inner := by
  obtain ⟨h1, h2⟩ := (establishLoop_caused hv 6 (pollTimes_caused hv k
    (initialState_caused transport config protocolNames privateKey publicKey random sessionId))).2.2 c h
  have h3 := (connRun_caused cr ops (t0 := transport) (down := False) (c := c) ⟨h1, fun e he => by rw [h2] at he; cases he⟩).2 hn
  exact noFailure_trans ((C203_connecting_reports cr transport config protocolNames privateKey publicKey random sessionId k
    hp).2 c h) h3

/-! ### Examples -/

/-- The answer is this error. -/
def failsWith (e : TlsErr) : Poll (Except TlsErr Conn) → Bool
  | .ready (.error e') => decide (e' = e)
  | _ => false

/-- The transport of an example: the server answers, then the network fails. -/
def failingTransport (last : ReadEvent) : Transport :=
  ⟨[.ready [22, 3], .pending, last], [.accept 7, .pending, .accept 1000], [.ok], [], []⟩

/-- The hypotheses of `C203_connecting_only` can be met: the network fails in the middle of a record, or the stream ends
before any. -/
example : (∀ a b e, toyCrypto.verifyCertificate a b = .error e → e.foreign = false) ∧
    failsWith (.ioError (.other 104)) (establishPoll toyCrypto (pollTimes toyCrypto 3 (initialState (X := Unit) (failingTransport
      (.error (.other 104))) toyConfig ["h2"] () (List.replicate 32 8) (List.replicate 32 1) (List.replicate 32 2)))).1 = true ∧
    failsWith .unexpectedEof (establishPoll toyCrypto (pollTimes toyCrypto 0 (initialState (X := Unit)
      ⟨[.ready []], [.accept 1000], [.ok], [], []⟩ toyConfig ["h2"] () (List.replicate 32 8) (List.replicate 32 1)
        (List.replicate 32 2)))).1 = true :=
  ⟨nofun, by decide +kernel, by decide +kernel⟩

/-- The transport of an example: the handshake is brought at once; then come these answers. -/
def lateTransport (reads : List ReadEvent) (writes : List WriteEvent) (shutdowns : List DoneEvent) : Transport :=
  { toyTransport [toyEE, toyCert, toyVerify, toyFinished 32] with
    reads := (toyTransport [toyEE, toyCert, toyVerify, toyFinished 32]).reads ++ reads
    writes := [.accept 1000, .accept 1000] ++ writes, flushes := List.replicate 6 .ok, shutdowns := shutdowns }

/-- What the calls report, if connecting succeeds at the first poll. -/
def lateReport (transport : Transport) (ops : List ConnOp) : Option (List (Option TlsErr)) :=
  match (establishPoll toyCrypto (pollTimes toyCrypto 0 (initialState (X := Unit) transport toyConfig ["h2"]
      () (List.replicate 32 8) (List.replicate 32 1) (List.replicate 32 2)))).1 with
  | .ready (.ok c) => some ((connRun toyCrypto c ops).1.map ConnEvent.failure)
  | _ => none

/-- The hypotheses of the theorems about the connection can be met: the network fails in a read, in a write, in shutting
down; the calls after shutting down are refused; and nothing fails. -/
example : lateReport (lateTransport [.pending, .error (.other 104)] [] []) [.read 5, .read 5, .read 5]
      = some [none, some (.ioError (.other 104)), some (.ioError (.other 104))] ∧
    lateReport (lateTransport [.ready []] [] []) [.read 5] = some [some .unexpectedEof] ∧
    lateReport (lateTransport [] [.accept 3, .error .writeZero] []) [.write [1, 2], .write [3], .read 5]
      = some [none, some (.ioError .writeZero), none] ∧
    lateReport (lateTransport [] [.accept 100] [.pending, .error (.other 9)]) [.shutdown, .write [1], .shutdown]
      = some [none, some (.ioError .brokenPipe), some (.ioError (.other 9))] ∧
    lateReport (lateTransport [] [.accept 100, .pending, .accept 100] [.ok]) [.write [1, 2], .flush, .read 5, .shutdown]
      = some [none, none, none, none] := by
  decide +kernel

end Ngfs.Tls
