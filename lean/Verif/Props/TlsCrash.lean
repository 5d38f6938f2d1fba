import Verif.Lemmas.TlsCrash
import Verif.Props.TlsHandshake

/-!
C157 (what a server sends does not crash a TLS client).
-/
namespace Ngfs.Tls

open Ngfs.Binary

/-- C157: whatever arrives, however the transport behaves and however often it is polled, the handshake does not crash, and
neither does any call on the connection it yields. -/
def C157_statement : Prop :=
  ∀ (X K : Type) (cr : Crypto X K), cr.Expands → cr.Correct → (∀ a b, cr.verifyCertificate a b ≠ .error .panic) →
    ∀ (transport : Transport) (config : ClientConfig) (protocolNames : List String) (privateKey : K)
      (publicKey random sessionId : Bytes) (k : Nat), transport.sent = [] →
      (establishPoll cr (pollTimes cr k
        (initialState transport config protocolNames privateKey publicKey random sessionId))).1 ≠ .ready (.error .panic) ∧
      ∀ conn, (establishPoll cr (pollTimes cr k
        (initialState transport config protocolNames privateKey publicKey random sessionId))).1 = .ready (.ok conn) →
        ∀ (ops : List ConnOp), ∀ ev ∈ (connRun cr conn ops).1, ¬ ev.Crashed

/-- A transport that delivers a KeyUpdate in the clear and nothing else. -/
def keyUpdateTransport : Transport :=
  ⟨[.ready (encodeRecord .handshake 0x0303 [24, 0, 0, 0])], [.accept 1000], [.ok], [], []⟩

theorem keyUpdate_crashes :
    (match (establishPoll toyCrypto (pollTimes toyCrypto 0 (initialState keyUpdateTransport toyConfig ["h2"] ()
        (List.replicate 32 8) (List.replicate 32 1) (List.replicate 32 2)))).1 with
      | .ready (.error e) => decide (e = .panic)
      | _ => false) = true := by
  decide +kernel

/-- The code does not satisfy C157: nine bytes, which need no key, crash the client. -/
theorem C157_false : ¬ C157_statement := by
  intro h
  refine (h Unit Unit toyCrypto toyCrypto_expands toyCrypto_correct nofun keyUpdateTransport toyConfig ["h2"] ()
    (List.replicate 32 8) (List.replicate 32 1) (List.replicate 32 2) 0 rfl).1 ?_
  have hk := keyUpdate_crashes
  generalize (establishPoll toyCrypto (pollTimes toyCrypto 0 (initialState keyUpdateTransport toyConfig ["h2"] ()
        (List.replicate 32 8) (List.replicate 32 1) (List.replicate 32 2)))).1 = r at hk ⊢
  rcases r with _ | (e | c)
  · cases hk
  · rw [of_decide_eq_true hk]
  · cases hk

theorem polls_noCrash {X K : Type} (cr : Crypto X K) (hx : cr.Expands) (hc : cr.Correct)
    (hv : ∀ a b, cr.verifyCertificate a b ≠ .error .panic) (transport : Transport) (ht : transport.sent = [])
    (config : ClientConfig) (protocolNames : List String) (privateKey : K) (publicKey random sessionId : Bytes) (k : Nat) :
    ((establishPoll cr (pollTimes cr k
      (initialState transport config protocolNames privateKey publicKey random sessionId))).1 = .ready (.error .panic) →
      ∃ ch, handshakeBytes (X := X)
          (.clientHello (makeClientHello random sessionId publicKey config.serverName protocolNames)) = .ok ch ∧
        CrashingHandshake cr privateKey ch (readData transport.reads)) ∧
    ∀ conn, (establishPoll cr (pollTimes cr k
      (initialState transport config protocolNames privateKey publicKey random sessionId))).1 = .ready (.ok conn) →
      conn.plaintext.receiver.Sound ∧ conn.Fresh := by
  rcases hch : handshakeBytes (X := X)
      (.clientHello (makeClientHello random sessionId publicKey config.serverName protocolNames)) with e | ch
  · have hi : initialState (X := X) transport config protocolNames privateKey publicKey random sessionId = .error e := by
      unfold initialState; rw [hch]
    rw [hi]
    have hp : ∀ k, pollTimes cr k (.error e : ECState X K) = .error e := by
      intro k
      induction k with
      | zero => rfl
      | succ k ih =>
        rw [pollTimes]
        have : (establishPoll cr (.error e : ECState X K)).2 = .error e := by
          unfold establishPoll; rw [establishLoop]
        rw [this, ih]
    rw [hp, establishPoll, establishLoop]
    refine ⟨?_, fun _ hh => by cases hh⟩
    intro hh
    cases hh
    exact absurd hch (clientHello_noCrash _ _ _ _ _)
  · have hinit := initialState_inv cr transport ht config protocolNames privateKey publicKey random sessionId ch hch
    have hsd : (initialState (X := X) transport config protocolNames privateKey publicKey random sessionId).Sound cr privateKey
        (readData transport.reads) ch := by
      unfold initialState; rw [hch]
      exact (nofun : (ReadState.active : ReadState) ≠ .error .panic)
    obtain ⟨h1, h2⟩ := pollTimes_sound hx hc hv k hinit hsd
    obtain ⟨_, h3, h4⟩ := establishLoop_sound hx hc hv 6 h1 h2 (left_le _)
    exact ⟨fun hh => ⟨ch, rfl, h3 hh⟩, fun conn hh => ⟨h4 conn hh, ((establishLoop_inv hx hc 6 h1).2 conn hh).2⟩⟩

/-- C157, what holds of the handshake: only two kinds of message crash it, a KeyUpdate (in the clear in place of
ServerHello, or protected with the key agreed on by ServerHello) and, under that key, a Finished of another length than the
hash; and the message that does is the last one taken. Everything else, and every behaviour of the transport, gives a
connection, an error or waiting. Missing from C157: these two kinds of message. -/
theorem C157_handshake_partial {X K : Type} (cr : Crypto X K) (hx : cr.Expands) (hc : cr.Correct)
    (hv : ∀ a b, cr.verifyCertificate a b ≠ .error .panic) (transport : Transport) (ht : transport.sent = [])
    (config : ClientConfig) (protocolNames : List String) (privateKey : K) (publicKey random sessionId : Bytes) (k : Nat)
    (h : (establishPoll cr (pollTimes cr k
      (initialState transport config protocolNames privateKey publicKey random sessionId))).1 = .ready (.error .panic)) :
    ∃ ch, handshakeBytes (X := X)
        (.clientHello (makeClientHello random sessionId publicKey config.serverName protocolNames)) = .ok ch ∧
      CrashingHandshake cr privateKey ch (readData transport.reads) :=
  (polls_noCrash cr hx hc hv transport ht config protocolNames privateKey publicKey random sessionId k).1 h

/-- The hypotheses can be met: by a KeyUpdate, and by a Finished that is too short. -/
example : toyCrypto.Expands ∧ toyCrypto.Correct ∧ (∀ a b, toyCrypto.verifyCertificate a b ≠ .error .panic) ∧
    keyUpdateTransport.sent = [] ∧ (toyTransport []).sent = [] :=
  ⟨toyCrypto_expands, toyCrypto_correct, nofun, rfl, rfl⟩

/-- C157, what holds of the connection: whatever is read, written, flushed and shut down on it, in any order, a call crashes
only if a KeyUpdate protected with the key of the server arrives. So nobody who lacks that key can make one crash. Missing
from C157: KeyUpdate. -/
theorem C157_connection_partial {X K : Type} (cr : Crypto X K) (hx : cr.Expands) (hc : cr.Correct)
    (hv : ∀ a b, cr.verifyCertificate a b ≠ .error .panic) (transport : Transport) (ht : transport.sent = [])
    (config : ClientConfig) (protocolNames : List String) (privateKey : K) (publicKey random sessionId : Bytes) (k : Nat)
    (conn : Conn) (h : (establishPoll cr (pollTimes cr k
      (initialState transport config protocolNames privateKey publicKey random sessionId))).1 = .ready (.ok conn))
    (ops : List ConnOp) (ev : ConnEvent) (hev : ev ∈ (connRun cr conn ops).1) (hcr : ev.Crashed) : CrashingData cr conn := by
  obtain ⟨h1, h2⟩ :=
    (polls_noCrash cr hx hc hv transport ht config protocolNames privateKey publicKey random sessionId k).2 conn h
  exact connRun_sound cr conn h2.serverIv ops conn [] [] (readInv_init cr conn (by rw [h2.reading]; simp))
    ⟨h1, by rw [h2.reading]; nofun, by rw [h2.writing]; nofun⟩ ev hev hcr

/-- Calls that crash: a KeyUpdate after some data. -/
example : ((connRun toyCrypto (exampleConn [.ready (toyRecord 0 .applicationData [1, 2, 3]),
      .ready (toyRecord 1 .handshake [24, 0, 0, 1, 0])]) [.read 10, .write [7], .read 10]).1.getLast?.map
        (fun | .read _ (.ready (.error e)) => decide (e = .panic) | _ => false)) = some true := by
  decide +kernel

end Ngfs.Tls
