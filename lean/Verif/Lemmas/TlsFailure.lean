import Verif.Spec.TlsFailure
import Verif.Lemmas.Failure
import Verif.Lemmas.TlsForeign

/-! Facts for C203: where the errors of a TLS client come from, and that no failure of the transport is lost. -/
namespace Ngfs.Tls

open Ngfs.Binary

/-! ### Causes -/

theorem explains_own {t : Transport} {down : Prop} {e : TlsErr} (h : e.foreign = true → False) : t.Explains down e := by
  cases e <;> first | trivial | exact absurd rfl h

theorem explains_mono {t : Transport} {d d' : Prop} (hd : d → d') {e : TlsErr} (h : t.Explains d e) : t.Explains d' e := by
  cases e <;> first | trivial | exact h | exact h.imp id (fun ⟨a, b⟩ => ⟨a, hd b⟩)

/-- What the receiver remembers has its cause. -/
structure RecordReceiver.Caused (t0 : Transport) (r : RecordReceiver) : Prop where
  eof : r.readState = .eof → ReadEvent.ready [] ∈ t0.reads
  err : ∀ e, r.readState = .error e → t0.Explains False e

theorem popRecord_caused {t0 : Transport} {r : RecordReceiver} (h : r.Caused t0) :
    (∀ e, r.popRecord.1 = .ready (.error e) → t0.Explains False e) ∧
    (r.popRecord.1 = .ready (.ok none) → ReadEvent.ready [] ∈ t0.reads) ∧ r.popRecord.2.Caused t0 := by
  unfold RecordReceiver.popRecord
  split
  · rcases hr : r.readState with _ | _ | e
    · exact ⟨nofun, nofun, h⟩
    · exact ⟨nofun, fun _ => h.eof hr, h⟩
    · exact ⟨fun e' he => by cases he; exact h.err e hr, nofun, h⟩
  · simp only
    split
    · exact ⟨fun e' he => by cases he; trivial, nofun, h⟩
    · split
      · rcases hr : r.readState with _ | _ | e
        · exact ⟨nofun, nofun, h⟩
        · exact ⟨fun e' he => by cases he; trivial, nofun, nofun, fun e' he => by cases he; trivial⟩
        · exact ⟨fun e' he => by cases he; exact h.err e hr, nofun, h⟩
      · exact ⟨nofun, nofun, h.eof, h.err⟩

theorem ignoreCcLoop_caused {t0 : Transport} (n : Nat) : ∀ {r : RecordReceiver}, r.Caused t0 →
    (∀ e, (ignoreCcLoop n r).1 = .ready (.error e) → t0.Explains False e) ∧
    ((ignoreCcLoop n r).1 = .ready (.ok none) → ReadEvent.ready [] ∈ t0.reads) ∧ (ignoreCcLoop n r).2.Caused t0 := by
  induction n with
  | zero => intro r h; exact ⟨fun e he => by cases he; trivial, nofun, h⟩
  | succ n ih =>
    intro r h
    obtain ⟨h1, h2, h3⟩ := popRecord_caused h
    unfold ignoreCcLoop
    rcases hp : r.popRecord with ⟨res, r'⟩
    rw [hp] at h1 h2 h3
    rcases res with _ | (e | (_ | o))
    · exact ⟨nofun, nofun, h3⟩
    · exact ⟨h1, nofun, h3⟩
    · exact ⟨nofun, h2, h3⟩
    · simp only
      split
      · exact ⟨nofun, nofun, h3⟩
      · exact ih h3

theorem receiveEncrypted_caused {X K : Type} {t0 : Transport} (cr : Crypto X K) (r : RecordReceiver) (n : Nat)
    (key : EncryptionKey) (hr : r.Caused t0) :
    (∀ e, (pollReceiveEncryptedMessage cr r n key).1 = .ready (.error e) → t0.Explains False e) ∧
    ((pollReceiveEncryptedMessage cr r n key).1 = .ready (.ok none) → ReadEvent.ready [] ∈ t0.reads) ∧
      (pollReceiveEncryptedMessage cr r n key).2.1.Caused t0 := by
  unfold pollReceiveEncryptedMessage pollReceiveRecordIgnoreCc
  obtain ⟨h1, h2, h3⟩ := ignoreCcLoop_caused (r.incoming.length + 1) hr
  rcases hp : ignoreCcLoop (r.incoming.length + 1) r with ⟨pr, r1⟩
  rw [hp] at h1 h2 h3
  rcases pr with _ | (e | (_ | o))
  · exact ⟨nofun, nofun, h3⟩
  · exact ⟨fun e' he => by cases he; exact h1 e rfl, nofun, h3⟩
  · exact ⟨nofun, fun _ => h2 rfl, h3⟩
  · simp only
    rcases hd : decryptMessage cr n key o.raw with e | ⟨m, content⟩
    · refine ⟨?_, nofun, h3⟩
      intro e' he
      cases he
      exact explains_own (fun hf => decryptMessage_own hf _ _ _ _ hd)
    · exact ⟨nofun, nofun, h3⟩

/-- Everything that a stream remembers has its cause, and its transport is what is left of the original one. -/
structure PlaintextStream.Caused (t0 : Transport) (down : Prop) (p : PlaintextStream) : Prop where
  reads : p.inner.reads ⊆ t0.reads
  writes : p.inner.writes ⊆ t0.writes
  flushes : p.inner.flushes ⊆ t0.flushes
  shutdowns : p.inner.shutdowns ⊆ t0.shutdowns
  receiver : p.receiver.Caused t0
  werr : ∀ e, p.writeState = .error e → t0.Explains down e
  wdown : p.writeState = .inShutdown → down

theorem PlaintextStream.Caused.withReceiver {t0 : Transport} {down : Prop} {p : PlaintextStream} (h : p.Caused t0 down)
    {r : RecordReceiver} (hr : r.Caused t0) : PlaintextStream.Caused t0 down { p with receiver := r } :=
  ⟨h.reads, h.writes, h.flushes, h.shutdowns, hr, h.werr, h.wdown⟩

theorem pollRecv_caused {t0 : Transport} {down : Prop} {p : PlaintextStream} (h : p.Caused t0 down) :
    (∀ e, p.pollRecv.1 = .ready (.error e) → t0.Explains False e) ∧ p.pollRecv.2.Caused t0 down := by
  unfold PlaintextStream.pollRecv pollReceiveAndAddData Transport.pollRead
  have hsub := h.reads
  rcases hr : p.inner.reads with _ | ⟨e, es⟩
  · exact ⟨nofun, by simp [hr], h.writes, h.flushes, h.shutdowns, h.receiver, h.werr, h.wdown⟩
  · rw [hr] at hsub
    have he : e ∈ t0.reads := hsub (List.mem_cons_self ..)
    have hes : es ⊆ t0.reads := fun x hx => hsub (List.mem_cons_of_mem _ hx)
    rcases e with _ | d | k
    · exact ⟨nofun, hes, h.writes, h.flushes, h.shutdowns, h.receiver, h.werr, h.wdown⟩
    · rcases d with _ | ⟨b, bs⟩
      · refine ⟨nofun, hes, h.writes, h.flushes, h.shutdowns, ?_, h.werr, h.wdown⟩
        simp only [RecordReceiver.close]
        split
        · exact ⟨fun _ => he, nofun⟩
        · exact h.receiver
      · exact ⟨nofun, hes, h.writes, h.flushes, h.shutdowns, ⟨h.receiver.eof, h.receiver.err⟩, h.werr, h.wdown⟩
    · have hk : t0.Explains False (.ioError k) := .inl (.inl he)
      exact ⟨fun e' he' => by cases he'; exact hk, hes, h.writes, h.flushes, h.shutdowns,
        ⟨nofun, fun e' he' => by cases he'; exact hk⟩, h.werr, h.wdown⟩

theorem pollFlush_caused {t0 : Transport} {down : Prop} {p : PlaintextStream} (h : p.Caused t0 down) :
    (∀ e, p.pollFlush.1 = .ready (.error e) → t0.Explains False e) ∧ p.pollFlush.2.Caused t0 down := by
  unfold PlaintextStream.pollFlush
  obtain ⟨used, h1, h2, _⟩ := writeLoop_used p.inner.writes p.outgoing p.inner.sent
  rcases hwl : writeLoop p.inner.writes p.outgoing p.inner.sent with ⟨res, ws, o, s⟩
  rw [hwl] at h1 h2
  simp only at h1 h2
  have hsub : used ⊆ t0.writes ∧ ws ⊆ t0.writes := by
    have hw := h.writes
    rw [h1] at hw
    exact ⟨fun x hx => hw (List.mem_append_left _ hx), fun x hx => hw (List.mem_append_right _ hx)⟩
  rcases res with _ | (k | u)
  · exact ⟨nofun, h.reads, hsub.2, h.flushes, h.shutdowns, h.receiver, h.werr, h.wdown⟩
  · have hk : WriteEvent.error k ∈ t0.writes := hsub.1 (h2 k rfl)
    refine ⟨fun e he => ?_, h.reads, hsub.2, h.flushes, h.shutdowns, h.receiver, fun e he => ?_, nofun⟩
    · cases he; exact .inl (.inr (.inl hk))
    · cases he; exact .inl (.inr (.inl hk))
  · simp only
    unfold Transport.pollFlush
    simp only
    have hf := h.flushes
    rcases hfl : p.inner.flushes with _ | ⟨e, es⟩
    · exact ⟨nofun, h.reads, hsub.2, by simp [hfl], h.shutdowns, h.receiver, h.werr, h.wdown⟩
    · rw [hfl] at hf
      have he : e ∈ t0.flushes := hf (List.mem_cons_self ..)
      have hes : es ⊆ t0.flushes := fun x hx => hf (List.mem_cons_of_mem _ hx)
      rcases e with _ | _ | k
      · exact ⟨nofun, h.reads, hsub.2, hes, h.shutdowns, h.receiver, h.werr, h.wdown⟩
      · exact ⟨nofun, h.reads, hsub.2, hes, h.shutdowns, h.receiver, h.werr, h.wdown⟩
      · refine ⟨fun e' he' => ?_, h.reads, hsub.2, hes, h.shutdowns, h.receiver, h.werr, h.wdown⟩
        cases he'
        exact .inl (.inr (.inr (.inl he)))

theorem encryptRecord_keeps_stream {X K : Type} (cr : Crypto X K) (p : PlaintextStream) (d : Bytes) (ct : ContentType)
    (key : EncryptionKey) (n : Nat) : (encryptRecord cr p d ct key n).2.inner = p.inner ∧
      (encryptRecord cr p d ct key n).2.receiver = p.receiver ∧ (encryptRecord cr p d ct key n).2.writeState = p.writeState := by
  unfold encryptRecord
  split
  · exact ⟨rfl, rfl, rfl⟩
  · simp only
    split <;> exact ⟨rfl, rfl, rfl⟩

theorem encryptRecord_caused {X K : Type} {t0 : Transport} {down : Prop} (cr : Crypto X K) {p : PlaintextStream}
    (h : p.Caused t0 down) (d : Bytes) (ct : ContentType) (key : EncryptionKey) (n : Nat) :
    (∀ e, (encryptRecord cr p d ct key n).1 = .error e → t0.Explains False e) ∧
    (encryptRecord cr p d ct key n).2.Caused t0 down := by
  obtain ⟨h1, h2, h3⟩ := encryptRecord_keeps_stream cr p d ct key n
  refine ⟨fun e he => explains_own fun hf => encryptRecord_calm hf _ _ _ _ _ _ he, ?_⟩
  exact ⟨by rw [h1]; exact h.reads, by rw [h1]; exact h.writes, by rw [h1]; exact h.flushes, by rw [h1]; exact h.shutdowns,
    by rw [h2]; exact h.receiver, by rw [h3]; exact h.werr, by rw [h3]; exact h.wdown⟩

/-! ### Connecting -/

/-- Everything that the state remembers has its cause. -/
def ECState.Caused {X K : Type} (t0 : Transport) : ECState X K → Prop
  | .begin s => s.plaintext.Caused t0 False
  | .afterSendClientHello s => s.plaintext.Caused t0 False
  | .afterReceiveServerHello s => s.plaintext.Caused t0 False
  | .afterReceiveServerMessages s => s.plaintext.Caused t0 False
  | .done c => c.plaintext.Caused t0 False ∧ c.readState = .active
  | .error e => t0.Explains False e

theorem receiveServerMessages_caused {X K : Type} {t0 : Transport} (cr : Crypto X K) (n : Nat) :
    ∀ {s : ServerHelloState X}, s.plaintext.Caused t0 False →
      (∀ e, (receiveServerMessages cr n s).1 = .ready (.error e) → t0.Explains False e) ∧
      (receiveServerMessages cr n s).2.plaintext.Caused t0 False := by
  induction n with
  | zero => intro s h; exact ⟨fun e he => by cases he; trivial, h⟩
  | succ n ih =>
    intro s h
    rw [receiveServerMessages]
    split
    · exact ⟨nofun, h⟩
    · obtain ⟨h1, h2, h3⟩ := receiveEncrypted_caused cr s.plaintext.receiver s.seqenc.serverSequenceNo
        s.seqenc.trafficSecrets.server h.receiver
      simp only
      rcases hm : pollReceiveEncryptedMessage cr s.plaintext.receiver s.seqenc.serverSequenceNo
        s.seqenc.trafficSecrets.server with ⟨res, r, k, raw⟩
      rw [hm] at h1 h2 h3
      have hp := h.withReceiver h3
      rcases res with _ | (e | (_ | m))
      · exact ⟨nofun, hp⟩
      · exact ⟨fun e' he => by cases he; exact h1 e rfl, hp⟩
      · exact ⟨fun e' he => by cases he; exact h2 rfl, hp⟩
      · cases m with
        | handshake hd =>
          simp only
          rcases hst : s.cstate.onHashAndHandshake (cr.hash s.seqenc.ciphers.hashAlg s.transcript) hd with e | c
          · refine ⟨?_, hp⟩
            intro e' he
            have : e' = e := by simpa using he.symm
            subst this
            unfold ClientState.onHashAndHandshake at hst
            split at hst <;> (try split at hst) <;> first
              | (rw [← Except.error.inj hst]; trivial)
              | (cases hst; done)
          · exact ih hp
        | _ =>
          refine ⟨?_, hp⟩
          intro e' he
          rw [← Except.error.inj (Poll.ready.inj he)]
          trivial

theorem recv_caused {X K : Type} {t0 : Transport} {s : ECState X K} (h : s.Caused t0) :
    (∀ e, s.recv.1 = some e → t0.Explains False e) ∧ s.recv.2.Caused t0 := by
  cases s with
  | afterSendClientHello s =>
    simp only [ECState.recv]
    obtain ⟨h1, h2⟩ := pollRecv_caused (p := s.plaintext) h
    rcases hp : s.plaintext.pollRecv with ⟨res, p⟩
    rw [hp] at h1 h2
    rcases res with _ | (e | u)
    · exact ⟨nofun, h2⟩
    · exact ⟨fun e' he => by cases he; exact h1 e rfl, h2⟩
    · exact ⟨nofun, h2⟩
  | afterReceiveServerHello s =>
    simp only [ECState.recv]
    obtain ⟨h1, h2⟩ := pollRecv_caused (p := s.plaintext) h
    rcases hp : s.plaintext.pollRecv with ⟨res, p⟩
    rw [hp] at h1 h2
    rcases res with _ | (e | u)
    · exact ⟨nofun, h2⟩
    · exact ⟨fun e' he => by cases he; exact h1 e rfl, h2⟩
    · exact ⟨nofun, h2⟩
  | _ => exact ⟨nofun, h⟩

theorem onServerHello_caused {X K : Type} {t0 : Transport} (cr : Crypto X K) (s : EarlyState K) (m : Option (Message X))
    (hs : s.plaintext.Caused t0 False) (hm : m = none → ReadEvent.ready [] ∈ t0.reads) :
    (onServerHello cr s m).Caused t0 := by
  unfold onServerHello
  split
  · split
    · rename_i e he
      refine explains_own (t := t0) (fun hf => ?_)
      unfold Ciphers.fromServerHello at he
      split at he <;> first | (cases he; done) | (cases he; cases hf)
    split
    · trivial
    split
    · rename_i e he
      exact explains_own (t := t0) (fun hf => derivedPrk_calm hf _ _ _ _ he)
    split
    · rename_i e he
      exact explains_own (t := t0) (fun hf => trafficSecrets_calm hf _ _ _ _ _ he)
    · exact hs
  · trivial
  · exact hm rfl

theorem sendClientHelloStep_caused {X K : Type} {t0 : Transport} (cr : Crypto X K) (s : EarlyState K)
    (hs : s.plaintext.Caused t0 False) : (sendClientHelloStep (X := X) cr s).2.Caused t0 := by
  unfold sendClientHelloStep PlaintextStream.pollReceivePlaintextMessage pollReceiveRecordIgnoreCc
  obtain ⟨h1, h2, h3⟩ := ignoreCcLoop_caused (s.plaintext.receiver.incoming.length + 1) hs.receiver
  rcases hp : ignoreCcLoop (s.plaintext.receiver.incoming.length + 1) s.plaintext.receiver with ⟨res, r⟩
  rw [hp] at h1 h2 h3
  have hpl := hs.withReceiver h3
  rcases res with _ | (e | (_ | record))
  · exact hpl
  · exact h1 e rfl
  · simp only
    exact onServerHello_caused cr { s with plaintext := { s.plaintext with receiver := r }, initialTranscript := s.initialTranscript }
      none hpl (fun _ => h2 rfl)
  · simp only
    rcases hm : Message.fromRaw cr.x509 record.fragment record.contentType with e | m
    · cases e <;> trivial
    · exact onServerHello_caused cr { s with plaintext := { s.plaintext with receiver := r }, initialTranscript := s.initialTranscript ++ record.fragment }
        (some m) hpl nofun

theorem onServerMessages_caused {X K : Type} {t0 : Transport} (cr : Crypto X K)
    (hv : ∀ a b e, cr.verifyCertificate a b = .error e → e.foreign = false) (s : ServerHelloState X) (sm : ServerMessages X)
    (hs : s.plaintext.Caused t0 False) : (onServerMessages (K := K) cr s sm).Caused t0 := by
  unfold onServerMessages
  split
  · rename_i e he
    refine explains_own (t := t0) (fun hf => computeApplicationSecrets_calm hf ?_ _ _ _ _ _ he)
    intro a b hh
    rw [hv a b e hh] at hf
    cases hf
  split
  · rename_i e he
    exact explains_own (t := t0) (fun hf => clientCertificateBytes_calm hf _ _ _ _ he)
  split
  · rename_i e he
    exact explains_own (t := t0) (fun hf => clientFinishedBytes_calm hf _ _ _ _ he)
  rename_i certBytes _ _ fin _
  obtain ⟨h1, h2⟩ := encryptRecord_caused cr hs (certBytes ++ fin) .handshake s.seqenc.trafficSecrets.client
    s.seqenc.clientSequenceNo
  rcases he : encryptRecord cr s.plaintext (certBytes ++ fin) .handshake s.seqenc.trafficSecrets.client
    s.seqenc.clientSequenceNo with ⟨res, p⟩
  rw [he] at h1 h2
  rcases res with e | u
  · exact h1 e rfl
  · exact h2

theorem pollStep_caused {X K : Type} {t0 : Transport} {cr : Crypto X K}
    (hv : ∀ a b e, cr.verifyCertificate a b = .error e → e.foreign = false) {s : ECState X K} (hs : s.Caused t0) :
    (s.pollStep cr).2.Caused t0 := by
  cases s with
  | begin s =>
    simp only [ECState.pollStep, beginStep]
    obtain ⟨h1, h2⟩ := pollFlush_caused (p := s.plaintext) hs
    rcases hp : s.plaintext.pollFlush with ⟨res, p⟩
    rw [hp] at h1 h2
    rcases res with _ | (e | u)
    · exact h2
    · exact h1 e rfl
    · exact h2
  | afterSendClientHello s => exact sendClientHelloStep_caused cr s hs
  | afterReceiveServerHello s =>
    simp only [ECState.pollStep, receiveServerHelloStep]
    obtain ⟨h3, h4⟩ := receiveServerMessages_caused cr (s.plaintext.receiver.incoming.length + 1) (s := s) hs
    rcases hp : receiveServerMessages cr (s.plaintext.receiver.incoming.length + 1) s with ⟨res, s'⟩
    rw [hp] at h3 h4
    rcases res with _ | (e | sm)
    · exact h4
    · exact h3 e rfl
    · exact onServerMessages_caused cr hv s' sm h4
  | afterReceiveServerMessages s =>
    simp only [ECState.pollStep, sendFinishedStep]
    obtain ⟨h1, h2⟩ := pollFlush_caused (p := s.plaintext) hs
    rcases hp : s.plaintext.pollFlush with ⟨res, p⟩
    rw [hp] at h1 h2
    rcases res with _ | (e | u)
    · exact h2
    · exact h1 e rfl
    · exact ⟨h2, rfl⟩
  | done c => exact hs
  | error e => exact hs

theorem establishLoop_caused {X K : Type} {t0 : Transport} {cr : Crypto X K}
    (hv : ∀ a b e, cr.verifyCertificate a b = .error e → e.foreign = false) (n : Nat) : ∀ {s : ECState X K}, s.Caused t0 →
    (establishLoop cr n s).2.Caused t0 ∧ (∀ e, (establishLoop cr n s).1 = .ready (.error e) → t0.Explains False e) ∧
    ∀ c, (establishLoop cr n s).1 = .ready (.ok c) → c.plaintext.Caused t0 False ∧ c.readState = .active := by
  induction n with
  | zero =>
    intro s h
    rw [establishLoop]
    exact ⟨h, (fun e he => by cases he; trivial), fun _ hh => by cases hh⟩
  | succ n ih =>
    intro s hs
    have go : ∀ s : ECState X K, s.Caused t0 →
        ∀ z, z = (match s.recv with
          | (some e, s) => ((.ready (.error e), s) : Poll (Except TlsErr Conn) × ECState X K)
          | (none, s) =>
            match s.pollStep cr with
            | (.ready (), s) => establishLoop cr n s
            | (.pending, s) => (.pending, s)) → z.2.Caused t0 ∧ (∀ e, z.1 = .ready (.error e) → t0.Explains False e) ∧
          ∀ c, z.1 = .ready (.ok c) → c.plaintext.Caused t0 False ∧ c.readState = .active := by
      intro s hs z hz
      obtain ⟨g1, g2⟩ := recv_caused hs
      rcases hr : s.recv with ⟨e, s1⟩
      rw [hr] at g1 g2 hz
      rcases e with _ | e
      · simp only at hz g2
        have k1 := pollStep_caused hv g2
        rcases hp : s1.pollStep cr with ⟨res, s2⟩
        rw [hp] at k1 hz
        rcases res with _ | u
        · subst hz; exact ⟨k1, (fun _ hh => by cases hh), fun _ hh => by cases hh⟩
        · subst hz
          exact ih k1
      · simp only at hz
        subst hz
        exact ⟨g2, fun e' he => by cases he; exact g1 e rfl, fun _ hh => by cases hh⟩
    cases s with
    | done c =>
      rw [establishLoop]
      exact ⟨hs, (fun _ hh => by cases hh), fun c' hc' => by cases hc'; exact hs⟩
    | error e =>
      rw [establishLoop]
      exact ⟨hs, (fun e' he => by cases he; exact hs), fun _ hh => by cases hh⟩
    | begin s => exact go _ hs _ (by rw [establishLoop] <;> first | rfl | (intro _ hh; cases hh))
    | afterSendClientHello s => exact go _ hs _ (by rw [establishLoop] <;> first | rfl | (intro _ hh; cases hh))
    | afterReceiveServerHello s => exact go _ hs _ (by rw [establishLoop] <;> first | rfl | (intro _ hh; cases hh))
    | afterReceiveServerMessages s => exact go _ hs _ (by rw [establishLoop] <;> first | rfl | (intro _ hh; cases hh))

theorem pollTimes_caused {X K : Type} {t0 : Transport} {cr : Crypto X K}
    (hv : ∀ a b e, cr.verifyCertificate a b = .error e → e.foreign = false) (k : Nat) : ∀ {s : ECState X K}, s.Caused t0 →
    (pollTimes cr k s).Caused t0 := by
  induction k with
  | zero => intro s h; exact h
  | succ k ih =>
    intro s h
    exact ih (establishLoop_caused hv 6 h).1

theorem initialState_caused {X K : Type} (t0 : Transport) (config : ClientConfig) (protocolNames : List String)
    (privateKey : K) (publicKey random sessionId : Bytes) :
    (initialState (X := X) t0 config protocolNames privateKey publicKey random sessionId).Caused t0 := by
  unfold initialState
  split
  · rename_i e he
    exact explains_own (t := t0) (fun hf => handshakeBytes_calm hf _ he)
  · exact ⟨fun _ h => h, fun _ h => h, fun _ h => h, fun _ h => h, ⟨nofun, nofun⟩, nofun, nofun⟩

/-! ### Nothing is lost -/

theorem pollRecv_noFailure (p : PlaintextStream) (h : ∀ e, p.pollRecv.1 ≠ .ready (.error e)) :
    NoFailure p.inner p.pollRecv.2.inner := by
  unfold PlaintextStream.pollRecv pollReceiveAndAddData Transport.pollRead at *
  rcases hr : p.inner.reads with _ | ⟨e, es⟩
  · exact noFailure_refl _
  · simp only [hr] at h
    rcases e with _ | d | k
    · exact ⟨⟨[.pending], hr, by simp⟩, usedWell_refl _ _, usedWell_refl _ _, usedWell_refl _ _⟩
    · rcases d with _ | ⟨b, bs⟩
      · exact ⟨⟨[.ready []], hr, by simp⟩, usedWell_refl _ _, usedWell_refl _ _, usedWell_refl _ _⟩
      · exact ⟨⟨[.ready (b :: bs)], hr, by simp⟩, usedWell_refl _ _, usedWell_refl _ _, usedWell_refl _ _⟩
    · exact absurd rfl (h (.ioError k))

theorem pollFlush_noFailure (p : PlaintextStream) (h : ∀ e, p.pollFlush.1 ≠ .ready (.error e)) :
    NoFailure p.inner p.pollFlush.2.inner := by
  unfold PlaintextStream.pollFlush at *
  obtain ⟨used, h1, _, h3⟩ := writeLoop_used p.inner.writes p.outgoing p.inner.sent
  rcases hwl : writeLoop p.inner.writes p.outgoing p.inner.sent with ⟨res, ws, o, s⟩
  rw [hwl] at h1 h3 h
  simp only at h1 h3
  rcases res with _ | (k | u)
  · exact ⟨usedWell_refl _ _, ⟨used, h1, h3 nofun⟩, usedWell_refl _ _, usedWell_refl _ _⟩
  · exact absurd rfl (h (.ioError k))
  · simp only at h ⊢
    unfold Transport.pollFlush at *
    simp only at h ⊢
    rcases hfl : p.inner.flushes with _ | ⟨e, es⟩
    · exact ⟨usedWell_refl _ _, ⟨used, h1, h3 nofun⟩, ⟨[], hfl, by simp⟩, usedWell_refl _ _⟩
    · rw [hfl] at h
      rcases e with _ | _ | k
      · exact ⟨usedWell_refl _ _, ⟨used, h1, h3 nofun⟩, ⟨[.pending], hfl, by simp⟩, usedWell_refl _ _⟩
      · exact ⟨usedWell_refl _ _, ⟨used, h1, h3 nofun⟩, ⟨[.ok], hfl, by simp⟩, usedWell_refl _ _⟩
      · exact absurd rfl (h (.ioError k))

/-- Until now nothing has failed, or the failure is what the state is. -/
def ECState.Intact {X K : Type} (t0 : Transport) (s : ECState X K) : Prop := ∀ t, s.transport? = some t → NoFailure t0 t

theorem receiveServerMessages_inner {X K : Type} (cr : Crypto X K) (n : Nat) : ∀ (s : ServerHelloState X),
    (receiveServerMessages cr n s).2.plaintext.inner = s.plaintext.inner := by
  induction n with
  | zero => intro s; rfl
  | succ n ih =>
    intro s
    rw [receiveServerMessages]
    split
    · rfl
    · simp only
      rcases pollReceiveEncryptedMessage cr s.plaintext.receiver s.seqenc.serverSequenceNo
        s.seqenc.trafficSecrets.server with ⟨res, r, k, raw⟩
      rcases res with _ | (e | (_ | m))
      · rfl
      · rfl
      · rfl
      · cases m with
        | handshake hd =>
          simp only
          split
          · rw [ih]
          · rfl
        | _ => rfl

theorem recv_intact {X K : Type} {t0 : Transport} {s s' : ECState X K} (h : s.Intact t0) (hr : s.recv = (none, s')) :
    s'.Intact t0 := by
  cases s with
  | afterSendClientHello s =>
    simp only [ECState.recv] at hr
    have hn := pollRecv_noFailure s.plaintext
    rcases hp : s.plaintext.pollRecv with ⟨res, p⟩
    rw [hp] at hr hn
    intro t ht
    rcases res with _ | (e | u)
    · cases hr; cases ht; exact noFailure_trans (h _ rfl) (hn nofun)
    · cases hr
    · cases hr; cases ht; exact noFailure_trans (h _ rfl) (hn nofun)
  | afterReceiveServerHello s =>
    simp only [ECState.recv] at hr
    have hn := pollRecv_noFailure s.plaintext
    rcases hp : s.plaintext.pollRecv with ⟨res, p⟩
    rw [hp] at hr hn
    intro t ht
    rcases res with _ | (e | u)
    · cases hr; cases ht; exact noFailure_trans (h _ rfl) (hn nofun)
    · cases hr
    · cases hr; cases ht; exact noFailure_trans (h _ rfl) (hn nofun)
  | _ => cases hr; exact h

theorem onServerHello_transport {X K : Type} (cr : Crypto X K) (s : EarlyState K) (m : Option (Message X)) (t : Transport)
    (h : (onServerHello cr s m).transport? = some t) : t = s.plaintext.inner := by
  unfold onServerHello at h
  repeat' split at h
  all_goals first | (cases h; done) | (cases h; rfl)

theorem onServerMessages_transport {X K : Type} (cr : Crypto X K) (s : ServerHelloState X) (sm : ServerMessages X) (t : Transport)
    (h : (onServerMessages (K := K) cr s sm).transport? = some t) : t = s.plaintext.inner := by
  unfold onServerMessages at h
  split at h
  · cases h
  split at h
  · cases h
  split at h
  · cases h
  rename_i certBytes _ _ fin _
  obtain ⟨h1, _, _⟩ := encryptRecord_keeps_stream cr s.plaintext (certBytes ++ fin) .handshake s.seqenc.trafficSecrets.client
    s.seqenc.clientSequenceNo
  rcases he : encryptRecord cr s.plaintext (certBytes ++ fin) .handshake s.seqenc.trafficSecrets.client
    s.seqenc.clientSequenceNo with ⟨res, p⟩
  rw [he] at h1 h
  rcases res with e | u
  · cases h
  · cases h; exact h1

theorem pollStep_intact {X K : Type} {t0 : Transport} (cr : Crypto X K) {s : ECState X K} (h : s.Intact t0) :
    (s.pollStep cr).2.Intact t0 := by
  intro t ht
  cases s with
  | begin s =>
    simp only [ECState.pollStep, beginStep] at ht
    have hn := pollFlush_noFailure s.plaintext
    rcases hp : s.plaintext.pollFlush with ⟨res, p⟩
    rw [hp] at ht hn
    rcases res with _ | (e | u)
    · cases ht; exact noFailure_trans (h _ rfl) (hn nofun)
    · cases ht
    · cases ht; exact noFailure_trans (h _ rfl) (hn nofun)
  | afterSendClientHello s =>
    simp only [ECState.pollStep, sendClientHelloStep] at ht
    have hinner : ∀ res p tr, s.plaintext.pollReceivePlaintextMessage cr.x509 s.initialTranscript = (res, p, tr) →
        p.inner = s.plaintext.inner := by
      intro res p tr hp
      unfold PlaintextStream.pollReceivePlaintextMessage at hp
      repeat' split at hp
      all_goals (cases hp; rfl)
    rcases hp : s.plaintext.pollReceivePlaintextMessage cr.x509 s.initialTranscript with ⟨res, p, tr⟩
    have hi := hinner _ _ _ hp
    rw [hp] at ht
    rcases res with _ | (e | m)
    · cases ht; show NoFailure t0 p.inner; rw [hi]; exact h _ rfl
    · cases ht
    · have := onServerHello_transport cr _ m t ht
      rw [this]; show NoFailure t0 p.inner; rw [hi]; exact h _ rfl
  | afterReceiveServerHello s =>
    simp only [ECState.pollStep, receiveServerHelloStep] at ht
    have hi := receiveServerMessages_inner cr (s.plaintext.receiver.incoming.length + 1) s
    rcases hp : receiveServerMessages cr (s.plaintext.receiver.incoming.length + 1) s with ⟨res, s'⟩
    rw [hp] at ht hi
    rcases res with _ | (e | m)
    · cases ht; show NoFailure t0 s'.plaintext.inner; rw [hi]; exact h _ rfl
    · cases ht
    · have := onServerMessages_transport cr _ m t ht
      rw [this, hi]; exact h _ rfl
  | afterReceiveServerMessages s =>
    simp only [ECState.pollStep, sendFinishedStep] at ht
    have hn := pollFlush_noFailure s.plaintext
    rcases hp : s.plaintext.pollFlush with ⟨res, p⟩
    rw [hp] at ht hn
    rcases res with _ | (e | u)
    · cases ht; exact noFailure_trans (h _ rfl) (hn nofun)
    · cases ht
    · cases ht; exact noFailure_trans (h _ rfl) (hn nofun)
  | done c => exact h t ht
  | error e => exact h t ht

theorem establishLoop_intact {X K : Type} {t0 : Transport} (cr : Crypto X K) (n : Nat) : ∀ {s : ECState X K}, s.Intact t0 →
    ((establishLoop cr n s).1 = .pending → ∃ t, (establishLoop cr n s).2.transport? = some t ∧ NoFailure t0 t) ∧
    ∀ c, (establishLoop cr n s).1 = .ready (.ok c) → NoFailure t0 c.plaintext.inner := by
  induction n with
  | zero =>
    intro s h
    rw [establishLoop]
    exact ⟨(fun hh => by cases hh), fun _ hh => by cases hh⟩
  | succ n ih =>
    intro s hs
    have go : ∀ s : ECState X K, s.Intact t0 →
        ∀ z, z = (match s.recv with
          | (some e, s) => ((.ready (.error e), s) : Poll (Except TlsErr Conn) × ECState X K)
          | (none, s) =>
            match s.pollStep cr with
            | (.ready (), s) => establishLoop cr n s
            | (.pending, s) => (.pending, s)) → (z.1 = .pending → ∃ t, z.2.transport? = some t ∧ NoFailure t0 t) ∧
          ∀ c, z.1 = .ready (.ok c) → NoFailure t0 c.plaintext.inner := by
      intro s hs z hz
      rcases hr : s.recv with ⟨e, s1⟩
      rw [hr] at hz
      rcases e with _ | e
      · simp only at hz
        have g1 := recv_intact hs hr
        have k1 := pollStep_intact cr g1
        have hne : (s1.pollStep cr).1 = .pending → (s1.pollStep cr).2.transport? ≠ none := by
          intro hp hn
          cases s1 with
          | begin s =>
            simp only [ECState.pollStep, beginStep] at hp hn
            split at hn <;> simp_all [ECState.transport?]
          | afterSendClientHello s =>
            simp only [ECState.pollStep, sendClientHelloStep] at hp hn
            split at hn <;> simp_all [ECState.transport?]
          | afterReceiveServerHello s =>
            simp only [ECState.pollStep, receiveServerHelloStep] at hp hn
            split at hn <;> simp_all [ECState.transport?]
          | afterReceiveServerMessages s =>
            simp only [ECState.pollStep, sendFinishedStep] at hp hn
            split at hn <;> simp_all [ECState.transport?]
          | done c => cases hp
          | error e => cases hp
        rcases hp : s1.pollStep cr with ⟨res, s2⟩
        rw [hp] at k1 hz hne
        rcases res with _ | u
        · subst hz
          refine ⟨fun _ => ?_, fun _ hh => by cases hh⟩
          rcases ht : s2.transport? with _ | t
          · exact absurd ht (hne rfl)
          · exact ⟨t, rfl, k1 t ht⟩
        · subst hz
          exact ih k1
      · simp only at hz
        subst hz
        exact ⟨(fun hh => by cases hh), fun _ hh => by cases hh⟩
    cases s with
    | done c =>
      rw [establishLoop]
      exact ⟨(fun hh => by cases hh), fun c' hc' => by cases hc'; exact hs _ rfl⟩
    | error e =>
      rw [establishLoop]
      exact ⟨(fun hh => by cases hh), fun _ hh => by cases hh⟩
    | begin s => exact go _ hs _ (by rw [establishLoop] <;> first | rfl | (intro _ hh; cases hh))
    | afterSendClientHello s => exact go _ hs _ (by rw [establishLoop] <;> first | rfl | (intro _ hh; cases hh))
    | afterReceiveServerHello s => exact go _ hs _ (by rw [establishLoop] <;> first | rfl | (intro _ hh; cases hh))
    | afterReceiveServerMessages s => exact go _ hs _ (by rw [establishLoop] <;> first | rfl | (intro _ hh; cases hh))

theorem initialState_intact {X K : Type} (t0 : Transport) (config : ClientConfig) (protocolNames : List String)
    (privateKey : K) (publicKey random sessionId : Bytes) :
    (initialState (X := X) t0 config protocolNames privateKey publicKey random sessionId).Intact t0 := by
  intro t ht
  unfold initialState at ht
  split at ht
  · cases ht
  · cases ht; exact noFailure_refl _

theorem pollTimes_intact {X K : Type} {t0 : Transport} (cr : Crypto X K) (k : Nat) : ∀ {s : ECState X K}, s.Intact t0 →
    (∀ j, j < k → (establishPoll cr (pollTimes cr j s)).1 = .pending) → (pollTimes cr k s).Intact t0 := by
  induction k with
  | zero => intro s h _; exact h
  | succ k ih =>
    intro s h hp
    rw [pollTimes]
    refine ih ?_ (fun j hj => ?_)
    · obtain ⟨t, h1, h2⟩ := (establishLoop_intact cr 6 h).1 (hp 0 (by omega))
      intro t' ht'
      have : some t = some t' := h1.symm.trans ht'
      cases this
      exact h2
    · have := hp (j + 1) (by omega)
      rwa [pollTimes] at this

/-! ### The connection -/

/-- Everything that the connection remembers has its cause. -/
structure Conn.Caused (t0 : Transport) (down : Prop) (c : Conn) : Prop where
  stream : c.plaintext.Caused t0 down
  err : ∀ e, c.readState = .error e → t0.Explains False e

theorem PlaintextStream.Caused.mono {t0 : Transport} {d d' : Prop} (hd : d → d') {p : PlaintextStream} (h : p.Caused t0 d) :
    p.Caused t0 d' :=
  ⟨h.reads, h.writes, h.flushes, h.shutdowns, h.receiver, fun e he => explains_mono hd (h.werr e he), fun he => hd (h.wdown he)⟩

theorem fillLoop_caused {X K : Type} {t0 : Transport} {down : Prop} (cr : Crypto X K) (n : Nat) : ∀ {c : Conn},
    c.Caused t0 down → (∀ e, (c.fillLoop cr n).1 = .ready (.error e) → t0.Explains False e) ∧
      (c.fillLoop cr n).2.Caused t0 down ∧
      ((∀ e, (c.fillLoop cr n).1 ≠ .ready (.error e)) → NoFailure c.plaintext.inner (c.fillLoop cr n).2.plaintext.inner) := by
  induction n with
  | zero => intro c h; exact ⟨fun e he => by cases he; trivial, h, fun hh => absurd rfl (hh _)⟩
  | succ n ih =>
    intro c h
    rw [Conn.fillLoop]
    obtain ⟨h1, h2⟩ := pollRecv_caused h.stream
    have hn := pollRecv_noFailure c.plaintext
    rcases hp : c.plaintext.pollRecv with ⟨res, p⟩
    rw [hp] at h1 h2 hn
    simp only at hn h2
    rcases res with _ | (e | u)
    · exact ⟨nofun, ⟨h2, h.err⟩, fun _ => hn nofun⟩
    · exact ⟨fun e' he => by cases he; exact h1 e rfl, ⟨h2, fun e' he => by cases he; exact h1 e rfl⟩,
        fun hh => absurd rfl (hh _)⟩
    · have hn := hn nofun
      simp only
      obtain ⟨k1, k2, k3⟩ := receiveEncrypted_caused cr p.receiver c.seqenc.serverSequenceNo
        c.seqenc.trafficSecrets.server h2.receiver
      rcases hm : pollReceiveEncryptedMessage cr p.receiver c.seqenc.serverSequenceNo
        c.seqenc.trafficSecrets.server with ⟨res, r, k, raw⟩
      rw [hm] at k1 k2 k3
      have hs := h2.withReceiver k3
      simp only
      split
      · exact ⟨nofun, ⟨hs, h.err⟩, fun _ => hn⟩
      · exact ⟨fun e' he => by cases he; exact k1 _ rfl, ⟨hs, h.err⟩, fun hh => absurd rfl (hh _)⟩
      · obtain ⟨i1, i2, i3⟩ := ih (c := { c with
          plaintext := { p with receiver := r }
          seqenc := { c.seqenc with serverSequenceNo := k } }) ⟨hs, h.err⟩
        exact ⟨i1, i2, fun hh => noFailure_trans hn (i3 hh)⟩
      · exact ⟨nofun, ⟨hs, h.err⟩, fun _ => hn⟩
      · split
        · exact ⟨nofun, ⟨hs, nofun⟩, fun _ => hn⟩
        · exact ⟨fun e' he => by cases he; trivial, ⟨hs, fun e' he => by cases he; trivial⟩, fun hh => absurd rfl (hh _)⟩
      · refine ⟨fun e' he => ?_, ⟨hs, fun e' he => ?_⟩, fun hh => absurd rfl (hh _)⟩
        · rw [← Except.error.inj (Poll.ready.inj he)]; trivial
        · rw [← ReadState.error.inj he]; trivial
      · exact ⟨fun e' he => by cases he; exact k2 rfl, ⟨hs, fun e' he => by cases he; exact k2 rfl⟩,
          fun hh => absurd rfl (hh _)⟩

theorem pollRead_caused {X K : Type} {t0 : Transport} {down : Prop} (cr : Crypto X K) {c : Conn} (h : c.Caused t0 down)
    (room : Nat) : (∀ e, (c.pollRead cr room).1 = .ready (.error e) → t0.Explains False e) ∧
      (c.pollRead cr room).2.Caused t0 down ∧
      ((∀ e, (c.pollRead cr room).1 ≠ .ready (.error e)) →
        NoFailure c.plaintext.inner (c.pollRead cr room).2.plaintext.inner) := by
  unfold Conn.pollRead
  rcases hr : c.readState with _ | _ | e
  · simp only
    have hf : (∀ e, (c.pollFillIncoming cr).1 = .ready (.error e) → t0.Explains False e) ∧
        (c.pollFillIncoming cr).2.Caused t0 down ∧
        ((∀ e, (c.pollFillIncoming cr).1 ≠ .ready (.error e)) →
          NoFailure c.plaintext.inner (c.pollFillIncoming cr).2.plaintext.inner) := by
      unfold Conn.pollFillIncoming
      split
      · exact ⟨nofun, h, fun _ => noFailure_refl _⟩
      · exact fillLoop_caused cr _ h
    rcases hp : c.pollFillIncoming cr with ⟨res, c'⟩
    rw [hp] at hf
    obtain ⟨h1, h2, h3⟩ := hf
    rcases res with _ | (e | u)
    · exact ⟨nofun, h2, fun _ => h3 nofun⟩
    · exact ⟨fun e' he => by cases he; exact h1 e rfl, h2, fun hh => absurd rfl (hh _)⟩
    · exact ⟨nofun, ⟨h2.stream, h2.err⟩, fun _ => h3 nofun⟩
  · exact ⟨nofun, h, fun _ => noFailure_refl _⟩
  · exact ⟨fun e' he => by cases he; exact h.err e hr, h, fun hh => absurd rfl (hh _)⟩

theorem appendRecord_caused {X K : Type} {t0 : Transport} {down : Prop} (cr : Crypto X K) {c : Conn} (h : c.Caused t0 down)
    (d : Bytes) (ct : ContentType) : (∀ e, (c.appendRecord cr d ct).1 = .error e → t0.Explains False e) ∧
      (c.appendRecord cr d ct).2.Caused t0 down ∧ (c.appendRecord cr d ct).2.plaintext.inner = c.plaintext.inner := by
  unfold Conn.appendRecord
  obtain ⟨h1, h2⟩ := encryptRecord_caused cr h.stream d ct c.seqenc.trafficSecrets.client c.seqenc.clientSequenceNo
  obtain ⟨h3, _, _⟩ := encryptRecord_keeps_stream cr c.plaintext d ct c.seqenc.trafficSecrets.client c.seqenc.clientSequenceNo
  rcases he : encryptRecord cr c.plaintext d ct c.seqenc.trafficSecrets.client c.seqenc.clientSequenceNo with ⟨res, p⟩
  rw [he] at h1 h2 h3
  rcases res with e | u
  · exact ⟨fun e' he => by cases he; exact h1 e rfl,
      ⟨⟨h2.reads, h2.writes, h2.flushes, h2.shutdowns, h2.receiver,
        fun e' he => by cases he; exact explains_mono False.elim (h1 e rfl), nofun⟩, h.err⟩, h3⟩
  · exact ⟨nofun, ⟨h2, h.err⟩, h3⟩

theorem flushEncrypted_caused {t0 : Transport} {down : Prop} {c : Conn} (h : c.Caused t0 down) :
    (∀ e, c.pollFlushEncrypted.1 = .ready (.error e) → t0.Explains False e) ∧ c.pollFlushEncrypted.2.Caused t0 down ∧
      ((∀ e, c.pollFlushEncrypted.1 ≠ .ready (.error e)) →
        NoFailure c.plaintext.inner c.pollFlushEncrypted.2.plaintext.inner) := by
  obtain ⟨h1, h2⟩ := pollFlush_caused h.stream
  exact ⟨h1, ⟨h2, h.err⟩, pollFlush_noFailure c.plaintext⟩

theorem pollWrite_caused {X K : Type} {t0 : Transport} {down : Prop} (cr : Crypto X K) {c : Conn} (h : c.Caused t0 down)
    (buf : Bytes) : (∀ e, (c.pollWrite cr buf).1 = .ready (.error e) → t0.Explains down e) ∧
      (c.pollWrite cr buf).2.Caused t0 down ∧
      ((∀ e, (c.pollWrite cr buf).1 ≠ .ready (.error e)) →
        NoFailure c.plaintext.inner (c.pollWrite cr buf).2.plaintext.inner) := by
  unfold Conn.pollWrite
  rcases hw : c.plaintext.writeState with _ | _ | e <;> simp only
  case error => exact ⟨fun e' he => by cases he; exact h.stream.werr e hw, h, fun hh => absurd rfl (hh _)⟩
  case inShutdown =>
    exact ⟨fun e' he => by cases he; exact .inr ⟨rfl, h.stream.wdown hw⟩, h, fun hh => absurd rfl (hh _)⟩
  case active =>
    obtain ⟨h1, h2, h3⟩ := flushEncrypted_caused h
    rcases hp : c.pollFlushEncrypted with ⟨res, c'⟩
    rw [hp] at h1 h2 h3
    rcases res with _ | (e | u)
    · exact ⟨nofun, h2, fun _ => h3 nofun⟩
    · exact ⟨fun e' he => by cases he; exact explains_mono False.elim (h1 e rfl), h2, fun hh => absurd rfl (hh _)⟩
    · simp only at h2 h3 ⊢
      obtain ⟨k1, k2, k3⟩ := appendRecord_caused cr h2 (buf.take (min buf.length maxPlaintextRecordSize)) .applicationData
      rcases ha : c'.appendRecord cr (buf.take (min buf.length maxPlaintextRecordSize)) .applicationData with ⟨res, c''⟩
      rw [ha] at k1 k2 k3
      rcases res with e | u
      · exact ⟨fun e' he => by cases he; exact explains_mono False.elim (k1 e rfl), k2, fun hh => absurd rfl (hh _)⟩
      · refine ⟨nofun, k2, fun _ => ?_⟩
        simp only at k3 ⊢
        rw [k3]
        exact h3 nofun

theorem connFlush_caused {t0 : Transport} {down : Prop} {c : Conn} (h : c.Caused t0 down) :
    (∀ e, c.pollFlush.1 = .ready (.error e) → t0.Explains down e) ∧ c.pollFlush.2.Caused t0 down ∧
      ((∀ e, c.pollFlush.1 ≠ .ready (.error e)) → NoFailure c.plaintext.inner c.pollFlush.2.plaintext.inner) := by
  unfold Conn.pollFlush
  rcases hw : c.plaintext.writeState with _ | _ | e <;> simp only
  case error => exact ⟨fun e' he => by cases he; exact h.stream.werr e hw, h, fun hh => absurd rfl (hh _)⟩
  case inShutdown =>
    exact ⟨fun e' he => by cases he; exact .inr ⟨rfl, h.stream.wdown hw⟩, h, fun hh => absurd rfl (hh _)⟩
  case active =>
    obtain ⟨h1, h2, h3⟩ := flushEncrypted_caused h
    exact ⟨fun e he => explains_mono False.elim (h1 e he), h2, h3⟩

theorem finishShutdown_caused {t0 : Transport} {c : Conn} (h : c.Caused t0 True) :
    (∀ e, c.finishShutdown.1 = .ready (.error e) → t0.Explains False e) ∧ c.finishShutdown.2.Caused t0 True ∧
      ((∀ e, c.finishShutdown.1 ≠ .ready (.error e)) → NoFailure c.plaintext.inner c.finishShutdown.2.plaintext.inner) := by
  unfold Conn.finishShutdown
  obtain ⟨h1, h2, h3⟩ := flushEncrypted_caused h
  rcases hp : c.pollFlushEncrypted with ⟨res, c'⟩
  rw [hp] at h1 h2 h3
  rcases res with _ | (e | u)
  · exact ⟨nofun, h2, fun _ => h3 nofun⟩
  · exact ⟨fun e' he => by cases he; exact h1 e rfl, h2, fun hh => absurd rfl (hh _)⟩
  · have h3 := h3 nofun
    simp only at h2 h3 ⊢
    unfold Transport.pollShutdown
    have hs := h2.stream.shutdowns
    have hw := h2.stream.werr
    rcases hsd : c'.plaintext.inner.shutdowns with _ | ⟨e, es⟩
    · exact ⟨nofun, ⟨⟨h2.stream.reads, h2.stream.writes, h2.stream.flushes, by simp [hsd], h2.stream.receiver,
        h2.stream.werr, h2.stream.wdown⟩, h2.err⟩, fun _ => h3⟩
    · rw [hsd] at hs
      have he : e ∈ t0.shutdowns := hs (List.mem_cons_self ..)
      have hes : es ⊆ t0.shutdowns := fun x hx => hs (List.mem_cons_of_mem _ hx)
      rcases e with _ | _ | k
      · exact ⟨nofun, ⟨⟨h2.stream.reads, h2.stream.writes, h2.stream.flushes, hes, h2.stream.receiver,
          h2.stream.werr, h2.stream.wdown⟩, h2.err⟩, fun _ => noFailure_trans h3
          ⟨usedWell_refl _ _, usedWell_refl _ _, usedWell_refl _ _, ⟨[.pending], hsd, by simp⟩⟩⟩
      · exact ⟨nofun, ⟨⟨h2.stream.reads, h2.stream.writes, h2.stream.flushes, hes, h2.stream.receiver,
          fun e' he' => by cases he'; exact .inr ⟨rfl, trivial⟩, nofun⟩, h2.err⟩, fun _ => noFailure_trans h3
          ⟨usedWell_refl _ _, usedWell_refl _ _, usedWell_refl _ _, ⟨[.ok], hsd, by simp⟩⟩⟩
      · exact ⟨fun e' he' => by cases he'; exact .inl (.inr (.inr (.inr he))),
          ⟨⟨h2.stream.reads, h2.stream.writes, h2.stream.flushes, hes, h2.stream.receiver,
          h2.stream.werr, h2.stream.wdown⟩, h2.err⟩, fun hh => absurd rfl (hh _)⟩

theorem pollShutdown_caused {X K : Type} {t0 : Transport} {down : Prop} (cr : Crypto X K) {c : Conn} (h : c.Caused t0 down) :
    (∀ e, (c.pollShutdown cr).1 = .ready (.error e) → t0.Explains down e) ∧
      (c.pollShutdown cr).2.Caused t0 True ∧
      ((∀ e, (c.pollShutdown cr).1 ≠ .ready (.error e)) →
        NoFailure c.plaintext.inner (c.pollShutdown cr).2.plaintext.inner) := by
  have hT : c.Caused t0 True := ⟨h.stream.mono (fun _ => trivial), h.err⟩
  unfold Conn.pollShutdown
  rcases hw : c.plaintext.writeState with _ | _ | e <;> simp only
  case error => exact ⟨fun e' he => by cases he; exact h.stream.werr e hw, hT, fun hh => absurd rfl (hh _)⟩
  case inShutdown =>
    obtain ⟨h1, h2, h3⟩ := finishShutdown_caused hT
    exact ⟨fun e he => explains_mono False.elim (h1 e he), h2, h3⟩
  case active =>
    obtain ⟨k1, k2, k3⟩ := appendRecord_caused cr hT [AlertLevel.warning.toRaw, AlertDescription.closeNotify.toRaw] .alert
    unfold Conn.appendCloseNotify
    rcases ha : c.appendRecord cr [AlertLevel.warning.toRaw, AlertDescription.closeNotify.toRaw] .alert with ⟨res, c'⟩
    rw [ha] at k1 k2 k3
    rcases res with e | u
    · exact ⟨fun e' he => by cases he; exact explains_mono False.elim (k1 e rfl), k2, fun hh => absurd rfl (hh _)⟩
    · simp only at k2 k3 ⊢
      obtain ⟨h1, h2, h3⟩ := finishShutdown_caused
        (c := { c' with plaintext := { c'.plaintext with writeState := .inShutdown } })
        ⟨⟨k2.stream.reads, k2.stream.writes, k2.stream.flushes, k2.stream.shutdowns, k2.stream.receiver, nofun,
          fun _ => trivial⟩, k2.err⟩
      refine ⟨fun e he => explains_mono False.elim (h1 e he), h2, fun hh => ?_⟩
      rw [← k3]
      exact h3 hh

theorem step_caused {X K : Type} {t0 : Transport} {down : Prop} (cr : Crypto X K) {c : Conn} (h : c.Caused t0 down)
    (op : ConnOp) : (∀ e, (op.step cr c).1.failure = some e → t0.Explains down e) ∧
      (op.step cr c).2.Caused t0 (down ∨ op = .shutdown) ∧
      ((op.step cr c).1.failure = none → NoFailure c.plaintext.inner (op.step cr c).2.plaintext.inner) := by
  cases op with
  | read room =>
    obtain ⟨h1, h2, h3⟩ := pollRead_caused cr h room
    refine ⟨fun e he => ?_, ⟨h2.stream.mono .inl, h2.err⟩, fun hn => h3 fun e he => ?_⟩
    · simp only [ConnOp.step, ConnEvent.failure] at he
      have h4 : (c.pollRead cr room).1 = .ready (.error e) := by
        split at he <;> simp_all
      exact explains_mono False.elim (h1 e h4)
    · simp [ConnOp.step, ConnEvent.failure, he] at hn
  | write buf =>
    obtain ⟨h1, h2, h3⟩ := pollWrite_caused cr h buf
    refine ⟨fun e he => ?_, ⟨h2.stream.mono .inl, h2.err⟩, fun hn => h3 fun e he => ?_⟩
    · simp only [ConnOp.step, ConnEvent.failure] at he
      split at he <;> simp_all
    · simp [ConnOp.step, ConnEvent.failure, he] at hn
  | flush =>
    obtain ⟨h1, h2, h3⟩ := connFlush_caused h
    refine ⟨fun e he => ?_, ⟨h2.stream.mono .inl, h2.err⟩, fun hn => h3 fun e he => ?_⟩
    · simp only [ConnOp.step, ConnEvent.failure] at he
      split at he <;> simp_all
    · simp [ConnOp.step, ConnEvent.failure, he] at hn
  | shutdown =>
    obtain ⟨h1, h2, h3⟩ := pollShutdown_caused cr h
    refine ⟨fun e he => ?_, ⟨h2.stream.mono (fun _ => .inr rfl), h2.err⟩, fun hn => h3 fun e he => ?_⟩
    · simp only [ConnOp.step, ConnEvent.failure] at he
      split at he <;> simp_all
    · simp [ConnOp.step, ConnEvent.failure, he] at hn

theorem connRun_caused {X K : Type} {t0 : Transport} (cr : Crypto X K) (ops : List ConnOp) : ∀ {down : Prop} {c : Conn},
    c.Caused t0 down → (connRun cr c ops).2.Caused t0 (down ∨ ConnOp.shutdown ∈ ops) ∧
      ((∀ ev ∈ (connRun cr c ops).1, ev.failure = none) →
        NoFailure c.plaintext.inner (connRun cr c ops).2.plaintext.inner) := by
  induction ops with
  | nil => intro down c h; exact ⟨⟨h.stream.mono .inl, h.err⟩, fun _ => noFailure_refl _⟩
  | cons op ops ih =>
    intro down c h
    obtain ⟨_, h2, h3⟩ := step_caused cr h op
    obtain ⟨i1, i2⟩ := ih h2
    refine ⟨⟨i1.stream.mono ?_, i1.err⟩, fun hn => ?_⟩
    · rintro ((hd | rfl) | hm)
      · exact .inl hd
      · exact .inr (List.mem_cons_self ..)
      · exact .inr (List.mem_cons_of_mem _ hm)
    · exact noFailure_trans (h3 (hn _ (List.mem_cons_self ..))) (i2 fun ev hev => hn ev (List.mem_cons_of_mem _ hev))

end Ngfs.Tls
