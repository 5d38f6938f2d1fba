import Verif.Spec.TlsCrash
import Verif.Lemmas.TlsHandshake
import Verif.Props.TlsTypes
import Mathlib.Tactic.ByContra

/-! When a TLS client crashes (for C157). -/
namespace Ngfs.Tls

open Ngfs.Binary Ngfs.Spec

/-! ### Writing messages does not crash -/

/-- Writing gives a result or an error. -/
def NoCrash {α : Type} (w : WM α) : Prop := ∀ s, (w s).1 ≠ .error .panic

theorem noCrash_pure {α : Type} (a : α) : NoCrash (pure a : WM α) := fun _ h => by cases h

theorem noCrash_bind {α β : Type} {w : WM α} {f : α → WM β} (h : NoCrash w) (hf : ∀ a, NoCrash (f a)) : NoCrash (w >>= f) := by
  intro s
  have h1 := h s
  rw [bind_def]
  rcases hw : w s with ⟨r, s'⟩
  rw [hw] at h1
  cases r with
  | error e => simpa using h1
  | ok a => exact hf a s'

theorem noCrash_raw (d : Bytes) : NoCrash (writeRaw d) := fun _ h => by cases h
theorem noCrash_u8 (d : UInt8) : NoCrash (writeU8 d) := fun _ h => by cases h
theorem noCrash_u16 (d : Nat) : NoCrash (writeU16 d) := fun _ h => by cases h
theorem noCrash_u24 (d : Nat) : NoCrash (writeU24 d) := fun _ h => by cases h

theorem noCrash_large {α : Type} : NoCrash (throw .valueTooLarge : WM α) := fun _ h => by cases h

theorem noCrash_len8 (d : Bytes) : NoCrash (writeLen8Bytes d) := by
  unfold writeLen8Bytes
  split
  · exact noCrash_large
  · exact noCrash_bind (noCrash_u8 _) (fun _ => noCrash_raw _)

theorem noCrash_len16 (d : Bytes) : NoCrash (writeLen16Bytes d) := by
  unfold writeLen16Bytes
  split
  · exact noCrash_large
  · exact noCrash_bind (noCrash_u16 _) (fun _ => noCrash_raw _)

theorem noCrash_len24 (d : Bytes) : NoCrash (writeLen24Bytes d) := by
  unfold writeLen24Bytes
  split
  · exact noCrash_large
  · exact noCrash_bind (noCrash_u24 _) (fun _ => noCrash_raw _)

theorem noCrash_items {α : Type} {item : α → WM Unit} {l : List α} (h : ∀ a ∈ l, NoCrash (item a)) :
    NoCrash (writeItems item l) := by
  induction l with
  | nil => exact noCrash_pure _
  | cons a l ih =>
    exact noCrash_bind (h a (by simp)) (fun _ => ih (fun b hb => h b (by simp [hb])))

theorem noCrash_inner {α : Type} {item : α → WM Unit} {l : List α} (h : ∀ a ∈ l, NoCrash (item a)) :
    NoCrash (writeListInner item l) := by
  intro s
  have h1 := noCrash_items h s
  unfold writeListInner
  rcases hw : writeItems item l s with ⟨r, s'⟩
  rw [hw] at h1
  cases r with
  | error e => simpa using h1
  | ok a => simp

theorem noCrash_len8List {α : Type} {item : α → WM Unit} {l : List α} (h : ∀ a ∈ l, NoCrash (item a)) :
    NoCrash (writeLen8List item l) := by
  intro s
  have h1 := noCrash_inner h (s ++ [0])
  unfold writeLen8List
  rcases hw : writeListInner item l (s ++ [0]) with ⟨r, s'⟩
  rw [hw] at h1
  cases r with
  | error e => simpa [hw] using h1
  | ok a => simp only [hw]; split <;> simp

theorem noCrash_len16List {α : Type} {item : α → WM Unit} {l : List α} (h : ∀ a ∈ l, NoCrash (item a)) :
    NoCrash (writeLen16List item l) := by
  intro s
  have h1 := noCrash_inner h (s ++ [0, 0])
  unfold writeLen16List
  rcases hw : writeListInner item l (s ++ [0, 0]) with ⟨r, s'⟩
  rw [hw] at h1
  cases r with
  | error e => simpa [hw] using h1
  | ok a => simp only [hw]; split <;> simp

theorem noCrash_len24List {α : Type} {item : α → WM Unit} {l : List α} (h : ∀ a ∈ l, NoCrash (item a)) :
    NoCrash (writeLen24List item l) := by
  intro s
  have h1 := noCrash_inner h (s ++ [0, 0, 0])
  unfold writeLen24List
  rcases hw : writeListInner item l (s ++ [0, 0, 0]) with ⟨r, s'⟩
  rw [hw] at h1
  cases r with
  | error e => simpa [hw] using h1
  | ok a => simp only [hw]; split <;> simp

theorem noCrash_nested {w : WM Unit} (h : NoCrash w) : NoCrash (writeU16Nested w) := by
  intro s
  have h1 := h (s ++ [0, 0])
  unfold writeU16Nested
  rcases hw : w (s ++ [0, 0]) with ⟨r, s'⟩
  rw [hw] at h1
  cases r with
  | error e => simpa [hw] using h1
  | ok a => simp [hw]

theorem noCrash_serverName (n : ServerName) : NoCrash n.toBinary := by
  cases n <;> exact noCrash_bind (noCrash_u8 _) (fun _ => noCrash_len16 _)

theorem noCrash_keyShare (e : KeyShareEntry) : NoCrash e.toBinary :=
  noCrash_bind (fun _ h => by cases h) (fun _ => noCrash_len16 _)

theorem noCrash_handshake {X : Type} {h : Handshake X} (hi : NoCrash h.innerToBinary) : handshakeBytes h ≠ .error .panic := by
  have h1 := hi []
  unfold handshakeBytes Handshake.toBinary
  rcases hw : h.innerToBinary [] with ⟨r, s'⟩
  rw [hw] at h1
  cases r with
  | error e =>
    simp only
    intro hh
    cases e <;> simp at h1 hh
  | ok a => intro hh; cases hh

theorem clientHello_noCrash {X : Type} (random sessionId publicKey : Bytes) (name : Option String) (protocols : List String) :
    handshakeBytes (X := X) (.clientHello (makeClientHello random sessionId publicKey name protocols)) ≠ .error .panic := by
  refine noCrash_handshake (noCrash_bind ?_ (fun _ => noCrash_pure _))
  refine noCrash_bind (noCrash_u16 _) fun _ => noCrash_bind (noCrash_raw _) fun _ => noCrash_bind (noCrash_len8 _) fun _ =>
    noCrash_bind (noCrash_len16List fun _ _ => fun _ h => by cases h) fun _ => noCrash_bind (noCrash_len8 _) fun _ =>
    noCrash_len16List ?_
  have hcode16 : ∀ n, NoCrash (writeU16 n) := noCrash_u16
  intro e he
  simp only [makeClientHello, List.mem_append, List.mem_cons, List.not_mem_nil, or_false] at he
  have hn : ∀ (w : WM Unit) n, NoCrash w → NoCrash (do writeU16 n; writeU16Nested w) :=
    fun w n hw => noCrash_bind (noCrash_u16 _) fun _ => noCrash_nested hw
  rcases he with (rfl | rfl | rfl | rfl | rfl | rfl | rfl | rfl | rfl | rfl | rfl) | he
  · exact hn _ _ (noCrash_len8List fun _ _ => fun _ h => by cases h)
  · exact hn _ _ (noCrash_len16List fun _ _ => fun _ h => by cases h)
  · exact hn _ _ (noCrash_raw _)
  · exact hn _ _ (noCrash_len16List fun _ _ => noCrash_len8 _)
  · exact hn _ _ (noCrash_pure _)
  · exact hn _ _ (noCrash_pure _)
  · exact hn _ _ (noCrash_pure _)
  · exact hn _ _ (noCrash_len16List fun _ _ => fun _ h => by cases h)
  · exact hn _ _ (noCrash_raw _)
  · exact hn _ _ (noCrash_len8List fun _ _ => fun _ h => by cases h)
  · exact hn _ _ (noCrash_len16List fun _ _ => noCrash_keyShare _)
  · cases name with
    | none => cases he
    | some n =>
      simp only [List.mem_singleton] at he
      subst he
      exact hn _ _ (noCrash_len16List fun _ _ => noCrash_serverName _)

theorem certificateBytes_noCrash {X : Type} (cert : Bytes) (x : X) :
    handshakeBytes (.certificate ⟨[], [⟨cert, x, []⟩]⟩) ≠ .error .panic := by
  refine noCrash_handshake (noCrash_bind ?_ (fun _ => noCrash_pure _))
  refine noCrash_bind (noCrash_len8 _) fun _ => noCrash_len24List ?_
  intro e he
  rw [List.mem_singleton] at he
  subst he
  exact noCrash_bind (noCrash_len24 _) fun _ => noCrash_len16List (fun _ h => by cases h)

theorem verifyBytes_noCrash {X : Type} (v : CertificateVerify) :
    handshakeBytes (X := X) (.certificateVerify v) ≠ .error .panic :=
  noCrash_handshake (noCrash_bind (noCrash_bind (fun _ h => by cases h) fun _ => noCrash_len16 _) (fun _ => noCrash_pure _))

theorem finishedBytes_noCrash {X : Type} (v : Bytes) :
    handshakeBytes (X := X) (.finished v) ≠ .error .panic :=
  noCrash_handshake (noCrash_bind (noCrash_raw _) (fun _ => noCrash_pure _))

/-! ### Receiving -/

/-- The error that a receiver remembers is not a crash. -/
def RecordReceiver.Sound (r : RecordReceiver) : Prop := r.readState ≠ .error .panic

theorem popRecord_sound {r : RecordReceiver} (h : r.Sound) : r.popRecord.1 ≠ .ready (.error .panic) ∧ r.popRecord.2.Sound := by
  have hs : ∀ e, r.readState = .error e → e ≠ .panic := by
    rintro e he rfl; exact h he
  unfold RecordReceiver.popRecord
  split
  · rcases hr : r.readState with _ | _ | e
    · exact ⟨nofun, h⟩
    · exact ⟨nofun, h⟩
    · exact ⟨by simpa using hs e hr, h⟩
  · simp only
    split
    · exact ⟨nofun, h⟩
    · split
      · rcases hr : r.readState with _ | _ | e
        · exact ⟨nofun, h⟩
        · exact ⟨nofun, nofun⟩
        · exact ⟨by simpa using hs e hr, h⟩
      · exact ⟨nofun, h⟩

theorem ignoreCcLoop_sound (n : Nat) : ∀ {r : RecordReceiver}, r.Sound → r.incoming.length < n →
    (ignoreCcLoop n r).1 ≠ .ready (.error .panic) ∧ (ignoreCcLoop n r).2.Sound := by
  induction n with
  | zero => intro r _ h; omega
  | succ n ih =>
    intro r h hn
    obtain ⟨h1, h2⟩ := popRecord_sound h
    unfold ignoreCcLoop
    rcases hp : r.popRecord with ⟨res, r'⟩
    rw [hp] at h1 h2
    by_cases hs : ∃ o, res = .ready (.ok (some o))
    · obtain ⟨o, rfl⟩ := hs
      obtain ⟨w, _, hinc, _, _⟩ := popRecord_some hp
      simp only
      split
      · exact ⟨nofun, h2⟩
      · refine ih h2 ?_
        have : r.incoming.length = w.bytes.length + r'.incoming.length := by rw [hinc, List.length_append]
        have hb : 5 ≤ w.bytes.length := by simp [WireRecord.bytes, WireRecord.header]
        omega
    · rcases res with _ | (e | (_ | o))
      · exact ⟨nofun, h2⟩
      · exact ⟨h1, h2⟩
      · exact ⟨nofun, h2⟩
      · exact absurd ⟨o, rfl⟩ hs

/-- A message crashes the parser only if it is a handshake message that begins with 24. -/
theorem fromRaw_panic {X : Type} (x : Bytes → Option X) (content : Bytes) (typ : UInt8)
    (h : Message.fromRaw x content (ContentType.fromRaw typ) = .error .panic) : typ = 22 ∧ IsKeyUpdate content := by
  have h24 : IsKeyUpdate content := by
    by_contra hne
    exact (C53_message_total_partial x content _ hne).1 h
  refine ⟨?_, h24⟩
  rcases contentType_cases typ with ⟨rfl, h1⟩ | ⟨rfl, h1⟩ | ⟨rfl, h1⟩ | ⟨rfl, h1⟩ | ⟨rfl, h1⟩ | ⟨_, _, h1⟩
  · rw [h1] at h; cases h
  · rw [h1] at h; cases h
  · rw [h1] at h
    simp only [Message.fromRaw] at h
    have hs : Safe Alert.fromBinary :=
      safe_bind (safe_code8 _) (fun _ => safe_bind (safe_code8 _) (fun _ => safe_pure _))
    obtain ⟨_, _, _, b4, _⟩ := hs (Reader.new content) (Nat.zero_le _)
    rcases hq : (Alert.fromBinary (Reader.new content)).1 with e | a <;> rw [hq] at h b4 <;> cases h
    exact absurd rfl b4
  · rfl
  · rw [h1] at h; cases h
  · rw [h1] at h; cases h

theorem decryptMessage_panic {X K : Type} (cr : Crypto X K) (key : EncryptionKey) (hiv : key.writeIv.length = 12)
    (n : Nat) (w : WireRecord) (hw : w.Legal) (h : decryptMessage cr n key w.bytes = .error .panic) :
    ∃ content, Protects cr key n w 22 content ∧ IsKeyUpdate content := by
  unfold decryptMessage at h
  rw [decryptTraffic_wire cr key hiv n w hw] at h
  rcases hd : cr.aeadDecrypt key.aeadAlg key.writeKey (nonceSpec key.writeIv n) w.header w.fragment with _ | p
  · rw [hd] at h; cases h
  rw [hd] at h
  simp only at h
  by_cases h0 : typeOffset p p.length = 0
  · rw [if_pos h0] at h; cases h
  rw [if_neg h0] at h
  obtain ⟨hdec, hne⟩ := typeOffset_decomp p h0
  rcases hm : Message.fromRaw cr.x509 (p.take (typeOffset p p.length - 1))
      (ContentType.fromRaw (p.getD (typeOffset p p.length - 1) 0)) with e | m'
  · have he : e = .panic := by
      rw [hm] at h; cases e <;> simp at h ⊢
    subst he
    obtain ⟨ht, hk⟩ := fromRaw_panic _ _ _ hm
    rw [ht] at hdec
    exact ⟨_, ⟨_, by rw [hd]; exact congrArg some hdec⟩, hk⟩
  · rw [hm] at h; cases h

theorem receiveEncrypted_sound {X K : Type} (cr : Crypto X K) (r : RecordReceiver) (n : Nat) (key : EncryptionKey)
    (hiv : key.writeIv.length = 12) (hr : r.Sound) {res r' n' raw}
    (h : pollReceiveEncryptedMessage cr r n key = (res, r', n', raw)) :
    r'.Sound ∧ (res = .ready (.error .panic) → ∃ (pre : List WireRecord) (w : WireRecord) (content : Bytes),
      (∀ x ∈ pre ++ [w], x.Legal) ∧ r.incoming = wire (pre ++ [w]) ++ r'.incoming ∧ (∀ x ∈ pre, x.typ = 20) ∧ w.typ ≠ 20 ∧
      Protects cr key n w 22 content ∧ IsKeyUpdate content) := by
  unfold pollReceiveEncryptedMessage pollReceiveRecordIgnoreCc at h
  obtain ⟨all, h1, h2, h3, h4⟩ := ignoreCcLoop_spec (r.incoming.length + 1) r
  obtain ⟨h5, h6⟩ := ignoreCcLoop_sound (r.incoming.length + 1) hr (Nat.lt_succ_self _)
  rcases hp : ignoreCcLoop (r.incoming.length + 1) r with ⟨pr, r1⟩
  rw [hp] at h h2 h3 h4 h5 h6
  rcases pr with _ | (e | (_ | o))
  · cases h; exact ⟨h6, nofun⟩
  · cases h
    refine ⟨h6, ?_⟩
    intro he
    cases he
    exact absurd rfl h5
  · cases h; exact ⟨h6, nofun⟩
  · obtain ⟨pre, w, hall, rfl, h7, h8⟩ := h3 o rfl
    have hw : w.Legal := h1 w (by simp [hall])
    simp only [WireRecord.owned] at h
    rcases hd : decryptMessage cr n key w.bytes with e | ⟨m, content⟩
    · rw [hd] at h
      cases h
      refine ⟨h6, ?_⟩
      intro he
      cases he
      obtain ⟨content, hprot, hk⟩ := decryptMessage_panic cr key hiv n w hw hd
      subst hall
      exact ⟨pre, w, content, h1, h2, h8, h7, hprot, hk⟩
    · rw [hd] at h
      cases h
      exact ⟨h6, nofun⟩

theorem pollRecv_sound {p : PlaintextStream} (h : p.receiver.Sound) :
    p.pollRecv.1 ≠ .ready (.error .panic) ∧ p.pollRecv.2.receiver.Sound := by
  unfold PlaintextStream.pollRecv pollReceiveAndAddData Transport.pollRead
  rcases hr : p.inner.reads with _ | ⟨e, es⟩
  · exact ⟨nofun, h⟩
  · rcases e with _ | d | k
    · exact ⟨nofun, h⟩
    · rcases d with _ | ⟨b, bs⟩
      · refine ⟨nofun, ?_⟩
        simp only [RecordReceiver.close]
        split
        · exact nofun
        · exact h
      · exact ⟨nofun, h⟩
    · exact ⟨nofun, nofun⟩

theorem pollFlush_sound (p : PlaintextStream) : p.pollFlush.1 ≠ .ready (.error .panic) ∧
    (p.pollFlush.2.writeState = .error .panic → p.writeState = .error .panic) := by
  unfold PlaintextStream.pollFlush
  rcases writeLoop p.inner.writes p.outgoing p.inner.sent with ⟨res, ws, o, s⟩
  rcases res with _ | (k | u)
  · exact ⟨nofun, id⟩
  · exact ⟨nofun, nofun⟩
  · simp only
    unfold Transport.pollFlush
    simp only
    rcases p.inner.flushes with _ | ⟨e, es⟩
    · exact ⟨nofun, id⟩
    · rcases e <;> exact ⟨nofun, id⟩

/-! ### The handshake -/

theorem hkdf_noCrash {X K : Type} (cr : Crypto X K) (alg : HashAlg) (prk label context : Bytes) (len : Nat) :
    hkdfExpandLabel cr alg prk label context len ≠ .error .panic := by
  rw [hkdfExpandLabel_eq]
  split <;> nofun

theorem except_bind_error {ε α β : Type} {x : Except ε α} {f : α → Except ε β} {e : ε} (h : (x >>= f) = .error e) :
    x = .error e ∨ ∃ a, x = .ok a ∧ f a = .error e := by
  rcases x with e' | a
  · cases h; exact .inl rfl
  · exact .inr ⟨a, rfl, h⟩

theorem derivedPrk_noCrash {X K : Type} (cr : Crypto X K) (alg : HashAlg) (prk secret : Bytes) :
    derivedPrk cr alg prk secret ≠ .error .panic := by
  intro h
  unfold derivedPrk at h
  rcases except_bind_error h with h | ⟨a, _, h⟩
  · exact hkdf_noCrash _ _ _ _ _ _ h
  · cases h

theorem encryptionKey_noCrash {X K : Type} (cr : Crypto X K) (raw : Bytes) (alg : HashAlg) (aead : AeadAlg) :
    EncryptionKey.new cr raw alg aead ≠ .error .panic := by
  intro h
  unfold EncryptionKey.new at h
  rcases except_bind_error h with h | ⟨a, _, h⟩
  · exact hkdf_noCrash _ _ _ _ _ _ h
  rcases except_bind_error h with h | ⟨a, _, h⟩
  · exact hkdf_noCrash _ _ _ _ _ _ h
  · cases h

theorem trafficSecrets_noCrash {X K : Type} (cr : Crypto X K) (ciphers : Ciphers) (transcript prk : Bytes) (label : String) :
    TrafficSecrets.deriveFrom cr ciphers transcript prk label ≠ .error .panic := by
  intro h
  unfold TrafficSecrets.deriveFrom at h
  rcases except_bind_error h with h | ⟨a, _, h⟩
  · exact hkdf_noCrash _ _ _ _ _ _ h
  rcases except_bind_error h with h | ⟨a, _, h⟩
  · exact encryptionKey_noCrash _ _ _ _ h
  rcases except_bind_error h with h | ⟨a, _, h⟩
  · exact hkdf_noCrash _ _ _ _ _ _ h
  rcases except_bind_error h with h | ⟨a, _, h⟩
  · exact encryptionKey_noCrash _ _ _ _ h
  · cases h

theorem onServerHello_sound {X K : Type} (cr : Crypto X K) (s : EarlyState K) (m : Option (Message X)) :
    onServerHello cr s m ≠ .error .panic := by
  unfold onServerHello
  split
  · split
    · rename_i sh e he
      rintro hh
      cases hh
      unfold Ciphers.fromServerHello at he
      split at he <;> cases he
    split
    · nofun
    split
    · rename_i e he
      rintro hh
      cases hh
      exact derivedPrk_noCrash _ _ _ _ he
    split
    · rename_i e he
      rintro hh
      cases hh
      exact trafficSecrets_noCrash _ _ _ _ _ he
    · nofun
  · nofun
  · nofun

/-- The checks crash only with a Finished of the wrong length. -/
theorem computeApplicationSecrets_panic {X K : Type} {cr : Crypto X K} (hv : ∀ a b, cr.verifyCertificate a b ≠ .error .panic)
    {transcript : Bytes} {config : ClientConfig} {prk : Bytes} {sm : ServerMessages X} {seqenc : SequenceEncryption}
    (h : computeApplicationSecrets cr transcript config prk sm seqenc = .error .panic) :
    sm.finished.1.length ≠ hashLen seqenc.ciphers.hashAlg := by
  unfold computeApplicationSecrets at h
  rcases except_bind_error h with h | ⟨master, _, h⟩
  · exact absurd h (derivedPrk_noCrash _ _ _ _)
  rcases except_bind_error h with h | ⟨keys, _, h⟩
  · exact absurd h (trafficSecrets_noCrash _ _ _ _ _)
  rcases except_bind_error h with h | ⟨u, _, h⟩
  · unfold verifyFinished at h
    rcases except_bind_error h with h | ⟨fk, _, h⟩
    · exact absurd h (hkdf_noCrash _ _ _ _ _ _)
    rcases except_bind_error h with h | ⟨good, _, h⟩
    · unfold hmacVerify at h
      rw [byteLen_eq] at h
      split at h
      · assumption
      · cases h
    · split at h <;> cases h
  exfalso
  rcases hc : sm.certificate with _ | cert
  · rw [hc] at h; cases h
  rw [hc] at h
  simp only at h
  rcases hl : cert.certificateList with _ | ⟨entry, more⟩
  · rw [hl] at h; cases h
  rw [hl] at h
  simp only at h
  rcases except_bind_error h with h | ⟨entry', h4, h⟩
  · cases h
  cases h4
  have key : ∀ ca, (do
      cr.verifyCertificate ca entry.data
      match sm.certificateVerify with
      | some (cv, thash) =>
        rsaVerify cr cv.algorithm (cr.publicKey entry.certificate) (verifyTranscriptInput true thash) cv.signature
      | none => .error .missingCertificateVerifyMessage
      pure keys : Except TlsErr TrafficSecrets) ≠ .error .panic := by
    intro ca h
    rcases except_bind_error h with h | ⟨u2, _, h⟩
    · exact hv _ _ h
    rcases hcv : sm.certificateVerify with _ | ⟨cv, thash⟩
    · rw [hcv] at h; cases h
    · rw [hcv] at h
      simp only at h
      rcases except_bind_error h with h | ⟨u3, _, h⟩
      · unfold rsaVerify at h
        split at h
        · split at h <;> cases h
        · cases h
      · cases h
  rcases hsa : config.serverAuth with _ | c | _
  · rw [hsa] at h; cases h
  all_goals
    rw [hsa] at h
    simp only at h
    rcases except_bind_error h with h | ⟨ca, h5, h⟩
    · cases h
    cases h5
    exact key _ h

theorem clientCertificateBytes_noCrash {X K : Type} (cr : Crypto X K) (alg : HashAlg) (transcript : Bytes) (auth : ClientAuth) :
    clientCertificateBytes cr alg transcript auth ≠ .error .panic := by
  intro h
  cases auth with
  | none => cases h
  | certificate cert isRsa key =>
    unfold clientCertificateBytes at h
    simp only at h
    rcases hx : cr.x509 cert with _ | x
    · rw [hx] at h; cases h
    rw [hx] at h
    simp only at h
    rcases except_bind_error h with h | ⟨x', hx', h⟩
    · cases h
    cases hx'
    rcases except_bind_error h with h | ⟨c, _, h⟩
    · exact certificateBytes_noCrash _ _ h
    rcases hs : cr.sign isRsa key (verifyTranscriptInput false (cr.hash alg (transcript ++ c))) with _ | sg
    · simp only [hs] at h; cases h
    simp only [hs] at h
    rcases except_bind_error h with h | ⟨x', hx', h⟩
    · cases h
    rcases except_bind_error h with h | ⟨v, _, h⟩
    · exact verifyBytes_noCrash _ h
    · cases h

theorem clientFinishedBytes_noCrash {X K : Type} (cr : Crypto X K) (alg : HashAlg) (key : EncryptionKey) (transcript : Bytes) :
    clientFinishedBytes cr alg key transcript ≠ .error .panic := by
  intro h
  unfold clientFinishedBytes at h
  rcases except_bind_error h with h | ⟨fk, _, h⟩
  · exact hkdf_noCrash _ _ _ _ _ _ h
  · exact finishedBytes_noCrash _ h

theorem encryptRecord_noCrash {X K : Type} (cr : Crypto X K) (p : PlaintextStream) (d : Bytes) (ct : ContentType)
    (key : EncryptionKey) (n : Nat) : (encryptRecord cr p d ct key n).1 ≠ .error .panic ∧
      (encryptRecord cr p d ct key n).2.receiver = p.receiver ∧ (encryptRecord cr p d ct key n).2.writeState = p.writeState := by
  unfold encryptRecord
  split
  · exact ⟨nofun, rfl, rfl⟩
  · simp only
    unfold encryptTraffic
    simp only
    split
    · rename_i e he
      refine ⟨?_, rfl, rfl⟩
      rintro hh
      cases hh
      split at he <;> cases he
    · exact ⟨nofun, rfl, rfl⟩

theorem wire_length_pos (pre : List WireRecord) (w : WireRecord) : 0 < (wire (pre ++ [w])).length := by
  simp [wire, WireRecord.bytes, WireRecord.header]

theorem handshakeMessages_sound {X K : Type} (cr : Crypto X K) (hx : cr.Expands) (config : ClientConfig) (privateKey : K)
    (total ch shRaw : Bytes) (sh : ServerHello) (n : Nat) :
    ∀ (hs : List (Handshake X × Bytes)) (s : ServerHelloState X), HsInv cr config privateKey total ch shRaw sh hs s →
      s.plaintext.receiver.Sound → s.plaintext.receiver.incoming.length < n →
      ((receiveServerMessages cr n s).1 = .ready (.error .panic) → CrashingHandshake cr privateKey ch total) ∧
      (receiveServerMessages cr n s).2.plaintext.receiver.Sound := by
  induction n with
  | zero => intro hs s _ _ h; omega
  | succ n ih =>
    intro hs s hi hsd hn
    by_cases hfin : ∃ sm, s.cstate = .receivedFinished sm
    · obtain ⟨sm, hsm⟩ := hfin
      have e : receiveServerMessages cr (n + 1) s = (.ready (.ok sm), s) := by
        rw [receiveServerMessages, hsm]
      rw [e]
      exact ⟨nofun, hsd⟩
    · have hiv := isTrafficKey_iv hx hi.agreed.key
      rcases hm : pollReceiveEncryptedMessage cr s.plaintext.receiver s.seqenc.serverSequenceNo
        s.seqenc.trafficSecrets.server with ⟨res, r, k, raw⟩
      obtain ⟨all, hleg, hinc, hcase⟩ := receiveEncrypted_spec cr _ _ _ hiv hm
      obtain ⟨hr, hpanic⟩ := receiveEncrypted_sound cr _ _ _ hiv hsd hm
      have e : receiveServerMessages cr (n + 1) s =
          (let s1 : ServerHelloState X := { s with
              plaintext := { s.plaintext with receiver := r }
              seqenc := { s.seqenc with serverSequenceNo := k }
              transcript := s.transcript ++ raw }
            match (generalizing := false) res with
            | .ready (.error e) => (.ready (.error e), s1)
            | .pending => (.pending, s1)
            | .ready (.ok (some (.handshake h))) =>
              match s1.cstate.onHashAndHandshake (cr.hash s.seqenc.ciphers.hashAlg s.transcript) h with
              | .ok c => receiveServerMessages cr n { s1 with cstate := c }
              | .error e => (.ready (.error e), s1)
            | .ready (.ok (some m)) => (.ready (.error (.unexpectedMessage m.name)), s1)
            | .ready (.ok none) => (.ready (.error .unexpectedEof), s1)) := by
        rw [receiveServerMessages]
        split
        · rename_i sm hsm; exact absurd ⟨sm, hsm⟩ hfin
        · rw [hm]
          rcases res with _ | (e | (_ | m)) <;> rfl
      rw [e]
      clear e
      rcases hcase with ⟨m, pre, w, typ, hall, rfl, rfl, ht, hprot, hmsg, hw20, hpre⟩ | ⟨rfl, rfl, hno, hpend⟩
      · cases m with
        | handshake h =>
          obtain ⟨rfl, hparse⟩ := fromRaw_handshake cr.x509 raw typ h hmsg
          simp only
          rcases hst : s.cstate.onHashAndHandshake (cr.hash s.seqenc.ciphers.hashAlg s.transcript) h with e | c
          · refine ⟨?_, hr⟩
            intro hh
            cases hh
            exfalso
            unfold ClientState.onHashAndHandshake at hst
            split at hst <;> (try split at hst) <;> cases hst
          · simp only
            refine ih (hs ++ [(h, raw)]) _ ?_ hr ?_
            · refine ⟨hi.config_eq, hi.parses, hi.agreed, hi.clientKey, hi.clientSeq, ?_, ?_, ?_, ?_, ?_, hi.active, hi.seals, hi.sent⟩
              · simp [hi.serverSeq]
              · obtain ⟨w0, ws, all0, hl0, hf0, ht0, h20, hfr, hws⟩ := hi.arrived
                refine ⟨w0, ws ++ [w], all0 ++ all, ?_, ?_, ?_, h20, hfr, ?_⟩
                · intro x hx
                  rcases List.mem_append.mp hx with hx | hx
                  · exact hl0 x hx
                  · exact hleg x hx
                · rw [List.filter_append, hf0, hall, filter_ccs _ _ hpre hw20]; simp
                · rw [ht0, wire_append]
                  simp [PlaintextStream.unread, hinc]
                · rw [List.map_append, List.map_append]
                  refine protectsAll_snoc hws (hleg w (by simp [hall])) ?_
                  rw [hi.serverSeq] at hprot
                  simpa using hprot
              · simp [hi.transcript, rawsOf]
              · intro p hp
                rcases List.mem_append.mp hp with hp | hp
                · exact hi.parsed p hp
                · rw [List.mem_singleton] at hp; subst hp; exact hparse
              · rw [hi.transcript] at hst
                exact stateInv_step hi.state hst
            · have h1 := congrArg List.length hinc
              rw [List.length_append, hall] at h1
              have h2 := wire_length_pos pre w
              show r.incoming.length < n
              omega
        | _ => exact ⟨nofun, hr⟩
      · rcases res with _ | (e | (_ | m))
        · exact ⟨nofun, hr⟩
        · refine ⟨?_, hr⟩
          intro hh
          obtain ⟨pre, w, content, hl, hin, hpre, hw20, hprot, hk⟩ := hpanic (by simpa using hh)
          right
          obtain ⟨w0, ws, all0, hl0, hf0, ht0, h20, hfr, hws⟩ := hi.arrived
          refine ⟨shRaw, sh, s.seqenc.ciphers, s.prk, s.seqenc.trafficSecrets.server, hs.map Prod.snd, content,
            r.incoming ++ readData s.plaintext.inner.reads, hi.parses, hi.agreed, ?_, .inl hk⟩
          refine ⟨w0, ws ++ [w], all0 ++ (pre ++ [w]), ?_, ?_, ?_, h20, hfr, ?_⟩
          · intro x hx
            rcases List.mem_append.mp hx with hx | hx
            · exact hl0 x hx
            · exact hl x hx
          · rw [List.filter_append, hf0, filter_ccs _ _ hpre hw20]; simp
          · rw [ht0, wire_append]
            simp [PlaintextStream.unread, hin]
          · rw [List.map_append]
            refine protectsAll_snoc hws (hl w (by simp)) ?_
            rw [hi.serverSeq] at hprot
            simpa using hprot
        · exact ⟨nofun, hr⟩
        · exact absurd rfl (hno m)

/-- The length of a Finished message. -/
theorem finished_length {X K : Type} {cr : Crypto X K} {raw v : Bytes} (h : Parses cr raw (.finished v)) :
    raw.head? = some 20 ∧ raw.length = 4 + v.length := by
  unfold Parses at h
  simp only [Message.fromRaw] at h
  rcases hq : Handshake.fromBinary cr.x509 (Reader.new raw) with ⟨res, r'⟩
  rw [hq] at h
  rcases res with e | a
  · cases h
  replace h : a = .finished v := by
    simp only [Except.map, Except.ok.injEq, Message.handshake.injEq] at h
    exact h
  subst h
  rw [Handshake.fromBinary] at hq
  obtain ⟨t, r1, h1, hq⟩ := bind_ok_inv hq
  rcases raw with _ | ⟨b, raw⟩
  · cases h1
  have hb : t = b ∧ r1 = ⟨b :: raw, 1⟩ := by
    have h2 : 1 < usizeLimit := by decide
    simp [readU8, Reader.new, checkAvailable, bind_def, h2] at h1
    exact ⟨h1.1.symm, h1.2.symm⟩
  obtain ⟨rfl, rfl⟩ := hb
  rw [Handshake.fromBinary2] at hq
  obtain ⟨len, r2, h2, hq⟩ := bind_ok_inv hq
  have h3 : r2.offset = 1 + 3 := uint_advances h2
  have h4 : r2.buf = t :: raw ∧ 1 + 3 ≤ (t :: raw).length := by
    unfold readU24 readUint at h2
    obtain ⟨e, r3, h5, h6⟩ := bind_ok_inv h2
    simp only [checkAvailable] at h5
    split at h5
    · split at h5
      · rename_i hle
        cases h5
        cases h6
        exact ⟨rfl, hle⟩
      · cases h5
    · cases h5
  by_cases h20 : t = 20
  · subst h20
    refine ⟨rfl, ?_⟩
    simp only [show ¬ ((20 : UInt8) = 1) by decide, show ¬ ((20 : UInt8) = 2) by decide, show ¬ ((20 : UInt8) = 5) by decide,
      show ¬ ((20 : UInt8) = 8) by decide, show ¬ ((20 : UInt8) = 13) by decide, show ¬ ((20 : UInt8) = 11) by decide,
      show ¬ ((20 : UInt8) = 15) by decide, if_false, if_true] at hq
    obtain ⟨d, r4, h5, h6⟩ := bind_ok_inv hq
    cases h6
    unfold remainingData at h5
    rw [if_pos (by rw [h3, h4.1]; exact h4.2)] at h5
    cases h5
    rw [List.length_drop, h3, h4.1]
    have := h4.2
    omega
  · exfalso
    rw [if_neg h20] at hq
    repeat' split at hq
    all_goals first
      | (cases hq; done)
      | (obtain ⟨d, r4, h5, h6⟩ := bind_ok_inv hq; cases h6; done)

/-- The receiver of a state. -/
def ECState.Sound {X K : Type} (cr : Crypto X K) (privateKey : K) (total ch : Bytes) : ECState X K → Prop
  | .begin s => s.plaintext.receiver.Sound
  | .afterSendClientHello s => s.plaintext.receiver.Sound
  | .afterReceiveServerHello s => s.plaintext.receiver.Sound
  | .afterReceiveServerMessages s => s.plaintext.receiver.Sound
  | .done c => c.plaintext.receiver.Sound
  | .error e => e = .panic → CrashingHandshake cr privateKey ch total

/-- How many steps are left. -/
def ECState.left {X K : Type} : ECState X K → Nat
  | .begin _ => 4
  | .afterSendClientHello _ => 3
  | .afterReceiveServerHello _ => 2
  | .afterReceiveServerMessages _ => 1
  | .done _ => 0
  | .error _ => 0

theorem recv_sound {X K : Type} {cr : Crypto X K} {privateKey : K} {total ch : Bytes} {s : ECState X K}
    (h : s.Sound cr privateKey total ch) : s.recv.1 ≠ some .panic ∧ s.recv.2.Sound cr privateKey total ch ∧
      s.recv.2.left = s.left := by
  cases s with
  | afterSendClientHello s =>
    simp only [ECState.recv]
    obtain ⟨h1, h2⟩ := pollRecv_sound (p := s.plaintext) h
    rcases hp : s.plaintext.pollRecv with ⟨res, p⟩
    rw [hp] at h1 h2
    rcases res with _ | (e | u)
    · exact ⟨nofun, h2, rfl⟩
    · exact ⟨by simpa using h1, h2, rfl⟩
    · exact ⟨nofun, h2, rfl⟩
  | afterReceiveServerHello s =>
    simp only [ECState.recv]
    obtain ⟨h1, h2⟩ := pollRecv_sound (p := s.plaintext) h
    rcases hp : s.plaintext.pollRecv with ⟨res, p⟩
    rw [hp] at h1 h2
    rcases res with _ | (e | u)
    · exact ⟨nofun, h2, rfl⟩
    · exact ⟨by simpa using h1, h2, rfl⟩
    · exact ⟨nofun, h2, rfl⟩
  | _ => exact ⟨nofun, h, rfl⟩

theorem onServerHello_left {X K : Type} (cr : Crypto X K) (s : EarlyState K) (m : Option (Message X)) :
    (onServerHello cr s m).left < 3 ∧ ∀ privateKey total ch, s.plaintext.receiver.Sound →
      (onServerHello cr s m).Sound cr privateKey total ch := by
  have hp := onServerHello_sound cr s m
  unfold onServerHello at hp ⊢
  split
  · split
    · rename_i e he
      refine ⟨by simp [ECState.left], ?_⟩
      intro _ _ _ _ hh
      subst hh
      simp only [he] at hp
      exact absurd rfl hp
    split
    · exact ⟨by simp [ECState.left], fun _ _ _ _ => nofun⟩
    split
    · rename_i e he
      refine ⟨by simp [ECState.left], ?_⟩
      intro _ _ _ _ hh
      subst hh
      exact absurd he (derivedPrk_noCrash _ _ _ _)
    split
    · rename_i e he
      refine ⟨by simp [ECState.left], ?_⟩
      intro _ _ _ _ hh
      subst hh
      exact absurd he (trafficSecrets_noCrash _ _ _ _ _)
    · exact ⟨by simp [ECState.left], fun _ _ _ h => h⟩
  · exact ⟨by simp [ECState.left], fun _ _ _ _ => nofun⟩
  · exact ⟨by simp [ECState.left], fun _ _ _ _ => nofun⟩

theorem sendClientHelloStep_sound {X K : Type} (cr : Crypto X K) {config : ClientConfig} {privateKey : K} {total ch : Bytes}
    (s : EarlyState K) (h : EarlyInv config privateKey total ch s) (hs : s.plaintext.receiver.Sound) :
    (sendClientHelloStep (X := X) cr s).2.Sound cr privateKey total ch ∧
    ((sendClientHelloStep (X := X) cr s).1 = .ready () → (sendClientHelloStep (X := X) cr s).2.left < 3) := by
  unfold sendClientHelloStep PlaintextStream.pollReceivePlaintextMessage pollReceiveRecordIgnoreCc
  obtain ⟨all, hleg, hinc, hsome, hnone⟩ := ignoreCcLoop_spec (s.plaintext.receiver.incoming.length + 1) s.plaintext.receiver
  obtain ⟨h5, h6⟩ := ignoreCcLoop_sound (s.plaintext.receiver.incoming.length + 1) hs (Nat.lt_succ_self _)
  obtain ⟨all0, hall0, htot⟩ := h.arrived
  rcases hp : ignoreCcLoop (s.plaintext.receiver.incoming.length + 1) s.plaintext.receiver with ⟨res, r⟩
  rw [hp] at hinc hsome hnone h5 h6
  simp only at hinc hsome hnone h5 h6
  have htot' : total = wire (all0 ++ all) ++ (r.incoming ++ readData s.plaintext.inner.reads) := by
    rw [htot, wire_append, PlaintextStream.unread, hinc]; simp
  have hlegal : ∀ w ∈ all0 ++ all, w.Legal := by
    intro w hw
    rcases List.mem_append.mp hw with hw | hw
    · exact (hall0 w hw).1
    · exact hleg w hw
  rcases res with _ | (e | (_ | record))
  · exact ⟨h6, nofun⟩
  · refine ⟨?_, fun _ => by simp [ECState.left]⟩
    rintro rfl
    exact absurd rfl h5
  · simp only
    obtain ⟨h1, h2⟩ := onServerHello_left cr { s with plaintext := { s.plaintext with receiver := r }, initialTranscript := s.initialTranscript } (none : Option (Message X))
    exact ⟨h2 _ _ _ h6, fun _ => h1⟩
  · simp only
    rcases hm : Message.fromRaw cr.x509 record.fragment record.contentType with e | m
    · have hpan : e = .panic → CrashingHandshake cr privateKey ch total := by
        rintro rfl
        obtain ⟨pre, w, rfl, rfl, hw20, hpre⟩ := hsome record rfl
        obtain ⟨h22, hk⟩ := fromRaw_panic cr.x509 w.fragment w.typ hm
        left
        refine ⟨w.fragment, ⟨w, all0 ++ (pre ++ [w]), r.incoming ++ readData s.plaintext.inner.reads, hlegal, ?_, htot', h22, rfl⟩, hk⟩
        rw [List.filter_append, filter_ccs_nil _ (fun x hx => (hall0 x hx).2), filter_ccs _ _ hpre hw20]
        rfl
      cases e <;> refine ⟨?_, fun _ => by simp [ECState.left]⟩ <;> first | exact fun _ => hpan rfl | exact fun hh => by cases hh
    · simp only
      obtain ⟨h1, h2⟩ := onServerHello_left cr { s with plaintext := { s.plaintext with receiver := r }, initialTranscript := s.initialTranscript ++ record.fragment } (some m)
      exact ⟨h2 _ _ _ h6, fun _ => h1⟩

theorem onServerMessages_sound {X K : Type} (cr : Crypto X K) (hv : ∀ a b, cr.verifyCertificate a b ≠ .error .panic)
    {config : ClientConfig} {privateKey : K} {total ch shRaw : Bytes} {sh : ServerHello} {hs : List (Handshake X × Bytes)}
    (s : ServerHelloState X) (sm : ServerMessages X)
    (h : HsInv cr config privateKey total ch shRaw sh hs s) (hsm : s.cstate = .receivedFinished sm)
    (hsd : s.plaintext.receiver.Sound) :
    ECState.Sound cr privateKey total ch (onServerMessages cr s sm) ∧ (onServerMessages (K := K) cr s sm).left < 2 := by
  unfold onServerMessages
  split
  · rename_i e he
    refine ⟨?_, by simp [ECState.left]⟩
    rintro rfl
    have hodd := computeApplicationSecrets_panic hv he
    have hst := h.state
    rw [hsm] at hst
    obtain ⟨r, p1, p2, p3, r4, hp1, hp2, hp3, hhs, hcvh, hfinh⟩ := hst
    have hparse := h.parsed (.finished sm.finished.1, r4) (by rw [hhs]; simp)
    obtain ⟨hh, hlen⟩ := finished_length hparse
    right
    refine ⟨shRaw, sh, s.seqenc.ciphers, s.prk, s.seqenc.trafficSecrets.server,
      ([((.encryptedExtensions sm.encryptedExtensions : Handshake X), r)] ++ p1 ++ p2 ++ p3).map Prod.snd, r4, s.plaintext.unread, h.parses,
      h.agreed, ?_, .inr ⟨hh, ?_⟩⟩
    · have harr := h.arrived
      rw [hhs, List.map_append] at harr
      exact harr
    · simp only at hlen
      omega
  split
  · rename_i e he
    refine ⟨?_, by simp [ECState.left]⟩
    rintro rfl
    exact absurd he (clientCertificateBytes_noCrash _ _ _ _)
  split
  · rename_i e he
    refine ⟨?_, by simp [ECState.left]⟩
    rintro rfl
    exact absurd he (clientFinishedBytes_noCrash _ _ _ _)
  rename_i certBytes _ _ fin _
  obtain ⟨h1, h2, h3⟩ := encryptRecord_noCrash cr s.plaintext (certBytes ++ fin) .handshake s.seqenc.trafficSecrets.client
    s.seqenc.clientSequenceNo
  rcases he : encryptRecord cr s.plaintext (certBytes ++ fin) .handshake s.seqenc.trafficSecrets.client
    s.seqenc.clientSequenceNo with ⟨res, p⟩
  rw [he] at h1 h2
  simp only at h2
  rcases res with e | u
  · refine ⟨?_, by simp [ECState.left]⟩
    rintro rfl
    exact absurd rfl h1
  · refine ⟨?_, by simp [ECState.left]⟩
    show p.receiver.Sound
    rw [h2]; exact hsd

theorem pollStep_sound {X K : Type} {cr : Crypto X K} (hx : cr.Expands) (hv : ∀ a b, cr.verifyCertificate a b ≠ .error .panic)
    {config : ClientConfig} {privateKey : K} {total ch : Bytes} {s : ECState X K}
    (h : EcInv cr config privateKey total ch s) (hs : s.Sound cr privateKey total ch) :
    (s.pollStep cr).2.Sound cr privateKey total ch ∧
      ((s.pollStep cr).1 = .ready () → (s.pollStep cr).2.left < s.left ∨ s.left = 0) := by
  cases s with
  | begin s =>
    simp only [ECState.pollStep, beginStep]
    obtain ⟨hr1, _⟩ := pollFlush_rx s.plaintext
    obtain ⟨hf, _⟩ := pollFlush_sound s.plaintext
    rcases hp : s.plaintext.pollFlush with ⟨res, p⟩
    rw [hp] at hr1 hf
    simp only at hr1
    have hs' : p.receiver.Sound := by rw [hr1]; exact hs
    rcases res with _ | (e | u)
    · exact ⟨hs', nofun⟩
    · refine ⟨?_, fun _ => by simp [ECState.left]⟩
      rintro rfl; exact absurd rfl hf
    · exact ⟨hs', fun _ => by simp [ECState.left]⟩
  | afterSendClientHello s =>
    obtain ⟨h1, h2⟩ := sendClientHelloStep_sound (X := X) cr s h hs
    exact ⟨h1, fun hr => .inl (h2 hr)⟩
  | afterReceiveServerHello s =>
    obtain ⟨shRaw, sh, ms, h⟩ := h
    simp only [ECState.pollStep, receiveServerHelloStep]
    obtain ⟨h1, h2⟩ := receiveServerMessages_inv cr hx config privateKey total ch shRaw sh
      (s.plaintext.receiver.incoming.length + 1) ms s h
    obtain ⟨h3, h4⟩ := handshakeMessages_sound cr hx config privateKey total ch shRaw sh
      (s.plaintext.receiver.incoming.length + 1) ms s h hs (Nat.lt_succ_self _)
    rcases hp : receiveServerMessages cr (s.plaintext.receiver.incoming.length + 1) s with ⟨res, s'⟩
    rw [hp] at h3 h4
    rcases res with _ | (e | sm)
    · exact ⟨h4, nofun⟩
    · refine ⟨?_, fun _ => by simp [ECState.left]⟩
      rintro rfl; exact h3 rfl
    · obtain ⟨hs', h', hsm⟩ := h1 sm s' hp
      obtain ⟨h5, h6⟩ := onServerMessages_sound cr hv s' sm h' hsm h4
      exact ⟨h5, fun _ => .inl h6⟩
  | afterReceiveServerMessages s =>
    simp only [ECState.pollStep, sendFinishedStep]
    obtain ⟨hr1, _⟩ := pollFlush_rx s.plaintext
    obtain ⟨hf, _⟩ := pollFlush_sound s.plaintext
    rcases hp : s.plaintext.pollFlush with ⟨res, p⟩
    rw [hp] at hr1 hf
    simp only at hr1
    have hs' : p.receiver.Sound := by rw [hr1]; exact hs
    rcases res with _ | (e | u)
    · exact ⟨hs', nofun⟩
    · refine ⟨?_, fun _ => by simp [ECState.left]⟩
      rintro rfl; exact absurd rfl hf
    · exact ⟨hs', fun _ => by simp [ECState.left]⟩
  | done c => exact ⟨hs, fun _ => .inr rfl⟩
  | error e => exact ⟨hs, fun _ => .inr rfl⟩

theorem establishLoop_sound {X K : Type} {cr : Crypto X K} (hx : cr.Expands) (hc : cr.Correct)
    (hv : ∀ a b, cr.verifyCertificate a b ≠ .error .panic)
    {config : ClientConfig} {privateKey : K} {total ch : Bytes} (n : Nat) : ∀ {s : ECState X K},
    EcInv cr config privateKey total ch s → s.Sound cr privateKey total ch → s.left < n →
    (establishLoop cr n s).2.Sound cr privateKey total ch ∧
    ((establishLoop cr n s).1 = .ready (.error .panic) → CrashingHandshake cr privateKey ch total) ∧
      ∀ c, (establishLoop cr n s).1 = .ready (.ok c) → c.plaintext.receiver.Sound := by
  induction n with
  | zero => intro s _ _ h; omega
  | succ n ih =>
    intro s h hs hn
    have go : ∀ s : ECState X K, EcInv cr config privateKey total ch s → s.Sound cr privateKey total ch → s.left < n + 1 →
        s.left ≠ 0 → ∀ z, z = (match s.recv with
          | (some e, s) => ((.ready (.error e), s) : Poll (Except TlsErr Conn) × ECState X K)
          | (none, s) =>
            match s.pollStep cr with
            | (.ready (), s) => establishLoop cr n s
            | (.pending, s) => (.pending, s)) → z.2.Sound cr privateKey total ch ∧
          (z.1 = .ready (.error .panic) → CrashingHandshake cr privateKey ch total) ∧
          ∀ c, z.1 = .ready (.ok c) → c.plaintext.receiver.Sound := by
      intro s h hs hn h0 z hz
      have h1 := recv_inv h
      obtain ⟨g1, g2, g3⟩ := recv_sound hs
      rcases hr : s.recv with ⟨e, s1⟩
      rw [hr] at h1 g1 g2 g3 hz
      rcases e with _ | e
      · simp only at hz h1 g2 g3
        have h2 := pollStep_inv hx hc h1
        obtain ⟨k1, k2⟩ := pollStep_sound hx hv h1 g2
        rcases hp : s1.pollStep cr with ⟨res, s2⟩
        rw [hp] at h2 k1 k2 hz
        rcases res with _ | u
        · subst hz; exact ⟨k1, (fun hh => by cases hh), fun _ hh => by cases hh⟩
        · subst hz
          simp only at k1 k2
          rcases k2 (by first | rfl | trivial) with k2 | k2
          · exact ih h2 k1 (by omega)
          · omega
      · simp only at hz
        subst hz
        refine ⟨g2, ?_, fun _ hh => by cases hh⟩
        intro hh
        cases hh
        exact absurd rfl g1
    cases s with
    | done c =>
      rw [establishLoop]
      refine ⟨hs, (fun hh => by cases hh), ?_⟩
      intro c' hc'
      cases hc'
      exact hs
    | error e =>
      rw [establishLoop]
      refine ⟨hs, ?_, fun _ hh => by cases hh⟩
      intro hh
      cases hh
      exact hs rfl
    | begin s => exact go _ h hs hn (by simp [ECState.left]) _ (by rw [establishLoop] <;> first | rfl | (intro _ hh; cases hh))
    | afterSendClientHello s => exact go _ h hs hn (by simp [ECState.left]) _ (by rw [establishLoop] <;> first | rfl | (intro _ hh; cases hh))
    | afterReceiveServerHello s => exact go _ h hs hn (by simp [ECState.left]) _ (by rw [establishLoop] <;> first | rfl | (intro _ hh; cases hh))
    | afterReceiveServerMessages s => exact go _ h hs hn (by simp [ECState.left]) _ (by rw [establishLoop] <;> first | rfl | (intro _ hh; cases hh))

theorem left_le {X K : Type} (s : ECState X K) : s.left < 6 := by cases s <;> simp [ECState.left]

theorem pollTimes_sound {X K : Type} {cr : Crypto X K} (hx : cr.Expands) (hc : cr.Correct)
    (hv : ∀ a b, cr.verifyCertificate a b ≠ .error .panic)
    {config : ClientConfig} {privateKey : K} {total ch : Bytes} (k : Nat) : ∀ {s : ECState X K},
    EcInv cr config privateKey total ch s → s.Sound cr privateKey total ch →
    EcInv cr config privateKey total ch (pollTimes cr k s) ∧ (pollTimes cr k s).Sound cr privateKey total ch := by
  induction k with
  | zero => intro s h hs; exact ⟨h, hs⟩
  | succ k ih =>
    intro s h hs
    exact ih (establishLoop_inv hx hc 6 h).1 (establishLoop_sound hx hc hv 6 h hs (left_le s)).1

/-! ### The connection -/

/-- Nothing that a connection remembers is a crash. -/
structure Conn.Sound (c : Conn) : Prop where
  receiver : c.plaintext.receiver.Sound
  reading : c.readState ≠ .error .panic
  writing : c.plaintext.writeState ≠ .error .panic

theorem pollRecv_reads {p q : PlaintextStream} (h : p.pollRecv = (.ready (.ok ()), q)) :
    q.inner.reads.length < p.inner.reads.length := by
  unfold PlaintextStream.pollRecv pollReceiveAndAddData Transport.pollRead at h
  rcases hr : p.inner.reads with _ | ⟨e, es⟩
  · rw [hr] at h; cases h
  · rw [hr] at h
    rcases e with _ | d | k
    · cases h
    · rcases d with _ | ⟨b, bs⟩ <;> (cases h; simp)
    · cases h

theorem fillLoop_sound {X K : Type} (cr : Crypto X K) (c0 : Conn)
    (hiv : c0.seqenc.trafficSecrets.server.writeIv.length = 12) (n : Nat) :
    ∀ (c : Conn) (got : Bytes) (msgs : List (UInt8 × Bytes)), ReadInv cr c0 got msgs c → c.readState = .active → c.Sound →
      c.plaintext.inner.reads.length < n →
      ((c.fillLoop cr n).1 = .ready (.error .panic) → CrashingData cr c0) ∧ (c.fillLoop cr n).2.Sound := by
  induction n with
  | zero => intro c got msgs _ _ _ h; omega
  | succ n ih =>
    intro c got msgs h hact hs hn
    unfold Conn.fillLoop
    have hdat := pollRecv_data c.plaintext
    obtain ⟨g1, g2⟩ := pollRecv_sound hs.receiver
    have hw := (pollRecv_frame c.plaintext).2.2.1
    rcases hp : c.plaintext.pollRecv with ⟨res, p⟩
    rw [hp] at hdat g1 g2 hw
    simp only at hdat g2 hw
    have hws : p.writeState ≠ .error .panic := by rw [hw]; exact hs.writing
    rcases res with _ | (e | u)
    · exact ⟨nofun, g2, hs.reading, hws⟩
    · refine ⟨?_, g2, ?_, hws⟩
      · intro hh; exact absurd hh (by simpa using g1)
      · simpa using g1
    · simp only
      have hrd := pollRecv_reads hp
      rcases hm : pollReceiveEncryptedMessage cr p.receiver c.seqenc.serverSequenceNo
        c.seqenc.trafficSecrets.server with ⟨res, r, k, raw⟩
      have hiv' : c.seqenc.trafficSecrets.server.writeIv.length = 12 := by rw [h.secrets]; exact hiv
      obtain ⟨all', hleg, hinc, hcase⟩ := receiveEncrypted_spec cr _ _ _ hiv' hm
      obtain ⟨q1, q2⟩ := receiveEncrypted_sound cr _ _ _ hiv' g2 hm
      obtain ⟨all, taken, hr⟩ := h.received
      rcases res with _ | (e | (_ | m))
      · exact ⟨nofun, q1, hs.reading, hws⟩
      · refine ⟨?_, q1, hs.reading, hws⟩
        intro hh
        obtain ⟨pre, w, content, hl, hin, _, _, hprot, hk⟩ := q2 (by simpa using hh)
        rw [h.secrets, h.seqNo] at hprot
        refine ⟨all ++ (pre ++ [w]), taken ++ [w], msgs, content, r.incoming ++ readData p.inner.reads, ?_, ?_, ?_, ?_, hk⟩
        · intro x hx
          rcases List.mem_append.mp hx with hx | hx
          · exact hr.legal x hx
          · exact hl x hx
        · show c0.plaintext.receiver.incoming ++ readData c0.plaintext.inner.reads = _
          rw [hr.framed, List.append_assoc, ← hdat, hin]
          simp only [wire_append, List.append_assoc]
        · exact sublist_mid taken all pre w hr.sub
        · exact protectsAll_snoc hr.auth (hl w (by simp)) hprot
      · exact ⟨nofun, q1, nofun, hws⟩
      · rcases hcase with ⟨m', pre, w, typ, hall, hres, rfl, ht, hprot, hmsg, _, _⟩ | ⟨rfl, _, hno, _⟩
        · cases hres
          cases m with
          | invalid => exact ⟨nofun, q1, nofun, hws⟩
          | changeCipherSpec => exact ⟨nofun, q1, nofun, hws⟩
          | unknown code => exact ⟨nofun, q1, nofun, hws⟩
          | alert a =>
            simp only
            split
            · exact ⟨nofun, q1, nofun, hws⟩
            · exact ⟨nofun, q1, nofun, hws⟩
          | applicationData d => exact ⟨nofun, q1, hs.reading, hws⟩
          | handshake hsm =>
            cases hsm with
            | newSessionTicket t =>
              simp only
              rw [h.secrets, h.seqNo] at hprot
              refine ih _ got (msgs ++ [(typ, raw)]) ?_ hact ⟨q1, hs.reading, hws⟩ ?_
              · have hnoclose : ∀ m ∈ msgs, ¬ IsCloseNotify m := by
                  intro m' hm' hcl
                  have := h.eof.mpr ⟨m', hm', hcl⟩
                  rw [hact] at this; cases this
                have hcl := closeNotify_iff cr.x509 raw typ _ hmsg
                have h23 : typ ≠ 23 := by
                  rintro rfl
                  rw [fromRaw_23] at hmsg
                  cases hmsg
                refine ⟨⟨all ++ all', taken ++ [w], ?_, ?_, ?_, ?_, ?_⟩, h.secrets, ?_, ?_, ?_, ?_⟩
                · show c0.plaintext.receiver.incoming ++ readData c0.plaintext.inner.reads
                    = wire (all ++ all') ++ r.incoming ++ readData p.inner.reads
                  rw [hr.framed, List.append_assoc, ← hdat, hinc, wire_append]
                  simp
                · intro x hx
                  rcases List.mem_append.mp hx with hx | hx
                  · exact hr.legal x hx
                  · exact hleg x hx
                · rw [hall]; exact sublist_mid taken all pre w hr.sub
                · exact protectsAll_snoc hr.auth (hleg w (by simp [hall])) hprot
                · intro m' hm'
                  rcases List.mem_append.mp hm' with hm' | hm'
                  · exact hr.types m' hm'
                  · rw [List.mem_singleton] at hm'; rw [hm']; exact ht
                · show c.seqenc.serverSequenceNo + 1 = _
                  rw [h.seqNo]; simp; omega
                · show got ++ c.incomingDecrypted = _
                  rw [appData_append, h.data]
                  simp [appData, h23]
                · show c.readState = .eof ↔ _
                  rw [hact]
                  constructor
                  · nofun
                  · rintro ⟨m', hm', hh⟩
                    exfalso
                    rcases List.mem_append.mp hm' with hm' | hm'
                    · exact hnoclose m' hm' hh
                    · rw [List.mem_singleton] at hm'
                      subst hm'
                      obtain ⟨a, ha, _⟩ := hcl.mp hh
                      cases ha
                · rw [List.dropLast_concat]; exact hnoclose
              · show p.inner.reads.length < n
                omega
            | _ => exact ⟨nofun, q1, nofun, hws⟩
        · exact absurd rfl (hno m)

theorem read_sound {X K : Type} (cr : Crypto X K) (c0 : Conn)
    (hiv : c0.seqenc.trafficSecrets.server.writeIv.length = 12) (c : Conn) (got : Bytes)
    (msgs : List (UInt8 × Bytes)) (h : ReadInv cr c0 got msgs c) (hs : c.Sound) (room : Nat) :
    ((c.pollRead cr room).1 = .ready (.error .panic) → CrashingData cr c0) ∧ (c.pollRead cr room).2.Sound := by
  unfold Conn.pollRead
  rcases hrs : c.readState with _ | _ | e
  · simp only
    have hfill : ((c.pollFillIncoming cr).1 = .ready (.error .panic) → CrashingData cr c0) ∧ (c.pollFillIncoming cr).2.Sound := by
      unfold Conn.pollFillIncoming
      split
      · exact ⟨nofun, hs⟩
      · exact fillLoop_sound cr c0 hiv _ c got msgs h hrs hs (Nat.lt_succ_self _)
    obtain ⟨h1, h2⟩ := hfill
    rcases hp : c.pollFillIncoming cr with ⟨res, c'⟩
    rw [hp] at h1 h2
    rcases res with _ | (e | u)
    · exact ⟨nofun, h2⟩
    · exact ⟨fun hh => h1 (by simpa using hh), h2⟩
    · exact ⟨nofun, h2.receiver, h2.reading, h2.writing⟩
  · exact ⟨nofun, hs⟩
  · refine ⟨?_, hs⟩
    intro hh
    exact absurd (by simpa using hh) (by simpa [hrs] using hs.reading)

theorem flushEncrypted_sound {c : Conn} (hs : c.Sound) :
    c.pollFlushEncrypted.1 ≠ .ready (.error .panic) ∧ c.pollFlushEncrypted.2.Sound := by
  obtain ⟨h1, h2⟩ := pollFlush_sound c.plaintext
  obtain ⟨h3, _⟩ := pollFlush_rx c.plaintext
  refine ⟨h1, ?_, hs.reading, fun h => hs.writing (h2 h)⟩
  show c.plaintext.pollFlush.2.receiver.Sound
  rw [h3]; exact hs.receiver

theorem appendRecord_sound {X K : Type} (cr : Crypto X K) {c : Conn} (hs : c.Sound) (d : Bytes) (ct : ContentType) :
    (c.appendRecord cr d ct).1 ≠ .error .panic ∧ (c.appendRecord cr d ct).2.Sound := by
  obtain ⟨h1, h2, h3⟩ := encryptRecord_noCrash cr c.plaintext d ct c.seqenc.trafficSecrets.client c.seqenc.clientSequenceNo
  unfold Conn.appendRecord
  rcases he : encryptRecord cr c.plaintext d ct c.seqenc.trafficSecrets.client c.seqenc.clientSequenceNo with ⟨res, p⟩
  rw [he] at h1 h2 h3
  simp only at h2 h3
  have hr : p.receiver.Sound := by rw [h2]; exact hs.receiver
  rcases res with e | u
  · refine ⟨h1, hr, hs.reading, ?_⟩
    simpa using h1
  · refine ⟨nofun, hr, hs.reading, ?_⟩
    show p.writeState ≠ _
    rw [h3]; exact hs.writing

theorem finishShutdown_sound {c : Conn} (hs : c.Sound) :
    c.finishShutdown.1 ≠ .ready (.error .panic) ∧ c.finishShutdown.2.Sound := by
  obtain ⟨h1, h2⟩ := flushEncrypted_sound hs
  unfold Conn.finishShutdown
  rcases hp : c.pollFlushEncrypted with ⟨res, c'⟩
  rw [hp] at h1 h2
  rcases res with _ | (e | u)
  · exact ⟨nofun, h2⟩
  · exact ⟨by simpa using h1, h2⟩
  · simp only at h2 ⊢
    rcases c'.plaintext.inner.pollShutdown with ⟨res, t⟩
    rcases res with _ | _ | k
    · exact ⟨nofun, h2.receiver, h2.reading, h2.writing⟩
    · exact ⟨nofun, h2.receiver, h2.reading, nofun⟩
    · exact ⟨nofun, h2.receiver, h2.reading, h2.writing⟩

theorem step_sound {X K : Type} (cr : Crypto X K) (c0 : Conn)
    (hiv : c0.seqenc.trafficSecrets.server.writeIv.length = 12) (c : Conn) (got : Bytes)
    (msgs : List (UInt8 × Bytes)) (h : ReadInv cr c0 got msgs c) (hs : c.Sound) (op : ConnOp) :
    ((op.step cr c).1.Crashed → CrashingData cr c0) ∧ (op.step cr c).2.Sound := by
  have hw : ∀ e, c.plaintext.writeState = .error e → e ≠ .panic := by
    rintro e he rfl; exact hs.writing he
  cases op with
  | read room => exact read_sound cr c0 hiv c got msgs h hs room
  | write buf =>
    simp only [ConnOp.step, ConnEvent.Crashed]
    unfold Conn.pollWrite
    rcases hws : c.plaintext.writeState with _ | _ | e
    · simp only
      obtain ⟨h1, h2⟩ := flushEncrypted_sound hs
      rcases hp : c.pollFlushEncrypted with ⟨res, c'⟩
      rw [hp] at h1 h2
      rcases res with _ | (e | u)
      · exact ⟨nofun, h2⟩
      · exact ⟨fun hh => absurd hh (by simpa using h1), h2⟩
      · simp only at h2 ⊢
        obtain ⟨h3, h4⟩ := appendRecord_sound cr h2 (buf.take (min buf.length maxPlaintextRecordSize)) .applicationData
        rcases hq : c'.appendRecord cr (buf.take (min buf.length maxPlaintextRecordSize)) .applicationData
          with ⟨res, c''⟩
        rw [hq] at h3 h4
        rcases res with e | u
        · exact ⟨fun hh => absurd hh (by simpa using h3), h4⟩
        · exact ⟨nofun, h4⟩
    · exact ⟨nofun, hs⟩
    · exact ⟨fun hh => absurd hh (by simpa using hw e hws), hs⟩
  | flush =>
    simp only [ConnOp.step, ConnEvent.Crashed]
    unfold Conn.pollFlush
    rcases hws : c.plaintext.writeState with _ | _ | e
    · obtain ⟨h1, h2⟩ := flushEncrypted_sound hs
      exact ⟨fun hh => absurd hh h1, h2⟩
    · exact ⟨nofun, hs⟩
    · exact ⟨fun hh => absurd hh (by simpa using hw e hws), hs⟩
  | shutdown =>
    simp only [ConnOp.step, ConnEvent.Crashed]
    unfold Conn.pollShutdown
    rcases hws : c.plaintext.writeState with _ | _ | e
    · simp only
      unfold Conn.appendCloseNotify
      obtain ⟨h3, h4⟩ := appendRecord_sound cr hs [AlertLevel.warning.toRaw, AlertDescription.closeNotify.toRaw] .alert
      rcases hq : c.appendRecord cr [AlertLevel.warning.toRaw, AlertDescription.closeNotify.toRaw] .alert
        with ⟨res, c''⟩
      rw [hq] at h3 h4
      rcases res with e | u
      · exact ⟨fun hh => absurd hh (by simpa using h3), h4⟩
      · simp only at h4 ⊢
        obtain ⟨h5, h6⟩ := finishShutdown_sound
          (c := { c'' with plaintext := { c''.plaintext with writeState := .inShutdown } }) ⟨h4.receiver, h4.reading, nofun⟩
        exact ⟨fun hh => absurd hh h5, h6⟩
    · obtain ⟨h5, h6⟩ := finishShutdown_sound hs
      exact ⟨fun hh => absurd hh h5, h6⟩
    · exact ⟨fun hh => absurd hh (by simpa using hw e hws), hs⟩

theorem step_readInv {X K : Type} (cr : Crypto X K) (c0 : Conn)
    (hiv : c0.seqenc.trafficSecrets.server.writeIv.length = 12) (c : Conn) (got : Bytes)
    (msgs : List (UInt8 × Bytes)) (h : ReadInv cr c0 got msgs c) (op : ConnOp) :
    ∃ got' msgs', ReadInv cr c0 got' msgs' (op.step cr c).2 := by
  by_cases hr : ∃ room, op = .read room
  · obtain ⟨room, rfl⟩ := hr
    obtain ⟨msgs', h1, _⟩ := readInv_read cr c0 hiv c got msgs h room
    exact ⟨_, msgs', h1⟩
  · exact ⟨got, msgs, readInv_rx h (step_rx cr c op (fun room hh => hr ⟨room, hh⟩)).1⟩

theorem connRun_sound {X K : Type} (cr : Crypto X K) (c0 : Conn)
    (hiv : c0.seqenc.trafficSecrets.server.writeIv.length = 12) (ops : List ConnOp) : ∀ (c : Conn) (got : Bytes)
    (msgs : List (UInt8 × Bytes)), ReadInv cr c0 got msgs c → c.Sound →
    ∀ ev ∈ (connRun cr c ops).1, ev.Crashed → CrashingData cr c0 := by
  induction ops with
  | nil => intro c got msgs _ _ ev hev; cases hev
  | cons op ops ih =>
    intro c got msgs h hs ev hev hcr
    obtain ⟨h1, h2⟩ := step_sound cr c0 hiv c got msgs h hs op
    rcases List.mem_cons.mp hev with rfl | hev
    · exact h1 hcr
    · obtain ⟨got', msgs', h3⟩ := step_readInv cr c0 hiv c got msgs h op
      exact ih _ got' msgs' h3 h2 ev hev hcr

end Ngfs.Tls
