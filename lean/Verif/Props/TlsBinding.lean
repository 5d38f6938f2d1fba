import Verif.Spec.TlsBinding
import Verif.Props.TlsHandshake

/-! C138: the keys of a TLS connection determine the handshake they come from. -/
namespace Ngfs.Tls

open Ngfs.Binary

/-! ### Labels -/

theorem label_inj {label context label' context' : Bytes} {len len' : Nat} (h : label.length ≤ 249) (h' : label'.length ≤ 249)
    (e : [UInt8.ofNat (len / 256), UInt8.ofNat (len % 256), UInt8.ofNat (6 + label.length)] ++
        [116, 108, 115, 49, 51, 32] ++ label ++ [UInt8.ofNat context.length] ++ context =
      [UInt8.ofNat (len' / 256), UInt8.ofNat (len' % 256), UInt8.ofNat (6 + label'.length)] ++
        [116, 108, 115, 49, 51, 32] ++ label' ++ [UInt8.ofNat context'.length] ++ context') :
    label = label' ∧ context = context' := by
  simp only [List.append_assoc, List.cons_append, List.nil_append, List.cons.injEq, true_and] at e
  obtain ⟨-, -, e1, e2⟩ := e
  have e1 := congrArg UInt8.toNat e1
  simp only [UInt8.toNat_ofNat'] at e1
  have hl : label.length = label'.length := by omega
  obtain ⟨e3, e4⟩ := List.append_inj e2 hl
  exact ⟨e3, (List.cons.inj e4).2⟩

/-- C138: two values expanded under labels, from whatever secrets, agree only if secret, label, context and length do. -/
theorem C138_labels {X K : Type} (cr : Crypto X K) (alg : HashAlg) (secret label context secret' label' context' v : Bytes)
    (len len' : Nat) (hv : Sole cr alg v) (h : label.length ≤ 249) (h' : label'.length ≤ 249)
    (e : hkdfExpandLabel cr alg secret label context len = .ok v)
    (e' : hkdfExpandLabel cr alg secret' label' context' len' = .ok v) :
    secret = secret' ∧ label = label' ∧ context = context' ∧ len = len' := by
  obtain ⟨h1, h2, h3⟩ := hv.expand _ _ _ _ _ _ (hkdfExpandLabel_ok e) (hkdfExpandLabel_ok e')
  obtain ⟨h4, h5⟩ := label_inj h h' h2
  exact ⟨h1, h4, h5, h3⟩

theorem expandLabel_inj {X K : Type} {cr : Crypto X K} {alg : HashAlg} {secret label context secret' label' context' v : Bytes}
    {len len' : Nat} (hv : Sole cr alg v) (h : label.length ≤ 249) (h' : label'.length ≤ 249)
    (e : expandLabel cr alg secret label context len = some v) (e' : expandLabel cr alg secret' label' context' len' = some v) :
    secret = secret' ∧ label = label' ∧ context = context' := by
  obtain ⟨h1, h2, h3⟩ := hv.expand _ _ _ _ _ _ e e'
  obtain ⟨h4, h5⟩ := label_inj h h' h2
  exact ⟨h1, h4, h5⟩

theorem trafficKey_inj {X K : Type} {cr : Crypto X K} {alg : HashAlg} {aead aead' : AeadAlg}
    {secret label transcript secret' label' transcript' : Bytes} {key key' : EncryptionKey}
    (hr : Sole cr alg key.raw) (hw : Sole cr alg key.writeKey) (h : label.length ≤ 249) (h' : label'.length ≤ 249)
    (k : IsTrafficKey cr alg aead secret label transcript key) (k' : IsTrafficKey cr alg aead' secret' label' transcript' key')
    (e : key.writeKey = key'.writeKey) : secret = secret' ∧ label = label' ∧ cr.hash alg transcript = cr.hash alg transcript' := by
  have h1 := k'.hkey
  rw [← e] at h1
  obtain ⟨e2, -, -⟩ := expandLabel_inj hw (by decide) (by decide) k.hkey h1
  have h2 := k'.hraw
  rw [← e2] at h2
  exact expandLabel_inj hr h h' k.hraw h2

/-! ### The computation of the keys -/

theorem clientHello_random {X : Type} {m : ClientHello} {ch : Bytes}
    (h : handshakeBytes (X := X) (.clientHello m) = .ok ch) : ∃ a b, a.length = 6 ∧ ch = a ++ m.random ++ b := by
  unfold handshakeBytes at h
  split at h
  · rename_i out heq
    cases h
    unfold Handshake.toBinary at heq
    split at heq
    · cases heq
    · rename_i code data hin
      have hg : Grows (do
          writeLen8Bytes m.legacySessionId
          writeLen16List CipherSuite.toBinary m.cipherSuites
          writeLen8Bytes m.legacyCompressionMethods
          writeLen16List Extension.toBinary m.extensions : WM Unit) :=
        grows_seq (grows_len8Bytes _) (grows_seq (grows_len16List fun c _ => grows_u16 _)
          (grows_seq (grows_len8Bytes _) (grows_extensions _)))
      obtain ⟨t, ht⟩ := hg (beBytes 2 m.legacyVersion ++ m.random)
      have he : m.toBinary [] = (do
          writeLen8Bytes m.legacySessionId
          writeLen16List CipherSuite.toBinary m.cipherSuites
          writeLen8Bytes m.legacyCompressionMethods
          writeLen16List Extension.toBinary m.extensions : WM Unit) (beBytes 2 m.legacyVersion ++ m.random) := rfl
      have hd : data = beBytes 2 m.legacyVersion ++ m.random ++ t := by
        rw [← ht, ← he]
        simp only [Handshake.innerToBinary, bind_def] at hin
        rcases hm : m.toBinary [] with ⟨_ | _, d⟩
        · rw [hm] at hin; cases hin
        · rw [hm] at hin; cases hin; rfl
      have ho : ch = code :: beBytes 3 data.length ++ data := by
        have : (do
          writeU8 code
          writeU24 data.length
          writeRaw data : WM Unit) [] = (.ok (), [code] ++ beBytes 3 data.length ++ data) := rfl
        rw [this] at heq
        exact (congrArg Prod.snd heq).symm
      refine ⟨code :: beBytes 3 data.length ++ beBytes 2 m.legacyVersion, t, ?_, ?_⟩
      · simp [beBytes_length]
      · rw [ho]
        generalize data.length = n
        rw [hd]
        simp
  · cases h
  · cases h

/-- C138: every connection that a handshake yields has come from a computation of its keys, with the hello of this client, which holds
its random bytes, and the secret that its private key shares with the server. -/
theorem C138_session {X K : Type} (cr : Crypto X K) (hx : cr.Expands) (hc : cr.Correct)
    (transport : Transport) (ht : transport.sent = []) (config : ClientConfig) (protocolNames : List String) (privateKey : K)
    (publicKey random sessionId : Bytes) (k : Nat) (conn : Conn)
    (h : (establishPoll cr (pollTimes cr k
      (initialState transport config protocolNames privateKey publicKey random sessionId))).1 = .ready (.ok conn)) :
    ∃ s : Session cr conn, s.flight.Legal cr ∧
      handshakeBytes (X := X)
        (.clientHello (makeClientHello random sessionId publicKey config.serverName protocolNames)) = .ok s.ch ∧
      ∃ share, Extension.keyShareServerHello ⟨.x25519, share⟩ ∈ s.flight.sh.extensions ∧ cr.agree privateKey share = some s.dhe := by
  obtain ⟨ch, f, hsSecret, hsServer, h1, h2, h3, -, -, h4, h5, -⟩ :=
    C29_server_authenticated cr hx hc transport ht config protocolNames privateKey publicKey random sessionId k conn h
  obtain ⟨share, dhe, hshare, hagree, salt, hsalt, hsec⟩ := h3.shared
  obtain ⟨master, ⟨msalt, hmsalt, hmaster⟩, hclient, hserver⟩ := h4.keys
  obtain ⟨hsClient, -, -, hhc, -⟩ := h5.answered
  exact ⟨⟨ch, f, dhe, salt, hsSecret, msalt, master, hsClient, hsServer, h3.suite.imp (·.2) (·.2), hsalt, hsec.symm, hmsalt, hmaster.symm,
    hhc, h3.key, hclient, hserver⟩, h2, h1, share, hshare, hagree⟩

/-! ### What the keys determine -/

theorem same_suite {X K : Type} {cr : Crypto X K} (hx : cr.Expands) {conn conn' : Conn} (s : Session cr conn) (s' : Session cr conn')
    {key key' : EncryptionKey} {secret label transcript secret' label' transcript' : Bytes}
    (hk : IsTrafficKey cr conn.seqenc.ciphers.hashAlg conn.seqenc.ciphers.aeadAlg secret label transcript key)
    (hk' : IsTrafficKey cr conn'.seqenc.ciphers.hashAlg conn'.seqenc.ciphers.aeadAlg secret' label' transcript' key')
    (e : key.writeKey = key'.writeKey) : conn.seqenc.ciphers = conn'.seqenc.ciphers := by
  have h1 := hx _ _ _ _ _ hk.hkey
  have h2 := hx _ _ _ _ _ hk'.hkey
  rw [← e, h1] at h2
  rcases s.suite with a | a <;> rcases s'.suite with b | b <;> rw [a, b] at h2 ⊢ <;> cases h2

theorem same_conversation {X K : Type} {cr : Crypto X K} (hx : cr.Expands) {conn conn' : Conn} (s : Session cr conn)
    (s' : Session cr conn') (hs : s.NoCollision) {key key' : EncryptionKey} {label label' : Bytes}
    (hr : Sole cr conn.seqenc.ciphers.hashAlg key.raw) (hw : Sole cr conn.seqenc.ciphers.hashAlg key.writeKey)
    (hl : label.length ≤ 249) (hl' : label'.length ≤ 249)
    (hk : IsTrafficKey cr conn.seqenc.ciphers.hashAlg conn.seqenc.ciphers.aeadAlg s.master label s.messages key)
    (hk' : IsTrafficKey cr conn'.seqenc.ciphers.hashAlg conn'.seqenc.ciphers.aeadAlg s'.master label' s'.messages key')
    (e : key.writeKey = key'.writeKey) :
    label = label' ∧ s.messages = s'.messages ∧ s.dhe = s'.dhe ∧ conn.seqenc.ciphers = conn'.seqenc.ciphers := by
  have hc := same_suite hx s s' hk hk' e
  have m1 := s'.isMaster
  have m2 := s'.isMasterSalt
  have m3 := s'.isHsSecret
  rw [← hc] at hk' m1 m2 m3
  obtain ⟨e1, e2, e3⟩ := trafficKey_inj hr hw hl hl' hk hk' e
  refine ⟨e2, ?_, ?_, hc⟩
  · exact (hs _ (by simp [Session.messages])).hash _ _ rfl e3.symm
  · obtain ⟨e4, -⟩ := (hs s.master (by simp)).extract _ _ _ _ s.isMaster (m1.trans e1.symm)
    rw [← e4] at m2
    obtain ⟨e5, -, -⟩ := expandLabel_inj (hs s.masterSalt (by simp)) (by decide) (by decide) s.isMasterSalt m2
    exact ((hs s.hsSecret (by simp)).extract _ _ _ _ s.isHsSecret (m3.trans e5.symm)).2

/-- C138: if two connections, of whatever clients and servers, have a key in common for the data of the server or for that of the client,
then the same messages were exchanged in both handshakes and both have the same shared secret and cipher suite; and a key of one direction
is never a key of the other. -/
theorem C138_same_key_same_handshake {X K : Type} (cr : Crypto X K) (hx : cr.Expands) (conn conn' : Conn) (s : Session cr conn)
    (s' : Session cr conn') (hs : s.NoCollision) :
    (conn.seqenc.trafficSecrets.server.writeKey = conn'.seqenc.trafficSecrets.server.writeKey ∨
      conn.seqenc.trafficSecrets.client.writeKey = conn'.seqenc.trafficSecrets.client.writeKey →
      s.messages = s'.messages ∧ s.dhe = s'.dhe ∧ conn.seqenc.ciphers = conn'.seqenc.ciphers) ∧
    conn.seqenc.trafficSecrets.server.writeKey ≠ conn'.seqenc.trafficSecrets.client.writeKey ∧
    conn.seqenc.trafficSecrets.client.writeKey ≠ conn'.seqenc.trafficSecrets.server.writeKey := by
  refine ⟨?_, ?_, ?_⟩
  · rintro (e | e)
    · exact (same_conversation hx s s' hs (hs _ (by simp)) (hs _ (by simp)) (by decide) (by decide) s.isServer s'.isServer e).2
    · exact (same_conversation hx s s' hs (hs _ (by simp)) (hs _ (by simp)) (by decide) (by decide) s.isClient s'.isClient e).2
  · intro e
    exact absurd (same_conversation hx s s' hs (hs _ (by simp)) (hs _ (by simp)) (by decide) (by decide) s.isServer s'.isClient e).1
      (by decide)
  · intro e
    exact absurd (same_conversation hx s s' hs (hs _ (by simp)) (hs _ (by simp)) (by decide) (by decide) s.isClient s'.isServer e).1
      (by decide)

/-- C138: the four keys of a connection, for the handshake and for the data, from the client and from the server, are different. -/
theorem C138_four_keys {X K : Type} (cr : Crypto X K) (conn : Conn) (s : Session cr conn) (hs : s.NoCollision) :
    [s.hsClient.writeKey, s.hsServer.writeKey, conn.seqenc.trafficSecrets.client.writeKey,
      conn.seqenc.trafficSecrets.server.writeKey].Nodup := by
  have key : ∀ {k k' : EncryptionKey} {secret label t secret' label' t' : Bytes},
      Sole cr conn.seqenc.ciphers.hashAlg k.raw → Sole cr conn.seqenc.ciphers.hashAlg k.writeKey → label.length ≤ 249 →
      label'.length ≤ 249 → label ≠ label' →
      IsTrafficKey cr conn.seqenc.ciphers.hashAlg conn.seqenc.ciphers.aeadAlg secret label t k →
      IsTrafficKey cr conn.seqenc.ciphers.hashAlg conn.seqenc.ciphers.aeadAlg secret' label' t' k' → k.writeKey ≠ k'.writeKey :=
    fun hr hw hl hl' hne hk hk' e => hne (trafficKey_inj hr hw hl hl' hk hk' e).2.1
  simp only [List.nodup_cons, List.mem_cons, List.not_mem_nil, or_false, not_or, not_false_iff, List.nodup_nil, and_true]
  refine ⟨⟨?_, ?_, ?_⟩, ⟨?_, ?_⟩, ?_⟩
  · exact key (hs _ (by simp)) (hs _ (by simp)) (by decide) (by decide) (by decide) s.isHsClient s.isHsServer
  · exact key (hs _ (by simp)) (hs _ (by simp)) (by decide) (by decide) (by decide) s.isHsClient s.isClient
  · exact key (hs _ (by simp)) (hs _ (by simp)) (by decide) (by decide) (by decide) s.isHsClient s.isServer
  · exact key (hs _ (by simp)) (hs _ (by simp)) (by decide) (by decide) (by decide) s.isHsServer s.isClient
  · exact key (hs _ (by simp)) (hs _ (by simp)) (by decide) (by decide) (by decide) s.isHsServer s.isServer
  · exact key (hs _ (by simp)) (hs _ (by simp)) (by decide) (by decide) (by decide) s.isClient s.isServer

/-- C138: two clients that chose different random bytes have no key in common. -/
theorem C138_random {X K : Type} (cr : Crypto X K) (hx : cr.Expands) (conn conn' : Conn) (s : Session cr conn)
    (s' : Session cr conn') (hs : s.NoCollision) (hello hello' : ClientHello)
    (hch : handshakeBytes (X := X) (.clientHello hello) = .ok s.ch) (hch' : handshakeBytes (X := X) (.clientHello hello') = .ok s'.ch)
    (hr : hello.random.length = 32) (hr' : hello'.random.length = 32) (hne : hello.random ≠ hello'.random) :
    conn.seqenc.trafficSecrets.server.writeKey ≠ conn'.seqenc.trafficSecrets.server.writeKey ∧
      conn.seqenc.trafficSecrets.client.writeKey ≠ conn'.seqenc.trafficSecrets.client.writeKey := by
  have key : s.messages ≠ s'.messages := by
    intro e
    obtain ⟨a, b, ha, e1⟩ := clientHello_random hch
    obtain ⟨a', b', ha', e2⟩ := clientHello_random hch'
    unfold Session.messages Flight.toFinished Flight.toSignature Flight.toCertificate at e
    rw [e1, e2] at e
    simp only [List.append_assoc] at e
    exact hne (List.append_inj (List.append_inj e (by omega)).2 (by omega)).1
  have h := (C138_same_key_same_handshake cr hx conn conn' s s' hs).1
  exact ⟨fun e => key (h (.inl e)).1, fun e => key (h (.inr e)).1⟩

/-! ### A case without collisions -/

/-- The calls of HKDF-Expand in the example, each with a number: secret, label, context, length. -/
def soleTable : List ((Bytes × Bytes × Nat) × UInt8) :=
  let r (n : Nat) (b : UInt8) : Bytes := List.replicate n b
  let info (label context : Bytes) (len : Nat) : Bytes :=
    [UInt8.ofNat (len / 256), UInt8.ofNat (len % 256), UInt8.ofNat (6 + label.length)] ++
      [116, 108, 115, 49, 51, 32] ++ label ++ [UInt8.ofNat context.length] ++ context
  [((r 32 101, info labelDerived [] 32, 32), 1), ((r 32 102, info labelDerived [] 32, 32), 2),
   ((r 32 102, info labelClientHs (r 32 105) 32, 32), 3), ((r 32 102, info labelServerHs (r 32 105) 32, 32), 4),
   ((r 32 103, info labelClientAp (r 32 104) 32, 32), 5), ((r 32 103, info labelServerAp (r 32 104) 32, 32), 6),
   ((r 32 3, info labelKey [] 16, 16), 7), ((r 32 4, info labelKey [] 16, 16), 8),
   ((r 32 5, info labelKey [] 16, 16), 9), ((r 32 6, info labelKey [] 16, 16), 10)]

/-- The number of a call, 0 for all others. -/
def soleTag (k : Bytes × Bytes × Nat) : UInt8 :=
  match soleTable.find? (fun p => decide (p.1 = k)) with
  | some p => p.2
  | none => 0

theorem soleTag_inj {k k' : Bytes × Bytes × Nat} (h : soleTag k = soleTag k') (h0 : soleTag k ≠ 0) : k = k' := by
  have inj : ∀ p ∈ soleTable, ∀ q ∈ soleTable, p.2 = q.2 → p.1 = q.1 := by decide +kernel
  have mem : ∀ k, soleTag k ≠ 0 → ∃ p ∈ soleTable, p.1 = k ∧ p.2 = soleTag k := by
    intro k h
    unfold soleTag at h ⊢
    cases hf : soleTable.find? (fun p => decide (p.1 = k)) with
    | none => rw [hf] at h; exact absurd rfl h
    | some p => exact ⟨p, List.mem_of_find?_eq_some hf, by simpa using List.find?_some hf, rfl⟩
  obtain ⟨p, hp, rfl, e⟩ := mem k h0
  obtain ⟨q, hq, rfl, e'⟩ := mem k' (h ▸ h0)
  exact inj p hp q hq (by rw [e, e', h])

/-- The hello of the client in the example. -/
@[irreducible] def soleHello : Bytes := toyMessage (.clientHello (makeClientHello (List.replicate 32 1) [] [] none []))
def soleServerHello : Bytes := [2, 0, 0, 34, 3, 3] ++ List.replicate 32 2

def soleFlight : Flight Unit where
  shRaw := soleServerHello
  eeRaw := toyEE
  reqRaws := []
  certRaw := [11]
  cvRaw := [15]
  finRaw := [20]
  sh := ⟨0x0303, List.replicate 32 2, [], .tlsAes128GcmSha256, 0, []⟩
  ee := []
  cert := ⟨[], []⟩
  cv := ⟨.ed25519, []⟩
  verifyData := []

/-- Primitives that give different values in the example. -/
def soleCrypto : Crypto Unit Unit :=
  { toyCrypto with
    hash := fun _ t => if t = soleFlight.toFinished soleHello then List.replicate 32 104
      else if t = soleHello ++ soleServerHello then List.replicate 32 105 else []
    hkdfExtract := fun _ s a => if s = List.replicate 32 0 ∧ a = List.replicate 32 0 then List.replicate 32 101
      else if s = List.replicate 32 1 ∧ a = [5] then List.replicate 32 102
      else if s = List.replicate 32 2 ∧ a = List.replicate 32 0 then List.replicate 32 103 else []
    hkdfExpand := fun _ a i n => some (List.replicate n (soleTag (a, i, n))) }

theorem soleCrypto_expands : soleCrypto.Expands := by
  intro alg prk info n okm h
  simp only [soleCrypto, Option.some.injEq] at h
  subst h
  simp

def soleKey (n : UInt8) : EncryptionKey := ⟨List.replicate 32 n, .aes128Gcm, List.replicate 16 (n + 4), List.replicate 12 0⟩

def soleConn : Conn :=
  ⟨.new ⟨[], [], [], [], []⟩ .new, ⟨0, 0, ⟨soleKey 5, soleKey 6⟩, ⟨.sha256, .aes128Gcm⟩⟩, [], .active⟩

def soleSession : Session soleCrypto soleConn where
  ch := soleHello
  flight := soleFlight
  dhe := [5]
  salt := List.replicate 32 1
  hsSecret := List.replicate 32 102
  masterSalt := List.replicate 32 2
  master := List.replicate 32 103
  hsClient := soleKey 3
  hsServer := soleKey 4
  suite := .inl rfl
  isSalt := by decide +kernel
  isHsSecret := by decide +kernel
  isMasterSalt := by decide +kernel
  isMaster := by decide +kernel
  isHsClient := ⟨by decide +kernel, by decide +kernel, by decide +kernel, rfl⟩
  isHsServer := ⟨by decide +kernel, by decide +kernel, by decide +kernel, rfl⟩
  isClient := ⟨by decide +kernel, by decide +kernel, by decide +kernel, rfl⟩
  isServer := ⟨by decide +kernel, by decide +kernel, by decide +kernel, rfl⟩

theorem ite_inj2 {α : Type} [DecidableEq α] {v c c' : Bytes} {t t' x y : α} (hne : v ≠ []) (hc : c ≠ c')
    (hx : (if x = t then c else if x = t' then c' else []) = v) (hy : (if y = t then c else if y = t' then c' else []) = v) : x = y := by
  split_ifs at hx hy <;> simp_all

theorem ite_inj3 {v c d e s1 s2 s3 a1 a2 a3 s t a b : Bytes} (hne : v ≠ []) (h1 : c ≠ d) (h2 : c ≠ e) (h3 : d ≠ e)
    (hx : (if s = s1 ∧ a = a1 then c else if s = s2 ∧ a = a2 then d else if s = s3 ∧ a = a3 then e else []) = v)
    (hy : (if t = s1 ∧ b = a1 then c else if t = s2 ∧ b = a2 then d else if t = s3 ∧ b = a3 then e else []) = v) :
    s = t ∧ a = b := by
  split_ifs at hx hy <;> simp_all

theorem sole_of {n : Nat} {b : UInt8} (hn : n ≠ 0) (hb : b ≠ 0) : Sole soleCrypto .sha256 (List.replicate n b) := by
  have rep : ∀ {n m : Nat} {b c : UInt8}, n ≠ 0 → List.replicate n b = List.replicate m c → n = m ∧ b = c := by
    intro n m b c hn h
    have hl := congrArg List.length h
    simp only [List.length_replicate] at hl
    subst hl
    refine ⟨rfl, ?_⟩
    obtain ⟨k, rfl⟩ := Nat.exists_eq_succ_of_ne_zero hn
    exact (List.cons.inj h).1
  refine ⟨?_, ?_, ?_⟩
  · intro x y hx hy
    have hne : (List.replicate n b) ≠ [] := by simpa using hn
    exact ite_inj2 hne (by decide) hx hy
  · intro s a t c hx hy
    have hne : (List.replicate n b) ≠ [] := by simpa using hn
    exact ite_inj3 hne (by decide) (by decide) (by decide) hx hy
  · intro a i m c j k hx hy
    simp only [soleCrypto, Option.some.injEq] at hx hy
    obtain ⟨e1, e2⟩ := rep hn hx.symm
    obtain ⟨e3, e4⟩ := rep hn hy.symm
    have := soleTag_inj (k := (a, i, m)) (k' := (c, j, k)) (by rw [← e2, ← e4]) (by rw [← e2]; exact hb)
    simpa using this

theorem sole_hash (t : Bytes) (ht : t = soleFlight.toFinished soleHello) : Sole soleCrypto .sha256 (soleCrypto.hash .sha256 t) := by
  have : soleCrypto.hash .sha256 t = List.replicate 32 104 := if_pos ht
  rw [this]
  exact sole_of (by decide) (by decide)

theorem sole_messages : soleSession.flight.toFinished soleSession.ch = soleFlight.toFinished soleHello := by
  have e1 : soleSession.flight = soleFlight := by unfold soleSession; rfl
  have e2 : soleSession.ch = soleHello := by unfold soleSession; rfl
  rw [e1, e2]

/-- The hypotheses of C138 can be met. -/
example : soleCrypto.Expands ∧ ∃ s : Session soleCrypto soleConn, s.NoCollision ∧
    handshakeBytes (X := Unit) (.clientHello (makeClientHello (List.replicate 32 1) [] [] none [])) = .ok s.ch := by
  refine ⟨soleCrypto_expands, soleSession, ?_, by decide +kernel⟩
  intro v hv
  simp only [List.mem_cons, List.not_mem_nil, or_false] at hv
  have h32 : ∀ {b : UInt8}, b ≠ 0 → Sole soleCrypto .sha256 (List.replicate 32 b) := sole_of (by decide)
  have h16 : ∀ {b : UInt8}, b ≠ 0 → Sole soleCrypto .sha256 (List.replicate 16 b) := sole_of (by decide)
  rcases hv with rfl | rfl | rfl | rfl | rfl | rfl | rfl | rfl | rfl | rfl | rfl | rfl | hv
  · exact h32 (b := 1) (by decide)
  · exact h32 (b := 102) (by decide)
  · exact h32 (b := 2) (by decide)
  · exact h32 (b := 103) (by decide)
  · exact h32 (b := 3) (by decide)
  · exact h16 (b := 7) (by decide)
  · exact h32 (b := 4) (by decide)
  · exact h16 (b := 8) (by decide)
  · exact h32 (b := 5) (by decide)
  · exact h16 (b := 9) (by decide)
  · exact h32 (b := 6) (by decide)
  · exact h16 (b := 10) (by decide)
  · subst hv
    exact sole_hash _ sole_messages

end Ngfs.Tls
