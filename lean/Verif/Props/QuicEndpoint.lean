import Verif.Lemmas.QuicEndpoint
import Verif.Props.QuicPacket

/-! Properties C134-C137: the QUIC endpoint. -/
namespace Ngfs.Quic
open Binary Spec Spec.Quic

/-! ## C134: Initial keys -/

/-- C134: the keys derived from a connection identifier are the Initial keys of RFC 9001, and they are derived whenever there are such
keys. -/
theorem C134_standard {X K : Type} (cr : Tls.Crypto X K) (dcid : Bytes) (s : ConnectionSecrets) :
    ConnectionSecrets.fromConnectionId cr .sha256 dcid = .ok s ↔ IsInitialKeys cr dcid s :=
  connectionSecrets_iff cr dcid s

/-- C134: they have the lengths of AES-128-GCM, so the nonce of a packet (C83) has twelve bytes. -/
theorem C134_lengths {X K : Type} (cr : Tls.Crypto X K) (he : Tls.Crypto.Expands cr) (dcid : Bytes) (s : ConnectionSecrets)
    (h : ConnectionSecrets.fromConnectionId cr .sha256 dcid = .ok s) :
    ∀ d ∈ [s.client, s.server], d.key.length = 16 ∧ d.iv.length = 12 ∧ d.hp.length = 16 := by
  obtain ⟨c, v, -, -, ⟨c1, c2, c3⟩, ⟨v1, v2, v3⟩⟩ := (connectionSecrets_iff cr dcid s).mp h
  intro d hd
  simp only [List.mem_cons, List.not_mem_nil, or_false] at hd
  rcases hd with rfl | rfl
  · exact ⟨he _ _ _ _ _ c1, he _ _ _ _ _ c2, he _ _ _ _ _ c3⟩
  · exact ⟨he _ _ _ _ _ v1, he _ _ _ _ _ v2, he _ _ _ _ _ v3⟩

/-- Hash functions for the examples: what is derived shows the label and the secret it is derived from. -/
def toyTls : Tls.Crypto Unit Unit where
  aeadEncrypt _ _ _ _ p := some p
  aeadDecrypt _ _ _ _ c := some c
  hash _ d := d
  hmac _ _ d := d
  hkdfExtract _ _ d := d
  hkdfExpand _ prk info n := some ((info.drop 9 ++ prk ++ List.replicate n 0).take n)
  agree _ _ := none
  sigVerify _ _ _ _ := false
  sign _ _ _ := none
  x509 _ := some ()
  publicKey _ := []
  verifyCertificate _ _ := .ok ()

theorem toyTls_expands : Tls.Crypto.Expands toyTls := by
  intro alg prk info n okm h
  simp only [toyTls, Option.some.injEq] at h
  subst h
  simp
  omega

/-- C134: keys are derived, and those of the two directions differ. -/
example : ∃ s, ConnectionSecrets.fromConnectionId toyTls .sha256 [1, 2, 3] = .ok s ∧ s.client.key ≠ s.server.key := ⟨_, rfl, by decide⟩

/-! ## C135: the first packet of a client -/

/-- A cipher for the examples whose tag shows the key. -/
def keyedCrypto : Crypto where
  aes k b := List.zipWith (· + ·) (k ++ k) (b.map (· * 7 + 3))
  encrypt k _ _ p := some (p ++ (k ++ List.replicate 16 0).take 16)
  decrypt k _ _ ct :=
    if ct.drop (ct.length - 16) = (k ++ List.replicate 16 0).take 16 then some (ct.take (ct.length - 16)) else none

theorem keyed_correct : Correct keyedCrypto := by
  intro k n a p ct h
  simp only [keyedCrypto, Option.some.injEq] at h ⊢
  subst h
  simp

theorem Endpoint.get_insert (e : Endpoint) (id id' : Bytes) (s : ConnectionSecrets) :
    (e.insert id s).get id' = if id' = id then some s else e.get id' := by
  unfold Endpoint.get Endpoint.insert
  by_cases h : id' = id
  · subst h; simp
  · have h' : ¬ id = id' := fun h2 => h h2.symm
    rw [if_neg h, List.find?_cons_of_neg (by simpa using h'), List.find?_filter]
    congr 2
    funext x
    by_cases hx : x.1 = id'
    · simp [hx, h]
    · simp [hx]

/-- A packet that is understood has the header of an Initial packet. -/
theorem parsePacket_ok {c : Crypto} {f : Bytes → Option Secrets} {packet : Bytes} {p : Initial} (hl : packet.length < 2 ^ 64)
    (h : parsePacket c f packet = .ok p) : ∃ token length off, InitialHeader packet p.dcid p.scid token length off := by
  rcases parsePacket_cases c f packet hl with h1 | ⟨e, h1, -⟩ | ⟨dcid, scid, token, length, off, h1⟩ | ⟨h1, -⟩
  · rw [h1] at h; cases h
  · rw [h1] at h; cases h
  · have h2 := parsePacket_header c f h1 hl
    rw [h2, parseBody] at h
    split at h
    · cases h
    · split at h
      · cases h
      · split at h
        · cases h
        · cases h; exact ⟨_, _, _, h1⟩
  · rw [h1] at h; cases h

/-- What a packet adds to the table. -/
theorem recv_get {X K : Type} (c : Crypto) (cr : Tls.Crypto X K) (e : Endpoint) (packet id : Bytes) (hl : packet.length < 2 ^ 64)
    (h : (e.recv c cr packet).2.2.get id ≠ none) : e.get id ≠ none ∨ SentUnder id [packet] := by
  rw [Endpoint.recv] at h
  cases hp : parsePacket c (e.secretsFor cr) packet with
  | error err => simp only [hp] at h; exact .inl h
  | ok p =>
    simp only [hp] at h
    rcases hh : handlePacket cr p.dcid p.frames with ⟨hs, r⟩
    cases r with
    | error err => simp only [hh] at h; exact .inl h
    | ok u =>
      simp only [hh] at h
      cases hg : e.get p.dcid with
      | some _ => simp only [hg] at h; exact .inl h
      | none =>
        simp only [hg] at h
        cases hs : ConnectionSecrets.fromConnectionId cr .sha256 p.dcid with
        | error _ => simp only [hs] at h; exact .inl h
        | ok s =>
          simp only [hs, Endpoint.get_insert] at h
          by_cases hi : id = p.scid
          · right
            obtain ⟨token, length, off, hh⟩ := parsePacket_ok hl hp
            exact ⟨packet, by simp, p.dcid, token, length, off, by rw [hi]; exact hh⟩
          · rw [if_neg hi] at h; exact .inl h

theorem recvAll_cons {X K : Type} {c : Crypto} {cr : Tls.Crypto X K} {e e' : Endpoint} {p : Bytes} {ps : List Bytes}
    (h : e.recvAll c cr (p :: ps) = some e') : (e.recv c cr p).2.2.recvAll c cr ps = some e' := by
  rw [Endpoint.recvAll] at h
  rcases hr : e.recv c cr p with ⟨a, r, e2⟩
  rw [hr] at h
  cases r with
  | ok u => exact h
  | error err => cases err <;> first | exact h | cases h

theorem recvAll_get {X K : Type} (c : Crypto) (cr : Tls.Crypto X K) (packets : List Bytes) (e e' : Endpoint) (id : Bytes)
    (hl : ∀ p ∈ packets, p.length < 2 ^ 64) (h : e.recvAll c cr packets = some e') (hg : e'.get id ≠ none) :
    e.get id ≠ none ∨ SentUnder id packets := by
  induction packets generalizing e with
  | nil => cases h; exact .inl hg
  | cons p ps ih =>
    rcases ih _ (fun q hq => hl q (by simp [hq])) (recvAll_cons h) with h1 | ⟨q, hq, hh⟩
    · rcases recv_get c cr e p id (hl p (by simp)) h1 with h2 | ⟨q, hq, hh⟩
      · exact .inl h2
      · exact .inr ⟨q, by simp at hq; simp [hq], hh⟩
    · exact .inr ⟨q, by simp [hq], hh⟩

/-- The conditions on what a client chooses: identifiers of at most twenty bytes, 32 random bytes, and a key (32 bytes for X25519). -/
structure ClientChoice (dcid scid publicKey random : Bytes) : Prop where
  dcid : dcid.length ≤ 20
  scid : scid.length ≤ 20
  publicKey : publicKey.length ≤ 1000
  random : random.length = 32

/-- C135: whatever packets an endpoint has received before, it understands the first packet of a client: it shows the client's
ClientHello, and it then has a connection under the client's identifier with the Initial keys of the identifier the client chose for it,
all other connections being as before. -/
def C135_statement : Prop :=
  ∀ (X K : Type) (c : Crypto) (cr : Tls.Crypto X K) (earlier : List Bytes) (e ec ec' : Endpoint)
    (dcid scid publicKey random packet : Bytes), Correct c → (∀ p ∈ earlier, p.length < 2 ^ 64) →
    Endpoint.new.recvAll c cr earlier = some e → ClientChoice dcid scid publicKey random →
    ec.connect c cr dcid scid publicKey random = .ok (packet, ec') →
    ∃ hello e', e.recv c cr packet = ([.clientHello hello], .ok (), e') ∧ Introduces hello scid publicKey random ∧
      (∃ s, IsInitialKeys cr dcid s ∧ e'.get scid = some s) ∧ ∀ id, id ≠ scid → e'.get id = e.get id

/-- The first message of the client. -/
abbrev helloOf (scid publicKey random : Bytes) : Tls.ClientHello :=
  makeClientHello [Tls.ascii "hq-29"] publicKey [.initialSource scid] random

theorem hello_written (X : Type) {dcid scid publicKey random : Bytes} (hcc : ClientChoice dcid scid publicKey random) :
    ∃ data, (Tls.Handshake.clientHello (helloOf scid publicKey random) : Tls.Handshake X).toBinary [] = (.ok (), data) ∧
      1 ≤ data.length ∧ data.length ≤ 2000 := by
  obtain ⟨hd, hsc, hpk, hrnd⟩ := hcc
  have hparams := encodeList_source_length hsc
  have hname : Adds (writeItems Tls.ProtocolName.toBinary ([Tls.ascii "hq-29"].map fun n => ⟨n⟩)) 6 :=
    adds_cons (adds_len8Bytes (d := Tls.ascii "hq-29") (by decide)) (adds_nil _)
  have hadd := hello_adds (publicKey := publicKey) (random := random) (params := [.initialSource scid]) hname (by omega)
  obtain ⟨data, hlen, hw⟩ := adds_toBinary (X := X) hadd []
  rw [List.nil_append] at hw
  rw [hrnd] at hlen
  exact ⟨data, hw, by omega, by omega⟩

theorem hello_params {scid : Bytes} (hsc : scid.length ≤ 20) : ∀ p ∈ [Param.initialSource scid], WellFormed p := by
  intro p hp
  simp only [List.mem_cons, List.not_mem_nil, or_false] at hp
  subst hp
  exact hsc

theorem hello_checked {scid : Bytes} (publicKey random : Bytes) (hsc : scid.length ≤ 20) :
    checkParams (helloOf scid publicKey random).extensions = .ok () := by
  have := encodeList_source_length hsc
  simp only [helloOf, makeClientHello, checkParams]
  rw [C46_round_trip_partial _ (hello_params hsc) (by omega)]
  simp

theorem hello_introduces {scid : Bytes} (publicKey random : Bytes) (hsc : scid.length ≤ 20) :
    Introduces (helloOf scid publicKey random) scid publicKey random := by
  have e29 : Tls.ascii "hq-29" = [104, 113, 45, 50, 57] := by decide
  refine ⟨rfl, by simp [makeClientHello], by simp [makeClientHello, e29], _, ?_, encodeList_paramsOf (hello_params hsc)⟩
  simp [makeClientHello]

/-- A message alone in a packet. -/
theorem handle_single {X K : Type} {cr : Tls.Crypto X K} {dcid data : Bytes} {m : Tls.Handshake X} {fs : List Frame}
    (hm : m.WellFormed cr.x509) (hf : ∀ v, m ≠ .finished v) (hw : m.toBinary [] = (.ok (), data)) (hd : data.length < 2 ^ 24)
    (hc : checkHandshake cr dcid true m = .ok ()) (hfs : cryptoReceived fs = data) : handlePacket cr dcid fs = ([m], .ok ()) := by
  have hpop := tryPop_message cr.x509 m hm hf hw hd [] (by simp; omega)
  rw [List.append_nil, if_pos rfl] at hpop
  have hne : data.length = (data.length - 1) + 1 := by
    obtain ⟨code, len, body, he, -⟩ := Tls.C54_written_length_partial m [] _ hw
    have := congrArg List.length he
    simp at this
    omega
  rw [handlePacket, hfs, hne]
  exact processLoop_single hpop hc

/-- The first packet of a client and an endpoint that has no connection under its destination. -/
theorem connect_recv {X K : Type} {c : Crypto} {cr : Tls.Crypto X K} {e ec ec' : Endpoint} {dcid scid publicKey random packet : Bytes}
    (hc : Correct c) (hcc : ClientChoice dcid scid publicKey random) (hg : e.get dcid = none)
    (h : ec.connect c cr dcid scid publicKey random = .ok (packet, ec')) :
    ∃ hello e', e.recv c cr packet = ([.clientHello hello], .ok (), e') ∧ Introduces hello scid publicKey random ∧
      (∃ s, IsInitialKeys cr dcid s ∧ e'.get scid = some s) ∧ ∀ id, id ≠ scid → e'.get id = e.get id := by
  obtain ⟨data, hw, hlen1, hlen⟩ := hello_written X hcc
  obtain ⟨hd, hsc, hpk, hrnd⟩ := hcc
  rw [Endpoint.connect] at h
  cases hs : ConnectionSecrets.fromConnectionId cr .sha256 dcid with
  | error _ => simp [hs] at h
  | ok s =>
    simp only [hs] at h
    have hwf : (Tls.Handshake.clientHello (helloOf scid publicKey random) : Tls.Handshake X).WellFormed cr.x509 := hello_wellFormed hrnd
    have hin := hello_introduces publicKey random hsc
    have hck := hello_checked publicKey random hsc
    change (match makeInitialFor (X := X) c dcid scid [] (.clientHello (helloOf scid publicKey random)) s.client with
      | .error err => _
      | .ok packet => _) = _ at h
    generalize helloOf scid publicKey random = hello at *
    cases hm : makeInitialFor c dcid scid [] (.clientHello hello : Tls.Handshake X) s.client with
    | error err => simp [hm] at h
    | ok pk =>
      simp only [hm, Except.ok.injEq, Prod.mk.injEq] at h
      obtain ⟨rfl, -⟩ := h
      simp only [makeInitialFor, hw] at hm
      have hpad := (C85_padded c s.client dcid scid [] _ pk 0 hm).2
      have h8 : ∀ v, (quicVarintBytes v).length ≤ 8 := fun v => by
        rw [quicVarintBytes_length]; split <;> [omega; split <;> [omega; split <;> omega]]
      have h80 := h8 0
      have h8d := h8 data.length
      simp only [List.length_append, List.length_cons, List.length_nil] at hpad
      have hparse := C78_make_initial c s.client (e.secretsFor cr) dcid scid [] data pk hc hd hsc (by omega)
        (by simp [Endpoint.secretsFor, hg, hs]) hm (by omega)
      have hch : checkHandshake cr dcid true (.clientHello hello) = .ok () := by
        refine checkHandshake_ok hs ?_
        intro h' hh
        cases hh
        exact hck
      have hhp := handle_single (fs := [.crypto 0 data]) hwf (by simp) hw (by omega) hch (by simp [cryptoReceived])
      refine ⟨hello, e.insert scid s, ?_, hin, ⟨s, (connectionSecrets_iff cr dcid s).mp hs, ?_⟩, ?_⟩
      · simp only [Endpoint.recv, hparse, hhp, hg, hs]
      · simp [Endpoint.get_insert]
      · intro id hid
        simp [Endpoint.get_insert, hid]

/-- C135, unless an earlier packet was sent under the very identifier this client chose as destination. -/
theorem C135_first_packet_partial {X K : Type} (c : Crypto) (cr : Tls.Crypto X K) (earlier : List Bytes) (e ec ec' : Endpoint)
    (dcid scid publicKey random packet : Bytes) (hc : Correct c) (hl : ∀ p ∈ earlier, p.length < 2 ^ 64)
    (he : Endpoint.new.recvAll c cr earlier = some e) (hcc : ClientChoice dcid scid publicKey random)
    (h : ec.connect c cr dcid scid publicKey random = .ok (packet, ec')) (hno : ¬ SentUnder dcid earlier) :
    ∃ hello e', e.recv c cr packet = ([.clientHello hello], .ok (), e') ∧ Introduces hello scid publicKey random ∧
      (∃ s, IsInitialKeys cr dcid s ∧ e'.get scid = some s) ∧ ∀ id, id ≠ scid → e'.get id = e.get id := by
  refine connect_recv hc hcc ?_ h
  by_contra hg
  rcases recvAll_get c cr earlier _ e dcid hl he hg with h1 | h1
  · exact h1 rfl
  · exact hno h1

/-- C135: the client's first packet can always be made, if the keys can be derived and the cipher accepts its input. -/
theorem C135_connects {X K : Type} (c : Crypto) (cr : Tls.Crypto X K) (ec : Endpoint) (dcid scid publicKey random : Bytes)
    (hc : Correct c) (hcc : ClientChoice dcid scid publicKey random) (s : ConnectionSecrets) (hs : IsInitialKeys cr dcid s)
    (he : ∀ n a p, ∃ ct, c.encrypt s.client.key n a p = some ct) :
    ∃ packet ec', ec.connect c cr dcid scid publicKey random = .ok (packet, ec') ∧ ec'.get scid = some s := by
  obtain ⟨data, hw, -⟩ := hello_written X hcc
  have hs' := (connectionSecrets_iff cr dcid s).mpr hs
  obtain ⟨packet, hp⟩ := C85_succeeds c s.client dcid scid [] ([0x06] ++ quicVarintBytes 0 ++ quicVarintBytes data.length ++ data) 0 hc he
  refine ⟨packet, ec.insert scid s, ?_, by simp [Endpoint.get_insert]⟩
  simp only [Endpoint.connect, hs', makeInitialFor, hw, makeInitial, hp]

/-- C135: the client understands what is sent to its identifier under the server's Initial keys of the identifier it chose: a legal
message other than Finished, in one packet. -/
theorem C135_answer {X K : Type} (c : Crypto) (cr : Tls.Crypto X K) (ec ec' : Endpoint) (dcid scid publicKey random packet : Bytes)
    (hc : Correct c) (hcc : ClientChoice dcid scid publicKey random)
    (h : ec.connect c cr dcid scid publicKey random = .ok (packet, ec')) (s s' : ConnectionSecrets) (hs : IsInitialKeys cr dcid s)
    (hs' : IsInitialKeys cr scid s') (m : Tls.Handshake X) (hm : m.WellFormed cr.x509) (hf : ∀ v, m ≠ .finished v)
    (hnc : ∀ hello, m ≠ .clientHello hello) (data : Bytes) (hw : m.toBinary [] = (.ok (), data)) (hlen : data.length + 30 < 2 ^ 14)
    (sid token answer : Bytes) (hsid : sid.length ≤ 20) (ha : makeInitialFor c scid sid token m s.server = .ok answer)
    (hl : answer.length < 2 ^ 62) : ec'.recv c cr answer = ([m], .ok (), ec') := by
  obtain ⟨hd, hsc, hpk, hrnd⟩ := hcc
  rw [Endpoint.connect, (connectionSecrets_iff cr dcid s).mpr hs] at h
  have hec : ec' = ec.insert scid s := by
    simp only at h
    split at h
    · cases h
    · cases h; rfl
  have hg : ec'.get scid = some s := by rw [hec]; simp [Endpoint.get_insert]
  simp only [makeInitialFor, hw] at ha
  have hparse := C78_make_initial c s.server (ec'.secretsFor cr) scid sid token data answer hc hsc hsid hlen
    (by simp [Endpoint.secretsFor, hg]) ha hl
  have hch : checkHandshake cr scid true m = .ok () :=
    checkHandshake_ok ((connectionSecrets_iff cr scid s').mpr hs') fun hello hh => absurd hh (hnc hello)
  have hhp := handle_single (fs := [.crypto 0 data]) hm hf hw (by omega) hch (by simp [cryptoReceived])
  simp only [Endpoint.recv, hparse, hhp, hg]

/-- The length of the first packet. -/
theorem connect_length {X K : Type} {c : Crypto} {cr : Tls.Crypto X K} {ec ec' : Endpoint} {dcid scid publicKey random packet : Bytes}
    (hcc : ClientChoice dcid scid publicKey random) (h : ec.connect c cr dcid scid publicKey random = .ok (packet, ec')) :
    packet.length < 2 ^ 64 := by
  obtain ⟨data, hw, hlen1, hlen⟩ := hello_written X hcc
  obtain ⟨hd, hsc, hpk, hrnd⟩ := hcc
  rw [Endpoint.connect] at h
  cases hs : ConnectionSecrets.fromConnectionId cr .sha256 dcid with
  | error _ => simp [hs] at h
  | ok s =>
    simp only [hs, makeInitialFor, hw] at h
    cases hm : makeInitial c dcid scid [] data s.client with
    | error err => simp [hm] at h
    | ok pk =>
      simp only [hm, Except.ok.injEq, Prod.mk.injEq] at h
      obtain ⟨rfl, -⟩ := h
      have hpad := (C85_padded c s.client dcid scid [] _ pk 0 hm).2
      have h8 : ∀ v, (quicVarintBytes v).length ≤ 8 := fun v => by
        rw [quicVarintBytes_length]; split <;> [omega; split <;> [omega; split <;> omega]]
      have h80 := h8 0
      have h8d := h8 data.length
      simp only [List.length_append, List.length_cons, List.length_nil] at hpad
      omega

/-- The first packet is addressed to the identifier chosen for the server. -/
theorem connect_header {X K : Type} {c : Crypto} {cr : Tls.Crypto X K} {ec ec' : Endpoint} {dcid scid publicKey random packet : Bytes}
    (hc : Correct c) (hcc : ClientChoice dcid scid publicKey random)
    (h : ec.connect c cr dcid scid publicKey random = .ok (packet, ec')) :
    ∃ token length off, InitialHeader packet dcid scid token length off := by
  have hl := connect_length hcc h
  obtain ⟨data, hw, hlen1, hlen⟩ := hello_written X hcc
  obtain ⟨hd, hsc, hpk, hrnd⟩ := hcc
  rw [Endpoint.connect] at h
  cases hs : ConnectionSecrets.fromConnectionId cr .sha256 dcid with
  | error _ => simp [hs] at h
  | ok s =>
    simp only [hs, makeInitialFor, hw] at h
    cases hm : makeInitial c dcid scid [] data s.client with
    | error err => simp [hm] at h
    | ok pk =>
      simp only [hm, Except.ok.injEq, Prod.mk.injEq] at h
      obtain ⟨rfl, -⟩ := h
      have hpad := (C85_padded c s.client dcid scid [] _ pk 0 hm).2
      have h8 : ∀ v, (quicVarintBytes v).length ≤ 8 := fun v => by
        rw [quicVarintBytes_length]; split <;> [omega; split <;> [omega; split <;> omega]]
      have h80 := h8 0
      have h8d := h8 data.length
      simp only [List.length_append, List.length_cons, List.length_nil] at hpad
      have hparse := C78_make_initial c s.client (fun _ => some s.client) dcid scid [] data pk hc hd hsc (by omega) rfl hm (by omega)
      obtain ⟨token, length, off, hh⟩ := parsePacket_ok hl hparse
      exact ⟨token, length, off, hh⟩

/-- What is read depends on the secrets of one identifier only. -/
theorem parsePacket_agree {c : Crypto} {f g : Bytes → Option Secrets} {packet dcid : Bytes} (hl : packet.length < 2 ^ 64)
    (hh : ∃ scid token length off, InitialHeader packet dcid scid token length off) (hfg : f dcid = g dcid) :
    parsePacket c f packet = parsePacket c g packet := by
  obtain ⟨scid, token, length, off, hh⟩ := hh
  rw [parsePacket_header c f hh hl, parsePacket_header c g hh hl, parseBody, parseBody, hfg]

/-- A client that uses one identifier for both ends. -/
theorem sameChoice : ClientChoice [1] [1] [7, 7] (List.replicate 32 5) := ⟨by decide, by decide, by decide, by decide⟩

/-- The packet a client sends. -/
def sent : Except Err (Bytes × Endpoint) → Bytes
  | .ok (packet, _) => packet
  | .error _ => []

/-- Its first packet. -/
def samePacket : Bytes :=
  [205, 0, 0, 0, 1, 1, 1, 1, 1, 0, 68, 164, 120, 44, 5, 42, 6, 0, 64, 169, 1, 0, 0, 165, 3, 3, 5, 5, 5, 5, 5, 5, 5, 5, 5, 5, 5,
     5, 5, 5, 5, 5, 5, 5, 5, 5, 5, 5, 5, 5, 5, 5, 5, 5, 5, 5, 5, 5, 0, 0, 6, 19, 1, 19, 2, 0, 255, 1, 0, 0, 118, 0, 11, 0, 4, 3,
     0, 1, 2, 0, 10, 0, 12, 0, 10, 0, 29, 0, 23, 0, 30, 0, 25, 0, 24, 51, 116, 0, 0, 0, 16, 0, 8, 0, 6, 5, 104, 113, 45, 50, 57,
     0, 22, 0, 0, 0, 23, 0, 0, 0, 49, 0, 0, 0, 13, 0, 30, 0, 28, 4, 3, 5, 3, 6, 3, 8, 7, 8, 8, 8, 9, 8, 10, 8, 11, 8, 4, 8, 5, 8,
     6, 4, 1, 5, 1, 6, 1, 0, 43, 0, 3, 2, 3, 4, 0, 45, 0, 2, 1, 1, 0, 51, 0, 8, 0, 6, 0, 29, 0, 2, 7, 7, 0, 57, 0, 3, 15, 1, 1] ++
    List.replicate 995 0 ++ [113, 117, 105, 99, 32, 107, 101, 121, 0, 99, 108, 105, 101, 110, 116, 32]

theorem samePacket_eq : sent (Endpoint.new.connect keyedCrypto toyTls [1] [1] [7, 7] (List.replicate 32 5)) = samePacket := by
  decide +kernel

theorem keys_of (dcid : Bytes) : ∃ s, IsInitialKeys toyTls dcid s := by
  exact ⟨_, (connectionSecrets_iff toyTls dcid _).mp rfl⟩

theorem same_connects : ∃ ec, Endpoint.new.connect keyedCrypto toyTls [1] [1] [7, 7] (List.replicate 32 5) = .ok (samePacket, ec) := by
  obtain ⟨s, hs⟩ := keys_of [1]
  obtain ⟨packet, ec, h, -⟩ := C135_connects keyedCrypto toyTls .new [1] [1] [7, 7] (List.replicate 32 5) keyed_correct sameChoice s hs
    (fun n a p => ⟨_, rfl⟩)
  have := samePacket_eq
  rw [h, sent] at this
  exact ⟨ec, by rw [h, this]⟩

/-- The server's keys for the identifier. -/
def sameSecrets : Secrets :=
  match ConnectionSecrets.fromConnectionId toyTls .sha256 [1] with
  | .ok s => s.server
  | .error _ => ⟨[], [], []⟩

/-- Whether a result is the failure to decrypt. -/
def isCrypt : Except Err Initial → Bool
  | .error .crypt => true
  | _ => false

/-- The packet is not protected with the server's keys. -/
theorem same_unreadable : isCrypt (parsePacket keyedCrypto (fun _ => some sameSecrets) samePacket) = true := by
  have hl : samePacket.length = 1200 := by decide +kernel
  have hh : InitialHeader samePacket [1] [1] [] 1188 12 :=
    ⟨205, [0], [68, 164], samePacket.drop 12, by decide +kernel, by decide, by decide, by decide, ⟨0, [], rfl, by decide, by decide⟩,
      ⟨68, [164], rfl, by decide, by decide⟩, by rw [List.length_drop, hl]⟩
  rw [parsePacket_header _ _ hh (by rw [hl]; norm_num)]
  decide +kernel

theorem refuted {packet : Bytes} {ec : Endpoint}
    (hec : Endpoint.new.connect keyedCrypto toyTls [1] [1] [7, 7] (List.replicate 32 5) = .ok (packet, ec))
    (h3 : isCrypt (parsePacket keyedCrypto (fun _ => some sameSecrets) packet) = true) : ¬ C135_statement := by
  intro hst
  obtain ⟨hello, e, h1, -, ⟨s, hs, hg⟩, -⟩ := connect_recv (e := .new) keyed_correct sameChoice rfl hec
  have he : Endpoint.new.recvAll keyedCrypto toyTls [packet] = some e := by simp only [Endpoint.recvAll, h1]
  have hl : packet.length < 2 ^ 64 := connect_length sameChoice hec
  obtain ⟨hello', e', h2, -⟩ := hst Unit Unit keyedCrypto toyTls [packet] e .new ec [1] [1] [7, 7] (List.replicate 32 5) packet
    keyed_correct (by simpa using hl) he sameChoice hec
  have hsec : e.secretsFor toyTls [1] = some sameSecrets := by
    rw [Endpoint.secretsFor, hg, sameSecrets, (connectionSecrets_iff toyTls [1] s).mpr hs]
  rw [Endpoint.recv] at h2
  cases hp : parsePacket keyedCrypto (e.secretsFor toyTls) packet with
  | error err => simp [hp] at h2
  | ok p =>
    have hh := connect_header keyed_correct sameChoice hec
    rw [← parsePacket_agree hl ⟨_, hh⟩ hsec, hp] at h3
    cases h3

/-- C135 is false: a client that uses one identifier for both ends sends its first packet twice, as it has to if there is no answer. -/
theorem C135_false : ¬ C135_statement := by
  obtain ⟨ec, hec⟩ := same_connects
  exact refuted hec same_unreadable

/-- An Initial packet has one header. -/
theorem header_unique {packet d s t d' s' t' : Bytes} {l o l' o' : Nat} (h : InitialHeader packet d s t l o)
    (h' : InitialHeader packet d' s' t' l' o') (hl : packet.length < 2 ^ 64) : d = d' ∧ s = s' := by
  have key : ∀ {d s t l o}, InitialHeader packet d s t l o → ∃ b r, readLongHeader (.new packet) = (.ok (b, d, s), r) := by
    intro d s t l o h
    obtain ⟨b0, tle, le, rest, he, hb, hd, hs, -⟩ := h
    have he' : packet = longBytes b0 d s ++ (tle ++ t ++ le) ++ rest := he
    have h1 := readsAs_long b0 hd hs [] ((tle ++ t ++ le) ++ rest) (by
      rw [List.nil_append, ← List.append_assoc, ← he']; exact hl)
    rw [List.nil_append, ← List.append_assoc, ← he', List.length_nil, Nat.zero_add] at h1
    exact ⟨b0, _, h1⟩
  obtain ⟨b, r, h1⟩ := key h
  obtain ⟨b', r', h2⟩ := key h'
  rw [h1] at h2
  simp only [Prod.mk.injEq, Except.ok.injEq] at h2
  exact ⟨h2.1.2.1, h2.1.2.2⟩

/-- C135: the conditions of the positive part are met, with an earlier packet from another client. -/
example : ∃ earlier packet e ec, earlier ≠ [] ∧ Endpoint.new.recvAll keyedCrypto toyTls earlier = some e ∧
    Endpoint.new.connect keyedCrypto toyTls [3] [4] [7, 7] (List.replicate 32 5) = .ok (packet, ec) ∧ ¬ SentUnder [3] earlier := by
  have key : ∀ id : UInt8, ∃ packet ec, Endpoint.new.connect keyedCrypto toyTls [id] [4] [7, 7] (List.replicate 32 5) = .ok (packet, ec) := by
    intro id
    obtain ⟨s, hs⟩ := keys_of [id]
    obtain ⟨packet, ec, h, -⟩ := C135_connects keyedCrypto toyTls .new [id] [4] [7, 7] (List.replicate 32 5) keyed_correct
      ⟨by simp, by simp, by simp, by simp⟩ s hs (fun n a p => ⟨_, rfl⟩)
    exact ⟨packet, ec, h⟩
  obtain ⟨p1, ec1, h1⟩ := key 1
  obtain ⟨p3, ec3, h3⟩ := key 3
  have hcc : ClientChoice [1] [4] [7, 7] (List.replicate 32 5) := ⟨by simp, by simp, by simp, by simp⟩
  obtain ⟨hello, e, h2, -⟩ := connect_recv (e := .new) keyed_correct hcc rfl h1
  refine ⟨[p1], p3, e, ec3, by simp, by simp only [Endpoint.recvAll, h2], h3, ?_⟩
  rintro ⟨p, hp, dcid, token, length, off, hh⟩
  simp only [List.mem_cons, List.not_mem_nil, or_false] at hp
  subst hp
  obtain ⟨t, l, o, h4⟩ := connect_header keyed_correct hcc h1
  have := (header_unique hh h4 (connect_length hcc h1)).2
  simp at this

/-! ## C136: handshake data that crashes the endpoint -/

/-- C136: no data in CRYPTO frames makes the endpoint panic. -/
def C136_statement : Prop :=
  ∀ (X K : Type) (cr : Tls.Crypto X K) (dcid : Bytes) (fs : List Frame), (cryptoReceived fs).length < 2 ^ 64 →
    (handlePacket cr dcid fs).2 ≠ .error .panic

/-- C136: whatever follows a legal message (other than Finished) in the same packet, the endpoint panics. -/
theorem C136_followed_panics {X K : Type} (cr : Tls.Crypto X K) (dcid : Bytes) (fs : List Frame) (m : Tls.Handshake X)
    (hm : m.WellFormed cr.x509) (hf : ∀ v, m ≠ .finished v) (data extra : Bytes) (hw : m.toBinary [] = (.ok (), data))
    (hd : data.length < 2 ^ 24) (hx : extra ≠ []) (hfs : cryptoReceived fs = data ++ extra) (hl : (data ++ extra).length < 2 ^ 64) :
    handlePacket cr dcid fs = ([], .error .panic) := by
  have hpop := tryPop_message cr.x509 m hm hf hw hd extra hl
  rw [if_neg hx] at hpop
  rw [handlePacket, hfs, processLoop, hpop]

/-- A legal message for the examples. -/
def verifyMessage : Tls.Handshake Unit := .certificateVerify ⟨.ed25519, [0xaa]⟩

theorem verify_legal : verifyMessage.WellFormed toyTls.x509 := ⟨fun c hc => (by cases hc), by decide⟩

theorem verify_written : verifyMessage.toBinary [] = (.ok (), [15, 0, 0, 5, 8, 7, 0, 1, 0xaa]) := rfl

/-- C136 is false: a CertificateVerify message and one more byte. -/
theorem C136_false : ¬ C136_statement := by
  intro h
  refine h Unit Unit toyTls [1] [.crypto 0 [15, 0, 0, 5, 8, 7, 0, 1, 0xaa], .crypto 9 [1]] (by decide) ?_
  rw [C136_followed_panics toyTls [1] _ verifyMessage verify_legal (by simp [verifyMessage]) _ [1] verify_written (by decide) (by decide)
    (by simp [cryptoReceived]) (by decide)]

/-- C136, for a packet that carries one legal message other than Finished, whose transport parameters, if it is a ClientHello, are in
their shortest form: that message is shown. -/
theorem C136_single_partial {X K : Type} (cr : Tls.Crypto X K) (dcid : Bytes) (s : ConnectionSecrets) (hs : IsInitialKeys cr dcid s)
    (fs : List Frame) (m : Tls.Handshake X) (hm : m.WellFormed cr.x509) (hf : ∀ v, m ≠ .finished v) (data : Bytes)
    (hw : m.toBinary [] = (.ok (), data)) (hd : data.length < 2 ^ 24) (hfs : cryptoReceived fs = data)
    (hp : ∀ hello tp, m = .clientHello hello → .transportParameters tp ∈ hello.extensions → tp.length < 2 ^ 64 ∧ ShortParams tp) :
    handlePacket cr dcid fs = ([m], .ok ()) := by
  refine handle_single hm hf hw hd (checkHandshake_ok ((connectionSecrets_iff cr dcid s).mpr hs) ?_) hfs
  intro hello hh
  exact checkParams_ok fun tp ht => hp hello tp hh ht

/-- C136, except for three kinds of data: somewhere in it a complete message begins, by its header, which is a KeyUpdate, or which is read
as a message that, written again, is not the rest of the data, or which is a ClientHello with transport parameters that are written
differently. -/
theorem C136_only_these_partial {X K : Type} (cr : Tls.Crypto X K) (dcid : Bytes) (fs : List Frame)
    (hl : (cryptoReceived fs).length < 2 ^ 64) (h : (handlePacket cr dcid fs).2 = .error .panic) :
    ∃ pre suf code len rest, cryptoReceived fs = pre ++ suf ∧ suf = code :: len ++ rest ∧ len.length = 3 ∧ bigEndian len ≤ rest.length ∧
      (code = 24 ∨ (∃ m, (Tls.Handshake.fromBinary cr.x509 (.new suf)).1 = .ok m ∧ m.toBinary [] ≠ (.ok (), suf)) ∨
        ∃ hello data ps, (Tls.Handshake.fromBinary cr.x509 (.new suf)).1 = .ok (.clientHello hello) ∧
          .transportParameters data ∈ hello.extensions ∧ decodeList data = .ok ps ∧ encodeList ps ≠ data) :=
  processLoop_panic _ _ _ hl h

/-- C136: the conditions are met by a CertificateVerify message in two frames, with a PING frame between them. -/
example : handlePacket toyTls [1] [.crypto 0 [15, 0, 0, 5, 8], .ping, .crypto 5 [7, 0, 1, 0xaa]] = ([verifyMessage], .ok ()) := by
  obtain ⟨s, hs⟩ := keys_of [1]
  exact C136_single_partial toyTls [1] s hs _ verifyMessage verify_legal (by simp [verifyMessage]) _ verify_written (by decide)
    (by simp [cryptoReceived]) (by simp [verifyMessage])

/-! ## C137: messages in several packets -/

/-- C137: a legal message whose bytes are spread over two packets of a connection, at their places, has been shown when both have
arrived. -/
def C137_statement : Prop :=
  ∀ (X K : Type) (c : Crypto) (cr : Tls.Crypto X K) (e e' : Endpoint) (p1 p2 dcid scid t1 t2 data1 data2 : Bytes) (n1 n2 : Nat)
    (shown1 shown2 : List (Tls.Handshake X)) (r2 : Except Err Unit × Endpoint) (m : Tls.Handshake X),
    m.WellFormed cr.x509 → (∀ v, m ≠ .finished v) → m.toBinary [] = (.ok (), data1 ++ data2) → (data1 ++ data2).length < 2 ^ 14 →
    parsePacket c (e.secretsFor cr) p1 = .ok ⟨dcid, scid, t1, n1, [.crypto 0 data1]⟩ →
    e.recv c cr p1 = (shown1, .ok (), e') →
    parsePacket c (e'.secretsFor cr) p2 = .ok ⟨dcid, scid, t2, n2, [.crypto data1.length data2]⟩ →
    e'.recv c cr p2 = (shown2, r2) →
    m ∈ shown1 ++ shown2

/-- C137: the first part of a message is put away. -/
theorem C137_part_dropped {X K : Type} (cr : Tls.Crypto X K) (dcid : Bytes) (fs : List Frame) (m : Tls.Handshake X) (part more : Bytes)
    (hw : m.toBinary [] = (.ok (), part ++ more)) (hm : more ≠ []) (hd : (part ++ more).length < 2 ^ 24)
    (hfs : cryptoReceived fs = part) : handlePacket cr dcid fs = ([], .ok ()) := by
  obtain ⟨code, len, body, he, h3, hb, -⟩ := Tls.C54_written_length_partial m [] _ hw
  rw [List.nil_append] at he
  have hlen := congrArg List.length he
  have hml : more.length ≠ 0 := by simpa using hm
  have hpop : tryPop cr.x509 part = .ok none := by
    by_cases h4 : part.length < 4
    · exact tryPop_short _ h4
    · obtain ⟨c', l', r', rfl, h3'⟩ := header_split h4
      rw [List.append_assoc] at he
      simp only [List.cons_append, List.cons.injEq] at he
      obtain ⟨-, he⟩ := he
      obtain ⟨rfl, hr⟩ := List.append_inj he (by rw [h3', h3])
      have hbl : body.length = r'.length + more.length := by rw [← hr]; simp
      rw [tryPop_eq _ _ _ _ h3' (by simp at hd ⊢; omega), if_pos]
      rw [hb, Nat.mod_eq_of_lt] <;> simp at hlen hd <;> omega
  rw [handlePacket, hfs, processLoop, hpop]

theorem inOrder_data (data : Bytes) (fs : List CryptoFrame) (n : Nat) (hin : InOrder n fs) (hfs : ∀ f ∈ fs, FrameOf data f) :
    fs.flatMap (·.data) = (data.drop n).take ((fs.map (·.data.length)).sum) := by
  induction fs generalizing n with
  | nil => simp
  | cons f fs ih =>
    obtain ⟨h1, h2⟩ := hin
    obtain ⟨-, h3⟩ := hfs f (by simp)
    rw [List.flatMap_cons, ih _ h2 fun g hg => hfs g (by simp [hg]), List.map_cons, List.sum_cons, List.take_add, List.drop_drop]
    congr 1
    rw [h1] at h3
    exact h3

/-- C137, for frames of one packet: a legal message other than Finished whose bytes are in the CRYPTO frames of one packet, one after
the other, is shown. -/
theorem C137_one_packet_partial {X K : Type} (cr : Tls.Crypto X K) (dcid : Bytes) (s : ConnectionSecrets) (hs : IsInitialKeys cr dcid s)
    (fs : List Frame) (m : Tls.Handshake X) (hm : m.WellFormed cr.x509) (hf : ∀ v, m ≠ .finished v) (data : Bytes)
    (hw : m.toBinary [] = (.ok (), data)) (hd : data.length < 2 ^ 24) (hin : InOrder 0 (cryptoFrames fs))
    (hfs : ∀ f ∈ cryptoFrames fs, FrameOf data f) (hall : ((cryptoFrames fs).map (·.data.length)).sum = data.length)
    (hp : ∀ hello tp, m = .clientHello hello → .transportParameters tp ∈ hello.extensions → tp.length < 2 ^ 64 ∧ ShortParams tp) :
    handlePacket cr dcid fs = ([m], .ok ()) := by
  refine C136_single_partial cr dcid s hs fs m hm hf data hw hd ?_ hp
  rw [cryptoReceived_eq, inOrder_data data _ 0 hin hfs, hall]
  simp

/-- C137 is false: the last byte of a message comes in a second packet. -/
theorem C137_false : ¬ C137_statement := by
  intro h
  obtain ⟨s, hs⟩ := keys_of [1]
  have hs' := (connectionSecrets_iff toyTls [1] s).mpr hs
  have mk : ∀ (offset : Nat) (data : Bytes), offset < 60 → data.length < 60 → ∃ packet, packet.length < 2 ^ 62 ∧
      ∀ f : Bytes → Option Secrets, f [1] = some s.client →
        parsePacket keyedCrypto f packet = .ok ⟨[1], [2], [], 0, [.crypto offset data]⟩ := by
    intro offset data ho hd
    have hf : FramesOf 0x02 (0x06 :: (quicVarintBytes offset ++ quicVarintBytes data.length ++ data) ++ []) [.crypto offset data] :=
      .crypto (isVarint_quic (by omega)) (isVarint_quic (by omega)) .nil
    have h8 : ∀ v, (quicVarintBytes v).length ≤ 8 := fun v => by
      rw [quicVarintBytes_length]; split <;> [omega; split <;> [omega; split <;> omega]]
    have h81 := h8 offset
    have h82 := h8 data.length
    have hlen : (0x06 :: (quicVarintBytes offset ++ quicVarintBytes data.length ++ data) ++ []).length ≤ 100 := by simp; omega
    generalize (0x06 :: (quicVarintBytes offset ++ quicVarintBytes data.length ++ data) ++ [] : Bytes) = payload at hf hlen
    obtain ⟨packet, hp⟩ := C85_succeeds keyedCrypto s.client [1] [2] [] payload 0 keyed_correct (fun n a p => ⟨_, rfl⟩)
    have hpad := (C85_padded keyedCrypto s.client [1] [2] [] payload packet 0 hp).2
    simp only [List.length_cons, List.length_nil] at hpad
    refine ⟨packet, by omega, fun f hsec => ?_⟩
    have := C78_round_trip_partial keyedCrypto s.client f [1] [2] [] payload packet [] 0 _ keyed_correct (by simp) (by simp) (by norm_num)
      (by omega) hf hsec hp (by simp; omega)
    simpa using this
  obtain ⟨p1, -, h1⟩ := mk 0 [15, 0, 0, 5, 8, 7, 0, 1] (by decide) (by decide)
  obtain ⟨p2, -, h2⟩ := mk 8 [0xaa] (by decide) (by decide)
  have g1 : Endpoint.new.secretsFor toyTls [1] = some s.client := by simp [Endpoint.secretsFor, Endpoint.get, Endpoint.new, hs']
  have hd1 := C137_part_dropped toyTls [1] [.crypto 0 [15, 0, 0, 5, 8, 7, 0, 1]] verifyMessage [15, 0, 0, 5, 8, 7, 0, 1] [0xaa] verify_written
    (by decide) (by decide) rfl
  have r1 : Endpoint.new.recv keyedCrypto toyTls p1 = ([], .ok (), Endpoint.new.insert [2] s) := by
    simp only [Endpoint.recv, h1 _ g1, hd1, hs']
    rfl
  have hg : (Endpoint.new.insert [2] s).get [1] = none := by rw [Endpoint.get_insert, if_neg (by simp)]; rfl
  have g2 : (Endpoint.new.insert [2] s).secretsFor toyTls [1] = some s.client := by
    simp only [Endpoint.secretsFor, hg, hs']
  have r2 : (Endpoint.new.insert [2] s).recv keyedCrypto toyTls p2 = ([], .ok (), (Endpoint.new.insert [2] s).insert [2] s) := by
    have : handlePacket toyTls [1] [.crypto 8 [0xaa]] = ([], .ok ()) := rfl
    simp only [Endpoint.recv, h2 _ g2, this, hg, hs']
  have := h Unit Unit keyedCrypto toyTls .new _ p1 p2 [1] [2] [] [] [15, 0, 0, 5, 8, 7, 0, 1] [0xaa] 0 0 [] [] _ verifyMessage verify_legal
    (by simp [verifyMessage]) verify_written (by decide) (h1 _ g1) r1 (h2 _ g2) r2
  simp at this

end Ngfs.Quic
