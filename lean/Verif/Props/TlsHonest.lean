import Verif.Lemmas.TlsHonest
import Verif.Props.TlsHandshake

/-! C160: the TLS client reaches every honest server. -/
namespace Ngfs.Tls

open Ngfs.Binary

/-- The handshake with an honest server, and what is left afterwards for the connection. -/
theorem honest_connection {X K : Type} (cr : Crypto X K) (hw : cr.Works) (hx : cr.Expands) (hc : cr.Correct)
    (transport : Transport) (ht : transport.sent = []) (config : ClientConfig) (protocolNames : List String) (privateKey : K)
    (publicKey random sessionId ch : Bytes)
    (hch : handshakeBytes (X := X)
      (.clientHello (makeClientHello random sessionId publicKey config.serverName protocolNames)) = .ok ch)
    (husable : config.clientAuth.Usable cr)
    (f : Flight X) (hf : f.Legal cr) (ciphers : Ciphers) (hsSecret : Bytes) (hsServer : EncryptionKey)
    (hagreed : Agreed cr f.sh f.shRaw privateKey ch ciphers hsSecret hsServer)
    (hone : ∀ s1 s2, Extension.keyShareServerHello ⟨.x25519, s1⟩ ∈ f.sh.extensions →
      Extension.keyShareServerHello ⟨.x25519, s2⟩ ∈ f.sh.extensions → s1 = s2)
    (hauth : f.Authenticated cr config ch ciphers hsServer)
    (sp : Spare) (es : List ReadEvent) (hreads : transport.reads = es ++ List.replicate sp.ends (.ready []))
    (hben : ∀ e ∈ es, e = .pending ∨ ∃ d, d ≠ [] ∧ e = .ready d) (hdata : readData es = wire sp.flight ++ sp.rest)
    (w0 : WireRecord) (ws : List WireRecord) (hleg : ∀ w ∈ sp.flight, w.Legal)
    (hfil : sp.flight.filter (fun w => w.typ != 20) = w0 :: ws) (h22 : w0.typ = 22) (hfr : w0.fragment = f.shRaw)
    (hprot : ProtectsAll cr hsServer 0 ws (f.encrypted.map fun raw => (22, raw)))
    (htake : WillTake transport.writes (ch.length + 16650 + sp.bytes)) (hflush : WillFlush transport.flushes (sp.flushes + 2)) :
    ∃ k conn, k ≤ transport.reads.length + transport.writes.length + transport.flushes.length ∧
      (∀ j, j < k → (establishPoll cr (pollTimes cr j
        (initialState transport config protocolNames privateKey publicKey random sessionId : ECState X K))).1 = .pending) ∧
      (establishPoll cr (pollTimes cr k
        (initialState transport config protocolNames privateKey publicKey random sessionId))).1 = .ready (.ok conn) ∧
      conn.Fresh ∧ conn.seqenc.ciphers = ciphers ∧ f.Keys cr ch ciphers hsSecret conn.seqenc.trafficSecrets ∧
      Ahead sp conn.plaintext ∧ WillTake conn.plaintext.inner.writes sp.bytes ∧
      WillFlush conn.plaintext.inner.flushes sp.flushes := by
  obtain ⟨reqs, hreqs, hraws, hparses⟩ : ∃ reqs : List (Handshake X × Bytes), IsReqs reqs ∧ reqs.map Prod.snd = f.reqRaws ∧
      ∀ m ∈ reqs, Parses cr m.2 m.1 := by
    rcases hf.req with hreq | ⟨raw, req, hreq, hp⟩
    · exact ⟨[], .inl rfl, hreq.symm, nofun⟩
    · refine ⟨[(.certificateRequest req, raw)], .inr ⟨req, raw, rfl⟩, by rw [hreq]; rfl, ?_⟩
      intro m hm
      rw [List.mem_singleton] at hm
      subst hm
      exact hp
  have hmsgs : ∀ m ∈ f.msgs reqs, Parses cr m.2 m.1 := by
    intro m hm
    simp only [Flight.msgs, List.mem_append, List.mem_cons, List.not_mem_nil, or_false] at hm
    rcases hm with (rfl | hm) | rfl | rfl | rfl
    · exact hf.ee
    · exact hparses m hm
    · exact hf.cert
    · exact hf.cv
    · exact hf.fin
  have hrun : Run cr config privateKey ch f ciphers hsSecret hsServer reqs :=
    ⟨hw, hx, hc, hf, hagreed, hone, hauth, husable, hreqs, hraws, hmsgs⟩
  have henc : (f.msgs reqs).map (fun m => ((22 : UInt8), m.2)) = f.encrypted.map fun raw => (22, raw) := by
    simp [Flight.msgs, Flight.encrypted, ← hraws]
  have hout : (encodeRecord .handshake 0x0301 ch).length = ch.length + 5 := by
    simp [encodeRecord, beBytes]
  let s0 : ECState X K := initialState transport config protocolNames privateKey publicKey random sessionId
  have hs0 : s0 = .begin ⟨config, privateKey, ch,
      { PlaintextStream.new transport .new with outgoing := [] ++ encodeRecord .handshake 0x0301 ch }⟩ := by
    show initialState transport config protocolNames privateKey publicKey random sessionId = _
    unfold initialState
    rw [hch]
    rfl
  have hgood : Good cr config privateKey ch f ciphers hsSecret hsServer reqs sp s0 := by
    rw [hs0]
    refine ⟨rfl, rfl, rfl, ?_, hflush, sp.flight, w0, ws,
      ⟨hleg, List.suffix_refl _, es, sp.ends, hreads, ?_, ?_, .inl rfl, by omega⟩, hfil, h22, hfr, ?_⟩
    · refine willTake_mono htake ?_
      have hl : ([] ++ encodeRecord .handshake 0x0301 ch : Bytes).length = ch.length + 5 := by rw [List.nil_append]; exact hout
      simp only [hl]
      omega
    · intro e he
      rcases hben e he with rfl | ⟨d, hd, rfl⟩
      · trivial
      · exact hd
    · show [] ++ readData es = _
      rw [List.nil_append, hdata]
    · rw [henc]; exact hprot
  have hans : s0.answers ≤ transport.reads.length + transport.writes.length + transport.flushes.length := by
    rw [hs0]; exact Nat.le_refl _
  obtain ⟨k, conn, h1, h2, h3, h4⟩ := pollTimes_go hrun _ hans hgood
  obtain ⟨_, _, _, _, _, _, _, _, _, _, _, hfresh⟩ :=
    C29_server_authenticated cr hx hc transport ht config protocolNames privateKey publicKey random sessionId k conn h2
  exact ⟨k, conn, h1, h3, h2, hfresh, h4⟩

/-- C160. Let the server answer the client's hello with a legal flight that is right for the key agreement and
authenticates the server, let the transport bring it in pieces of any sizes with pauses anywhere, take what the client
writes in pieces of any sizes with pauses anywhere, and never fail, and let the primitives and the client's own credentials
work. Then, after at most as many polls as the transport gives answers, the handshake yields a connection; until then it
waits and never fails. The connection has the application keys of the key schedule and record numbers 0, and what came
behind the flight is still to be read, with nothing before it but ChangeCipherSpec records. -/
theorem C160_honest_server_reached {X K : Type} (cr : Crypto X K) (hw : cr.Works) (hx : cr.Expands) (hc : cr.Correct)
    (transport : Transport) (ht : transport.sent = []) (config : ClientConfig) (protocolNames : List String) (privateKey : K)
    (publicKey random sessionId ch : Bytes)
    (hch : handshakeBytes (X := X)
      (.clientHello (makeClientHello random sessionId publicKey config.serverName protocolNames)) = .ok ch)
    (husable : config.clientAuth.Usable cr)
    (f : Flight X) (hf : f.Legal cr) (ciphers : Ciphers) (hsSecret : Bytes) (hsServer : EncryptionKey)
    (hagreed : Agreed cr f.sh f.shRaw privateKey ch ciphers hsSecret hsServer)
    (hone : ∀ s1 s2, Extension.keyShareServerHello ⟨.x25519, s1⟩ ∈ f.sh.extensions →
      Extension.keyShareServerHello ⟨.x25519, s2⟩ ∈ f.sh.extensions → s1 = s2)
    (hauth : f.Authenticated cr config ch ciphers hsServer)
    (total rest : Bytes) (hbring : WillBring transport.reads total)
    (harr : Arrived cr f.shRaw f.encrypted hsServer total rest)
    (htake : WillTake transport.writes (ch.length + 16650)) (hflush : WillFlush transport.flushes 2) :
    ∃ k conn, k ≤ transport.reads.length + transport.writes.length + transport.flushes.length ∧
      (∀ j, j < k → (establishPoll cr (pollTimes cr j
        (initialState transport config protocolNames privateKey publicKey random sessionId : ECState X K))).1 = .pending) ∧
      (establishPoll cr (pollTimes cr k
        (initialState transport config protocolNames privateKey publicKey random sessionId))).1 = .ready (.ok conn) ∧
      conn.Fresh ∧ conn.seqenc.ciphers = ciphers ∧ f.Keys cr ch ciphers hsSecret conn.seqenc.trafficSecrets ∧
      ∃ ccs : List WireRecord, (∀ w ∈ ccs, w.Legal ∧ w.typ = 20) ∧ conn.plaintext.unread = wire ccs ++ rest := by
  obtain ⟨es, n, hreads, hben, hdata⟩ := hbring
  obtain ⟨w0, ws, all, hleg, hfil, htot, h22, hfr, hprot⟩ := harr
  obtain ⟨k, conn, h1, h2, h3, h4, h5, h6, ⟨ccs, h7, h8⟩, -, -⟩ := honest_connection cr hw hx hc transport ht config protocolNames
    privateKey publicKey random sessionId ch hch husable f hf ciphers hsSecret hsServer hagreed hone hauth
    ⟨all, rest, n, 0, 0⟩ es hreads hben (hdata.trans htot) w0 ws hleg hfil h22 hfr hprot htake hflush
  exact ⟨k, conn, h1, h2, h3, h4, h5, h6, ccs, fun w hw => ⟨h8.legal w hw, h7 w hw⟩, h8.unread⟩

/-! ### An example -/

/-- The primitives of the example, with keyed hashes of the right lengths. -/
def honestCrypto : Crypto Unit Unit := { toyCrypto with hmac := fun alg _ _ => List.replicate (hashLen alg) 2, hkdfExtract := fun alg _ _ => List.replicate (hashLen alg) 3 }

theorem honestCrypto_works : honestCrypto.Works where
  extract := fun alg _ _ => by simp [honestCrypto]
  expand := fun _ _ _ n _ _ => ⟨List.replicate n 4, rfl⟩
  encrypt := fun _ _ _ _ _ _ _ _ _ => ⟨_, rfl⟩
  hmac := fun alg _ _ => by simp [honestCrypto]

/-- The flight of the example. -/
def honestFlight : Flight Unit where
  shRaw := toyServerHello
  eeRaw := toyEE
  reqRaws := []
  certRaw := toyCert
  cvRaw := toyVerify
  finRaw := toyFinished 32
  sh := ⟨0x0303, List.replicate 32 7, [], .tlsAes128GcmSha256, 0, [.keyShareServerHello ⟨.x25519, [9, 9]⟩]⟩
  ee := []
  cert := ⟨[], [⟨[1, 2, 3], (), []⟩]⟩
  cv := ⟨.ed25519, [6]⟩
  verifyData := List.replicate 32 2

theorem honestFlight_legal : honestFlight.Legal honestCrypto where
  sh := by unfold Parses; decide +kernel
  ee := by unfold Parses; decide +kernel
  req := .inl rfl
  cert := by unfold Parses; decide +kernel
  cv := by unfold Parses; decide +kernel
  fin := by unfold Parses; decide +kernel

theorem honestFlight_agreed (ch : Bytes) :
    Agreed honestCrypto honestFlight.sh honestFlight.shRaw () ch ⟨.sha256, .aes128Gcm⟩ (List.replicate 32 3) toyHsKey where
  shared := ⟨[9, 9], [5], by simp [honestFlight], rfl, List.replicate 32 4, rfl, rfl⟩
  suite := .inl ⟨rfl, rfl⟩
  key := ⟨rfl, rfl, rfl, rfl⟩

theorem honestFlight_authenticated (ch : Bytes) :
    honestFlight.Authenticated honestCrypto toyConfig ch ⟨.sha256, .aes128Gcm⟩ toyHsKey where
  certificate := ⟨⟨[1, 2, 3], (), []⟩, [], [1], rfl, rfl, rfl, rfl⟩
  scheme := by simp [honestFlight]
  finished := ⟨List.replicate 32 4, rfl, rfl⟩

/-- A protected record of the example. -/
def honestRecord (n : Nat) (content : Bytes) : WireRecord :=
  ⟨23, 3, 3, match honestCrypto.aeadEncrypt .aes128Gcm toyHsKey.writeKey (nonceSpec toyHsKey.writeIv n)
      [23, 3, 3, UInt8.ofNat ((content.length + 17) / 256), UInt8.ofNat ((content.length + 17) % 256)] (content ++ [22]) with
    | some c => c
    | none => []⟩

/-- The records of the example: ServerHello, a ChangeCipherSpec record, the protected messages. -/
def honestRecords : List WireRecord :=
  [⟨22, 3, 3, toyServerHello⟩, ⟨20, 3, 3, [1]⟩, honestRecord 0 toyEE, honestRecord 1 toyCert, honestRecord 2 toyVerify,
    honestRecord 3 (toyFinished 32)]

theorem honestRecords_arrive : Arrived honestCrypto honestFlight.shRaw honestFlight.encrypted toyHsKey
    (wire honestRecords ++ [23, 3]) [23, 3] := by
  refine ⟨⟨22, 3, 3, toyServerHello⟩, [honestRecord 0 toyEE, honestRecord 1 toyCert, honestRecord 2 toyVerify,
    honestRecord 3 (toyFinished 32)], honestRecords, ?_, ?_, rfl, rfl, rfl, ?_⟩
  · unfold WireRecord.Legal
    decide +kernel
  · decide +kernel
  · refine ⟨?_, ⟨0, ?_⟩, ?_, ⟨0, ?_⟩, ?_, ⟨0, ?_⟩, ?_, ⟨0, ?_⟩, trivial⟩
    all_goals first | decide +kernel | (unfold WireRecord.Legal; decide +kernel)

/-- The hypotheses can be met: the example flight arrives in two pieces, cut in the middle of a record, with a pause
between, and with more behind it; the client has a certificate. -/
example : honestCrypto.Works ∧ honestCrypto.Expands ∧ honestCrypto.Correct ∧ toyConfig.clientAuth.Usable honestCrypto ∧
    honestFlight.Legal honestCrypto ∧ ∃ (ch : Bytes) (transport : Transport), transport.sent = [] ∧
      handshakeBytes (X := Unit) (.clientHello (makeClientHello (List.replicate 32 1) (List.replicate 32 2)
        (List.replicate 32 8) toyConfig.serverName ["h2"])) = .ok ch ∧
      Agreed honestCrypto honestFlight.sh honestFlight.shRaw () ch ⟨.sha256, .aes128Gcm⟩ (List.replicate 32 3) toyHsKey ∧
      honestFlight.Authenticated honestCrypto toyConfig ch ⟨.sha256, .aes128Gcm⟩ toyHsKey ∧
      WillBring transport.reads (wire honestRecords ++ [23, 3]) ∧
      Arrived honestCrypto honestFlight.shRaw honestFlight.encrypted toyHsKey (wire honestRecords ++ [23, 3]) [23, 3] ∧
      WillTake transport.writes (ch.length + 16650) ∧ WillFlush transport.flushes 2 := by
  refine ⟨honestCrypto_works, toyCrypto_expands, toyCrypto_correct, ⟨⟨(), rfl⟩, by decide, fun _ => ⟨[6], rfl, by decide⟩⟩,
    honestFlight_legal, ?_⟩
  have hch : (handshakeBytes (X := Unit) (.clientHello (makeClientHello (List.replicate 32 1) (List.replicate 32 2)
        (List.replicate 32 8) toyConfig.serverName ["h2"]))).toOption.isSome = true := by decide +kernel
  generalize handshakeBytes (X := Unit) (.clientHello (makeClientHello (List.replicate 32 1) (List.replicate 32 2)
        (List.replicate 32 8) toyConfig.serverName ["h2"])) = r at hch
  rcases r with e | ch
  · cases hch
  refine ⟨ch, ⟨[.ready ((wire honestRecords ++ [23, 3]).take 60), .pending, .ready ((wire honestRecords ++ [23, 3]).drop 60)],
    List.replicate (ch.length + 16650) (.accept 1), [.pending, .ok, .ok], [], []⟩, rfl, rfl, honestFlight_agreed ch,
    honestFlight_authenticated ch, ⟨_, 0, by rw [List.replicate_zero, List.append_nil], ?_, ?_⟩, honestRecords_arrive, ⟨?_, ?_⟩, ⟨?_, Nat.le_refl 2⟩⟩
  · intro e he
    simp only [List.mem_cons, List.not_mem_nil, or_false] at he
    rcases he with rfl | rfl | rfl
    · exact .inr ⟨_, by decide +kernel, rfl⟩
    · exact .inl rfl
    · exact .inr ⟨_, by decide +kernel, rfl⟩
  · simp only [readData, List.append_nil]
    exact List.take_append_drop _ _
  · intro e he
    exact .inr ⟨1, by omega, List.eq_of_mem_replicate he⟩
  · rw [List.filter_replicate]
    simp
  · simp

end Ngfs.Tls
