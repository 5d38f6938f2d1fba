import Verif.Lemmas.TlsAnswer
import Verif.Props.TlsHonest
import Verif.Props.TlsTool

/-!
C163: the TLS client program shows the whole answer of an honest server.
-/
namespace Ngfs.Tls
open Ngfs.Spec

/-- The application keys that follow a handshake are unique. -/
theorem keys_unique {X K : Type} {cr : Crypto X K} {f : Flight X} {ch hsSecret : Bytes} {ciphers : Ciphers}
    {k1 k2 : TrafficSecrets} (h1 : f.Keys cr ch ciphers hsSecret k1) (h2 : f.Keys cr ch ciphers hsSecret k2) :
    k1.client = k2.client ∧ k1.server = k2.server := by
  obtain ⟨m1, ⟨s1, a1, rfl⟩, b1, c1⟩ := h1.keys
  obtain ⟨m2, ⟨s2, a2, rfl⟩, b2, c2⟩ := h2.keys
  rw [a1] at a2
  cases a2
  exact ⟨isTrafficKey_unique b1 b2, isTrafficKey_unique c1 c2⟩

/-- **C163**. The options are right, and the address is reached. The server answers the ClientHello with an honest
flight, and after that sends any data, with session tickets anywhere between, then closes: first with the alert, then the
connection itself. The transport brings all that in pieces of any sizes with pauses anywhere, goes on saying that it has
ended, and takes what is sent, in pieces of any sizes with pauses anywhere. Then, after enough polls, the program has
shown exactly that data and has reported the end, and it has not failed. -/
theorem C163_answer_shown {X K : Type} (cr : Crypto X K) (hw : cr.Works) (hx : cr.Expands) (hc : cr.Correct) (n : Nat)
    (files : String → Except IoKind Bytes) (opt : ToolOpt) (config : ClientConfig) (hopt : parseArgs n files opt = .ok config)
    (socket : String → Except IoKind Transport) (transport : Transport)
    (hsocket : socket (opt.address.getD "localhost:443") = .ok transport) (ht : transport.sent = []) (privateKey : K)
    (publicKey random sessionId ch : Bytes)
    (hch : handshakeBytes (X := X)
      (.clientHello (makeClientHello random sessionId publicKey (some "localhost") ["h2", "http/1.1"])) = .ok ch)
    (husable : config.clientAuth.Usable cr)
    (f : Flight X) (hf : f.Legal cr) (ciphers : Ciphers) (hsSecret : Bytes) (hsServer : EncryptionKey)
    (hagreed : Agreed cr f.sh f.shRaw privateKey ch ciphers hsSecret hsServer)
    (hone : ∀ s1 s2, Extension.keyShareServerHello ⟨.x25519, s1⟩ ∈ f.sh.extensions →
      Extension.keyShareServerHello ⟨.x25519, s2⟩ ∈ f.sh.extensions → s1 = s2)
    (hauth : f.Authenticated cr { config with serverName := some "localhost" } ch ciphers hsServer)
    (keys : TrafficSecrets) (hkeys : f.Keys cr ch ciphers hsSecret keys)
    (flight answer : List WireRecord) (ms : List (UInt8 × Bytes))
    (hsends : ServerSends cr f hsServer keys.server flight answer ms)
    (k : Nat) (hk : answer.length + 2 ≤ k) (hbring : Brings transport.reads (wire flight ++ wire answer) k)
    (htake : WillTake transport.writes (ch.length + 33295)) (hflush : WillFlush transport.flushes 4) :
    ∃ m c shown, (∀ j, m ≤ j → Tool.run cr j (Tool.start n files opt socket privateKey publicKey random sessionId) =
        ⟨.ended c, shown ++ [.eof]⟩) ∧
      shownBytes shown = answerData ms ∧ .eof ∉ shown := by
  obtain ⟨es, hreads, hben, hdata⟩ := hbring
  obtain ⟨w0, ws, hfil, h22, hfr, hprot⟩ := hsends.handshake
  obtain ⟨k1, conn, -, a2, a3, a4, a5, a6, ⟨ccs, a7, a8⟩, a9, a10⟩ := honest_connection cr hw hx hc transport ht
    { config with serverName := some "localhost" } ["h2", "http/1.1"]
    privateKey publicKey random sessionId ch hch husable f hf ciphers hsSecret hsServer hagreed hone hauth
    ⟨flight, wire answer, k, 16645, 2⟩ es hreads
    (by
      intro e he
      have := hben e he
      rcases e with _ | d | x
      · exact .inl rfl
      · exact .inr ⟨d, this, rfl⟩
      · exact absurd this id)
    hdata w0 ws hsends.legal hfil h22 hfr hprot (willTake_mono htake (by simp only; omega)) hflush
  have hccs : ccs = [] := by
    rcases List.eq_nil_or_concat ccs with h | ⟨l, b, h⟩
    · exact h
    · obtain ⟨pre, hpre⟩ := a8.suffix
      simp only at hpre
      have hl : flight.getLast? = some b := by rw [← hpre, h]; simp
      exact absurd (a7 b (by rw [h]; simp)) (hsends.last b hl)
  subst hccs
  obtain ⟨hcl, hse⟩ := keys_unique a6 hkeys
  obtain ⟨master, -, hkc, -⟩ := a6.keys
  obtain ⟨k2, conn2, b1, b2⟩ := run_writing (X := X) (K := K) hw hc request request_ne request_length (conn.plaintext.answers + 1)
    a4.writing (by rw [hkc.haead]; exact hx _ _ _ _ _ hkc.hkey) a4.clientIv (by rw [a4.outgoing]; exact willTake_mono a9 (by simp)) a10 (Nat.lt_succ_self _)
  simp only [Conn.rx, Prod.mk.injEq] at b2
  obtain ⟨c1, c2, c3, c4, c5, c6⟩ := b2
  obtain ⟨-, -, es', k', d1, d2, d3, d4, d5⟩ := a8
  simp only at d3 d5
  have hlen : answer.length = ms.length + 1 := by
    have : ∀ (n : Nat) (ws : List WireRecord) (ms : List (UInt8 × Bytes)),
        ProtectsAll cr keys.server n ws ms → ws.length = ms.length := by
      intro n ws
      induction ws generalizing n with
      | nil => intro ms h; rcases ms with _ | ⟨m, ms⟩; rfl; exact absurd h id
      | cons w ws ih =>
        intro ms h
        rcases ms with _ | ⟨m, ms⟩
        · exact absurd h id
        · simp [ih _ _ h.2.2]
    simpa using this _ _ _ hsends.sealed
  have hax : Ax cr conn2 ms es' k' answer := by
    refine ⟨by rw [c4]; exact a4.serverIv, by rw [c6]; exact a4.reading, ?_, by rw [c2]; exact d1, d2, by rw [c1]; exact d4, ?_,
      hsends.outer, by omega, hsends.data⟩
    · rw [c1, d3]; rfl
    · rw [c4, c3, a4.serverSeq, hse]; exact hsends.sealed
  obtain ⟨k3, c, shown, e1, e2, e3⟩ := run_reading (X := X) (K := K) _ hax [] (Nat.le_refl _)
  rw [c5, a4.decrypted, List.nil_append] at e2
  refine ⟨k1 + 1 + (k2 + k3), c, shown, ?_, e2, e3⟩
  intro j hj
  obtain ⟨i, rfl⟩ : ∃ i, j = k1 + 1 + (k2 + k3) + i := ⟨j - (k1 + 1 + (k2 + k3)), by omega⟩
  have hstart : Tool.start (X := X) n files opt socket privateKey publicKey random sessionId = ⟨.connecting (initialState transport
      { config with serverName := some "localhost" } ["h2", "http/1.1"] privateKey publicKey random sessionId), []⟩ := by
    unfold Tool.start
    rw [hopt]
    simp only [hsocket]
  rw [hstart, run_add, run_add, run_connecting cr conn k1 _ a2 a3, run_add, b1, e1, run_ended]
  rfl

/-! ### An example -/

/-- A session ticket. -/
def exampleTicket : Bytes := [4, 0, 0, 14, 0, 0, 0, 1, 0, 0, 0, 2, 0, 0, 1, 7, 0, 0]

/-- The answer of the example: a ticket, data, another ticket, more data. -/
def exampleAnswer : List (UInt8 × Bytes) := [(22, exampleTicket), (23, [1, 2]), (22, exampleTicket), (23, [3])]

/-- A protected record of the example. -/
def exampleAnswerRecord (n : Nat) (m : UInt8 × Bytes) : WireRecord :=
  ⟨23, 3, 3, match honestCrypto.aeadEncrypt .aes128Gcm toyHsKey.writeKey (nonceSpec toyHsKey.writeIv n)
      [23, 3, 3, UInt8.ofNat ((m.2.length + 17) / 256), UInt8.ofNat ((m.2.length + 17) % 256)] (m.2 ++ [m.1]) with
    | some c => c
    | none => []⟩

def exampleAnswerRecords : List WireRecord :=
  [exampleAnswerRecord 0 (22, exampleTicket), exampleAnswerRecord 1 (23, [1, 2]), exampleAnswerRecord 2 (22, exampleTicket),
    exampleAnswerRecord 3 (23, [3]), exampleAnswerRecord 4 closeMessage]

theorem exampleAnswer_sent : ServerSends honestCrypto honestFlight toyHsKey toyHsKey honestRecords exampleAnswerRecords
    exampleAnswer where
  legal := by unfold WireRecord.Legal; decide +kernel
  last := by
    intro w hw
    have : honestRecords.getLast? = some (honestRecord 3 (toyFinished 32)) := by decide +kernel
    rw [this] at hw
    cases hw
    decide +kernel
  handshake := by
    refine ⟨⟨22, 3, 3, toyServerHello⟩, [honestRecord 0 toyEE, honestRecord 1 toyCert, honestRecord 2 toyVerify,
      honestRecord 3 (toyFinished 32)], ?_, rfl, rfl, ?_⟩
    · decide +kernel
    · refine ⟨?_, ⟨0, ?_⟩, ?_, ⟨0, ?_⟩, ?_, ⟨0, ?_⟩, ?_, ⟨0, ?_⟩, trivial⟩
      all_goals first | decide +kernel | (unfold WireRecord.Legal; decide +kernel)
  data := by
    have ht : Parses honestCrypto exampleTicket (.newSessionTicket ⟨1, 2, [], [7], []⟩) := by unfold Parses; decide +kernel
    intro m hm
    simp only [exampleAnswer, List.mem_cons, List.not_mem_nil, or_false] at hm
    rcases hm with rfl | rfl | rfl | rfl
    · exact .inr ⟨rfl, _, ht⟩
    · exact .inl ⟨rfl, by simp⟩
    · exact .inr ⟨rfl, _, ht⟩
    · exact .inl ⟨rfl, by simp⟩
  sealed := by
    refine ⟨?_, ⟨0, ?_⟩, ?_, ⟨0, ?_⟩, ?_, ⟨0, ?_⟩, ?_, ⟨0, ?_⟩, ?_, ⟨0, ?_⟩, trivial⟩
    all_goals first | decide +kernel | (unfold WireRecord.Legal; decide +kernel)
  outer := by unfold WireRecord.Outer; decide +kernel

theorem exampleKeys (ch : Bytes) : honestFlight.Keys honestCrypto ch ⟨.sha256, .aes128Gcm⟩ (List.replicate 32 3) ⟨toyHsKey, toyHsKey⟩ :=
  ⟨⟨_, ⟨List.replicate 32 4, rfl, rfl⟩, ⟨rfl, rfl, rfl, rfl⟩, ⟨rfl, rfl, rfl, rfl⟩⟩⟩

/-- The hypotheses can be met: options with an authority's certificate, a server with the example flight and the example
answer, which arrive in two pieces, cut in the middle of a record, with a pause between. The theorem says then that the
program shows 1, 2, 3 and the end. -/
example : ∃ (transport : Transport) (m : Nat) (c : Conn) (shown : List Shown),
    (exampleStart [1] () transport).run honestCrypto m = ⟨.ended c, shown ++ [.eof]⟩ ∧ shownBytes shown = [1, 2, 3] := by
  have hch : (handshakeBytes (X := Unit) (.clientHello (makeClientHello (List.replicate 32 1) (List.replicate 32 2)
        (List.replicate 32 8) (some "localhost") ["h2", "http/1.1"]))).toOption.isSome = true := by decide +kernel
  rcases hr : handshakeBytes (X := Unit) (.clientHello (makeClientHello (List.replicate 32 1) (List.replicate 32 2)
        (List.replicate 32 8) (some "localhost") ["h2", "http/1.1"])) with e | ch
  · rw [hr] at hch; cases hch
  let total := wire honestRecords ++ wire exampleAnswerRecords
  let transport : Transport := ⟨[.ready (total.take 60), .pending, .ready (total.drop 60)] ++ List.replicate 7 (.ready []),
    List.replicate (ch.length + 33295) (.accept 1), [.pending, .ok, .ok, .ok, .ok], [], []⟩
  have hp : parseArgs 6 (exampleFiles [1]) exampleOpt = .ok ⟨.none, .certificateAuthority [1], none⟩ := by
    refine (C150_options 6 (by decide) _ _ _).mpr ⟨.inr ⟨"ca.pem", [1], rfl, ?_, rfl⟩, .inl ⟨rfl, rfl, rfl⟩, rfl⟩
    obtain ⟨h, body, f, h1, h2, h3, h4, h5⟩ := (Pem.C66_accepts_exactly _ _ _ 6 (by decide)).mp
      (Pem.C47_pem_round_trip [1] "CERTIFICATE" (by unfold LabelText; decide +kernel) 6 (by decide)).1
    exact ⟨h, body, f, by rw [← h4]; rfl, h1, h2, h3, h5⟩
  obtain ⟨m, c, shown, h1, h2, -⟩ := C163_answer_shown honestCrypto honestCrypto_works toyCrypto_expands toyCrypto_correct 6
    (exampleFiles [1]) exampleOpt _ hp (fun _ => .ok transport) transport rfl rfl () (List.replicate 32 8) (List.replicate 32 1)
    (List.replicate 32 2) ch hr trivial honestFlight honestFlight_legal ⟨.sha256, .aes128Gcm⟩ (List.replicate 32 3) toyHsKey
    (honestFlight_agreed ch) (by
      intro s1 s2 h1 h2
      simp [honestFlight] at h1 h2
      rw [h1, h2])
    ⟨⟨⟨[1, 2, 3], (), []⟩, [], [1], rfl, rfl, rfl, rfl⟩, by simp [honestFlight], ⟨List.replicate 32 4, rfl, rfl⟩⟩
    ⟨toyHsKey, toyHsKey⟩ (exampleKeys ch) honestRecords exampleAnswerRecords exampleAnswer exampleAnswer_sent 7 (by decide)
    ⟨_, rfl, by
      intro e he
      simp only [List.mem_cons, List.not_mem_nil, or_false] at he
      rcases he with rfl | rfl | rfl
      · show total.take 60 ≠ []; decide +kernel
      · trivial
      · show total.drop 60 ≠ []; decide +kernel, by
      simp only [readData, List.append_nil]
      exact List.take_append_drop _ _⟩
    ⟨fun e he => .inr ⟨1, by omega, List.eq_of_mem_replicate he⟩, by
      show _ ≤ ((List.replicate (ch.length + 33295) (WriteEvent.accept 1)).filter _).length
      rw [List.filter_replicate]
      simp⟩
    ⟨by simp [transport], Nat.le_refl 4⟩
  exact ⟨transport, m, c, shown, h1 m (Nat.le_refl _), h2.trans (by decide +kernel)⟩

end Ngfs.Tls
