import Verif.Lemmas.IpfsHonest
import Verif.Props.TlsHonest

/-! C173: the connection of the program `ipfs`, from the socket to TLS. -/
namespace Ngfs.Ipfs
open Io Varint Spec Spec.Io Spec.Ipfs Tls

/-- **C173**. If the program gets a TLS connection, then the remote has said, over the socket: the header of the negotiation, a whole list
of names behind its length, the name of TLS; and behind that, without a gap and without anything lost, a flight of TLS messages that
authenticates the server in the way that is configured (for the configuration in the program, by its own certificate; what that is worth
for the identity of the host is the subject of C172). What the program has said in the clear is the header, the request for the
list and the name of TLS, and nothing else; all the rest is what the TLS client sends. -/
theorem C173_connected {X K : Type} (cr : Crypto X K) (hx : cr.Expands) (hc : cr.Correct)
    (socket : Transport) (hsent : socket.sent = []) (ho : Orderly socket.reads) (config : ClientConfig) (privateKey : K)
    (publicKey random sessionId : Bytes) (k : Nat) (c : Connected)
    (h : connectTls cr socket config privateKey publicKey random sessionId k = .ready (.ok c)) :
    ∃ names said rest, readData socket.reads = said ++ rest ∧ Negotiation multistreamId tlsProtocol names said ∧
      c.before = framed multistreamId ++ framed lsMessage ++ framed tlsProtocol ∧
      ∃ (ch : Bytes) (f : Flight X) (hsSecret : Bytes) (hsServer : EncryptionKey),
        handshakeBytes (X := X)
          (.clientHello (makeClientHello random sessionId publicKey config.serverName ["libp2p"])) = .ok ch ∧
        f.Legal cr ∧ Agreed cr f.sh f.shRaw privateKey ch c.conn.seqenc.ciphers hsSecret hsServer ∧
        Arrived cr f.shRaw f.encrypted hsServer rest c.conn.plaintext.unread ∧
        f.Authenticated cr config ch c.conn.seqenc.ciphers hsServer ∧
        f.Keys cr ch c.conn.seqenc.ciphers hsSecret c.conn.seqenc.trafficSecrets ∧
        f.Answered cr config ch c.conn.seqenc.ciphers hsSecret c.conn.plaintext.inner.sent c.conn.plaintext.seals ∧
        c.conn.Fresh := by
  unfold connectTls at h
  have h4 := upgrade_keeps orderly_closed ⟨socket, []⟩ tlsProtocol ho
  have hup := upgrade_ok ⟨socket, []⟩ rfl (orderly_settles ho) tlsProtocol
  generalize upgrade ⟨socket, []⟩ tlsProtocol = U at h hup h4
  obtain ⟨x, r⟩ := U
  rcases x with _ | (e | names)
  · cases h
  · cases h
  simp only at h hup
  obtain ⟨said, rest, e, h1, h2, h3, h5⟩ := hup names rfl
  have h29 := C29_server_authenticated cr hx hc { r.t with sent := [] } rfl config ["libp2p"] privateKey publicKey random sessionId k
  generalize establishPoll cr (pollTimes cr k
    (initialState { r.t with sent := [] } config ["libp2p"] privateKey publicKey random sessionId)) = E at h h29
  obtain ⟨y, s⟩ := E
  rcases y with _ | (e' | conn)
  · cases h
  · cases h
  simp only at h h29
  cases h
  have hd := h29 conn rfl
  rw [orderly_data h4, h3] at hd
  refine ⟨names, said, rest, by rw [orderly_data ho, h1], h2, ?_, hd⟩
  rw [h5, hsent]
  simp

/-- **C173**. Whatever the remote says and however the negotiation ends, if it ends at all: what has been sent in the clear is a beginning
of the header, the request for the list and the name of TLS. -/
theorem C173_in_the_clear (socket : Transport) (hsent : socket.sent = []) :
    (upgrade ⟨socket, []⟩ tlsProtocol).2.t.sent <+:
      "\x13/multistream/1.0.0\n\x03ls\n\x0b/tls/1.0.0\n".toList.map (fun c => UInt8.ofNat c.toNat) := by
  obtain ⟨pre, h1, h2⟩ := upgrade_sent ⟨socket, []⟩ tlsProtocol
  have h3 : framed multistreamId ++ framed lsMessage ++ framed tlsProtocol =
      "\x13/multistream/1.0.0\n\x03ls\n\x0b/tls/1.0.0\n".toList.map (fun c => UInt8.ofNat c.toNat) := by decide +kernel
  rw [h1, hsent, ← h3]
  exact h2

/-- What is brought goes on being brought. -/
theorem willBring_closed : Closed (fun es => ∃ data, WillBring es data) where
  next := by
    rintro e es ⟨data, es0, k, h1, h2, h3⟩
    rcases es0 with _ | ⟨e0, es0⟩
    · rcases k with _ | k
      · cases h1
      · simp only [List.replicate_succ, List.nil_append, List.cons.injEq] at h1
        exact ⟨[], [], k, by rw [h1.2]; rfl, by simp, rfl⟩
    · simp only [List.cons_append, List.cons.injEq] at h1
      exact ⟨readData es0, es0, k, h1.2, fun e he => h2 e (List.mem_cons_of_mem _ he), rfl⟩
  part := by
    rintro d d' es hd hd' ⟨data, es0, k, h1, h2, h3⟩
    rcases es0 with _ | ⟨e0, es0⟩
    · rcases k with _ | k
      · cases h1
      · simp only [List.replicate_succ, List.nil_append, List.cons.injEq, ReadEvent.ready.injEq, List.append_eq_nil_iff] at h1
        exact (hd h1.1.1).elim
    · simp only [List.cons_append, List.cons.injEq] at h1
      refine ⟨readData (.ready d' :: es0), .ready d' :: es0, k, by rw [h1.2]; rfl, ?_, rfl⟩
      intro e he
      rcases List.mem_cons.mp he with rfl | he
      · exact .inr ⟨d', hd', rfl⟩
      · exact h2 e (List.mem_cons_of_mem _ he)

theorem readData_ends (k : Nat) : readData (List.replicate k (.ready [])) = [] := by
  induction k with
  | zero => rfl
  | succ k ih => rw [List.replicate_succ, readData, ih]; rfl

theorem willBring_orderly {es : List ReadEvent} {data : Bytes} (h : WillBring es data) : Orderly es ∧ readData es = data := by
  obtain ⟨es0, k, rfl, h2, rfl⟩ := h
  induction es0 with
  | nil => exact ⟨orderly_of_nothing (readData_ends k), readData_ends k⟩
  | cons e es0 ih =>
    obtain ⟨i1, i2⟩ := ih (fun e he => h2 e (List.mem_cons_of_mem _ he))
    rcases h2 e List.mem_cons_self with rfl | ⟨d, hd, rfl⟩
    · exact ⟨i1, i2⟩
    · rcases d with _ | ⟨b, d⟩
      · exact (hd rfl).elim
      · exact ⟨i1, by simp only [List.cons_append, readData, i2]⟩

/-- Where a negotiation ends is determined. -/
theorem negotiation_unique {header protocol said said' rest rest' : Bytes} {names names' : List Bytes}
    (h : Negotiation header protocol names said) (h' : Negotiation header protocol names' said') (he : said ++ rest = said' ++ rest') :
    rest = rest' := by
  obtain ⟨m1, p, body, m3, rfl, a1, a2, -, a4, -, -, a7⟩ := h
  obtain ⟨m1', p', body', m3', rfl, b1, b2, -, b4, -, -, b7⟩ := h'
  simp only [List.append_assoc] at he
  obtain ⟨-, -, h1⟩ := prefixed_unique a1 b1 he
  obtain ⟨rfl, h2⟩ := Mplex.isVarint_unique a2 b2 h1
  obtain ⟨-, h3⟩ := List.append_inj h2 (by omega)
  exact (prefixed_unique a7 b7 h3).2.2

/-- **C173**, the other way: let the remote negotiate as it should, behind that send a legal flight that is right for the key agreement and
authenticates it, and let the socket bring this in pieces of any sizes with pauses anywhere, take what is written in the same way, and
never fail. Then the program gets a TLS connection, with the application keys of the key schedule; what came behind the flight is still to be
read, with nothing before it but ChangeCipherSpec records. -/
theorem C173_reached {X K : Type} (cr : Crypto X K) (hw : cr.Works) (hx : cr.Expands) (hc : cr.Correct)
    (socket : Transport) (config : ClientConfig) (privateKey : K) (publicKey random sessionId ch : Bytes)
    (hch : handshakeBytes (X := X)
      (.clientHello (makeClientHello random sessionId publicKey config.serverName ["libp2p"])) = .ok ch)
    (husable : config.clientAuth.Usable cr)
    (f : Flight X) (hf : f.Legal cr) (ciphers : Ciphers) (hsSecret : Bytes) (hsServer : EncryptionKey)
    (hagreed : Agreed cr f.sh f.shRaw privateKey ch ciphers hsSecret hsServer)
    (hone : ∀ s1 s2, Extension.keyShareServerHello ⟨.x25519, s1⟩ ∈ f.sh.extensions →
      Extension.keyShareServerHello ⟨.x25519, s2⟩ ∈ f.sh.extensions → s1 = s2)
    (hauth : f.Authenticated cr config ch ciphers hsServer)
    (names : List Bytes) (said total rest : Bytes) (hsaid : Negotiation multistreamId tlsProtocol names said)
    (hbring : WillBring socket.reads (said ++ total)) (harr : Arrived cr f.shRaw f.encrypted hsServer total rest)
    (htake : WillTake socket.writes
      ((framed multistreamId ++ framed lsMessage ++ framed tlsProtocol).length + (ch.length + 16650)))
    (hflush : WillFlush socket.flushes 5) :
    ∃ k c, connectTls cr socket config privateKey publicKey random sessionId k = .ready (.ok c) ∧
      c.conn.Fresh ∧ c.conn.seqenc.ciphers = ciphers ∧ f.Keys cr ch ciphers hsSecret c.conn.seqenc.trafficSecrets ∧
      ∃ ccs : List WireRecord, (∀ w ∈ ccs, w.Legal ∧ w.typ = 20) ∧ c.conn.plaintext.unread = wire ccs ++ rest := by
  obtain ⟨ho, hdata⟩ := willBring_orderly hbring
  have hcont : content socket.reads = (said ++ total, (content socket.reads).2) := by
    rw [← hdata, orderly_data ho]
  obtain ⟨u1, u2, u3⟩ := upgrade_honest ⟨socket, []⟩ rfl ho tlsProtocol names said total _ (ch.length + 16650) 2 hcont hsaid htake hflush
  have v4 := upgrade_keeps orderly_closed ⟨socket, []⟩ tlsProtocol ho
  obtain ⟨said', rest', e', v1, v2, v3, -⟩ := upgrade_ok ⟨socket, []⟩ rfl (orderly_settles ho) tlsProtocol names u1
  obtain ⟨data, hb⟩ := upgrade_keeps willBring_closed ⟨socket, []⟩ tlsProtocol ⟨_, hbring⟩
  have hsame : rest' = total := by
    have v1' : content socket.reads = (said' ++ rest', e') := v1
    rw [hcont] at v1'
    exact (negotiation_unique hsaid v2 (congrArg Prod.fst v1')).symm
  subst hsame
  have hdata' : data = rest' := by
    rw [← (willBring_orderly hb).2, orderly_data v4, v3]
  subst hdata'
  unfold connectTls
  generalize upgrade ⟨socket, []⟩ tlsProtocol = U at *
  obtain ⟨x, r⟩ := U
  simp only at u1 u2 u3 hb
  subst u1
  simp only
  obtain ⟨k, conn, -, -, w3, w4, w5, w6, w7⟩ := C160_honest_server_reached cr hw hx hc { r.t with sent := [] } rfl config ["libp2p"]
    privateKey publicKey random sessionId ch hch husable f hf ciphers hsSecret hsServer hagreed hone hauth _ rest hb harr u2 u3
  refine ⟨k, ⟨r.t.sent, conn⟩, ?_, w4, w5, w6, w7⟩
  rw [w3]

/-- What the remote of the example says before TLS: it lists TLS and mplex and accepts TLS. -/
def toySaid : Bytes :=
  framed multistreamId ++ ([26] ++ ((framed tlsProtocol ++ framed mplexProtocol) ++ framed tlsProtocol))

theorem toySaid_negotiation : Negotiation multistreamId tlsProtocol [tlsProtocol, mplexProtocol] toySaid := by
  refine ⟨_, _, _, _, rfl, framed_prefixed (by decide), ⟨[], 26, rfl, by simp, by decide⟩, by decide, by decide +kernel, by decide +kernel, ?_,
    framed_prefixed (by decide)⟩
  exact ⟨framed tlsProtocol ++ (framed mplexProtocol ++ []), [], by simp, .cons (framed_prefixed (by decide))
    (.cons (framed_prefixed (by decide)) .nil), .inl rfl⟩

/-- The hypotheses can be met: the example flight of C160 behind a negotiation, in two pieces, the first of which ends inside the TLS
handshake. There is a connection, so the hypotheses of the first theorem can be met, too. -/
example : ∃ (socket : Transport) (k : Nat) (c : Connected), socket.sent = [] ∧ Orderly socket.reads ∧
    connectTls honestCrypto socket toyConfig () (List.replicate 32 8) (List.replicate 32 1) (List.replicate 32 2) k =
      .ready (.ok c) := by
  have hch : (handshakeBytes (X := Unit) (.clientHello (makeClientHello (List.replicate 32 1) (List.replicate 32 2)
        (List.replicate 32 8) toyConfig.serverName ["libp2p"]))).toOption.isSome = true := by decide +kernel
  generalize hr : handshakeBytes (X := Unit) (.clientHello (makeClientHello (List.replicate 32 1) (List.replicate 32 2)
        (List.replicate 32 8) toyConfig.serverName ["libp2p"])) = r at hch
  rcases r with e | ch
  · cases hch
  have hb : WillBring [.ready ((toySaid ++ (wire honestRecords ++ [23, 3])).take 90), .pending,
      .ready ((toySaid ++ (wire honestRecords ++ [23, 3])).drop 90)] (toySaid ++ (wire honestRecords ++ [23, 3])) := by
    refine ⟨_, 0, by rw [List.replicate_zero, List.append_nil], ?_, ?_⟩
    · intro e he
      simp only [List.mem_cons, List.not_mem_nil, or_false] at he
      rcases he with rfl | rfl | rfl
      · exact .inr ⟨_, by decide +kernel, rfl⟩
      · exact .inl rfl
      · exact .inr ⟨_, by decide +kernel, rfl⟩
    · simp only [readData, List.append_nil]
      exact List.take_append_drop _ _
  obtain ⟨k, c, hk, -⟩ := C173_reached honestCrypto honestCrypto_works toyCrypto_expands toyCrypto_correct
    ⟨_, List.replicate ((framed multistreamId ++ framed lsMessage ++ framed tlsProtocol).length + (ch.length + 16650)) (.accept 1),
      [.pending, .ok, .ok, .ok, .ok, .ok], [], []⟩ toyConfig () (List.replicate 32 8) (List.replicate 32 1) (List.replicate 32 2) ch hr
    ⟨⟨(), rfl⟩, by decide, fun _ => ⟨[6], rfl, by decide⟩⟩ honestFlight honestFlight_legal _ _ _ (honestFlight_agreed ch)
    (by simp [honestFlight]) (honestFlight_authenticated ch) _ _ _ _ toySaid_negotiation hb honestRecords_arrive
    ⟨fun e he => .inr ⟨1, by omega, List.eq_of_mem_replicate he⟩, by rw [List.filter_replicate]; simp⟩ ⟨by simp, Nat.le_refl 5⟩
  exact ⟨_, k, c, rfl, (willBring_orderly hb).1, hk⟩

end Ngfs.Ipfs
