import Verif.Model.IpfsMain
import Verif.Props.Ipfs
import Verif.Props.Negotiate
import Verif.Props.Handler

/-! C196: the life of the program `ipfs` around its command. -/
namespace Ngfs.Ipfs
open Io Varint Spec Spec.Io Spec.Ipfs Spec.Handler Tls Cid

/-- The host has negotiated TLS over the socket, the TLS handshake has succeeded over what came behind that, and the host has negotiated
the multiplexer over the TLS connection. -/
def HostAgrees (w : World) : Prop :=
  ∃ socket conn names names' said said' rest rest' e e', w.socket = .ok socket ∧ content socket.reads = (said ++ rest, e) ∧
    Negotiation multistreamId tlsProtocol names said ∧
    (∃ r : Reader, content r.t.reads = (rest, e) ∧ r.t.sent = framed multistreamId ++ framed lsMessage ++ framed tlsProtocol ∧
      w.tls r = .ready (.ok conn)) ∧
    content conn.reads = (said' ++ rest', e') ∧ Negotiation multistreamId mplexProtocol names' said'

/-- Nothing has been sent yet, and nothing comes after an end. -/
structure Fresh (w : World) : Prop where
  socket : ∀ t, w.socket = .ok t → t.sent = [] ∧ Settles t.reads
  tls : ∀ r t, w.tls r = .ready (.ok t) → t.sent = [] ∧ Settles t.reads
  stream : ∀ t, w.stream = .ready (.ok t) → t.sent = []

/-- The command has come to its end, with an answer or an error. -/
def Task.Finished : Task → Prop
  | .none => False
  | .show _ state _ => ∃ x, state = .ready x
  | .identify state => ∃ x, state = .ready x

/-- **C196**, first half, as stated: a command line that is not accepted is rejected before anything is sent, whatever the network does. -/
def C196_rejected_statement : Prop :=
  ∀ (w : World) (code : Nat), Fresh w → w.args = .error code → (run w).overSocket = [] ∧ (run w).ending = .exit code

/-- **C196**, second half, as stated: the process ends when its command has come to its end. -/
def C196_ends_statement : Prop :=
  ∀ (w : World) (task : Task), Fresh w → (run w).ending = .sleeping task → ¬ task.Finished

/-- Everything before the command line is read. -/
theorem run_cases (w : World) (hf : Fresh w) :
    ((∀ args stream, run { w with args := args, stream := stream } = run w) ∧ (run w).overStream = [] ∧
      ((run w).ending = .waiting ∨ ∃ e, (run w).ending = .returned (.error e))) ∨
    (HostAgrees w ∧ run w = ⟨framed multistreamId ++ framed lsMessage ++ framed tlsProtocol,
      framed multistreamId ++ framed lsMessage ++ framed mplexProtocol, (runCommand w).1, (runCommand w).2⟩) := by
  unfold run
  rcases hs : w.socket with k | socket
  · exact .inl ⟨fun _ _ => rfl, rfl, .inr ⟨_, rfl⟩⟩
  obtain ⟨h1, h2⟩ := hf.socket socket hs
  have hu := upgrade_ok ⟨socket, []⟩ rfl h2 tlsProtocol
  simp only
  generalize upgrade ⟨socket, []⟩ tlsProtocol = U at *
  obtain ⟨x, r⟩ := U
  rcases x with _ | (e | names)
  · exact .inl ⟨fun _ _ => rfl, rfl, .inl rfl⟩
  · exact .inl ⟨fun _ _ => rfl, rfl, .inr ⟨_, rfl⟩⟩
  obtain ⟨said, rest, e, a1, a2, a3, a4⟩ := hu names rfl
  simp only at a3 a4 ⊢
  rw [h1, List.nil_append] at a4
  rcases ht : w.tls r with _ | (k | conn)
  · exact .inl ⟨fun _ _ => rfl, rfl, .inl rfl⟩
  · exact .inl ⟨fun _ _ => rfl, rfl, .inr ⟨_, rfl⟩⟩
  obtain ⟨g1, g2⟩ := hf.tls r conn ht
  have hv := upgrade_ok ⟨conn, []⟩ rfl g2 mplexProtocol
  simp only
  generalize upgrade ⟨conn, []⟩ mplexProtocol = V at *
  obtain ⟨y, r'⟩ := V
  rcases y with _ | (e' | names')
  · exact .inl ⟨fun _ _ => rfl, rfl, .inl rfl⟩
  · exact .inl ⟨fun _ _ => rfl, rfl, .inr ⟨_, rfl⟩⟩
  obtain ⟨said', rest', e', b1, b2, b3, b4⟩ := hv names' rfl
  simp only at b3 b4 ⊢
  rw [g1, List.nil_append] at b4
  refine .inr ⟨⟨socket, conn, names, names', said, said', rest, rest', e, e', hs, a1, a2, ⟨r, a3, a4, ht⟩, b1, b2⟩, ?_⟩
  rw [a4, b4]

theorem onStream_cases (w : World) (hf : Fresh w) (protocol : Bytes) (start : Reader → Task × Reader) :
    ((onStream w protocol start).2 = .waiting ∨ ∃ e, (onStream w protocol start).2 = .returned (.error e)) ∨
    ∃ stream m1 m2 rest e r, w.stream = .ready (.ok stream) ∧ content stream.reads = (m1 ++ (m2 ++ rest), e) ∧
      Prefixed m1 multistreamId ∧ Prefixed m2 protocol ∧ view r = (rest, e) ∧
      r.t.sent = framed multistreamId ++ framed protocol ∧
      onStream w protocol start = ((start r).2.t.sent, .sleeping (start r).1) := by
  unfold onStream
  rcases hs : w.stream with _ | (k | stream)
  · exact .inl (.inl rfl)
  · exact .inl (.inr ⟨_, rfl⟩)
  have hn := C39_negotiated ⟨stream, []⟩ protocol
  have h0 := hf.stream stream hs
  simp only
  generalize negotiate ⟨stream, []⟩ protocol = N at *
  obtain ⟨x, r⟩ := N
  rcases x with _ | (k | (_ | _))
  · exact .inl (.inl rfl)
  · exact .inl (.inr ⟨_, rfl⟩)
  · obtain ⟨m1, m2, rest, e, a1, a2, a3, a4, a5⟩ := hn rfl
    rw [view_plain _ rfl] at a1
    simp only [h0, List.nil_append] at a5
    exact .inr ⟨stream, m1, m2, rest, e, r, rfl, a1, a2, a3, a4, a5, rfl⟩
  · exact .inl (.inr ⟨_, rfl⟩)

theorem runCommand_show (w : World) (cid : List Char) (h : w.args = .ok (.show cid)) :
    runCommand w = onStream w bitswapName (showTask w cid) := by simp only [runCommand, h]

theorem runCommand_identify (w : World) (h : w.args = .ok .identify) : runCommand w = onStream w idProtocol identifyTask := by
  simp only [runCommand, h]

/-- **C196**, partial: when a command line that is not accepted is rejected, the host has been connected to and has agreed to everything up
to the multiplexer, and what has been sent is exactly the two negotiations. -/
theorem C196_rejected_late_partial (w : World) (hf : Fresh w) (code : Nat) (h : (run w).ending = .exit code) :
    w.args = .error code ∧ HostAgrees w ∧ (run w).overSocket = framed multistreamId ++ framed lsMessage ++ framed tlsProtocol ∧
      (run w).overTls = framed multistreamId ++ framed lsMessage ++ framed mplexProtocol ∧ (run w).overStream = [] := by
  rcases run_cases w hf with ⟨-, -, h1 | ⟨e, h1⟩⟩ | ⟨h1, h2⟩
  · rw [h1] at h; cases h
  · rw [h1] at h; cases h
  rw [h2] at h ⊢
  simp only at h ⊢
  rcases ha : w.args with c | (_ | cid | _)
  · simp only [runCommand, ha, Ending.exit.injEq] at h ⊢
    subst h
    exact ⟨rfl, h1, trivial, trivial, trivial⟩
  · simp only [runCommand, ha] at h
    cases h
  · rw [runCommand_show w cid ha] at h
    rcases onStream_cases w hf bitswapName (showTask w cid) with (g | ⟨e, g⟩) | ⟨_, _, _, _, _, r, -, -, -, -, -, -, g⟩ <;>
      rw [g] at h <;> cases h
  · rw [runCommand_identify w ha] at h
    rcases onStream_cases w hf idProtocol identifyTask with (g | ⟨e, g⟩) | ⟨_, _, _, _, _, r, -, -, -, -, -, -, g⟩ <;>
      rw [g] at h <;> cases h

/-- **C196**, partial: as long as the host has not agreed to everything up to the multiplexer, the command line plays no part at all:
the program does the same whatever it is, and waits or fails. -/
theorem C196_unread_partial (w : World) (hf : Fresh w) (h : ¬ HostAgrees w) :
    (∀ args, run { w with args := args } = run w) ∧ ((run w).ending = .waiting ∨ ∃ e, (run w).ending = .returned (.error e)) := by
  rcases run_cases w hf with ⟨h1, -, h2⟩ | ⟨h1, -⟩
  · exact ⟨fun args => h1 args w.stream, h2⟩
  · exact absurd h1 h

/-- **C196**: the program never reports success, whatever the network and the command line are. -/
theorem C196_no_success (w : World) (hf : Fresh w) : (run w).ending ≠ .returned (.ok ()) := by
  intro h
  rcases run_cases w hf with ⟨-, -, h1 | ⟨e, h1⟩⟩ | ⟨-, h2⟩
  · rw [h1] at h; cases h
  · rw [h1] at h; cases h
  rw [h2] at h
  simp only at h
  rcases ha : w.args with c | (_ | cid | _)
  · simp only [runCommand, ha] at h; cases h
  · simp only [runCommand, ha] at h; cases h
  · rw [runCommand_show w cid ha] at h
    rcases onStream_cases w hf bitswapName (showTask w cid) with (g | ⟨e, g⟩) | ⟨_, _, _, _, _, r, -, -, -, -, -, -, g⟩ <;>
      rw [g] at h <;> cases h
  · rw [runCommand_identify w ha] at h
    rcases onStream_cases w hf idProtocol identifyTask with (g | ⟨e, g⟩) | ⟨_, _, _, _, _, r, -, -, -, -, -, -, g⟩ <;>
      rw [g] at h <;> cases h

/-- **C196**: `test` sends nothing of its own and waits for ever once the host has agreed. -/
theorem C196_test (w : World) (hf : Fresh w) (ha : w.args = .ok .test) :
    (run w).overStream = [] ∧ (HostAgrees w ∧ (run w).ending = .sleeping .none ∨ (run w).ending = .waiting ∨
      ∃ e, (run w).ending = .returned (.error e)) := by
  rcases run_cases w hf with ⟨-, h1, h2⟩ | ⟨h1, h2⟩
  · exact ⟨h1, .inr h2⟩
  · rw [h2]
    simp only [runCommand, ha]
    exact ⟨trivial, .inl ⟨h1, trivial⟩⟩

/-- **C196**: the request for a block is the one on the command line; it is sent only to a host that has agreed to TLS, the multiplexer
and bitswap in turn; and it is all that is sent over the stream behind the negotiation. A text that is not an identifier is found out only
then: nothing more is sent, and the process goes on. -/
theorem C196_show (w : World) (hf : Fresh w) (cid : List Char) (state : Poll (Except Handler.Error Unit)) (log : List Handler.Event)
    (h : (run w).ending = .sleeping (.show cid state log)) :
    w.args = .ok (.show cid) ∧ HostAgrees w ∧
    (∃ stream m1 m2 rest e, w.stream = .ready (.ok stream) ∧ content stream.reads = (m1 ++ (m2 ++ rest), e) ∧
      Prefixed m1 multistreamId ∧ Prefixed m2 bitswapName) ∧
    (∀ c, fromText cid = .ok c → ValidCid c → c.hash.length < 2 ^ 62 → ∃ m message pre, Prefixed m message ∧ AsksFor message c ∧
      pre <+: m ∧ (run w).overStream = framed multistreamId ++ framed bitswapName ++ pre ∧ (log ≠ [] → pre = m)) ∧
    (∀ e, fromText cid = .error e → state = .ready (.error (.cid e)) ∧ log = [] ∧
      (run w).overStream = framed multistreamId ++ framed bitswapName) := by
  rcases run_cases w hf with ⟨-, -, h1 | ⟨e, h1⟩⟩ | ⟨h1, h2⟩
  · rw [h1] at h; cases h
  · rw [h1] at h; cases h
  rw [h2] at h ⊢
  simp only at h ⊢
  rcases ha : w.args with c | (_ | cid' | _)
  · simp only [runCommand, ha] at h; cases h
  · simp only [runCommand, ha] at h; cases h
  · rw [runCommand_show w cid' ha] at h ⊢
    rcases onStream_cases w hf bitswapName (showTask w cid') with (g | ⟨e, g⟩) | ⟨stream, m1, m2, rest, e, r, a1, a2, a3, a4, a5, a6, g⟩
    · rw [g] at h; cases h
    · rw [g] at h; cases h
    rw [g] at h ⊢
    simp only [showTask, Ending.sleeping.injEq, Task.show.injEq] at h ⊢
    obtain ⟨rfl, rfl, rfl⟩ := h
    refine ⟨rfl, h1, ⟨stream, m1, m2, rest, e, a1, a2, a3, a4⟩, ?_, ?_⟩
    · intro c hc hv hl
      obtain ⟨m, message, pre, b1, b2, b3, b4, b5, b6⟩ := Handler.C120_request w.sha256 w.blake2b256 cid' c r hc hv hl
      refine ⟨m, message, pre, b1, b2, b3, by rw [b4, a6], fun hne => b5 ?_⟩
      obtain ⟨x, hx⟩ := List.exists_mem_of_ne_nil _ hne
      by_cases hr : x = .requested
      · exact hr ▸ hx
      · exact b6 x hx hr
    · intro e' he
      rw [Handler.C120_bad_text w.sha256 w.blake2b256 cid' e' r he]
      exact ⟨rfl, rfl, a6⟩
  · rw [runCommand_identify w ha] at h
    rcases onStream_cases w hf idProtocol identifyTask with (g | ⟨e, g⟩) | ⟨_, _, _, _, _, r, -, -, -, -, -, -, g⟩ <;>
      rw [g] at h <;> cases h

/-- **C196**: identification is asked for only of a host that has agreed to TLS, the multiplexer and identification in turn; nothing is
sent behind the negotiation; and what is shown is the message that comes first, if it is one. -/
theorem C196_identify (w : World) (hf : Fresh w) (state : Poll (Except Handler.Error (Option Identify.Identify)))
    (h : (run w).ending = .sleeping (.identify state)) :
    w.args = .ok .identify ∧ HostAgrees w ∧ (run w).overStream = framed multistreamId ++ framed idProtocol ∧
    ∃ stream m1 m2 rest e, w.stream = .ready (.ok stream) ∧ content stream.reads = (m1 ++ (m2 ++ rest), e) ∧
      Prefixed m1 multistreamId ∧ Prefixed m2 idProtocol ∧
      ∀ id, state = .ready (.ok (some id)) ↔
        ∃ m data rest', rest = m ++ rest' ∧ Prefixed m data ∧ Identify.Identify.fromPb data = .ok id := by
  rcases run_cases w hf with ⟨-, -, h1 | ⟨e, h1⟩⟩ | ⟨h1, h2⟩
  · rw [h1] at h; cases h
  · rw [h1] at h; cases h
  rw [h2] at h ⊢
  simp only at h ⊢
  rcases ha : w.args with c | (_ | cid' | _)
  · simp only [runCommand, ha] at h; cases h
  · simp only [runCommand, ha] at h; cases h
  · rw [runCommand_show w cid' ha] at h
    rcases onStream_cases w hf bitswapName (showTask w cid') with (g | ⟨e, g⟩) | ⟨_, _, _, _, _, r, -, -, -, -, -, -, g⟩ <;>
      rw [g] at h <;> cases h
  · rw [runCommand_identify w ha] at h ⊢
    rcases onStream_cases w hf idProtocol identifyTask with (g | ⟨e, g⟩) | ⟨stream, m1, m2, rest, e, r, a1, a2, a3, a4, a5, a6, g⟩
    · rw [g] at h; cases h
    · rw [g] at h; cases h
    rw [g] at h ⊢
    simp only [identifyTask, Ending.sleeping.injEq, Task.identify.injEq] at h ⊢
    subst h
    refine ⟨trivial, h1, ?_, stream, m1, m2, rest, e, a1, a2, a3, a4, ?_⟩
    · rw [← a6]
      have hq := (readOptLengthPrefixed_quiet r).1
      unfold Handler.identifyClient
      generalize readOptLengthPrefixed r = Q at hq
      obtain ⟨x, r'⟩ := Q
      have hsent : r'.t.sent = r.t.sent := by rw [hq]
      rcases x with _ | (k | (_ | data))
      · exact hsent
      · exact hsent
      · exact hsent
      · simp only
        split <;> exact hsent
    · intro id
      rw [(Handler.C125_client r).1 id, a5]
      constructor
      · rintro ⟨m, data, rest', e', b1, b2, b3⟩
        exact ⟨m, data, rest', congrArg Prod.fst b1, b2, b3⟩
      · rintro ⟨m, data, rest', rfl, b2, b3⟩
        exact ⟨m, data, rest', e, rfl, b2, b3⟩

/-- The host says what it should up to the multiplexer, and the socket and the TLS connection take what is written. -/
structure HostWill (w : World) (socket conn : Transport) : Prop where
  connected : w.socket = .ok socket
  negotiates : ∃ names said rest, Negotiation multistreamId tlsProtocol names said ∧ WillBring socket.reads (said ++ rest) ∧
    ∀ r : Reader, (content r.t.reads).1 = rest → w.tls r = .ready (.ok conn)
  takes : WillTake socket.writes (framed multistreamId ++ framed lsMessage ++ framed tlsProtocol).length ∧ WillFlush socket.flushes 3
  negotiates' : ∃ names said rest, Negotiation multistreamId mplexProtocol names said ∧ WillBring conn.reads (said ++ rest)
  takes' : WillTake conn.writes (framed multistreamId ++ framed lsMessage ++ framed mplexProtocol).length ∧ WillFlush conn.flushes 3

theorem run_honest (w : World) (socket conn : Transport) (h : HostWill w socket conn) :
    (run w).overStream = (runCommand w).1 ∧ (run w).ending = (runCommand w).2 := by
  obtain ⟨names, said, rest, a1, a2, a3⟩ := h.negotiates
  obtain ⟨names', said', rest', b1, b2⟩ := h.negotiates'
  obtain ⟨o1, d1⟩ := willBring_orderly a2
  obtain ⟨o2, d2⟩ := willBring_orderly b2
  have c1 : content socket.reads = (said ++ rest, (content socket.reads).2) := by rw [← d1, orderly_data o1]
  have c2 : content conn.reads = (said' ++ rest', (content conn.reads).2) := by rw [← d2, orderly_data o2]
  obtain ⟨u1, -⟩ := upgrade_honest ⟨socket, []⟩ rfl o1 tlsProtocol names said rest _ 0 0 c1 a1 h.takes.1 h.takes.2
  obtain ⟨v1, -⟩ := upgrade_honest ⟨conn, []⟩ rfl o2 mplexProtocol names' said' rest' _ 0 0 c2 b1 h.takes'.1 h.takes'.2
  obtain ⟨said2, rest2, e2, g1, g2, g3, -⟩ := upgrade_ok ⟨socket, []⟩ rfl (orderly_settles o1) tlsProtocol names u1
  have hr : rest2 = rest := by
    have g1' : content socket.reads = (said2 ++ rest2, e2) := g1
    rw [c1] at g1'
    exact (negotiation_unique a1 g2 (congrArg Prod.fst g1')).symm
  subst hr
  unfold run
  simp only [h.connected]
  generalize upgrade ⟨socket, []⟩ tlsProtocol = U at u1 g3
  obtain ⟨x, r⟩ := U
  simp only at u1 g3
  subst u1
  simp only [a3 r (by rw [g3])]
  generalize upgrade ⟨conn, []⟩ mplexProtocol = V at v1
  obtain ⟨y, r'⟩ := V
  simp only at v1
  subst v1
  exact ⟨rfl, rfl⟩

/-- The stream is opened, the host accepts the protocol on it, and it takes what is written. -/
def StreamWill (w : World) (protocol rest : Bytes) (e : End) : Prop :=
  ∃ stream, w.stream = .ready (.ok stream) ∧ content stream.reads = (framed multistreamId ++ (framed protocol ++ rest), e) ∧
    WillTake stream.writes ((framed multistreamId).length + (framed protocol).length) ∧ WillFlush stream.flushes 2

theorem onStream_honest (w : World) (protocol rest : Bytes) (e : End) (start : Reader → Task × Reader) (hp : protocol.length < 2 ^ 64)
    (h : StreamWill w protocol rest e) : ∃ r, (onStream w protocol start).2 = .sleeping (start r).1 := by
  obtain ⟨stream, h1, h2, h3, h4⟩ := h
  obtain ⟨r1, g1, g2, g3, g4, -⟩ := handshake_honest ⟨stream, []⟩ (framed protocol ++ rest) e _ 1 (by rw [view_plain _ rfl, h2]) h3 h4
  obtain ⟨s1, -⟩ := select_honest r1 protocol (framed protocol) rest e 0 0 g2 (framed_prefixed hp) g3 g4
  unfold onStream
  simp only [h1, negotiate, g1]
  generalize select r1 protocol = S at s1
  obtain ⟨x, r⟩ := S
  simp only at s1
  subst s1
  exact ⟨r, rfl⟩

/-- **C196**, the other way: with a host that says what it should, every command line gets what it asks for: one that is not accepted is
rejected, `test` waits, and `show` and `identify` are started if the host accepts the protocol on a stream. -/
theorem C196_reached (w : World) (socket conn : Transport) (h : HostWill w socket conn) :
    (∀ code, w.args = .error code → (run w).ending = .exit code) ∧
    (w.args = .ok .test → (run w).ending = .sleeping .none) ∧
    (∀ cid rest e, w.args = .ok (.show cid) → StreamWill w bitswapName rest e →
      ∃ state log, (run w).ending = .sleeping (.show cid state log)) ∧
    (∀ rest e, w.args = .ok .identify → StreamWill w idProtocol rest e → ∃ state, (run w).ending = .sleeping (.identify state)) := by
  rw [(run_honest w socket conn h).2]
  refine ⟨fun code ha => by simp only [runCommand, ha], fun ha => by simp only [runCommand, ha], ?_, ?_⟩
  · intro cid rest e ha hs
    obtain ⟨r, hr⟩ := onStream_honest w bitswapName rest e (showTask w cid) (by decide) hs
    rw [runCommand_show w cid ha, hr]
    exact ⟨_, _, rfl⟩
  · intro rest e ha hs
    obtain ⟨r, hr⟩ := onStream_honest w idProtocol rest e identifyTask (by decide) hs
    rw [runCommand_identify w ha, hr]
    exact ⟨_, rfl⟩

/-- **C196**: when the host is this program itself, `show` never gets as far as asking: the stream is refused (see C175), and the process
ends with an error. -/
theorem C196_show_to_itself (w : World) (socket conn stream server : Transport) (h : HostWill w socket conn) (cid : List Char)
    (ha : w.args = .ok (.show cid)) (hs : w.stream = .ready (.ok stream))
    (hc : Io.Connected [idProtocol, bitswapName] bitswapName stream server) :
    (run w).ending = .returned (.error (.stream .invalidData)) := by
  rw [(run_honest w socket conn h).2, runCommand_show w cid ha]
  have := (C175_others_disagree [idProtocol, bitswapName] bitswapName stream server (by decide) hc (by simp) (by decide)).1
  unfold onStream
  simp only [hs]
  generalize negotiate ⟨stream, []⟩ bitswapName = N at this
  obtain ⟨x, r⟩ := N
  simp only at this
  subst this
  rfl

/-! The examples: a host that offers nothing but what it is asked for. -/

/-- What a host says in a negotiation when it lists no protocols. -/
def hostSays (protocol : Bytes) : Bytes := framed multistreamId ++ ([0] ++ ([] ++ framed protocol))

theorem hostSays_negotiation (protocol : Bytes) (h : protocol.length < 2 ^ 64) :
    Negotiation multistreamId protocol [] (hostSays protocol) :=
  ⟨framed multistreamId, [0], [], framed protocol, rfl, framed_prefixed (by decide), ⟨[], 0, rfl, by simp, by decide⟩, by decide, by decide,
    by decide, ⟨[], [], rfl, .nil, .inl rfl⟩, framed_prefixed h⟩

/-- A transport that brings these bytes, in two pieces. -/
def bringing (bs : Bytes) : Transport :=
  ⟨[.ready (bs.take 5), .pending, .ready (bs.drop 5)], List.replicate 80 (.accept 3), [.pending, .ok, .ok, .ok], [], []⟩

theorem bringing_brings (bs : Bytes) (h : 5 < bs.length) : WillBring (bringing bs).reads bs := by
  refine ⟨_, 0, (List.append_nil _).symm, ?_, ?_⟩
  · intro e he
    simp only [bringing, List.mem_cons, List.not_mem_nil, or_false] at he
    rcases he with rfl | rfl | rfl
    · exact .inr ⟨_, by rw [ne_eq, List.take_eq_nil_iff]; rintro (h | rfl) <;> simp_all, rfl⟩
    · exact .inl rfl
    · exact .inr ⟨_, by rw [ne_eq, List.drop_eq_nil_iff]; omega, rfl⟩
  · simp [bringing, readData, List.take_append_drop]

/-- The world of the examples. -/
def exampleWorld (args : Except Nat Command) (stream : Transport) : World :=
  ⟨.ok (bringing (hostSays tlsProtocol)), fun _ => .ready (.ok (bringing (hostSays mplexProtocol))), args, .ready (.ok stream), id, id⟩

theorem example_will (args : Except Nat Command) (stream : Transport) :
    HostWill (exampleWorld args stream) (bringing (hostSays tlsProtocol)) (bringing (hostSays mplexProtocol)) where
  connected := rfl
  negotiates := ⟨[], hostSays tlsProtocol, [], hostSays_negotiation _ (by decide), by
    rw [List.append_nil]; exact bringing_brings _ (by decide +kernel), fun _ _ => rfl⟩
  takes := ⟨takes_example _ (by decide +kernel), by simp [bringing, WillFlush]⟩
  negotiates' := ⟨[], hostSays mplexProtocol, [], hostSays_negotiation _ (by decide), by
    rw [List.append_nil]; exact bringing_brings _ (by decide +kernel)⟩
  takes' := ⟨takes_example _ (by decide +kernel), by simp [bringing, WillFlush]⟩

theorem example_fresh (args : Except Nat Command) (stream : Transport) (h : stream.sent = []) : Fresh (exampleWorld args stream) where
  socket := by
    rintro t ht
    cases ht
    exact ⟨rfl, orderly_settles (willBring_orderly (bringing_brings (hostSays tlsProtocol) (by decide +kernel))).1⟩
  tls := by
    rintro r t ht
    cases ht
    exact ⟨rfl, orderly_settles (willBring_orderly (bringing_brings (hostSays mplexProtocol) (by decide +kernel))).1⟩
  stream := by
    rintro t ht
    cases ht
    exact h

theorem example_stream (args : Except Nat Command) (protocol : Bytes) (h : protocol ∈ [bitswapName, idProtocol]) :
    StreamWill (exampleWorld args (bringing (framed multistreamId ++ framed protocol))) protocol [] .silent := by
  refine ⟨_, rfl, ?_, takes_example _ ?_, by simp [bringing, WillFlush]⟩
  · revert protocol; decide +kernel
  · revert protocol; decide +kernel

/-- **C196** is false in both halves: a command line that is not accepted is rejected after the whole negotiation with the host, and
`show` with a text that is not an identifier has failed at once, but the process goes on. -/
theorem C196_false : ¬ C196_rejected_statement ∧ ¬ C196_ends_statement := by
  constructor
  · intro h
    have hf := example_fresh (.error 2) (bringing []) rfl
    have h1 := h _ 2 hf rfl
    have h2 := (C196_rejected_late_partial _ hf 2 h1.2).2.2.1
    rw [h1.1] at h2
    revert h2
    decide +kernel
  · intro h
    have hf := example_fresh (.ok (.show [])) (bringing (framed multistreamId ++ framed bitswapName)) rfl
    obtain ⟨state, log, hr⟩ := (C196_reached _ _ _ (example_will (.ok (.show [])) _)).2.2.1 [] [] .silent rfl
      (example_stream _ bitswapName (by simp))
    have hbad : ∃ e, fromText [] = .error e := by
      rcases hx : fromText [] with e | c
      · exact ⟨e, rfl⟩
      · have h0 : (fromText []).toOption.isSome = false := by decide +kernel
        rw [hx] at h0
        cases h0
    obtain ⟨e, he⟩ := hbad
    exact h _ _ hf hr ⟨_, ((C196_show _ hf [] state log hr).2.2.2.2 e he).1⟩

/-- **C196**: the conditions for `show` against this program itself can be met. -/
example (cid : List Char) : (run (exampleWorld (.ok (.show cid)) (openerOf (framed multistreamId ++ framed idProtocol)))).ending =
    .returned (.error (.stream .invalidData)) :=
  C196_show_to_itself _ _ _ _ (acceptorOf (framed multistreamId ++ framed bitswapName)) (example_will _ _) cid rfl rfl
    (connected_example bitswapProtocol (by simp))

end Ngfs.Ipfs
