import Verif.Lemmas.TlsMemory
import Verif.Props.TlsRead
import Verif.Spec.TlsHandshake

/-! C184: how many bytes a TLS connection keeps. -/
namespace Ngfs.Tls

/-- C184: there is a number of bytes that no connection exceeds with what it keeps between two calls, whatever the server sends, the
transport answers and the user calls. -/
def C184_statement : Prop :=
  ∃ b : Nat, ∀ (X K : Type) (cr : Crypto X K) (c : Conn) (ops : List ConnOp), cr.Correct → cr.Shrinks →
    c.Fresh → c.kept = 0 → SmallReads c.plaintext.inner.reads →
    (connRun cr c ops).2.kept ≤ b

/-- C184. Each read takes one record out of what has arrived, but takes in as much as the transport has: if the transport answers each
time with whole records (two or more, say), a reader with enough room gets the contents of one record per call, in order, and all other
records are kept. -/
theorem C184_one_record_per_read {X K : Type} (cr : Crypto X K) (c : Conn) (room : Nat) (groups : List (List WireRecord))
    (accs : List Bytes) (hiv : c.seqenc.trafficSecrets.server.writeIv.length = 12) (hact : c.readState = .active)
    (hnone : c.kept = 0) (hreads : c.plaintext.inner.reads = groups.map (fun g => .ready (wire g)))
    (hne : ∀ g ∈ groups, g ≠ [])
    (hp : ProtectsAll cr c.seqenc.trafficSecrets.server c.seqenc.serverSequenceNo groups.flatten (dataMessages accs))
    (ho : ∀ w ∈ groups.flatten, w.Outer) (hroom : ∀ d ∈ accs, d.length ≤ room) :
    (connRun cr c (List.replicate groups.length (.read room))).1 =
        (accs.take groups.length).map (fun d => .read room (.ready (.ok d))) ∧
    (connRun cr c (List.replicate groups.length (.read room))).2.plaintext.receiver.incoming =
        wire (groups.flatten.drop groups.length) := by
  unfold Conn.kept at hnone
  have h := reads_take_one_each cr room groups c [] accs hiv hact (List.length_eq_zero_iff.mp (by omega)) hreads
    (by rw [wire_nil]; exact List.length_eq_zero_iff.mp (by omega)) hne (by simpa using hp) (by simpa using ho) hroom
  simpa using h

theorem toyCrypto_shrinks : toyCrypto.Shrinks := by
  intro alg key nonce ad c p h
  simp only [toyCrypto] at h
  split at h
  · cases h; simp only [List.length_take]; omega
  · cases h

/-- Records of one byte each, under the keys of `exampleConn`. -/
theorem toy_records (key : EncryptionKey) (hiv : key.writeIv.length = 12) (n : Nat) :
    ∃ w : WireRecord, w.Legal ∧ w.Outer ∧ w.bytes.length = 23 ∧ Protects toyCrypto key n w 23 [7] := by
  obtain ⟨-, w, h1, h2, h3, h4, -, h5, h6⟩ := encryptRecord_ok toyCrypto toyCrypto_correct key hiv n
    (.new ⟨[], [], [], [], []⟩ .new) _ [7] .applicationData (by unfold encryptRecord; rfl)
  refine ⟨w, h1, ⟨h2, h3, h4⟩, ?_, h6⟩
  have := (toyCrypto_correct _ _ _ _ _ _ h5).2
  rw [WireRecord.bytes_length, this]
  rfl

theorem wire_length (ws : List WireRecord) (n : Nat) (h : ∀ w ∈ ws, w.bytes.length = n) : (wire ws).length = ws.length * n := by
  induction ws with
  | nil => simp
  | cons w ws ih =>
    rw [wire_cons, List.length_append, h w (by simp), ih (fun w hw => h w (by simp [hw])), List.length_cons, Nat.add_mul]
    omega

/-- Groups of 44 records each, numbered from 0. -/
def groupsOf (f : Nat → WireRecord) (k : Nat) : List (List WireRecord) :=
  (List.range k).map (fun i => (List.range 44).map (fun j => f (44 * i + j)))

theorem groupsOf_flatten (f : Nat → WireRecord) (k : Nat) : (groupsOf f k).flatten = (List.range (44 * k)).map f := by
  induction k with
  | zero => rfl
  | succ k ih =>
    have : groupsOf f (k + 1) = groupsOf f k ++ [(List.range 44).map (fun j => f (44 * k + j))] := by
      simp [groupsOf, List.range_succ]
    rw [this, List.flatten_append, ih, Nat.mul_succ, List.range_add, List.map_append, List.map_map]
    simp only [List.flatten_cons, List.flatten_nil, List.append_nil]
    rfl

theorem protectsAll_range (cr : Crypto Unit Unit) (key : EncryptionKey) (f : Nat → WireRecord)
    (h : ∀ n, (f n).Legal ∧ Protects cr key n (f n) 23 [7]) (k : Nat) :
    ProtectsAll cr key 0 ((List.range k).map f) (dataMessages (List.replicate k [7])) := by
  induction k with
  | zero => trivial
  | succ k ih =>
    rw [List.range_succ, List.map_append, List.replicate_succ', dataMessages, List.map_append]
    refine protectsAll_snoc ih (h k).1 ?_
    simp only [List.length_map, List.length_replicate, Nat.zero_add, dataMessages]
    exact (h k).2

/-- The code does not satisfy C184: a server that sends records of one byte each fills the memory of a client that reads as fast as it can
(989 bytes more with each read). -/
theorem C184_false : ¬ C184_statement := by
  rintro ⟨b, h⟩
  have hiv : (exampleConn []).seqenc.trafficSecrets.server.writeIv.length = 12 := rfl
  choose f hf using toy_records (exampleConn []).seqenc.trafficSecrets.server hiv
  let groups := groupsOf f (b + 1)
  have hlen : groups.length = b + 1 := by simp [groups, groupsOf]
  have hmem : ∀ g ∈ groups, g.length = 44 ∧ ∀ w ∈ g, w.bytes.length = 23 := by
    intro g hg
    simp only [groups, groupsOf, List.mem_map] at hg
    obtain ⟨i, -, rfl⟩ := hg
    refine ⟨by simp, fun w hw => ?_⟩
    obtain ⟨j, -, rfl⟩ := List.mem_map.mp hw
    exact (hf _).2.2.1
  have hone := C184_one_record_per_read toyCrypto (exampleConn (groups.map (fun g => .ready (wire g)))) 5 groups
    (List.replicate (44 * (b + 1)) [7]) rfl rfl rfl rfl
    (fun g hg hn => by have := (hmem g hg).1; rw [hn] at this; simp at this)
    (by rw [groupsOf_flatten]; exact protectsAll_range toyCrypto _ f (fun n => ⟨(hf n).1, (hf n).2.2.2⟩) _)
    (by
      rw [groupsOf_flatten]
      intro w hw
      obtain ⟨j, -, rfl⟩ := List.mem_map.mp hw
      exact (hf _).2.1)
    (fun d hd => by rw [List.eq_of_mem_replicate hd]; simp)
  have hk := h Unit Unit toyCrypto (exampleConn (groups.map (fun g => .ready (wire g)))) (List.replicate groups.length (.read 5))
    toyCrypto_correct toyCrypto_shrinks ⟨rfl, rfl, rfl, rfl, rfl, rfl, rfl, rfl⟩ rfl (by
      intro data hd
      obtain ⟨g, hg, he⟩ := List.mem_map.mp hd
      cases he
      rw [wire_length g 23 (hmem g hg).2, (hmem g hg).1]
      omega)
  have hw : (wire (groups.flatten.drop groups.length)).length = 43 * (b + 1) * 23 := by
    rw [wire_length _ 23]
    · rw [List.length_drop, groupsOf_flatten, hlen]
      simp only [List.length_map, List.length_range]
      congr 1
      omega
    · intro w hw
      have := List.mem_of_mem_drop hw
      rw [groupsOf_flatten] at this
      obtain ⟨j, -, rfl⟩ := List.mem_map.mp this
      exact (hf _).2.2.1
  unfold Conn.kept at hk
  rw [hone.2, hw] at hk
  omega

/-- C184, what holds: what is kept for sending is never more than one record and the alert that ends the stream, however slow the transport
is and however much the user wants to write. Missing from C184: what is received. -/
theorem C184_sending_partial {X K : Type} (cr : Crypto X K) (hc : cr.Correct) (c : Conn) (ops : List ConnOp)
    (h : c.plaintext.outgoing.length ≤ 16406) : (connRun cr c ops).2.plaintext.outgoing.length ≤ 16430 :=
  (outBound_run hc ops c ⟨by omega, fun _ => h⟩).1

/-- C184, what holds: what is decrypted and not yet read is never more than the contents of one record. Missing from C184: what is received and
not yet decrypted. -/
theorem C184_decrypted_partial {X K : Type} (cr : Crypto X K) (hcr : cr.Shrinks) (c : Conn) (ops : List ConnOp)
    (hiv : c.seqenc.trafficSecrets.server.writeIv.length = 12) (h : c.incomingDecrypted = []) :
    (connRun cr c ops).2.incomingDecrypted.length ≤ 16639 :=
  (decBound_run cr hcr ops c ⟨hiv, by simp [h]⟩).2

/-- C184, what holds: until the connection is established, whatever bytes the server sends, at most 18692 received bytes are kept, however
often the future is polled; and so many at most are left for the connection to start with. Missing from C184: the time after. -/
theorem C184_handshake_partial {X K : Type} (cr : Crypto X K) (transport : Transport) (hs : SmallReads transport.reads)
    (config : ClientConfig) (protocolNames : List String) (privateKey : K) (publicKey random sessionId : Bytes) (k : Nat) (c : Conn)
    (h : (establishPoll cr (pollTimes cr k (initialState (X := X) transport config protocolNames privateKey publicKey random sessionId))).1
      = .ready (.ok c)) :
    c.plaintext.receiver.incoming.length ≤ 18692 ∧ SmallReads c.plaintext.inner.reads := by
  have h0 : HsBound (initialState (X := X) transport config protocolNames privateKey publicKey random sessionId) := by
    unfold initialState
    split
    · trivial
    · exact ⟨Nat.le_refl 0, hs⟩
  have hk : ∀ (k : Nat) (s : ECState X K), HsBound s → HsBound (pollTimes cr k s) := by
    intro k
    induction k with
    | zero => exact fun s h => h
    | succ k ih => exact fun s h => ih _ (establishLoop_bound cr 6 s h).1
  exact (establishLoop_bound cr 6 _ (hk k _ h0)).2 c h

/-- C184, what holds: if all records that arrive take at least 1024 bytes each, as many as one answer of the transport can have, the connection
never keeps more than the 18692 bytes that the handshake can leave, or one incomplete record, with what is decrypted and what is to be sent.
Missing from C184: smaller records. -/
theorem C184_big_records_partial {X K : Type} (cr : Crypto X K) (hc : cr.Correct) (hcr : cr.Shrinks) (c : Conn) (ops : List ConnOp)
    (hiv : c.seqenc.trafficSecrets.server.writeIv.length = 12) (hd : c.incomingDecrypted = []) (hout : c.plaintext.outgoing = [])
    (hinc : c.plaintext.receiver.incoming.length ≤ 18692) (hs : SmallReads c.plaintext.inner.reads) (ws : List WireRecord)
    (hws : ∀ w ∈ ws, w.Legal ∧ 1024 ≤ w.bytes.length)
    (hstream : c.plaintext.receiver.incoming ++ readData c.plaintext.inner.reads = wire ws) :
    (connRun cr c ops).2.kept ≤ 18692 + 16639 + 16430 := by
  have h1 := (inBound_run cr 18692 (by omega) ops c ⟨hinc, hs, ws, hws, hstream⟩).1
  have h2 := C184_decrypted_partial cr hcr c ops hiv hd
  have h3 := C184_sending_partial cr hc c ops (by simp [hout])
  unfold Conn.kept
  omega

/-- C184: the witness in small: an answer with two records; one read; one record is kept. -/
example : (connRun toyCrypto (exampleConn (List.replicate 3 (.ready (toyRecord 0 .applicationData [7] ++ toyRecord 1 .applicationData [7]))))
    [.read 5]).2.plaintext.receiver.incoming = toyRecord 1 .applicationData [7] := by decide +kernel

/-- C184: big records exist. -/
example (n : Nat) (h : n ≤ 16639) (h2 : 1024 ≤ n) : ∃ w : WireRecord, w.Legal ∧ 1024 ≤ w.bytes.length :=
  ⟨⟨23, 3, 3, List.replicate n 0⟩, by unfold WireRecord.Legal; simp only [List.length_replicate]; omega,
    by rw [WireRecord.bytes_length]; simp only [List.length_replicate]; omega⟩

end Ngfs.Tls
