import Verif.Spec.TlsHonest
import Verif.Lemmas.TlsReadAll
import Verif.Lemmas.TlsHandshake

/-! Facts for C160: nothing stops a handshake with an honest server. -/
namespace Ngfs.Tls

open Ngfs.Binary

/-! ### Writers that succeed -/

/-- The writer succeeds and appends `n` bytes. -/
def Writes {α : Type} (w : WM α) (n : Nat) : Prop := ∀ s, ∃ a s', w s = (.ok a, s') ∧ s'.length = s.length + n

theorem writes_pure {α : Type} (a : α) : Writes (pure a : WM α) 0 := fun s => ⟨a, s, rfl, rfl⟩

theorem writes_bind {α β : Type} {w : WM α} {f : α → WM β} {n m : Nat} (h : Writes w n) (hf : ∀ a, Writes (f a) m) :
    Writes (w >>= f) (n + m) := by
  intro s
  obtain ⟨a, s1, h1, h2⟩ := h s
  obtain ⟨b, s2, h3, h4⟩ := hf a s1
  refine ⟨b, s2, ?_, by omega⟩
  rw [bind_def, h1]
  exact h3

theorem writes_raw (d : Bytes) : Writes (writeRaw d) d.length := fun s => ⟨(), _, rfl, by simp⟩
theorem writes_u8 (d : UInt8) : Writes (writeU8 d) 1 := fun s => ⟨(), _, rfl, by simp⟩
theorem writes_u16 (d : Nat) : Writes (writeU16 d) 2 := fun s => ⟨(), _, rfl, by simp [beBytes]⟩
theorem writes_u24 (d : Nat) : Writes (writeU24 d) 3 := fun s => ⟨(), _, rfl, by simp [beBytes]⟩

theorem writes_len8 {d : Bytes} (h : d.length ≤ 255) : Writes (writeLen8Bytes d) (1 + d.length) := by
  unfold writeLen8Bytes
  rw [if_neg (by omega)]
  exact writes_bind (writes_u8 _) fun _ => writes_raw d

theorem writes_len16 {d : Bytes} (h : d.length ≤ 65535) : Writes (writeLen16Bytes d) (2 + d.length) := by
  unfold writeLen16Bytes
  rw [if_neg (by omega)]
  exact writes_bind (writes_u16 _) fun _ => writes_raw d

theorem writes_len24 {d : Bytes} (h : d.length < 16777216) : Writes (writeLen24Bytes d) (3 + d.length) := by
  unfold writeLen24Bytes
  rw [if_neg (by have : (1 <<< 24 : Nat) = 16777216 := by decide
                 omega)]
  exact writes_bind (writes_u24 _) fun _ => writes_raw d

theorem writes_nil16 {α : Type} (item : α → WM Unit) : Writes (writeLen16List item []) 2 := by
  intro s
  unfold writeLen16List writeListInner writeItems
  simp only [pure, Nat.sub_self]
  rw [if_neg (by decide)]
  exact ⟨(), _, rfl, by simp⟩

theorem writes_one24 {α : Type} {item : α → WM Unit} {a : α} {n : Nat} (h : Writes (item a) n) (hn : n < 16777216) :
    Writes (writeLen24List item [a]) (3 + n) := by
  intro s
  have hi : Writes (writeItems item [a]) n := by
    have := writes_bind h (fun _ => (writes_pure () : Writes (writeItems item []) 0))
    simpa [writeItems] using this
  obtain ⟨u, s', h1, h2⟩ := hi (s ++ [0, 0, 0])
  have h24 : (1 <<< 24 : Nat) = 16777216 := by decide
  unfold writeLen24List writeListInner
  simp only [h1]
  rw [if_neg (by simp at h2 ⊢; omega)]
  refine ⟨(), _, rfl, ?_⟩
  simp only [List.length_set]
  simp at h2
  omega

theorem handshakeBytes_writes {X : Type} {h : Handshake X} {n : Nat} (hi : Writes h.innerToBinary n)
    (hn : n < 16777216) : ∃ out, handshakeBytes h = .ok out ∧ out.length = 4 + n := by
  obtain ⟨code, tmp, h1, h2⟩ := hi []
  simp only [List.length_nil, Nat.zero_add] at h2
  have : ∃ s', h.toBinary [] = (.ok (), s') ∧ s'.length = 4 + n := by
    unfold Handshake.toBinary
    simp only [h1]
    obtain ⟨u, s', h3, h4⟩ := writes_bind (writes_u8 code) (fun _ => writes_bind (writes_u24 tmp.length) (fun _ => writes_raw tmp)) []
    exact ⟨s', h3, by simp at h4; omega⟩
  obtain ⟨s', h3, h4⟩ := this
  exact ⟨s', by unfold handshakeBytes; rw [h3], h4⟩

theorem certificateBytes_ok {X : Type} (cert : Bytes) (x : X) (h : cert.length ≤ 8192) :
    ∃ out, handshakeBytes (.certificate ⟨[], [⟨cert, x, []⟩]⟩) = .ok out ∧ out.length = 13 + cert.length := by
  have h1 : Writes (CertificateEntry.toBinary ⟨cert, x, []⟩) (3 + cert.length + 2) :=
    writes_bind (writes_len24 (by show cert.length < _; omega)) fun _ => writes_nil16 _
  have h2 : Writes (Certificate.toBinary (X := X) ⟨[], [⟨cert, x, []⟩]⟩) (1 + (3 + (3 + cert.length + 2))) :=
    writes_bind (writes_len8 (by simp)) fun _ => writes_one24 h1 (by omega)
  obtain ⟨out, h3, h4⟩ := handshakeBytes_writes (h := .certificate ⟨[], [⟨cert, x, []⟩]⟩)
    (writes_bind h2 fun _ => writes_pure 11) (by omega)
  exact ⟨out, h3, by omega⟩

theorem verifyBytes_ok {X : Type} (v : CertificateVerify) (h : v.signature.length ≤ 4096) :
    ∃ out, handshakeBytes (X := X) (.certificateVerify v) = .ok out ∧ out.length = 8 + v.signature.length := by
  have h1 : Writes v.toBinary (2 + (2 + v.signature.length)) :=
    writes_bind (writes_u16 _) fun _ => writes_len16 (by omega)
  obtain ⟨out, h3, h4⟩ := handshakeBytes_writes (X := X) (h := .certificateVerify v)
    (writes_bind h1 fun _ => writes_pure 15) (by omega)
  exact ⟨out, h3, by omega⟩

theorem finishedBytes_ok {X : Type} (v : Bytes) (h : v.length ≤ 48) :
    ∃ out, handshakeBytes (X := X) (.finished v) = .ok out ∧ out.length = 4 + v.length := by
  obtain ⟨out, h3, h4⟩ := handshakeBytes_writes (X := X) (h := .finished v)
    (writes_bind (writes_raw v) fun _ => writes_pure 20) (by omega)
  exact ⟨out, h3, by omega⟩

/-! ### Key schedule -/

theorem expandLabel_some {X K : Type} {cr : Crypto X K} (hw : cr.Works) (alg : HashAlg) (prk label context : Bytes)
    (hp : hashLen alg ≤ prk.length) {len : Nat} (h : len ≤ 48) : ∃ okm, expandLabel cr alg prk label context len = some okm :=
  hw.expand _ _ _ _ hp h

theorem hkdfExpandLabel_some {X K : Type} {cr : Crypto X K} {alg : HashAlg} {prk label context okm : Bytes} {len : Nat}
    (h : expandLabel cr alg prk label context len = some okm) :
    hkdfExpandLabel cr alg prk label context len = .ok okm := by
  rw [hkdfExpandLabel_eq, h]

theorem hashLen_le (alg : HashAlg) : hashLen alg ≤ 48 := by cases alg <;> decide

theorem deriveSecret_some {X K : Type} {cr : Crypto X K} {alg : HashAlg} {prk label thash okm : Bytes}
    (h : expandLabel cr alg prk label thash (hashLen alg) = some okm) : deriveSecret cr alg prk label thash = .ok okm := by
  unfold deriveSecret
  rw [byteLen_eq]
  exact hkdfExpandLabel_some h

theorem derivedPrk_some {X K : Type} {cr : Crypto X K} {alg : HashAlg} {prk secret salt : Bytes}
    (h : expandLabel cr alg prk labelDerived (cr.hash alg []) (hashLen alg) = some salt) :
    derivedPrk cr alg prk secret = .ok (cr.hkdfExtract alg salt secret) := by
  unfold derivedPrk
  have hd : ascii "derived" = labelDerived := by decide
  rw [hd, deriveSecret_some h]
  rfl

theorem keyLen_eq (aead : AeadAlg) : aead.keyLen = aeadKeyLen aead := by cases aead <;> rfl

theorem encryptionKey_some {X K : Type} {cr : Crypto X K} (hw : cr.Works) (raw : Bytes) (alg : HashAlg) (aead : AeadAlg)
    (hr : hashLen alg ≤ raw.length) : ∃ key, EncryptionKey.new cr raw alg aead = .ok key := by
  obtain ⟨wk, h1⟩ := expandLabel_some hw alg raw (ascii "key") [] hr (len := aead.keyLen) (by cases aead <;> decide)
  obtain ⟨iv, h2⟩ := expandLabel_some hw alg raw (ascii "iv") [] hr (len := 12) (by omega)
  unfold EncryptionKey.new
  rw [hkdfExpandLabel_some h1, hkdfExpandLabel_some h2]
  exact ⟨_, rfl⟩

theorem trafficSecrets_some {X K : Type} {cr : Crypto X K} (hw : cr.Works) (hx : cr.Expands) (ciphers : Ciphers)
    (transcript prk : Bytes) (label : String) (hp : hashLen ciphers.hashAlg ≤ prk.length) : ∃ keys, TrafficSecrets.deriveFrom cr ciphers transcript prk label = .ok keys := by
  unfold TrafficSecrets.deriveFrom
  obtain ⟨c, h1⟩ := expandLabel_some hw ciphers.hashAlg prk (ascii "c " ++ ascii label ++ ascii " traffic")
    (cr.hash ciphers.hashAlg transcript) hp (hashLen_le ciphers.hashAlg)
  obtain ⟨s, h2⟩ := expandLabel_some hw ciphers.hashAlg prk (ascii "s " ++ ascii label ++ ascii " traffic")
    (cr.hash ciphers.hashAlg transcript) hp (hashLen_le ciphers.hashAlg)
  obtain ⟨ck, h3⟩ := encryptionKey_some hw c ciphers.hashAlg ciphers.aeadAlg (hx _ _ _ _ _ h1).ge
  obtain ⟨sk, h4⟩ := encryptionKey_some hw s ciphers.hashAlg ciphers.aeadAlg (hx _ _ _ _ _ h2).ge
  simp only [deriveSecret_some h1, deriveSecret_some h2, h3, h4]
  exact ⟨⟨ck, sk⟩, by simp only [bind, Except.bind, h3, h4]; rfl⟩

/-- Keys for a label and transcript are unique. -/
theorem isTrafficKey_unique {X K : Type} {cr : Crypto X K} {alg aead secret label transcript k1 k2}
    (h1 : IsTrafficKey cr alg aead secret label transcript k1) (h2 : IsTrafficKey cr alg aead secret label transcript k2) :
    k1 = k2 := by
  rcases k1 with ⟨r1, a1, w1, i1⟩
  rcases k2 with ⟨r2, a2, w2, i2⟩
  obtain ⟨p1, p2, p3, p4⟩ := h1
  obtain ⟨q1, q2, q3, q4⟩ := h2
  simp only at p1 p2 p3 p4 q1 q2 q3 q4
  rw [p1] at q1
  cases q1
  rw [p2] at q2
  rw [p3] at q3
  cases q2; cases q3
  rw [p4, q4]

/-! ### Sending -/

theorem willTake_mono {ws : List WriteEvent} {a b : Nat} (h : WillTake ws a) (hb : b ≤ a) : WillTake ws b :=
  ⟨h.1, Nat.le_trans hb h.2⟩

theorem willTake_writeLoop (ws : List WriteEvent) : ∀ (o sent : Bytes) (n : Nat), WillTake ws (o.length + n) →
    (∃ ws' sent', writeLoop ws o sent = (.ready (.ok ()), ws', [], sent') ∧ WillTake ws' n ∧ ws'.length ≤ ws.length) ∨
    (∃ ws' o' sent', writeLoop ws o sent = (.pending, ws', o', sent') ∧ WillTake ws' (o'.length + n) ∧
      ws'.length < ws.length) := by
  induction ws with
  | nil =>
    intro o sent n h
    cases o with
    | nil => left; exact ⟨[], sent, rfl, by simpa using h, Nat.le_refl _⟩
    | cons b bs =>
      have := h.2
      simp at this
  | cons e ws ih =>
    intro o sent n h
    cases o with
    | nil => left; exact ⟨e :: ws, sent, by cases e <;> rfl, by simpa using h, Nat.le_refl _⟩
    | cons b bs =>
      obtain ⟨h1, h2⟩ := h
      have hrest : ∀ x ∈ ws, x = .pending ∨ ∃ m, 0 < m ∧ x = .accept m := fun x hx => h1 x (by simp [hx])
      rcases h1 e (by simp) with rfl | ⟨m, hm, rfl⟩
      · right
        refine ⟨ws, b :: bs, sent, by rw [writeLoop], ⟨hrest, ?_⟩, by simp⟩
        simpa using h2
      · have hlen : ((b :: bs).drop m).length + n ≤ (ws.filter fun e => e != .pending).length := by
          simp at h2 ⊢
          omega
        have := ih ((b :: bs).drop m) (sent ++ (b :: bs).take m) n ⟨hrest, hlen⟩
        rw [writeLoop]
        rcases this with ⟨ws', sent', e1, e2, e3⟩ | ⟨ws', o', sent', e1, e2, e3⟩
        · left; exact ⟨ws', sent', e1, e2, by simp; omega⟩
        · right; exact ⟨ws', o', sent', e1, e2, by simp; omega⟩

/-- How many answers of the transport are left. -/
def PlaintextStream.answers (p : PlaintextStream) : Nat :=
  p.inner.reads.length + p.inner.writes.length + p.inner.flushes.length

theorem willTake_flush (p : PlaintextStream) (n m : Nat) (hw : WillTake p.inner.writes (p.outgoing.length + n))
    (hf : WillFlush p.inner.flushes (m + 1)) :
    (∃ p', p.pollFlush = (.ready (.ok ()), p') ∧ p'.outgoing = [] ∧ WillTake p'.inner.writes n ∧
      WillFlush p'.inner.flushes m ∧ p'.answers ≤ p.answers) ∨
    (∃ p', p.pollFlush = (.pending, p') ∧ WillTake p'.inner.writes (p'.outgoing.length + n) ∧
      WillFlush p'.inner.flushes (m + 1) ∧ p'.answers < p.answers) := by
  unfold PlaintextStream.pollFlush
  rcases willTake_writeLoop p.inner.writes p.outgoing p.inner.sent n hw with ⟨ws', sent', e1, e2, e3⟩ | ⟨ws', o', sent', e1, e2, e3⟩
  · rw [e1]
    simp only [Transport.pollFlush]
    obtain ⟨h1, h2⟩ := hf
    rcases hfl : p.inner.flushes with _ | ⟨e, es⟩
    · rw [hfl] at h2; simp at h2
    · rw [hfl] at h1 h2
      have hrest : ∀ x ∈ es, x = .pending ∨ x = .ok := fun x hx => h1 x (by simp [hx])
      rcases h1 e (by simp) with rfl | rfl
      · right
        refine ⟨_, rfl, by simpa using e2, ⟨hrest, by simpa using h2⟩, ?_⟩
        simp only [PlaintextStream.answers, hfl, List.length_cons]
        omega
      · left
        refine ⟨_, rfl, rfl, e2, ⟨hrest, by simpa using h2⟩, ?_⟩
        simp only [PlaintextStream.answers, hfl, List.length_cons]
        omega
  · right
    rw [e1]
    refine ⟨_, rfl, e2, hf, ?_⟩
    simp only [PlaintextStream.answers]
    omega

/-! ### Receiving -/

theorem readData_append (a b : List ReadEvent) : readData (a ++ b) = readData a ++ readData b := by
  induction a with
  | nil => rfl
  | cons x es ih => cases x <;> simp [readData, ih]

theorem readData_ends (k : Nat) : readData (List.replicate k (.ready [])) = [] := by
  induction k with
  | zero => rfl
  | succ k ih => simp [List.replicate_succ, readData, ih]

/-- What is fixed about the rest of the run: the records of the flight and what follows them, how often the transport says
that it has ended, and how many more bytes and flushes it takes. -/
structure Spare where
  flight : List WireRecord
  rest : Bytes
  ends : Nat
  bytes : Nat
  flushes : Nat

/-- The stream still brings these records and then the rest; at most `c` of its ends are over. -/
structure Remains (sp : Spare) (p : PlaintextStream) (all : List WireRecord) (c : Nat) : Prop where
  legal : ∀ w ∈ all, w.Legal
  suffix : all <:+ sp.flight
  brings : ∃ es k, p.inner.reads = es ++ List.replicate k (.ready []) ∧ (∀ e ∈ es, Benign e) ∧
    p.receiver.incoming ++ readData es = wire all ++ sp.rest ∧
    (p.receiver.readState = .active ∨ (p.receiver.readState = .eof ∧ es = [])) ∧ sp.ends ≤ k + c

theorem Remains.mono {sp : Spare} {p : PlaintextStream} {all : List WireRecord} {c c' : Nat} (h : Remains sp p all c)
    (hc : c ≤ c') : Remains sp p all c' := by
  obtain ⟨hl, hs, es, k, h1, h2, h3, h4, h5⟩ := h
  exact ⟨hl, hs, es, k, h1, h2, h3, h4, by omega⟩

theorem Remains.unread {sp : Spare} {p : PlaintextStream} {all : List WireRecord} {c : Nat} (h : Remains sp p all c) :
    p.unread = wire all ++ sp.rest := by
  obtain ⟨es, k, h1, _, h3, _⟩ := h.brings
  rw [PlaintextStream.unread, h1, readData_append, readData_ends, List.append_nil, h3]

/-- One round of receiving does no harm. -/
theorem remains_recv {sp : Spare} {p : PlaintextStream} {all : List WireRecord} {c : Nat} (h : Remains sp p all c) :
    ∃ p' , (p.pollRecv = (.pending, p') ∨ p.pollRecv = (.ready (.ok ()), p')) ∧
      (Remains sp p' all c ∨ (Remains sp p' all (c + 1) ∧ p'.receiver.readState = .eof)) ∧
      p'.inner.writes = p.inner.writes ∧ p'.inner.flushes = p.inner.flushes ∧ p'.outgoing = p.outgoing ∧
      (p'.answers < p.answers ∨ (p' = p ∧ p.inner.reads = [])) := by
  obtain ⟨es, k, h1, h2, h3, h4, h5⟩ := h.brings
  unfold PlaintextStream.pollRecv pollReceiveAndAddData Transport.pollRead
  rcases es with _ | ⟨e, es⟩
  · rcases k with _ | k
    · simp only [List.replicate_zero, List.append_nil] at h1
      simp only [h1]
      refine ⟨p, .inl rfl, .inl h, rfl, rfl, rfl, .inr ⟨rfl, trivial⟩⟩
    · rw [List.replicate_succ, List.nil_append] at h1
      simp only [h1]
      refine ⟨_, .inr rfl, .inr ⟨⟨h.legal, h.suffix, [], k, rfl, nofun, ?_, .inr ⟨?_, rfl⟩, by omega⟩, ?_⟩, rfl, rfl, rfl, .inl ?_⟩
      · rcases h4 with h4 | ⟨h4, _⟩ <;> simp only [RecordReceiver.close, h4] <;> exact h3
      · rcases h4 with h4 | ⟨h4, _⟩ <;> simp only [RecordReceiver.close, h4]
      · rcases h4 with h4 | ⟨h4, _⟩ <;> simp only [RecordReceiver.close, h4]
      · simp only [PlaintextStream.answers, h1, List.length_cons]; omega
  · have hact : p.receiver.readState = .active := by
      rcases h4 with h4 | ⟨_, h4⟩
      · exact h4
      · cases h4
    have hes : ∀ x ∈ es, Benign x := fun x hx => h2 x (by simp [hx])
    have hb := h2 e (by simp)
    rw [List.cons_append] at h1
    simp only [h1]
    rcases e with _ | data | kk
    · refine ⟨_, .inl rfl, .inl ⟨h.legal, h.suffix, es, k, rfl, hes, h3, .inl hact, h5⟩, rfl, rfl, rfl, .inl ?_⟩
      simp only [PlaintextStream.answers, h1, List.length_cons]; omega
    · rcases data with _ | ⟨b, bs⟩
      · exact absurd rfl hb
      · refine ⟨_, .inr rfl, .inl ⟨h.legal, h.suffix, es, k, rfl, hes, ?_, .inl hact, h5⟩, rfl, rfl, rfl, .inl ?_⟩
        · simp only [RecordReceiver.appendData, List.append_assoc]
          exact h3
        · simp only [PlaintextStream.answers, h1, List.length_cons]; omega
    · exact absurd hb (by simp [Benign])

theorem wire_cut_rest (w : WireRecord) (ws : List WireRecord) (inc data rest : Bytes)
    (h : inc ++ data = wire (w :: ws) ++ rest) :
    (∃ more, inc = w.bytes ++ more ∧ more ++ data = wire ws ++ rest) ∨
    (inc.length < w.bytes.length ∧ data ≠ [] ∧ ∃ r, inc ++ r = w.bytes) := by
  rw [wire_cons, List.append_assoc] at h
  rcases Nat.lt_or_ge inc.length w.bytes.length with hlt | hge
  · right
    refine ⟨hlt, ?_, w.bytes.drop inc.length, ?_⟩
    · rintro rfl
      have := congrArg List.length h
      simp only [List.length_append, List.length_nil] at this
      omega
    · have : inc = w.bytes.take inc.length := by
        have := congrArg (List.take inc.length) h
        rwa [List.take_left, List.take_append_of_le_length (by omega)] at this
      conv_lhs => lhs; rw [this]
      exact List.take_append_drop _ _
  · left
    obtain ⟨more, hm⟩ : ∃ more, inc = w.bytes ++ more := by
      refine ⟨inc.drop w.bytes.length, ?_⟩
      have := congrArg (List.take w.bytes.length) h
      rw [List.take_left, List.take_append_of_le_length hge] at this
      conv_lhs => rw [← List.take_append_drop w.bytes.length inc, this]
    refine ⟨more, hm, ?_⟩
    rw [hm, List.append_assoc] at h
    exact List.append_cancel_left h

/-- The next record that counts is received, or there is not enough of it yet. -/
theorem ignoreCcLoop_go (all : List WireRecord) : ∀ (fuel : Nat) (r : RecordReceiver) (data rest : Bytes) (w : WireRecord)
    (ws : List WireRecord), (∀ x ∈ all, x.Legal) → all.filter (fun x => x.typ != 20) = w :: ws →
    r.incoming ++ data = wire all ++ rest → (r.readState = .active ∨ data = []) → r.incoming.length < fuel →
    (∃ inc all', ignoreCcLoop fuel r = (.ready (.ok (some w.owned)), ⟨inc, r.readState⟩) ∧ inc.length < r.incoming.length ∧
      inc ++ data = wire all' ++ rest ∧ all' <:+ all ∧ all'.filter (fun x => x.typ != 20) = ws) ∨
    (∃ inc all', ignoreCcLoop fuel r = (.pending, ⟨inc, r.readState⟩) ∧
      inc ++ data = wire all' ++ rest ∧ all' <:+ all ∧ all'.filter (fun x => x.typ != 20) = w :: ws ∧ data ≠ []) := by
  induction all with
  | nil => intro fuel r data rest w ws _ hf; cases hf
  | cons v vs ih =>
    intro fuel r data rest w ws hleg hf hinc hst hfuel
    cases fuel with
    | zero => omega
    | succ fuel =>
    have hv := hleg v (by simp)
    have hvs : ∀ x ∈ vs, x.Legal := fun x hx => hleg x (by simp [hx])
    rcases wire_cut_rest v vs r.incoming data rest hinc with ⟨more, hm, hrest⟩ | ⟨hlt, hne, tail, htail⟩
    · have hr : r = ⟨v.bytes ++ more, r.readState⟩ := by rw [← hm]
      have hpop := popRecord_wire v hv more r.readState
      rw [← hr] at hpop
      have hlen : more.length < r.incoming.length := by
        rw [hm, List.length_append, WireRecord.bytes_length]; omega
      rw [ignoreCcLoop, hpop]
      simp only
      by_cases h20 : v.typ = 20
      · rw [if_neg (by intro hh; exact hh ((ccs_iff v.typ).mpr h20))]
        have hf' : vs.filter (fun x => x.typ != 20) = w :: ws := by
          rw [List.filter_cons] at hf
          simpa [h20] using hf
        rcases ih fuel ⟨more, r.readState⟩ data rest w ws hvs hf' hrest hst (by simp only; omega) with
          ⟨inc, all', e1, e2, e3, e4, e5⟩ | ⟨inc, all', e1, e2, e3, e4⟩
        · left; exact ⟨inc, all', e1, by simp only at e2; omega, e3, e4.trans (List.suffix_cons v vs), e5⟩
        · right; exact ⟨inc, all', e1, e2, e3.trans (List.suffix_cons v vs), e4⟩
      · rw [if_pos (by intro hh; exact h20 ((ccs_iff v.typ).mp hh))]
        rw [List.filter_cons, if_pos (by simpa using h20)] at hf
        cases hf
        left
        exact ⟨more, vs, rfl, hlen, hrest, List.suffix_cons v vs, rfl⟩
    · right
      have hact : r.readState = .active := by
        rcases hst with hst | hst
        · exact hst
        · exact absurd hst hne
      have hpop := popRecord_incomplete v hv r.incoming tail htail hlt
      have hr : r = ⟨r.incoming, .active⟩ := by rw [← hact]
      rw [← hr] at hpop
      rw [ignoreCcLoop, hpop]
      exact ⟨r.incoming, v :: vs, rfl, hinc, List.suffix_refl _, hf, hne⟩

/-- The same for the stream. -/
theorem remains_receive {sp : Spare} {p : PlaintextStream} {all : List WireRecord} {c : Nat} (h : Remains sp p all c) (w : WireRecord)
    (ws : List WireRecord) (hf : all.filter (fun x => x.typ != 20) = w :: ws) :
    ∃ r' all', Remains sp { p with receiver := r' } all' c ∧ r'.readState = p.receiver.readState ∧
      ((pollReceiveRecordIgnoreCc p.receiver = (.ready (.ok (some w.owned)), r') ∧
          r'.incoming.length < p.receiver.incoming.length ∧
          all'.filter (fun x => x.typ != 20) = ws) ∨
        (pollReceiveRecordIgnoreCc p.receiver = (.pending, r') ∧ all'.filter (fun x => x.typ != 20) = w :: ws ∧
          p.inner.reads ≠ [] ∧ p.receiver.readState ≠ .eof)) := by
  obtain ⟨es, k, h1, h2, h3, h4, h5⟩ := h.brings
  unfold pollReceiveRecordIgnoreCc
  have hst : p.receiver.readState = .active ∨ readData es = [] := by
    rcases h4 with h4 | ⟨_, rfl⟩
    · exact .inl h4
    · exact .inr rfl
  rcases ignoreCcLoop_go all (p.receiver.incoming.length + 1) p.receiver (readData es) sp.rest w ws h.legal hf h3 hst (by omega) with
    ⟨inc, all', e1, e2, e3, e4, e5⟩ | ⟨inc, all', e1, e3, e4, e5, e6⟩
  · exact ⟨⟨inc, p.receiver.readState⟩, all', ⟨fun x hx => h.legal x (e4.subset hx), e4.trans h.suffix, es, k, h1, h2, e3, h4, h5⟩,
      rfl, .inl ⟨e1, e2, e5⟩⟩
  · refine ⟨⟨inc, p.receiver.readState⟩, all', ⟨fun x hx => h.legal x (e4.subset hx), e4.trans h.suffix, es, k, h1, h2, e3, h4, h5⟩,
      rfl, .inr ⟨e1, e5, ?_, ?_⟩⟩
    · intro hnil
      rw [hnil] at h1
      cases es with
      | nil => exact e6 rfl
      | cons _ _ => simp at h1
    · intro heof
      rcases h4 with h4 | ⟨_, rfl⟩
      · rw [h4] at heof; cases heof
      · exact e6 rfl

/-! ### The flight -/

/-- The messages of a flight, with the requests between. -/
def Flight.msgs {X : Type} (f : Flight X) (reqs : List (Handshake X × Bytes)) : List (Handshake X × Bytes) :=
  [(.encryptedExtensions f.ee, f.eeRaw)] ++ reqs ++
    [(.certificate f.cert, f.certRaw), (.certificateVerify f.cv, f.cvRaw), (.finished f.verifyData, f.finRaw)]

/-- The requests of a legal flight. -/
def IsReqs {X : Type} (reqs : List (Handshake X × Bytes)) : Prop :=
  reqs = [] ∨ ∃ req raw, reqs = [(.certificateRequest req, raw)]

theorem next_ok {X : Type} {f : Flight X} {reqs : List (Handshake X × Bytes)} (hr : IsReqs reqs) {hash : Bytes → Bytes}
    {base : Bytes} {hs todo : List (Handshake X × Bytes)} {c : ClientState X} {h : Handshake X} {raw : Bytes}
    (hi : StateInv hash base hs c) (hsplit : hs ++ (h, raw) :: todo = f.msgs reqs) (hash' : Bytes) :
    (∀ sm, c ≠ .receivedFinished sm) ∧ ∃ c', c.onHashAndHandshake hash' h = .ok c' := by
  unfold Flight.msgs at hsplit
  cases c with
  | receivedServerHello =>
    simp only [StateInv] at hi
    subst hi
    simp at hsplit
    obtain ⟨⟨rfl, rfl⟩, _⟩ := hsplit
    exact ⟨nofun, _, rfl⟩
  | receivedEncryptedExtensions ee =>
    obtain ⟨r, rfl⟩ := hi
    rcases hr with rfl | ⟨req, rr, rfl⟩ <;> simp at hsplit <;> obtain ⟨_, ⟨rfl, rfl⟩, _⟩ := hsplit <;> exact ⟨nofun, _, rfl⟩
  | receivedCertificateRequest ee c =>
    obtain ⟨r, p1, ⟨raw1, rfl⟩, rfl⟩ := hi
    rcases hr with rfl | ⟨req, rr, rfl⟩
    · simp at hsplit
    · simp at hsplit
      obtain ⟨_, _, ⟨rfl, rfl⟩, _⟩ := hsplit
      exact ⟨nofun, _, rfl⟩
  | receivedCertificate ee o c =>
    obtain ⟨r, p1, p2, hp1, ⟨raw2, rfl⟩, rfl⟩ := hi
    rcases o with _ | o
    · cases (show p1 = [] from hp1)
      rcases hr with rfl | ⟨req, rr, rfl⟩
      · simp at hsplit
        obtain ⟨_, _, ⟨rfl, rfl⟩, _⟩ := hsplit
        exact ⟨nofun, _, rfl⟩
      · simp at hsplit
    · obtain ⟨raw1, rfl⟩ := hp1
      rcases hr with rfl | ⟨req, rr, rfl⟩
      · simp at hsplit
      · simp at hsplit
        obtain ⟨_, _, _, ⟨rfl, rfl⟩, _⟩ := hsplit
        exact ⟨nofun, _, rfl⟩
  | receivedCertificateVerify ee o c cv =>
    obtain ⟨r, p1, p2, r3, hp1, hp2, rfl, hcv⟩ := hi
    refine ⟨nofun, ?_⟩
    rcases o with _ | o
    · cases (show p1 = [] from hp1)
      rcases c with _ | c
      · cases (show p2 = [] from hp2)
        rcases hr with rfl | ⟨req, rr, rfl⟩ <;> simp at hsplit
      · obtain ⟨raw2, rfl⟩ := hp2
        rcases hr with rfl | ⟨req, rr, rfl⟩
        · simp at hsplit
          obtain ⟨_, _, _, ⟨rfl, rfl⟩, _⟩ := hsplit
          exact ⟨_, rfl⟩
        · simp at hsplit
    · obtain ⟨raw1, rfl⟩ := hp1
      rcases c with _ | c
      · cases (show p2 = [] from hp2)
        rcases hr with rfl | ⟨req, rr, rfl⟩ <;> simp at hsplit
      · obtain ⟨raw2, rfl⟩ := hp2
        rcases hr with rfl | ⟨req, rr, rfl⟩
        · simp at hsplit
        · simp at hsplit
          obtain ⟨_, _, _, _, ⟨rfl, rfl⟩, _⟩ := hsplit
          exact ⟨_, rfl⟩
  | receivedFinished sm =>
    exfalso
    obtain ⟨r, p1, p2, p3, r4, hp1, hp2, hp3, rfl, _⟩ := hi
    have h4 := congrArg List.getLast? hsplit
    rcases o : sm.certificateRequest with _ | o <;> rw [o] at hp1
    all_goals first | cases (show p1 = [] from hp1) | obtain ⟨raw1, rfl⟩ := hp1
    all_goals rcases c : sm.certificate with _ | c <;> rw [c] at hp2
    all_goals first | cases (show p2 = [] from hp2) | obtain ⟨raw2, rfl⟩ := hp2
    all_goals rcases v : sm.certificateVerify with _ | v <;> rw [v] at hp3
    all_goals first | cases (show p3 = [] from hp3) | obtain ⟨raw3, rfl⟩ := hp3
    all_goals rcases hr with rfl | ⟨req, rr, rfl⟩ <;> simp at hsplit

theorem all_received {X : Type} {f : Flight X} {reqs : List (Handshake X × Bytes)} (hr : IsReqs reqs) {hash : Bytes → Bytes}
    {base : Bytes} {c : ClientState X} (hi : StateInv hash base (f.msgs reqs) c) :
    ∃ sm, c = .receivedFinished sm ∧ sm.certificate = some f.cert ∧
      sm.certificateVerify = some (f.cv, hash (base ++ f.eeRaw ++ (reqs.map Prod.snd).flatten ++ f.certRaw)) ∧
      sm.finished = (f.verifyData, hash (base ++ f.eeRaw ++ (reqs.map Prod.snd).flatten ++ f.certRaw ++ f.cvRaw)) := by
  unfold Flight.msgs at hi
  cases c with
  | receivedServerHello => simp [StateInv] at hi
  | receivedEncryptedExtensions ee => simp [StateInv] at hi
  | receivedCertificateRequest ee c =>
    obtain ⟨r, p1, ⟨raw1, rfl⟩, hh⟩ := hi
    rcases hr with rfl | ⟨req, rr, rfl⟩ <;> simp at hh
  | receivedCertificate ee o c =>
    obtain ⟨r, p1, p2, hp1, ⟨raw2, rfl⟩, hh⟩ := hi
    rcases o with _ | o
    all_goals first | cases (show p1 = [] from hp1) | obtain ⟨raw1, rfl⟩ := hp1
    all_goals rcases hr with rfl | ⟨req, rr, rfl⟩ <;> simp at hh
  | receivedCertificateVerify ee o c cv =>
    obtain ⟨r, p1, p2, r3, hp1, hp2, hh, hcv⟩ := hi
    rcases o with _ | o
    all_goals first | cases (show p1 = [] from hp1) | obtain ⟨raw1, rfl⟩ := hp1
    all_goals rcases c with _ | c
    all_goals first | cases (show p2 = [] from hp2) | obtain ⟨raw2, rfl⟩ := hp2
    all_goals rcases hr with rfl | ⟨req, rr, rfl⟩ <;> simp at hh
  | receivedFinished sm =>
    obtain ⟨r, p1, p2, p3, r4, hp1, hp2, hp3, hh, hcv, hfin⟩ := hi
    refine ⟨sm, rfl, ?_⟩
    rcases o : sm.certificateRequest with _ | o <;> rw [o] at hp1
    all_goals first | cases (show p1 = [] from hp1) | obtain ⟨raw1, rfl⟩ := hp1
    all_goals rcases c : sm.certificate with _ | c <;> rw [c] at hp2
    all_goals first | cases (show p2 = [] from hp2) | obtain ⟨raw2, rfl⟩ := hp2
    all_goals rcases ev : sm.certificateVerify with _ | v <;> rw [ev] at hp3
    all_goals first | cases (show p3 = [] from hp3) | obtain ⟨raw3, rfl⟩ := hp3
    all_goals rcases hr with rfl | ⟨req, rr, rfl⟩ <;> simp at hh
    all_goals
      have h1 := hcv _ ev
      rcases v with ⟨v1, v2⟩
      rcases hfe : sm.finished with ⟨f1, f2⟩
      rw [hfe] at hfin hh
      simp only at h1 hfin hh
      simp [hh, h1, hfin, rawsOf]

/-! ### Receiving the flight -/

/-- The state while an honest flight is received: `hs` has been, `todo` has not. -/
structure HsGo {X K : Type} (cr : Crypto X K) (config : ClientConfig) (ch : Bytes) (f : Flight X) (ciphers : Ciphers)
    (prk : Bytes) (keys : TrafficSecrets) (reqs : List (Handshake X × Bytes)) (sp : Spare) (c : Nat)
    (hs todo : List (Handshake X × Bytes)) (s : ServerHelloState X) : Prop where
  config_eq : s.config = config
  seq : s.seqenc = ⟨0, hs.length, keys, ciphers⟩
  prk_eq : s.prk = prk
  transcript : s.transcript = ch ++ f.shRaw ++ rawsOf hs
  split : hs ++ todo = f.msgs reqs
  state : StateInv (cr.hash ciphers.hashAlg) (ch ++ f.shRaw) hs s.cstate
  remains : ∃ all, Remains sp s.plaintext all c ∧
    ProtectsAll cr keys.server hs.length (all.filter fun x => x.typ != 20) (todo.map fun m => (22, m.2))
  outgoing : s.plaintext.outgoing = []
  take : WillTake s.plaintext.inner.writes (16645 + sp.bytes)
  flush : WillFlush s.plaintext.inner.flushes (sp.flushes + 1)

theorem HsGo.mono {X K : Type} {cr : Crypto X K} {config : ClientConfig} {ch : Bytes} {f : Flight X} {ciphers : Ciphers}
    {prk : Bytes} {keys : TrafficSecrets} {reqs : List (Handshake X × Bytes)} {sp : Spare} {c c' : Nat}
    {hs todo : List (Handshake X × Bytes)} {s : ServerHelloState X}
    (h : HsGo cr config ch f ciphers prk keys reqs sp c hs todo s) (hc : c ≤ c') :
    HsGo cr config ch f ciphers prk keys reqs sp c' hs todo s := by
  obtain ⟨all, h1, h2⟩ := h.remains
  exact ⟨h.config_eq, h.seq, h.prk_eq, h.transcript, h.split, h.state, ⟨all, h1.mono hc, h2⟩, h.outgoing, h.take, h.flush⟩

theorem receive_go {X K : Type} (cr : Crypto X K) {config : ClientConfig} {ch : Bytes} {f : Flight X} {ciphers : Ciphers}
    {prk : Bytes} {keys : TrafficSecrets} {reqs : List (Handshake X × Bytes)} {sp : Spare} {c : Nat}
    (hiv : keys.server.writeIv.length = 12) (hr : IsReqs reqs) (hparse : ∀ m ∈ f.msgs reqs, Parses cr m.2 m.1)
    (todo : List (Handshake X × Bytes)) : ∀ (hs : List (Handshake X × Bytes)) (s : ServerHelloState X) (fuel : Nat),
      HsGo cr config ch f ciphers prk keys reqs sp c hs todo s → s.plaintext.receiver.incoming.length < fuel →
      (∃ sm s', receiveServerMessages cr fuel s = (.ready (.ok sm), s') ∧ s'.cstate = .receivedFinished sm ∧
        HsGo cr config ch f ciphers prk keys reqs sp c (f.msgs reqs) [] s' ∧ s'.plaintext.inner = s.plaintext.inner) ∨
      (∃ hs' todo' s', receiveServerMessages cr fuel s = (.pending, s') ∧
        HsGo cr config ch f ciphers prk keys reqs sp c hs' todo' s' ∧ s'.plaintext.inner = s.plaintext.inner ∧
        s.plaintext.inner.reads ≠ [] ∧ s.plaintext.receiver.readState ≠ .eof) := by
  induction todo with
  | nil =>
    intro hs s fuel h hfuel
    cases fuel with
    | zero => omega
    | succ fuel =>
    left
    have hall : hs = f.msgs reqs := by simpa using h.split
    subst hall
    obtain ⟨sm, hsm, _⟩ := all_received hr h.state
    exact ⟨sm, s, by rw [receiveServerMessages, hsm], hsm, h, rfl⟩
  | cons m todo ih =>
    intro hs s fuel h hfuel
    cases fuel with
    | zero => omega
    | succ fuel =>
    obtain ⟨m, raw⟩ := m
    obtain ⟨all, hrem, hprot⟩ := h.remains
    rcases hws : all.filter (fun x => x.typ != 20) with _ | ⟨w, ws⟩
    · rw [hws] at hprot; exact absurd hprot (by simp [ProtectsAll])
    rw [hws] at hprot
    obtain ⟨hw, hp, hprot'⟩ := hprot
    have hserver : s.seqenc.trafficSecrets.server = keys.server := by rw [h.seq]
    have hseq : s.seqenc.serverSequenceNo = hs.length := by rw [h.seq]
    have halg : s.seqenc.ciphers.hashAlg = ciphers.hashAlg := by rw [h.seq]
    obtain ⟨hnf, c', hstep⟩ := next_ok hr h.state h.split (cr.hash s.seqenc.ciphers.hashAlg s.transcript)
    obtain ⟨r', all', hrem', hrs, ⟨hpop, hlt, hf'⟩ | ⟨hpop, hf', hne⟩⟩ := remains_receive hrem w ws hws
    · have hdec := decryptMessage_protects cr keys.server hiv hs.length w hw 22 (by decide) raw hp
      have h22 : ContentType.fromRaw 22 = .handshake := rfl
      have hpm : Parses cr raw m := hparse (m, raw) (by rw [← h.split]; simp)
      rw [h22, show Message.fromRaw cr.x509 raw .handshake = .ok (.handshake m) from hpm] at hdec
      have hrecv : pollReceiveEncryptedMessage cr s.plaintext.receiver s.seqenc.serverSequenceNo s.seqenc.trafficSecrets.server
          = (.ready (.ok (some (.handshake m))), r', hs.length + 1, raw) := by
        rw [hserver, hseq]
        simp only [pollReceiveEncryptedMessage, hpop, WireRecord.owned, hdec]
      have e : receiveServerMessages cr (fuel + 1) s = receiveServerMessages cr fuel
          { s with
            plaintext := { s.plaintext with receiver := r' }
            seqenc := { s.seqenc with serverSequenceNo := hs.length + 1 }
            transcript := s.transcript ++ raw
            cstate := c' } := by
        rw [receiveServerMessages]
        split
        · rename_i sm hsm; exact absurd hsm (hnf sm)
        · rw [hrecv]
          simp only [hstep]
      rw [e]
      rw [← hrs]
      refine ih (hs ++ [(m, raw)]) _ fuel ?_ (by simp only; omega)
      refine ⟨h.config_eq, ?_, h.prk_eq, ?_, ?_, ?_, ⟨all', hrem', ?_⟩, h.outgoing, h.take, h.flush⟩
      · simp [h.seq]
      · simp [h.transcript, rawsOf]
      · simpa using h.split
      · rw [halg, h.transcript] at hstep
        exact stateInv_step h.state hstep
      · rw [hf']; simpa using hprot'
    · right
      have hrecv : pollReceiveEncryptedMessage (X := X) cr s.plaintext.receiver s.seqenc.serverSequenceNo s.seqenc.trafficSecrets.server
          = (.pending, r', hs.length, []) := by
        simp only [pollReceiveEncryptedMessage, hpop, hseq]
      refine ⟨hs, (m, raw) :: todo,
        { s with
            plaintext := { s.plaintext with receiver := r' }
            seqenc := { s.seqenc with serverSequenceNo := hs.length }
            transcript := s.transcript ++ [] }, ?_, ?_, rfl, hne⟩
      · rw [receiveServerMessages]
        split
        · rename_i sm hsm; exact absurd hsm (hnf sm)
        · rw [hrecv]
      · refine ⟨h.config_eq, ?_, h.prk_eq, ?_, h.split, h.state, ⟨all', hrem', ?_⟩, h.outgoing, h.take, h.flush⟩
        · simp [h.seq]
        · simp [h.transcript]
        · rw [hf']; exact ⟨hw, hp, hprot'⟩

/-! ### The checks and the answer -/

theorem computeApplicationSecrets_go {X K : Type} {cr : Crypto X K} (hw : cr.Works) (hx : cr.Expands) {config : ClientConfig} {ch : Bytes}
    {f : Flight X} {ciphers : Ciphers} {hsServer : EncryptionKey} (hauth : f.Authenticated cr config ch ciphers hsServer)
    (transcript prk : Bytes) (sm : ServerMessages X) (seqenc : SequenceEncryption) (hci : seqenc.ciphers = ciphers)
    (hp : hashLen ciphers.hashAlg ≤ prk.length)
    (hse : seqenc.trafficSecrets.server = hsServer) (h1 : sm.certificate = some f.cert)
    (h2 : sm.certificateVerify = some (f.cv, cr.hash ciphers.hashAlg (f.toCertificate ch)))
    (h3 : sm.finished = (f.verifyData, cr.hash ciphers.hashAlg (f.toSignature ch))) :
    ∃ keys, computeApplicationSecrets cr transcript config prk sm seqenc = .ok keys := by
  subst hci
  obtain ⟨entry, more, anchor, hl, hanchor, hver, hsig⟩ := hauth.certificate
  obtain ⟨fk, hfk, hv⟩ := hauth.finished
  obtain ⟨salt, hsalt⟩ := expandLabel_some hw seqenc.ciphers.hashAlg prk labelDerived (cr.hash seqenc.ciphers.hashAlg [])
    hp (hashLen_le seqenc.ciphers.hashAlg)
  unfold computeApplicationSecrets
  simp only [bind, Except.bind]
  rw [derivedPrk_some hsalt]
  simp only
  obtain ⟨keys, hkeys⟩ := trafficSecrets_some hw hx seqenc.ciphers transcript
    (cr.hkdfExtract seqenc.ciphers.hashAlg salt (List.replicate seqenc.ciphers.hashAlg.byteLen 0)) "ap" (hw.extract _ _ _).ge
  rw [hkeys]
  simp only
  have hfin : verifyFinished cr seqenc.ciphers.hashAlg seqenc.trafficSecrets.server sm.finished.2 sm.finished.1 = .ok () := by
    unfold verifyFinished
    have hf : ascii "finished" = labelFinished := by decide
    rw [hf, hse, deriveSecret_some hfk, h3]
    simp only [bind, Except.bind, hmacVerify]
    rw [if_neg (by rw [byteLen_eq, hv, hw.hmac]; simp)]
    simp [hv, pure, Except.pure]
  rw [hfin, h1]
  simp only [hl]
  have hrsa : rsaVerify cr f.cv.algorithm (cr.publicKey entry.certificate)
      (verifyTranscriptInput true (cr.hash seqenc.ciphers.hashAlg (f.toCertificate ch))) f.cv.signature = .ok () := by
    unfold rsaVerify
    rw [if_pos (by simpa using hauth.scheme), signedContent_eq, if_pos hsig]
  refine ⟨keys, ?_⟩
  rcases hsa : config.serverAuth with _ | c | _ <;> rw [hsa] at hanchor <;> cases hanchor
  all_goals
    simp only [hver, h2, hrsa]
    rfl

theorem clientCertificateBytes_go {X K : Type} {cr : Crypto X K} (alg : HashAlg) (transcript : Bytes) {auth : ClientAuth}
    (h : auth.Usable cr) : ∃ t c, clientCertificateBytes cr alg transcript auth = .ok (t, c) ∧ c.length ≤ 12309 := by
  rcases auth with _ | ⟨cert, isRsa, key⟩
  · exact ⟨transcript, [], rfl, by simp⟩
  · obtain ⟨⟨x, hx⟩, hlen, hsign⟩ := h
    obtain ⟨c, hc, hcl⟩ := certificateBytes_ok cert x hlen
    obtain ⟨sig, hs, hsl⟩ := hsign (verifyTranscriptInput false (cr.hash alg (transcript ++ c)))
    obtain ⟨v, hv, hvl⟩ := verifyBytes_ok (X := X) ⟨if isRsa then .rsaPssRsaeSha256 else .ed25519, sig⟩ hsl
    refine ⟨transcript ++ c ++ v, c ++ v, ?_, ?_⟩
    · unfold clientCertificateBytes
      simp only [hx, bind, Except.bind, hc, hs, hv]
      rfl
    · simp only at hvl
      rw [List.length_append]; omega

theorem clientFinishedBytes_go {X K : Type} {cr : Crypto X K} (hw : cr.Works) (alg : HashAlg) (key : EncryptionKey)
    (hr : hashLen alg ≤ key.raw.length) (transcript : Bytes) : ∃ out, clientFinishedBytes cr alg key transcript = .ok out ∧ out.length ≤ 52 := by
  obtain ⟨fk, hfk⟩ := expandLabel_some hw alg key.raw (ascii "finished") [] hr (hashLen_le alg)
  have hl := hw.hmac alg fk (cr.hash alg transcript)
  have := hashLen_le alg
  obtain ⟨out, h1, h2⟩ := finishedBytes_ok (X := X) (cr.hmac alg fk (cr.hash alg transcript)) (by omega)
  refine ⟨out, ?_, by omega⟩
  unfold clientFinishedBytes
  rw [deriveSecret_some hfk]
  exact h1

theorem encryptRecord_go {X K : Type} {cr : Crypto X K} (hw : cr.Works) (hc : cr.Correct) (p : PlaintextStream) (data : Bytes)
    (key : EncryptionKey) (hk : key.writeKey.length = aeadKeyLen key.aeadAlg) (hiv : key.writeIv.length = 12) (n : Nat)
    (ct : ContentType) (hlen : data.length ≤ 2 ^ 14) :
    ∃ p', encryptRecord cr p data ct key n = (.ok (), p') ∧ p'.inner = p.inner ∧ p'.receiver = p.receiver ∧
      p'.outgoing.length ≤ p.outgoing.length + 16645 := by
  have hok : ∃ p', encryptRecord cr p data ct key n = (.ok (), p') := by
    unfold encryptRecord
    rw [if_neg (by unfold maxPlaintextRecordSize; omega)]
    simp only [encryptTraffic, makeNonce_eq _ hiv]
    obtain ⟨c, hcc⟩ := hw.encrypt key.aeadAlg key.writeKey (nonceSpec key.writeIv n)
      [0x17, 0x03, 0x03, UInt8.ofNat (((data ++ [ct.toRaw]).length + key.aeadAlg.tagLen) >>> 8),
        UInt8.ofNat ((data ++ [ct.toRaw]).length + key.aeadAlg.tagLen)]
      (data ++ [ct.toRaw]) hk (nonceSpec_length _ hiv n) (by simp) (by simp; omega)
    rw [hcc]
    exact ⟨_, rfl⟩
  obtain ⟨p', h⟩ := hok
  obtain ⟨_, w, hw1, _, _, _, hp, _⟩ := encryptRecord_ok cr hc key hiv n p p' data ct h
  refine ⟨p', h, by rw [hp], by rw [hp], ?_⟩
  rw [hp]
  simp only [List.length_append, WireRecord.bytes_length]
  unfold WireRecord.Legal at hw1
  omega

/-! ### The whole handshake -/

/-- What is fixed about an honest run. -/
structure Run {X K : Type} (cr : Crypto X K) (config : ClientConfig) (privateKey : K) (ch : Bytes) (f : Flight X)
    (ciphers : Ciphers) (hsSecret : Bytes) (hsServer : EncryptionKey) (reqs : List (Handshake X × Bytes)) : Prop where
  works : cr.Works
  expands : cr.Expands
  correct : cr.Correct
  legal : f.Legal cr
  agreed : Agreed cr f.sh f.shRaw privateKey ch ciphers hsSecret hsServer
  oneShare : ∀ s1 s2, Extension.keyShareServerHello ⟨.x25519, s1⟩ ∈ f.sh.extensions →
    Extension.keyShareServerHello ⟨.x25519, s2⟩ ∈ f.sh.extensions → s1 = s2
  auth : f.Authenticated cr config ch ciphers hsServer
  usable : config.clientAuth.Usable cr
  isReqs : IsReqs reqs
  raws : reqs.map Prod.snd = f.reqRaws
  parses : ∀ m ∈ f.msgs reqs, Parses cr m.2 m.1

/-- Only records that TLS 1.3 ignores come before the rest. -/
def Ahead (sp : Spare) (p : PlaintextStream) : Prop :=
  ∃ ccs : List WireRecord, (∀ w ∈ ccs, w.typ = 20) ∧ Remains sp p ccs 2

/-- An honest run goes on. -/
def Good {X K : Type} (cr : Crypto X K) (config : ClientConfig) (privateKey : K) (ch : Bytes) (f : Flight X)
    (ciphers : Ciphers) (hsSecret : Bytes) (hsServer : EncryptionKey) (reqs : List (Handshake X × Bytes)) (sp : Spare) :
    ECState X K → Prop
  | .begin s => s.config = config ∧ s.privateKey = privateKey ∧ s.initialTranscript = ch ∧
      WillTake s.plaintext.inner.writes (s.plaintext.outgoing.length + (16645 + sp.bytes)) ∧
      WillFlush s.plaintext.inner.flushes (sp.flushes + 1 + 1) ∧
      ∃ all w0 ws, Remains sp s.plaintext all 0 ∧ all.filter (fun x => x.typ != 20) = w0 :: ws ∧ w0.typ = 22 ∧ w0.fragment = f.shRaw ∧
        ProtectsAll cr hsServer 0 ws ((f.msgs reqs).map fun m => (22, m.2))
  | .afterSendClientHello s => s.config = config ∧ s.privateKey = privateKey ∧ s.initialTranscript = ch ∧
      s.plaintext.outgoing = [] ∧ WillTake s.plaintext.inner.writes (16645 + sp.bytes) ∧
      WillFlush s.plaintext.inner.flushes (sp.flushes + 1) ∧
      ∃ all w0 ws, Remains sp s.plaintext all 0 ∧ all.filter (fun x => x.typ != 20) = w0 :: ws ∧ w0.typ = 22 ∧ w0.fragment = f.shRaw ∧
        ProtectsAll cr hsServer 0 ws ((f.msgs reqs).map fun m => (22, m.2))
  | .afterReceiveServerHello s => ∃ keys hs todo, keys.server = hsServer ∧
      IsTrafficKey cr ciphers.hashAlg ciphers.aeadAlg hsSecret labelClientHs (ch ++ f.shRaw) keys.client ∧
      HsGo cr config ch f ciphers hsSecret keys reqs sp 1 hs todo s
  | .afterReceiveServerMessages s => s.seqenc.ciphers = ciphers ∧ f.Keys cr ch ciphers hsSecret s.applicationSecrets ∧
      Ahead sp s.plaintext ∧ WillTake s.plaintext.inner.writes (s.plaintext.outgoing.length + sp.bytes) ∧
      WillFlush s.plaintext.inner.flushes (sp.flushes + 1)
  | .done c => c.seqenc.ciphers = ciphers ∧ f.Keys cr ch ciphers hsSecret c.seqenc.trafficSecrets ∧
      Ahead sp c.plaintext ∧ WillTake c.plaintext.inner.writes sp.bytes ∧ WillFlush c.plaintext.inner.flushes sp.flushes
  | .error _ => False

/-- How many states are before the end. -/
def ECState.rank {X K : Type} : ECState X K → Nat
  | .begin _ => 4
  | .afterSendClientHello _ => 3
  | .afterReceiveServerHello _ => 2
  | .afterReceiveServerMessages _ => 1
  | _ => 0

/-- How many answers of the transport are left. -/
def ECState.answers {X K : Type} : ECState X K → Nat
  | .begin s => s.plaintext.answers
  | .afterSendClientHello s => s.plaintext.answers
  | .afterReceiveServerHello s => s.plaintext.answers
  | .afterReceiveServerMessages s => s.plaintext.answers
  | _ => 0

theorem remains_of_rx {sp : Spare} {p q : PlaintextStream} {all : List WireRecord} {n : Nat} (h : Remains sp p all n)
    (h1 : q.receiver = p.receiver) (h2 : q.inner.reads = p.inner.reads) : Remains sp q all n := by
  obtain ⟨hl, hs, es, k, a, b, c, d⟩ := h
  exact ⟨hl, hs, es, k, by rw [h2, a], b, by rw [h1, c], by rw [h1]; exact d⟩

theorem serverKeyShare_unique {l : List Extension} {share : Bytes} (hmem : Extension.keyShareServerHello ⟨.x25519, share⟩ ∈ l)
    (hone : ∀ s1 s2, Extension.keyShareServerHello ⟨.x25519, s1⟩ ∈ l → Extension.keyShareServerHello ⟨.x25519, s2⟩ ∈ l → s1 = s2) :
    serverKeyShare l = some share := by
  have hsome : ∃ s, serverKeyShare l = some s := by
    clear hone
    induction l with
    | nil => cases hmem
    | cons e l ih =>
      rcases List.mem_cons.mp hmem with rfl | hmem
      · exact ⟨share, by rw [serverKeyShare, if_pos rfl]⟩
      · obtain ⟨s, hs⟩ := ih hmem
        cases e with
        | keyShareServerHello ks =>
          rw [serverKeyShare]
          split
          · exact ⟨_, rfl⟩
          · exact ⟨s, hs⟩
        | _ => exact ⟨s, by rw [serverKeyShare]; exact hs; nofun⟩
  obtain ⟨s, hs⟩ := hsome
  rw [hs, hone s share (serverKeyShare_mem hs) hmem]

theorem onServerHello_go {X K : Type} {cr : Crypto X K} {config : ClientConfig} {privateKey : K} {ch : Bytes} {f : Flight X}
    {ciphers : Ciphers} {hsSecret : Bytes} {hsServer : EncryptionKey} {reqs : List (Handshake X × Bytes)}
    (hrun : Run cr config privateKey ch f ciphers hsSecret hsServer reqs) (s : EarlyState K) (hk : s.privateKey = privateKey)
    (ht : s.initialTranscript = ch ++ f.shRaw) :
    ∃ keys, keys.server = hsServer ∧
      IsTrafficKey cr ciphers.hashAlg ciphers.aeadAlg hsSecret labelClientHs (ch ++ f.shRaw) keys.client ∧
      onServerHello cr s (some (.handshake (.serverHello f.sh))) = .afterReceiveServerHello
        { config := s.config, plaintext := s.plaintext, seqenc := ⟨0, 0, keys, ciphers⟩,
          transcript := s.initialTranscript, prk := hsSecret, cstate := .receivedServerHello } := by
  obtain ⟨share, dhe, hmem, hagree, salt, hsalt, hsec⟩ := hrun.agreed.shared
  have hci : Ciphers.fromServerHello f.sh = .ok ciphers := by
    unfold Ciphers.fromServerHello
    rcases hrun.agreed.suite with ⟨h1, rfl⟩ | ⟨h1, rfl⟩ <;> rw [h1]
  have hsh : sharedSecret cr s.privateKey f.sh = some dhe := by
    unfold sharedSecret
    rw [serverKeyShare_unique hmem hrun.oneShare, hk]
    exact hagree
  rw [← zeroPrk_eq] at hsalt
  have hprk : derivedPrk cr ciphers.hashAlg (zeroPrk cr ciphers.hashAlg) dhe = .ok hsSecret := by
    rw [derivedPrk_some hsalt, hsec]
  obtain ⟨keys, hkeys⟩ := trafficSecrets_some hrun.works hrun.expands ciphers (ch ++ f.shRaw) hsSecret "hs"
    (by rw [hsec]; exact (hrun.works.extract _ _ _).ge)
  obtain ⟨h1, h2⟩ := trafficSecrets_ok hkeys
  have e1 : ascii "c " ++ ascii "hs" ++ ascii " traffic" = labelClientHs := by decide
  have e2 : ascii "s " ++ ascii "hs" ++ ascii " traffic" = labelServerHs := by decide
  rw [e1] at h1
  rw [e2] at h2
  refine ⟨keys, isTrafficKey_unique h2 hrun.agreed.key, h1, ?_⟩
  unfold onServerHello
  rw [ht]
  simp only [hci, hsh, hprk, hkeys]

theorem onServerMessages_go {X K : Type} {cr : Crypto X K} {config : ClientConfig} {privateKey : K} {ch : Bytes} {f : Flight X}
    {ciphers : Ciphers} {hsSecret : Bytes} {hsServer : EncryptionKey} {reqs : List (Handshake X × Bytes)} {sp : Spare}
    (hrun : Run cr config privateKey ch f ciphers hsSecret hsServer reqs) {keys : TrafficSecrets} (hks : keys.server = hsServer)
    (hkc : IsTrafficKey cr ciphers.hashAlg ciphers.aeadAlg hsSecret labelClientHs (ch ++ f.shRaw) keys.client)
    {s : ServerHelloState X} {sm : ServerMessages X} (hsm : s.cstate = .receivedFinished sm)
    (h : HsGo cr config ch f ciphers hsSecret keys reqs sp 2 (f.msgs reqs) [] s) :
    Good cr config privateKey ch f ciphers hsSecret hsServer reqs sp (onServerMessages cr s sm : ECState X K) ∧
      (onServerMessages cr s sm : ECState X K).rank = 1 ∧
      (onServerMessages cr s sm : ECState X K).answers = s.plaintext.answers := by
  have hst := h.state
  rw [hsm] at hst
  obtain ⟨sm', hsm', h1, h2, h3⟩ := all_received hrun.isReqs hst
  cases hsm'
  rw [hrun.raws] at h2 h3
  have htr : s.transcript = f.toFinished ch := by
    rw [h.transcript]
    simp [Flight.msgs, rawsOf, Flight.toFinished, Flight.toSignature, Flight.toCertificate, ← hrun.raws]
  have hplen : hashLen ciphers.hashAlg ≤ s.prk.length := by
    obtain ⟨_, _, _, _, _, _, hsec⟩ := hrun.agreed.shared
    rw [h.prk_eq, hsec]
    exact (hrun.works.extract _ _ _).ge
  obtain ⟨akeys, hak⟩ := computeApplicationSecrets_go hrun.works hrun.expands hrun.auth s.transcript s.prk sm s.seqenc (by rw [h.seq]) hplen
    (by rw [h.seq]; exact hks) h1 h2 h3
  obtain ⟨t, c, hcert, hcl⟩ := clientCertificateBytes_go (cr := cr) s.seqenc.ciphers.hashAlg s.transcript hrun.usable
  obtain ⟨fin, hfin, hfl⟩ := clientFinishedBytes_go hrun.works s.seqenc.ciphers.hashAlg s.seqenc.trafficSecrets.client
    (by rw [h.seq]; exact (hrun.expands _ _ _ _ _ hkc.hraw).ge) t
  have hclient : s.seqenc.trafficSecrets.client = keys.client := by rw [h.seq]
  obtain ⟨p', hp, hp1, hp2, hp3⟩ := encryptRecord_go hrun.works hrun.correct s.plaintext (c ++ fin) keys.client
    (by rw [hkc.haead]; exact hrun.expands _ _ _ _ _ hkc.hkey) (isTrafficKey_iv hrun.expands hkc) s.seqenc.clientSequenceNo
    .handshake (by rw [List.length_append]; omega)
  have e : (onServerMessages cr s sm : ECState X K) = .afterReceiveServerMessages
      { plaintext := p', seqenc := { s.seqenc with clientSequenceNo := s.seqenc.clientSequenceNo + 1 }, applicationSecrets := akeys } := by
    unfold onServerMessages
    rw [hclient] at hfin
    rw [h.config_eq, hak]
    simp only [hcert, hfin, hclient, hp]
  rw [e]
  obtain ⟨all, hrem, hprot⟩ := h.remains
  have hall : all.filter (fun x => x.typ != 20) = [] := by
    rcases hh : all.filter (fun x => x.typ != 20) with _ | ⟨a, b⟩
    · first | rfl | exact hh
    · rw [hh] at hprot; exact absurd hprot (by simp [ProtectsAll])
  refine ⟨⟨?_, ⟨?_⟩, ⟨all, ?_, remains_of_rx hrem hp2 (by rw [hp1])⟩, ?_, ?_⟩, rfl, ?_⟩
  · show s.seqenc.ciphers = ciphers
    rw [h.seq]
  · have := (computeApplicationSecrets_ok hak).1
    rw [h.prk_eq, htr] at this
    have hci : s.seqenc.ciphers = ciphers := by rw [h.seq]
    rw [hci] at this
    exact this
  · intro w hw
    rw [List.filter_eq_nil_iff] at hall
    simpa using hall w hw
  · show WillTake p'.inner.writes (p'.outgoing.length + sp.bytes)
    rw [hp1]
    refine ⟨h.take.1, ?_⟩
    have := h.take.2
    rw [h.outgoing] at hp3
    simp only [List.length_nil] at hp3
    omega
  · show WillFlush p'.inner.flushes (sp.flushes + 1)
    rw [hp1]; exact h.flush
  · show p'.answers = _
    rw [PlaintextStream.answers, PlaintextStream.answers, hp1]

/-- One step of an honest run. -/
theorem step_go {X K : Type} {cr : Crypto X K} {config : ClientConfig} {privateKey : K} {ch : Bytes} {f : Flight X}
    {ciphers : Ciphers} {hsSecret : Bytes} {hsServer : EncryptionKey} {reqs : List (Handshake X × Bytes)} {sp : Spare}
    (hrun : Run cr config privateKey ch f ciphers hsSecret hsServer reqs) {s : ECState X K} (hrank : s.rank ≠ 0)
    (h : Good cr config privateKey ch f ciphers hsSecret hsServer reqs sp s) :
    ∃ s1 r s2, s.recv = (none, s1) ∧ s1.pollStep cr = (r, s2) ∧
      Good cr config privateKey ch f ciphers hsSecret hsServer reqs sp s2 ∧
      ((r = .ready () ∧ s2.rank < s.rank ∧ s2.answers ≤ s.answers) ∨ (r = .pending ∧ s2.answers < s.answers)) := by
  cases s with
  | begin s =>
    obtain ⟨h1, h2, h3, h4, h5, all, w0, ws, hrem, h6⟩ := h
    obtain ⟨r1, r2⟩ := pollFlush_rx s.plaintext
    rcases willTake_flush s.plaintext (16645 + sp.bytes) (sp.flushes + 1) h4 h5 with ⟨p', e1, e2, e3, e4, e5⟩ | ⟨p', e1, e2, e3, e4⟩
    · rw [e1] at r1 r2
      refine ⟨.begin s, .ready (), .afterSendClientHello { s with plaintext := p' }, rfl,
        by simp only [ECState.pollStep, beginStep, e1], ?_, .inl ⟨rfl, by simp [ECState.rank], e5⟩⟩
      exact ⟨h1, h2, h3, e2, e3, e4, all, w0, ws, remains_of_rx hrem r1 r2, h6⟩
    · rw [e1] at r1 r2
      refine ⟨.begin s, .pending, .begin { s with plaintext := p' }, rfl,
        by simp only [ECState.pollStep, beginStep, e1], ?_, .inr ⟨rfl, e4⟩⟩
      exact ⟨h1, h2, h3, e2, e3, all, w0, ws, remains_of_rx hrem r1 r2, h6⟩
  | afterSendClientHello s =>
    obtain ⟨h1, h2, h3, h4, h5, h6, all, w0, ws, hrem, hf, h22, hfr, hprot⟩ := h
    obtain ⟨p1, hrecv, hrem1, q1, q2, q3, q4⟩ := remains_recv hrem
    have er : (ECState.afterSendClientHello s : ECState X K).recv = (none, .afterSendClientHello { s with plaintext := p1 }) := by
      rcases hrecv with hrecv | hrecv <;> simp only [ECState.recv, hrecv]
    rw [er]
    have hle : p1.answers ≤ s.plaintext.answers := by
      rcases q4 with q4 | ⟨rfl, _⟩ <;> omega
    obtain ⟨n, hremn, hn, hn'⟩ : ∃ n, Remains sp p1 all n ∧ n ≤ 1 ∧ (n = 0 ∨ p1.receiver.readState = .eof) := by
      rcases hrem1 with hrem1 | ⟨hrem1, heof⟩
      · exact ⟨0, hrem1, by omega, .inl rfl⟩
      · exact ⟨1, hrem1, by omega, .inr heof⟩
    obtain ⟨r', all', hrem', _, ⟨hpop, hlt, hf'⟩ | ⟨hpop, hf', hne, hnoteof⟩⟩ := remains_receive hremn w0 ws hf
    · have hparse : Message.fromRaw cr.x509 f.shRaw .handshake = .ok (.handshake (.serverHello f.sh)) := hrun.legal.sh
      have ho : w0.owned.contentType = .handshake := by rw [WireRecord.owned, h22]; rfl
      have hof : w0.owned.fragment = f.shRaw := hfr
      have em : p1.pollReceivePlaintextMessage cr.x509 s.initialTranscript
          = (.ready (.ok (some (.handshake (.serverHello f.sh)))), { p1 with receiver := r' }, ch ++ f.shRaw) := by
        unfold PlaintextStream.pollReceivePlaintextMessage
        simp only [hpop, ho, hof, hparse, h3]
      obtain ⟨keys, k1, k2, k3⟩ := onServerHello_go hrun
        { s with plaintext := { p1 with receiver := r' }, initialTranscript := ch ++ f.shRaw } h2 rfl
      refine ⟨_, .ready (), .afterReceiveServerHello
        { config := s.config, plaintext := { p1 with receiver := r' }, seqenc := ⟨0, 0, keys, ciphers⟩,
          transcript := ch ++ f.shRaw, prk := hsSecret, cstate := .receivedServerHello }, rfl, ?_, ?_, .inl ⟨rfl, ?_, ?_⟩⟩
      · simp only [ECState.pollStep, sendClientHelloStep, em, k3]
      · refine ⟨keys, [], f.msgs reqs, k1, k2, h1, rfl, rfl, by simp [rawsOf], rfl, rfl, ⟨all', hrem'.mono hn, ?_⟩, ?_, ?_, ?_⟩
        · rw [hf', k1]; exact hprot
        · exact q3.trans h4
        · show WillTake p1.inner.writes _
          rw [q1]; exact h5
        · show WillFlush p1.inner.flushes _
          rw [q2]; exact h6
      · simp [ECState.rank]
      · exact hle
    · have em : p1.pollReceivePlaintextMessage cr.x509 s.initialTranscript
          = (.pending, { p1 with receiver := r' }, ch) := by
        unfold PlaintextStream.pollReceivePlaintextMessage
        simp only [hpop, h3]
      refine ⟨_, .pending, .afterSendClientHello { s with plaintext := { p1 with receiver := r' }, initialTranscript := ch }, rfl,
        ?_, ?_, .inr ⟨rfl, ?_⟩⟩
      · simp only [ECState.pollStep, sendClientHelloStep, em]
      · obtain rfl : n = 0 := hn'.resolve_right hnoteof
        refine ⟨h1, h2, rfl, q3.trans h4, ?_, ?_, all', w0, ws, hrem', hf', h22, hfr, hprot⟩
        · show WillTake p1.inner.writes _
          rw [q1]; exact h5
        · show WillFlush p1.inner.flushes _
          rw [q2]; exact h6
      · rcases q4 with q4 | ⟨rfl, q4⟩
        · exact q4
        · exact absurd q4 hne
  | afterReceiveServerHello s =>
    obtain ⟨keys, hs, todo, k1, k2, hgo⟩ := h
    obtain ⟨all, hrem, hprot⟩ := hgo.remains
    obtain ⟨p1, hrecv, hrem1, q1, q2, q3, q4⟩ := remains_recv hrem
    have er : (ECState.afterReceiveServerHello s : ECState X K).recv = (none, .afterReceiveServerHello { s with plaintext := p1 }) := by
      rcases hrecv with hrecv | hrecv <;> simp only [ECState.recv, hrecv]
    rw [er]
    have hle : p1.answers ≤ s.plaintext.answers := by
      rcases q4 with q4 | ⟨rfl, _⟩ <;> omega
    obtain ⟨n, hremn, hn, hn'⟩ : ∃ n, Remains sp p1 all n ∧ n ≤ 2 ∧ (n = 1 ∨ p1.receiver.readState = .eof) := by
      rcases hrem1 with hrem1 | ⟨hrem1, heof⟩
      · exact ⟨1, hrem1, by omega, .inl rfl⟩
      · exact ⟨2, hrem1, by omega, .inr heof⟩
    have hgo1 : HsGo cr config ch f ciphers hsSecret keys reqs sp n hs todo { s with plaintext := p1 } := by
      refine ⟨hgo.config_eq, hgo.seq, hgo.prk_eq, hgo.transcript, hgo.split, hgo.state, ⟨all, hremn, hprot⟩, q3.trans hgo.outgoing, ?_, ?_⟩
      · show WillTake p1.inner.writes _
        rw [q1]; exact hgo.take
      · show WillFlush p1.inner.flushes _
        rw [q2]; exact hgo.flush
    have hiv : keys.server.writeIv.length = 12 := by rw [k1]; exact isTrafficKey_iv hrun.expands hrun.agreed.key
    rcases receive_go cr hiv hrun.isReqs hrun.parses todo hs { s with plaintext := p1 } (p1.receiver.incoming.length + 1) hgo1
      (Nat.lt_succ_self _) with ⟨sm, s', e1, e2, e3, e4⟩ | ⟨hs', todo', s', e1, e2, e3, e4, e5⟩
    · obtain ⟨g1, g2, g3⟩ := onServerMessages_go (privateKey := privateKey) hrun k1 k2 e2 (e3.mono hn)
      refine ⟨_, _, _, rfl, ?_, g1, .inl ⟨rfl, ?_, ?_⟩⟩
      · simp only [ECState.pollStep, receiveServerHelloStep, e1]
      · rw [g2]; simp [ECState.rank]
      · rw [g3]
        simp only [PlaintextStream.answers] at hle ⊢
        rw [e4]
        exact hle
    · obtain rfl : n = 1 := hn'.resolve_right e5
      refine ⟨_, .pending, .afterReceiveServerHello s', rfl, ?_, ⟨keys, hs', todo', k1, k2, e2⟩, .inr ⟨rfl, ?_⟩⟩
      · simp only [ECState.pollStep, receiveServerHelloStep, e1]
      · show s'.plaintext.answers < s.plaintext.answers
        rcases q4 with q4 | ⟨rfl, q4⟩
        · simp only [PlaintextStream.answers] at q4 ⊢
          rw [e3]
          exact q4
        · exact absurd q4 e4
  | afterReceiveServerMessages s =>
    obtain ⟨h1, h2, h3, h4, h5⟩ := h
    obtain ⟨r1, r2⟩ := pollFlush_rx s.plaintext
    obtain ⟨ccs, c1, c2⟩ := h3
    rcases willTake_flush s.plaintext sp.bytes sp.flushes h4 h5 with ⟨p', e1, e2, e3, e4, e5⟩ | ⟨p', e1, e2, e3, e4⟩
    · rw [e1] at r1 r2
      refine ⟨.afterReceiveServerMessages s, .ready (), .done (Conn.new p' ⟨0, 0, s.applicationSecrets, s.seqenc.ciphers⟩), rfl,
        by simp only [ECState.pollStep, sendFinishedStep, e1], ?_, .inl ⟨rfl, by simp [ECState.rank], by simp [ECState.answers]⟩⟩
      exact ⟨h1, h2, ⟨ccs, c1, remains_of_rx c2 r1 r2⟩, e3, e4⟩
    · rw [e1] at r1 r2
      refine ⟨.afterReceiveServerMessages s, .pending, .afterReceiveServerMessages { s with plaintext := p' }, rfl,
        by simp only [ECState.pollStep, sendFinishedStep, e1], ?_, .inr ⟨rfl, e4⟩⟩
      exact ⟨h1, h2, ⟨ccs, c1, remains_of_rx c2 r1 r2⟩, e2, e3⟩
  | done c => exact absurd rfl hrank
  | error e => exact absurd rfl hrank

theorem establishLoop_go {X K : Type} {cr : Crypto X K} {config : ClientConfig} {privateKey : K} {ch : Bytes} {f : Flight X}
    {ciphers : Ciphers} {hsSecret : Bytes} {hsServer : EncryptionKey} {reqs : List (Handshake X × Bytes)} {sp : Spare}
    (hrun : Run cr config privateKey ch f ciphers hsSecret hsServer reqs) (n : Nat) : ∀ {s : ECState X K}, s.rank < n →
    Good cr config privateKey ch f ciphers hsSecret hsServer reqs sp s →
    (∃ c s', establishLoop cr n s = (.ready (.ok c), s') ∧
      Good cr config privateKey ch f ciphers hsSecret hsServer reqs sp (.done c : ECState X K)) ∨
    (∃ s', establishLoop cr n s = (.pending, s') ∧ Good cr config privateKey ch f ciphers hsSecret hsServer reqs sp s' ∧
      s'.answers < s.answers) := by
  induction n with
  | zero => intro s hn; omega
  | succ n ih =>
    intro s hn h
    by_cases hrank : s.rank = 0
    · cases s with
      | done c => left; exact ⟨c, .done c, by rw [establishLoop], h⟩
      | error e => exact absurd h (by simp [Good])
      | _ => simp [ECState.rank] at hrank
    · obtain ⟨s1, r, s2, e1, e2, hgood, hcase⟩ := step_go hrun hrank h
      have e : establishLoop cr (n + 1) s = (match r with
          | .ready () => establishLoop cr n s2
          | .pending => (.pending, s2)) := by
        cases s with
        | done c => exact absurd rfl hrank
        | error e => exact absurd rfl hrank
        | _ =>
          rw [establishLoop] <;> first | (rw [e1]; simp only [e2]; rcases r with _ | u <;> rfl) | (intro _ hh; cases hh)
      rw [e]
      rcases hcase with ⟨rfl, hlt, hle⟩ | ⟨rfl, hlt⟩
      · rcases ih (by omega) hgood with ⟨c, s', a1, a2⟩ | ⟨s', a1, a2, a3⟩
        · left; exact ⟨c, s', a1, a2⟩
        · right; exact ⟨s', a1, a2, by omega⟩
      · right; exact ⟨s2, rfl, hgood, hlt⟩

theorem pollTimes_go {X K : Type} {cr : Crypto X K} {config : ClientConfig} {privateKey : K} {ch : Bytes} {f : Flight X}
    {ciphers : Ciphers} {hsSecret : Bytes} {hsServer : EncryptionKey} {reqs : List (Handshake X × Bytes)} {sp : Spare}
    (hrun : Run cr config privateKey ch f ciphers hsSecret hsServer reqs) (n : Nat) : ∀ {s : ECState X K}, s.answers ≤ n →
    Good cr config privateKey ch f ciphers hsSecret hsServer reqs sp s →
    ∃ k c, k ≤ n ∧ (establishPoll cr (pollTimes cr k s)).1 = .ready (.ok c) ∧
      (∀ j, j < k → (establishPoll cr (pollTimes cr j s)).1 = .pending) ∧
      Good cr config privateKey ch f ciphers hsSecret hsServer reqs sp (.done c : ECState X K) := by
  induction n with
  | zero =>
    intro s hn h
    rcases establishLoop_go hrun 6 (s := s) (by cases s <;> simp [ECState.rank]) h with ⟨c, s', a1, a2⟩ | ⟨s', a1, a2, a3⟩
    · exact ⟨0, c, Nat.le_refl _, by rw [pollTimes, establishPoll, a1], by intro j hj; omega, a2⟩
    · omega
  | succ n ih =>
    intro s hn h
    rcases establishLoop_go hrun 6 (s := s) (by cases s <;> simp [ECState.rank]) h with ⟨c, s', a1, a2⟩ | ⟨s', a1, a2, a3⟩
    · exact ⟨0, c, Nat.zero_le _, by rw [pollTimes, establishPoll, a1], by intro j hj; omega, a2⟩
    · obtain ⟨k, c, b1, b2, b3, b4⟩ := ih (s := s') (by omega) a2
      have e : (establishPoll cr s).2 = s' := by rw [establishPoll, a1]
      refine ⟨k + 1, c, by omega, by rw [pollTimes, e]; exact b2, ?_, b4⟩
      intro j hj
      cases j with
      | zero => rw [pollTimes, establishPoll, a1]
      | succ j => rw [pollTimes, e]; exact b3 j (by omega)

end Ngfs.Tls
