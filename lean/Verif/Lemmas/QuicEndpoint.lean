import Verif.Spec.QuicEndpoint
import Verif.Lemmas.TlsTypes
import Verif.Lemmas.TlsHandshake
import Verif.Lemmas.QuicPacket
import Verif.Lemmas.QuicParams
import Verif.Props.TlsTypes
import Verif.Props.QuicParams

/-! Lemmas about the QUIC endpoint. -/
namespace Ngfs.Quic
open Binary Spec Spec.Quic

/-! ### Initial keys -/

theorem expand_iff {X K : Type} (cr : Tls.Crypto X K) (alg : Tls.HashAlg) (prk label context : Bytes) (len : Nat) (okm : Bytes) :
    Tls.hkdfExpandLabel cr alg prk label context len = .ok okm ↔ Tls.expandLabel cr alg prk label context len = some okm := by
  rw [Tls.hkdfExpandLabel_eq]
  cases Tls.expandLabel cr alg prk label context len <;> simp

theorem bind_iff {ε α β : Type} (x : Except ε α) (f : α → Except ε β) (b : β) : (x >>= f) = .ok b ↔ ∃ a, x = .ok a ∧ f a = .ok b := by
  cases x with
  | error e => simp [bind, Except.bind]
  | ok a => simp [bind, Except.bind]

theorem secrets_iff {X K : Type} (cr : Tls.Crypto X K) (initial : Bytes) (s : Secrets) :
    Secrets.fromInitial cr .sha256 initial = .ok s ↔ IsPacketKeys cr initial s := by
  have e1 : Tls.ascii "quic key" = [113, 117, 105, 99, 32, 107, 101, 121] := by decide
  have e2 : Tls.ascii "quic iv" = [113, 117, 105, 99, 32, 105, 118] := by decide
  have e3 : Tls.ascii "quic hp" = [113, 117, 105, 99, 32, 104, 112] := by decide
  simp only [Secrets.fromInitial, bind_iff, expand_iff, e1, e2, e3, IsPacketKeys]
  constructor
  · rintro ⟨a, h1, b, h2, c, h3, h⟩
    cases h
    exact ⟨h1, h2, h3⟩
  · rintro ⟨h1, h2, h3⟩
    exact ⟨_, h1, _, h2, _, h3, rfl⟩

theorem connectionSecrets_iff {X K : Type} (cr : Tls.Crypto X K) (dcid : Bytes) (s : ConnectionSecrets) :
    ConnectionSecrets.fromConnectionId cr .sha256 dcid = .ok s ↔ IsInitialKeys cr dcid s := by
  have e1 : Tls.ascii "client in" = [99, 108, 105, 101, 110, 116, 32, 105, 110] := by decide
  have e2 : Tls.ascii "server in" = [115, 101, 114, 118, 101, 114, 32, 105, 110] := by decide
  simp only [ConnectionSecrets.fromConnectionId, ConnectionSecrets.fromInitial, bind_iff, expand_iff, e1, e2, secrets_iff, IsInitialKeys,
    initialSalt, Tls.HashAlg.byteLen]
  constructor
  · rintro ⟨a, h1, b, h2, c, h3, d, h4, h⟩
    cases h
    exact ⟨a, b, h1, h2, h3, h4⟩
  · rintro ⟨a, b, h1, h2, h3, h4⟩
    exact ⟨a, h1, b, h2, _, h3, _, h4, rfl⟩

/-! ### The length of what a writer appends -/

/-- The writer succeeds and appends `n` bytes. -/
def Adds (w : WM Unit) (n : Nat) : Prop := ∀ s : Bytes, ∃ t : Bytes, t.length = n ∧ w s = (.ok (), s ++ t)

theorem Adds.grows {w : WM Unit} {n : Nat} (h : Adds w n) : Grows w := fun s => by
  obtain ⟨t, -, ht⟩ := h s
  exact ⟨t, by rw [ht]⟩

theorem adds_pure : Adds (pure ()) 0 := fun s => ⟨[], rfl, by simp [pure_def]⟩
theorem adds_raw (d : Bytes) : Adds (writeRaw d) d.length := fun _ => ⟨d, rfl, rfl⟩
theorem adds_u8 (b : UInt8) : Adds (writeU8 b) 1 := fun _ => ⟨[b], rfl, rfl⟩
theorem adds_u16 (n : Nat) : Adds (writeU16 n) 2 := fun _ => ⟨_, beBytes_length 2 n, rfl⟩

theorem adds_seq {m n : WM Unit} {a b : Nat} (h1 : Adds m a) (h2 : Adds n b) : Adds (m >>= fun _ => n) (a + b) := fun s => by
  obtain ⟨t, ht, h1⟩ := h1 s
  obtain ⟨u, hu, h2⟩ := h2 (s ++ t)
  refine ⟨t ++ u, by simp [ht, hu], ?_⟩
  rw [bind_def, h1]
  simp only [h2, List.append_assoc]

theorem adds_nil {α : Type} (item : α → WM Unit) : Adds (writeItems item []) 0 := adds_pure

theorem adds_cons {α : Type} {item : α → WM Unit} {x : α} {xs : List α} {a b : Nat} (h1 : Adds (item x) a)
    (h2 : Adds (writeItems item xs) b) : Adds (writeItems item (x :: xs)) (a + b) := adds_seq h1 h2

theorem adds_const {α : Type} {item : α → WM Unit} {a : Nat} (h : ∀ x, Adds (item x) a) (xs : List α) :
    Adds (writeItems item xs) (a * xs.length) := by
  induction xs with
  | nil => exact adds_nil item
  | cons x xs ih =>
    have := adds_cons (h x) ih
    rw [List.length_cons, Nat.mul_succ, Nat.add_comm]
    exact this

theorem adds_len8Bytes {d : Bytes} (h : d.length ≤ 255) : Adds (writeLen8Bytes d) (1 + d.length) := fun s => by
  refine ⟨[UInt8.ofNat d.length] ++ d, by simp; omega, ?_⟩
  rw [len8Bytes_eq, if_pos h]

theorem adds_len16Bytes {d : Bytes} (h : d.length ≤ 65535) : Adds (writeLen16Bytes d) (2 + d.length) := fun s => by
  refine ⟨beBytes 2 d.length ++ d, by simp, ?_⟩
  rw [len16Bytes_eq, if_pos h]

theorem adds_len8List {α : Type} {item : α → WM Unit} {items : List α} {n : Nat} (hg : ∀ a ∈ items, Grows (item a))
    (h : Adds (writeItems item items) n) (hn : n ≤ 255) : Adds (writeLen8List item items) (1 + n) := fun s => by
  obtain ⟨t, ht, h⟩ := h (s ++ [0])
  refine ⟨[UInt8.ofNat t.length] ++ t, by simp [ht]; omega, ?_⟩
  rw [len8List_eq item items hg, h]
  simp [List.drop_append, ht, hn]

theorem adds_len16List {α : Type} {item : α → WM Unit} {items : List α} {n : Nat} (hg : ∀ a ∈ items, Grows (item a))
    (h : Adds (writeItems item items) n) (hn : n ≤ 65535) : Adds (writeLen16List item items) (2 + n) := fun s => by
  obtain ⟨t, ht, h⟩ := h (s ++ [0, 0])
  refine ⟨beBytes 2 t.length ++ t, by simp [ht], ?_⟩
  rw [len16List_eq item items hg, h]
  simp [List.drop_append, ht, hn]

theorem adds_u16Nested {f : WM Unit} {n : Nat} (h : Adds f n) : Adds (writeU16Nested f) (2 + n) := fun s => by
  have hg := h.grows
  obtain ⟨t, ht, h⟩ := h (s ++ [0, 0])
  refine ⟨beBytes 2 t.length ++ t, by simp [ht], ?_⟩
  rw [u16Nested_eq f hg, h]
  simp [List.drop_append]

/-! ### The client's first message -/

theorem encodeList_source_length {scid : Bytes} (h : scid.length ≤ 20) : (encodeList [.initialSource scid]).length ≤ 36 := by
  have h8 : ∀ v, (quicVarintBytes v).length ≤ 8 := fun v => by
    rw [quicVarintBytes_length]; split <;> [omega; split <;> [omega; split <;> omega]]
  have h1 := h8 0x0f
  have h2 := h8 scid.length
  rw [encodeList_cons, encodeList_eq]
  simp only [wire, List.flatMap_nil, List.append_nil, List.length_append]
  omega

theorem hello_adds {names : List Bytes} {publicKey random : Bytes} {params : List Param} {m : Nat}
    (hn : Adds (writeItems Tls.ProtocolName.toBinary (names.map fun n => ⟨n⟩)) m)
    (hb : m + publicKey.length + (encodeList params).length ≤ 60000) :
    Adds (makeClientHello names publicKey params random).toBinary
      (2 + (random.length + (1 + 0 + (2 + 2 * 3 + (1 + 1 + (2 + (
        (2 + (2 + (1 + 1 * 3))) + ((2 + (2 + (2 + 2 * 5))) + ((2 + (2 + 0)) + ((2 + (2 + (2 + m))) + ((2 + (2 + 0)) + ((2 + (2 + 0)) +
        ((2 + (2 + 0)) + ((2 + (2 + (2 + 2 * 14))) + ((2 + (2 + 3)) + ((2 + (2 + (1 + 1 * 1))) +
        ((2 + (2 + (2 + (2 + (2 + publicKey.length) + 0)))) + ((2 + (2 + (encodeList params).length)) + 0)))))))))))))))))) := by
  unfold Tls.ClientHello.toBinary
  refine adds_seq (adds_u16 _) (adds_seq (adds_raw _) (adds_seq (adds_len8Bytes (by simp [makeClientHello])) (adds_seq ?_
    (adds_seq (adds_len8Bytes (by simp [makeClientHello])) ?_))))
  · exact adds_len16List (fun x _ => grows_u16 _) (adds_const (fun x => adds_u16 _) _) (by decide)
  · refine adds_len16List (fun x _ => Tls.grows_extension x) ?_ (by omega)
    refine adds_cons ?_ (adds_cons ?_ (adds_cons ?_ (adds_cons ?_ (adds_cons ?_ (adds_cons ?_ (adds_cons ?_ (adds_cons ?_ (adds_cons ?_
      (adds_cons ?_ (adds_cons ?_ (adds_cons ?_ (adds_nil _))))))))))))
    · exact adds_seq (adds_u16 _) (adds_u16Nested (adds_len8List (fun x _ => grows_u8 _) (adds_const (fun x => adds_u8 _) _) (by decide)))
    · exact adds_seq (adds_u16 _) (adds_u16Nested (adds_len16List (fun x _ => grows_u16 _) (adds_const (fun x => adds_u16 _) _) (by decide)))
    · exact adds_seq (adds_u16 _) (adds_u16Nested (adds_raw _))
    · exact adds_seq (adds_u16 _) (adds_u16Nested (adds_len16List (fun x _ => Tls.grows_protocolName x) hn (by omega)))
    · exact adds_seq (adds_u16 _) (adds_u16Nested adds_pure)
    · exact adds_seq (adds_u16 _) (adds_u16Nested adds_pure)
    · exact adds_seq (adds_u16 _) (adds_u16Nested adds_pure)
    · exact adds_seq (adds_u16 _) (adds_u16Nested (adds_len16List (fun x _ => grows_u16 _) (adds_const (fun x => adds_u16 _) _) (by decide)))
    · exact adds_seq (adds_u16 _) (adds_u16Nested (adds_raw _))
    · exact adds_seq (adds_u16 _) (adds_u16Nested (adds_len8List (fun x _ => grows_u8 _) (adds_const (fun x => adds_u8 _) _) (by decide)))
    · refine adds_seq (adds_u16 _) (adds_u16Nested (adds_len16List (fun x _ => Tls.grows_keyShareEntry x) (adds_cons ?_ (adds_nil _)) (by omega)))
      exact adds_seq (adds_u16 _) (adds_len16Bytes (show publicKey.length ≤ _ by omega))
    · exact adds_seq (adds_u16 _) (adds_u16Nested (adds_raw _))

theorem hello_wellFormed {names : List Bytes} {publicKey random : Bytes} {params : List Param} (hr : random.length = 32) :
    (makeClientHello names publicKey params random).WellFormed := by
  refine ⟨by simp [makeClientHello], hr, ?_, ?_⟩
  · intro x hx
    simp only [makeClientHello, List.mem_cons, List.not_mem_nil, or_false] at hx
    rcases hx with rfl | rfl | rfl
    all_goals refine ⟨?_, by decide⟩
    all_goals intro c hc
    all_goals cases hc
    decide
  · intro x hx
    simp only [makeClientHello, List.mem_cons, List.not_mem_nil, or_false] at hx
    rcases hx with rfl | rfl | rfl | rfl | rfl | rfl | rfl | rfl | rfl | rfl | rfl | rfl
    · intro x hx
      simp only [List.mem_cons, List.not_mem_nil, or_false] at hx
      rcases hx with rfl | rfl | rfl <;> (intro c hc; cases hc)
    · intro x hx
      simp only [List.mem_cons, List.not_mem_nil, or_false] at hx
      rcases hx with rfl | rfl | rfl | rfl | rfl <;> exact ⟨fun c hc => (by cases hc), by decide⟩
    · trivial
    · trivial
    · trivial
    · trivial
    · trivial
    · intro x hx
      simp only [List.mem_cons, List.not_mem_nil, or_false] at hx
      rcases hx with rfl | rfl | rfl | rfl | rfl | rfl | rfl | rfl | rfl | rfl | rfl | rfl | rfl | rfl <;>
        exact ⟨fun c hc => (by cases hc), by decide⟩
    · trivial
    · intro x hx
      simp only [List.mem_cons, List.not_mem_nil, or_false] at hx
      subst hx
      intro c hc; cases hc
    · refine ⟨rfl, ?_⟩
      intro x hx
      simp only [List.mem_cons, List.not_mem_nil, or_false] at hx
      subst hx
      exact ⟨fun c hc => (by cases hc), (by decide : Tls.NamedGroup.x25519.toRaw < 65536)⟩
    · trivial

theorem adds_toBinary {X : Type} {m : Tls.ClientHello} {n : Nat} (h : Adds m.toBinary n) :
    Adds (Tls.Handshake.clientHello m : Tls.Handshake X).toBinary (4 + n) := by
  intro s
  obtain ⟨t, ht, h⟩ := h []
  refine ⟨[1] ++ beBytes 3 t.length ++ t, by simp [ht]; omega, ?_⟩
  rw [Tls.Handshake.toBinary]
  simp [Tls.Handshake.innerToBinary, bind_def, h, pure_def, writeU8, writeU24, writeRaw]

/-! ### Messages of a packet -/

theorem readMessageLength_eq (code : UInt8) (len rest : Bytes) (h3 : len.length = 3) (hl : (code :: len ++ rest).length < 2 ^ 64) :
    readMessageLength (.new (code :: len ++ rest)) = (.ok (bigEndian len), ⟨code :: len ++ rest, 4⟩) := by
  have h1 : ReadsAs readU24 len (bigEndian len) := by
    have := readsAs_uint len
    rwa [h3, beNat_eq] at this
  have := readsAs_bind (f := fun _ => readU24) (readsAs_u8 code) h1 [] rest (by simpa using hl)
  simpa [readMessageLength, Reader.new, h3] using this

theorem tryPop_eq {X : Type} (x509 : Bytes → Option X) (code : UInt8) (len rest : Bytes) (h3 : len.length = 3)
    (hl : (code :: len ++ rest).length < 2 ^ 64) :
    tryPop x509 (code :: len ++ rest) =
      if rest.length < bigEndian len then .ok none else popMessage x509 (code :: len ++ rest) := by
  have h4 : ¬ (code :: len ++ rest).length < 4 := by simp [h3]
  have hr : (⟨code :: len ++ rest, 4⟩ : Reader).remaining = rest.length := by simp [Reader.remaining, h3]
  rw [tryPop, if_neg h4, readMessageLength_eq code len rest h3 hl]
  simp only [hr]

theorem tryPop_short {X : Type} (x509 : Bytes → Option X) {buf : Bytes} (h : buf.length < 4) : tryPop x509 buf = .ok none := by
  rw [tryPop, if_pos h]

/-- A buffer of four bytes or more begins with the header of a message. -/
theorem header_split {buf : Bytes} (h : ¬ buf.length < 4) : ∃ code len rest, buf = code :: len ++ rest ∧ len.length = 3 := by
  match buf, h with
  | a :: b :: c :: d :: rest, _ => exact ⟨a, [b, c, d], rest, rfl, rfl⟩
  | [], h | [_], h | [_, _], h | [_, _, _], h => simp at h

/-- A legal message and what follows it. -/
theorem tryPop_message {X : Type} (x509 : Bytes → Option X) (m : Tls.Handshake X) (hm : m.WellFormed x509) (hf : ∀ v, m ≠ .finished v)
    {data : Bytes} (hw : m.toBinary [] = (.ok (), data)) (hd : data.length < 2 ^ 24) (extra : Bytes)
    (hl : (data ++ extra).length < 2 ^ 64) :
    tryPop x509 (data ++ extra) = if extra = [] then .ok (some (m, [])) else .error .panic := by
  obtain ⟨enc, he', -, hr⟩ := Tls.C22_handshake_round_trip x509 m hm [] data hw
  rw [List.nil_append] at he'
  subst he'
  obtain ⟨code, len, body, he, hlen, hbe, -⟩ := Tls.C54_written_length_partial m [] _ hw
  rw [List.nil_append] at he
  have hb : bigEndian len = body.length := by
    rw [hbe, Nat.mod_eq_of_lt]
    have := congrArg List.length he
    simp at this
    omega
  have hread := hr hf [] extra (by simpa using hl)
  simp only [List.nil_append, List.length_nil, Nat.zero_add] at hread
  have hpop : popMessage x509 (data ++ extra) = if extra = [] then .ok (some (m, [])) else .error .panic := by
    rw [popMessage, Reader.new, hread]
    simp only [hw]
    by_cases hx : extra = []
    · subst hx; simp
    · rw [if_neg hx, if_neg]
      intro h
      have := congrArg List.length h
      simp at this
      exact hx this
  have he2 : data ++ extra = code :: len ++ (body ++ extra) := by rw [he]; simp
  rw [← hpop, he2, tryPop_eq x509 code len _ hlen (by rw [← he2]; exact hl), if_neg]
  rw [hb, List.length_append]; omega

/-- Parameters in their shortest form are legal ones. -/
theorem short_legal {data : Bytes} (h : ShortParams data) : ∃ ps, ParamsOf data ps := by
  induction h with
  | nil => exact ⟨[], .nil⟩
  | @cons ide le raw rest id hid sid hl sl hv hr ih =>
    obtain ⟨ps, h1⟩ := ih
    exact ⟨decodeOr id raw :: ps, .cons hid hl (decodeOr_of id (by have := isVarint_lt hl; omega)) h1⟩

theorem checkParams_ok {es : List Tls.Extension}
    (h : ∀ data, .transportParameters data ∈ es → data.length < 2 ^ 64 ∧ ShortParams data) : checkParams es = .ok () := by
  induction es with
  | nil => rfl
  | cons x es ih =>
    have ih' := ih fun d hd => h d (by simp [hd])
    cases x with
    | transportParameters data =>
      obtain ⟨hl, hs⟩ := h data (by simp)
      obtain ⟨ps, hp⟩ := short_legal hs
      have hd := (C46_language data ps hl).mpr hp
      rw [checkParams, hd]
      simp only [C82_shortest_partial data ps hl hs hd, if_true, ih']
    | _ => exact ih'

/-- The parameters whose second form differs from the first. -/
theorem checkParams_panic {es : List Tls.Extension} (h : checkParams es = .error .panic) :
    ∃ data ps, .transportParameters data ∈ es ∧ decodeList data = .ok ps ∧ encodeList ps ≠ data := by
  induction es with
  | nil => cases h
  | cons x es ih =>
    have key : checkParams es = .error .panic →
        ∃ data ps, .transportParameters data ∈ x :: es ∧ decodeList data = .ok ps ∧ encodeList ps ≠ data := by
      intro h
      obtain ⟨d, ps, h1, h2⟩ := ih h
      exact ⟨d, ps, by simp [h1], h2⟩
    cases x with
    | transportParameters data =>
      rw [checkParams] at h
      cases hd : decodeList data with
      | error e =>
        simp only [hd, Except.error.injEq] at h
        have := (C46_total data).1
        rw [hd] at this
        cases e <;> simp_all [Err.ofBin]
      | ok ps =>
        simp only [hd] at h
        by_cases he : encodeList ps = data
        · rw [if_pos he] at h; exact key h
        · exact ⟨data, ps, by simp, hd, he⟩
    | _ => exact key h

theorem checkHandshake_ok {X K : Type} {cr : Tls.Crypto X K} {dcid : Bytes} {first : Bool} {m : Tls.Handshake X} {s : ConnectionSecrets}
    (hs : ConnectionSecrets.fromConnectionId cr .sha256 dcid = .ok s)
    (hp : ∀ hello, m = .clientHello hello → checkParams hello.extensions = .ok ()) : checkHandshake cr dcid first m = .ok () := by
  unfold checkHandshake
  cases m with
  | clientHello hello => simp only [hp hello rfl, hs, ite_self]
  | _ => simp only [hs, ite_self]

theorem checkHandshake_panic {X K : Type} {cr : Tls.Crypto X K} {dcid : Bytes} {first : Bool} {m : Tls.Handshake X}
    (h : checkHandshake cr dcid first m = .error .panic) :
    ∃ hello, m = .clientHello hello ∧ checkParams hello.extensions = .error .panic := by
  have hend : (if first then
      match ConnectionSecrets.fromConnectionId cr .sha256 dcid with
      | .error _ => Except.error Err.crypt
      | .ok _ => .ok ()
    else Except.ok ()) ≠ .error .panic := by
    cases first <;> cases ConnectionSecrets.fromConnectionId cr .sha256 dcid <;> simp
  unfold checkHandshake at h
  cases m with
  | clientHello hello =>
    refine ⟨hello, rfl, ?_⟩
    cases hc : checkParams hello.extensions with
    | error e => simpa only [hc] using h
    | ok u => simp only [hc] at h; exact absurd h hend
  | _ => exact absurd h hend

/-- A packet with one legal message. -/
theorem processLoop_single {X K : Type} {cr : Tls.Crypto X K} {dcid buf : Bytes} {m : Tls.Handshake X} {n : Nat} {first : Bool}
    (hp : tryPop cr.x509 buf = .ok (some (m, []))) (hc : checkHandshake cr dcid first m = .ok ()) :
    processLoop cr dcid (n + 2) first buf = ([m], .ok ()) := by
  rw [processLoop, hp]
  simp only [hc]
  rw [processLoop, tryPop_short cr.x509 (by simp)]

theorem popMessage_panic {X : Type} {x509 : Bytes → Option X} {buf : Bytes} (h : popMessage x509 buf = .error .panic) :
    buf.head? = some 24 ∨ ∃ h, (Tls.Handshake.fromBinary x509 (.new buf)).1 = .ok h ∧ h.toBinary [] ≠ (.ok (), buf) := by
  by_cases h24 : buf.head? = some 24
  · exact .inl h24
  · right
    obtain ⟨t1, t2, -⟩ := Tls.C53_parse_total_partial x509 buf h24
    rw [popMessage] at h
    rcases hf : Tls.Handshake.fromBinary x509 (.new buf) with ⟨r, r'⟩
    rw [hf] at h t1
    cases r with
    | error e =>
      simp only [Except.error.injEq] at h
      cases e <;> simp_all [Err.ofBin]
    | ok m =>
      refine ⟨m, rfl, ?_⟩
      intro hw
      simp only [hw, if_true] at h
      cases h

theorem popMessage_some {X : Type} {x509 : Bytes → Option X} {buf rest : Bytes} {m : Tls.Handshake X}
    (h : popMessage x509 buf = .ok (some (m, rest))) :
    (Tls.Handshake.fromBinary x509 (.new buf)).1 = .ok m ∧ m.toBinary [] = (.ok (), buf) ∧ ∃ n, rest = buf.drop n := by
  rw [popMessage] at h
  rcases hf : Tls.Handshake.fromBinary x509 (.new buf) with ⟨r, r'⟩
  rw [hf] at h
  cases r with
  | error e => simp at h
  | ok m' =>
    rcases hw : m'.toBinary [] with ⟨w, data⟩
    simp only [hw] at h
    cases w with
    | error e => simp at h
    | ok u =>
      by_cases hb : buf = data
      · simp only [hb, if_true, Except.ok.injEq, Option.some.injEq, Prod.mk.injEq] at h
        obtain ⟨rfl, rfl⟩ := h
        exact ⟨rfl, by rw [hw, hb], r'.offset, by rw [hb]⟩
      · simp [hb] at h

theorem tryPop_cases {X : Type} {x509 : Bytes → Option X} {buf : Bytes} (hl : buf.length < 2 ^ 64) :
    tryPop x509 buf = .ok none ∨
    ∃ code len rest, buf = code :: len ++ rest ∧ len.length = 3 ∧ bigEndian len ≤ rest.length ∧ tryPop x509 buf = popMessage x509 buf := by
  by_cases h4 : buf.length < 4
  · exact .inl (tryPop_short x509 h4)
  · obtain ⟨code, len, rest, rfl, h3⟩ := header_split h4
    have := tryPop_eq x509 code len rest h3 hl
    by_cases hn : rest.length < bigEndian len
    · rw [if_pos hn] at this; exact .inl this
    · rw [if_neg hn] at this; exact .inr ⟨code, len, rest, rfl, h3, by omega, this⟩

/-- Where a panic comes from. -/
theorem processLoop_panic {X K : Type} {cr : Tls.Crypto X K} {dcid : Bytes} (fuel : Nat) (first : Bool) (buf : Bytes)
    (hl : buf.length < 2 ^ 64) (h : (processLoop cr dcid fuel first buf).2 = .error .panic) :
    ∃ pre suf code len rest, buf = pre ++ suf ∧ suf = code :: len ++ rest ∧ len.length = 3 ∧ bigEndian len ≤ rest.length ∧
      (code = 24 ∨ (∃ m, (Tls.Handshake.fromBinary cr.x509 (.new suf)).1 = .ok m ∧ m.toBinary [] ≠ (.ok (), suf)) ∨
        ∃ hello data ps, (Tls.Handshake.fromBinary cr.x509 (.new suf)).1 = .ok (.clientHello hello) ∧
          .transportParameters data ∈ hello.extensions ∧ decodeList data = .ok ps ∧ encodeList ps ≠ data) := by
  induction fuel generalizing first buf with
  | zero => simp [processLoop] at h
  | succ n ih =>
    rw [processLoop] at h
    rcases tryPop_cases (x509 := cr.x509) hl with hp | ⟨code, len, rest, he, h3, hb, hp⟩
    · rw [hp] at h; simp at h
    · rw [hp] at h
      cases hm : popMessage cr.x509 buf with
      | error e =>
        simp only [hm, Except.error.injEq] at h
        subst h
        refine ⟨[], buf, code, len, rest, rfl, he, h3, hb, ?_⟩
        rcases popMessage_panic hm with h24 | h
        · left
          rw [he] at h24
          simpa using h24
        · exact .inr (.inl h)
      | ok o =>
        cases o with
        | none => simp [hm] at h
        | some p =>
          obtain ⟨m, rest'⟩ := p
          obtain ⟨hread, -, k, hk⟩ := popMessage_some hm
          cases hc : checkHandshake cr dcid first m with
          | error e =>
            simp only [hm, hc, Except.error.injEq] at h
            subst h
            obtain ⟨hello, rfl, hcp⟩ := checkHandshake_panic hc
            obtain ⟨data, ps, h1, h2, h3'⟩ := checkParams_panic hcp
            exact ⟨[], buf, code, len, rest, rfl, he, h3, hb, .inr (.inr ⟨hello, data, ps, hread, h1, h2, h3'⟩)⟩
          | ok u =>
            simp only [hm, hc] at h
            obtain ⟨pre, suf, c', l', r', hs, hrest⟩ := ih false rest' (by rw [hk, List.length_drop]; omega) h
            exact ⟨buf.take k ++ pre, suf, c', l', r', by rw [List.append_assoc, ← hs, hk, List.take_append_drop], hrest⟩

end Ngfs.Quic
