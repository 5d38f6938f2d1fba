import Verif.Lemmas.TlsCodes
import Verif.Spec.TlsTypes
import Verif.Lemmas.BinaryWrite
import Verif.Lemmas.BinarySafe

/-! Helper lemmas: TLS messages are read back as written. No claims here. -/
namespace Ngfs.Binary

open Ngfs.Spec

theorem bind_assoc' {σ α β γ : Type} (m : M σ α) (f : α → M σ β) (g : β → M σ γ) :
    (m >>= fun x => f x >>= g) = (m >>= f) >>= g := by
  funext s
  simp only [bind_def]
  rcases m s with ⟨r, s'⟩
  cases r <;> rfl

/-- Whenever `w` succeeds it has appended bytes that `p` reads back as `v`, provided they are at
most `cap` many. -/
def RT {α : Type} (cap : Nat) (w : WM Unit) (p : RM α) (v : α) : Prop :=
  ∀ s s', w s = (.ok (), s') → ∃ enc, s' = s ++ enc ∧ (enc.length ≤ cap → ReadsAs p enc v)

/-- As `RT`, for something that fills a nested reader of known length. -/
def RTB {α : Type} (cap : Nat) (w : WM Unit) (p : Nat → RM α) (v : α) : Prop :=
  ∀ s s', w s = (.ok (), s') →
    ∃ enc, s' = s ++ enc ∧ (enc.length ≤ cap → ReadsToEnd (p enc.length) enc v)

/-- On success something was appended. -/
def NonEmpty (w : WM Unit) : Prop := ∀ s s', w s = (.ok (), s') → s.length < s'.length

theorem RT.of_appends {α : Type} {w : WM Unit} {p : RM α} {v : α} {e : Bytes} (cap : Nat)
    (h : Appends w e) (hr : ReadsAs p e v) : RT cap w p v := by
  intro s s' hw
  rw [h s] at hw
  cases hw
  exact ⟨e, rfl, fun _ => hr⟩

theorem RT.bind {α β : Type} {cap : Nat} {w1 w2 : WM Unit} {p : RM α} {f : α → RM β} {a : α} {b : β}
    (h1 : RT cap w1 p a) (h2 : RT cap w2 (f a) b) : RT cap (w1 >>= fun _ => w2) (p >>= f) b := by
  intro s s'' hw
  obtain ⟨u, s', hw1, hw2⟩ := bind_ok_inv hw
  obtain ⟨e1, rfl, r1⟩ := h1 s s' hw1
  obtain ⟨e2, rfl, r2⟩ := h2 _ s'' hw2
  refine ⟨e1 ++ e2, by simp, fun hc => readsAs_bind (r1 ?_) (r2 ?_)⟩ <;>
    (simp only [List.length_append] at hc; omega)

theorem RT.map {α β : Type} {cap : Nat} {w : WM Unit} {p : RM α} {f : α → RM β} {a : α} {b : β}
    (h1 : RT cap w p a) (h2 : ReadsAs (f a) [] b) : RT cap w (p >>= f) b := by
  intro s s' hw
  obtain ⟨e, rfl, r⟩ := h1 s s' hw
  exact ⟨e, rfl, fun hc => readsAs_bind_pure (r hc) h2⟩

theorem RT.mono {α : Type} {cap cap' : Nat} {w : WM Unit} {p : RM α} {v : α} (hc : cap' ≤ cap)
    (h : RT cap w p v) : RT cap' w p v := by
  intro s s' hw
  obtain ⟨e, rfl, r⟩ := h s s' hw
  exact ⟨e, rfl, fun hl => r (by omega)⟩

theorem RTB.of_RT {α β : Type} {cap : Nat} {w : WM Unit} {p : RM α} {g : α → β} {v : α}
    (h : RT cap w p v) : RTB cap w (fun _ => p >>= fun x => pure (g x)) (g v) := by
  intro s s' hw
  obtain ⟨e, rfl, r⟩ := h s s' hw
  exact ⟨e, rfl, fun hl => readsToEnd_map (readsToEnd_of_readsAs (r hl))⟩

theorem rtb_raw {β : Type} (cap : Nat) (g : Bytes → β) (d : Bytes) :
    RTB cap (writeRaw d) (fun _ => remainingData >>= fun x => pure (g x)) (g d) := by
  intro s s' hw
  cases hw
  exact ⟨d, rfl, fun _ => readsToEnd_map (readsToEnd_remainingData d)⟩

theorem rtb_empty {β : Type} (cap : Nat) (v : β) :
    RTB cap (pure ()) (fun _ => expectEof >>= fun _ => pure v) v := by
  intro s s' hw
  cases hw
  refine ⟨[], by simp, fun _ => ?_⟩
  exact readsToEnd_map (g := fun _ => v) readsToEnd_expectEof

theorem rt_u8 (cap : Nat) (b : UInt8) : RT cap (writeU8 b) readU8 b :=
  RT.of_appends cap (fun _ => rfl) (readsAs_u8 b)

theorem rt_u16 (cap : Nat) {n : Nat} (h : n < 65536) : RT cap (writeU16 n) readU16 n :=
  RT.of_appends cap (fun _ => rfl) (readsAs_u16 h)

theorem rt_raw (cap : Nat) {n : Nat} {d : Bytes} (h : n = d.length) : RT cap (writeRaw d) (readFixed n) d :=
  RT.of_appends cap (fun _ => rfl) (readsAs_fixed' d h)

theorem rt_len8 (cap : Nat) (d : Bytes) : RT cap (writeLen8Bytes d) readLen8Bytes d := by
  intro s s' hw
  rw [len8Bytes_eq] at hw
  split at hw
  · cases hw; exact ⟨_, rfl, fun _ => readsAs_len8 (by omega)⟩
  · cases hw

theorem rt_len16 (cap : Nat) (d : Bytes) : RT cap (writeLen16Bytes d) readLen16Bytes d := by
  intro s s' hw
  rw [len16Bytes_eq] at hw
  split at hw
  · cases hw; exact ⟨_, rfl, fun _ => readsAs_len16 (by omega)⟩
  · cases hw

theorem rt_len24 (cap : Nat) (d : Bytes) : RT cap (writeLen24Bytes d) readLen24Bytes d := by
  intro s s' hw
  rw [len24Bytes_eq] at hw
  split at hw
  · cases hw; exact ⟨_, rfl, fun _ => readsAs_len24 (by assumption)⟩
  · cases hw

theorem items_inv {α : Type} {cap : Nat} {item : α → WM Unit} {p : RM α} {items : List α}
    (h : ∀ a ∈ items, RT cap (item a) p a) (hne : ∀ a ∈ items, NonEmpty (item a)) (s s' : Bytes)
    (hw : writeItems item items s = (.ok (), s')) :
    ∃ encs : List Bytes, s' = s ++ encs.flatten ∧
      (encs.flatten.length ≤ cap →
        List.Forall₂ (fun e v => ReadsAs p e v ∧ 0 < e.length) encs items) := by
  induction items generalizing s with
  | nil => cases hw; exact ⟨[], by simp, fun _ => .nil⟩
  | cons a as ih =>
    obtain ⟨u, s1, h1, h2⟩ := bind_ok_inv hw
    obtain ⟨e, rfl, r⟩ := h a (by simp) s s1 h1
    have hpos := hne a (by simp) _ _ h1
    obtain ⟨es, rfl, rs⟩ := ih (fun b hb => h b (by simp [hb])) (fun b hb => hne b (by simp [hb])) _ h2
    refine ⟨e :: es, by simp, fun hc => ?_⟩
    simp only [List.flatten_cons, List.length_append] at hc hpos
    exact .cons ⟨r (by omega), by omega⟩ (rs (by omega))

theorem drop_reserved (s t z : Bytes) (n : Nat) (h : n = s.length + z.length) :
    (s ++ z ++ t).drop n = t := by
  have : n = (s ++ z).length := by simp [h]
  rw [this, List.drop_left]

theorem rt_list8 {α : Type} (cap : Nat) {item : α → WM Unit} {p : RM α} {items : List α}
    (h : ∀ a ∈ items, RT 65535 (item a) p a) (hne : ∀ a ∈ items, NonEmpty (item a))
    (hg : ∀ a ∈ items, Grows (item a)) : RT cap (writeLen8List item items) (readLen8List p) items := by
  intro s s' hw
  rw [len8List_eq item items hg] at hw
  rcases hi : writeItems item items (s ++ [0]) with ⟨r, t⟩
  rw [hi] at hw
  cases r with
  | error e => cases hw
  | ok u =>
    obtain ⟨encs, rfl, rs⟩ := items_inv h hne _ _ hi
    simp only [drop_reserved s encs.flatten [0] (s.length + 1) rfl] at hw
    split at hw
    · rename_i hl
      cases hw
      exact ⟨_, rfl, fun _ => readsAs_len8List (rs (by omega)) (by omega)⟩
    · cases hw

theorem rt_list16 {α : Type} (cap : Nat) {item : α → WM Unit} {p : RM α} {items : List α}
    (h : ∀ a ∈ items, RT 65535 (item a) p a) (hne : ∀ a ∈ items, NonEmpty (item a))
    (hg : ∀ a ∈ items, Grows (item a)) : RT cap (writeLen16List item items) (readLen16List p) items := by
  intro s s' hw
  rw [len16List_eq item items hg] at hw
  rcases hi : writeItems item items (s ++ [0, 0]) with ⟨r, t⟩
  rw [hi] at hw
  cases r with
  | error e => cases hw
  | ok u =>
    obtain ⟨encs, rfl, rs⟩ := items_inv h hne _ _ hi
    simp only [drop_reserved s encs.flatten [0, 0] (s.length + 2) rfl] at hw
    split at hw
    · rename_i hl
      cases hw
      exact ⟨_, rfl, fun _ => readsAs_len16List (rs hl) (by omega)⟩
    · cases hw

theorem rt_list24 {α : Type} (cap : Nat) {item : α → WM Unit} {p : RM α} {items : List α}
    (h : ∀ a ∈ items, RT (2 ^ 24) (item a) p a) (hne : ∀ a ∈ items, NonEmpty (item a))
    (hg : ∀ a ∈ items, Grows (item a)) : RT cap (writeLen24List item items) (readLen24List p) items := by
  intro s s' hw
  rw [len24List_eq item items hg] at hw
  rcases hi : writeItems item items (s ++ [0, 0, 0]) with ⟨r, t⟩
  rw [hi] at hw
  cases r with
  | error e => cases hw
  | ok u =>
    obtain ⟨encs, rfl, rs⟩ := items_inv h hne _ _ hi
    simp only [drop_reserved s encs.flatten [0, 0, 0] (s.length + 3) rfl] at hw
    split at hw
    · rename_i hl
      cases hw
      exact ⟨_, rfl, fun _ => readsAs_len24List (rs (by omega)) hl⟩
    · cases hw

/-! When does a writer certainly append something? -/

theorem NonEmpty.of_appends {w : WM Unit} {e : Bytes} (h : Appends w e) (he : 0 < e.length) :
    NonEmpty w := by
  intro s s' hw
  rw [h s] at hw
  cases hw
  simp only [List.length_append]; omega

theorem NonEmpty.bind_left {w1 w2 : WM Unit} (h1 : NonEmpty w1) (hg : Grows w2) :
    NonEmpty (w1 >>= fun _ => w2) := by
  intro s s'' hw
  obtain ⟨u, s', hw1, hw2⟩ := bind_ok_inv hw
  have := h1 s s' hw1
  obtain ⟨t, ht⟩ := hg s'
  rw [hw2] at ht
  simp only at ht
  rw [ht, List.length_append]; omega

theorem nonEmpty_u8 (b : UInt8) : NonEmpty (writeU8 b) :=
  NonEmpty.of_appends (e := [b]) (fun _ => rfl) (by simp)
theorem nonEmpty_u16 (n : Nat) : NonEmpty (writeU16 n) :=
  NonEmpty.of_appends (e := beBytes 2 n) (fun _ => rfl) (by simp)

theorem nonEmpty_len8Bytes (d : Bytes) : NonEmpty (writeLen8Bytes d) := by
  intro s s' hw
  rw [len8Bytes_eq] at hw
  split at hw
  · cases hw; simp
  · cases hw

theorem nonEmpty_len24Bytes (d : Bytes) : NonEmpty (writeLen24Bytes d) := by
  intro s s' hw
  rw [len24Bytes_eq] at hw
  split at hw
  · cases hw; simp
  · cases hw

end Ngfs.Binary

namespace Ngfs.Tls

open Ngfs.Binary Ngfs.Spec

/-! ### Code points -/

theorem Faithful.from_to {C T : Type} {codes : List (C × T)} {u f t} (h : Faithful codes u f t)
    {m : T} (hm : Canonical codes u m) : f (t m) = m := by
  rcases h.covers m with hc | ⟨c, rfl⟩
  · obtain ⟨p, hp, rfl⟩ := List.mem_map.mp hc
    obtain ⟨h1, h2⟩ := h.assigned p hp
    rw [h2, h1]
  · rw [h.kept, h.unassigned c (hm c rfl)]

theorem Faithful.to_from {C T : Type} [DecidableEq C] {codes : List (C × T)} {u f t}
    (h : Faithful codes u f t) (c : C) : t (f c) = c := by
  by_cases hc : c ∈ codes.map Prod.fst
  · obtain ⟨p, hp, rfl⟩ := List.mem_map.mp hc
    obtain ⟨h1, h2⟩ := h.assigned p hp
    rw [h1, h2]
  · rw [h.unassigned c hc, h.kept]

theorem rt_code16 {T : Type} (cap : Nat) {codes : List (Nat × T)} {u f t} (h : Faithful codes u f t)
    {m : T} (hm : Canonical codes u m) (hb : t m < 65536) :
    RT cap (writeU16 (t m)) (readU16 >>= fun c => pure (f c)) m :=
  (rt_u16 cap hb).map (by rw [Faithful.from_to h hm]; exact readsAs_pure m)

theorem rt_code8 {T : Type} (cap : Nat) {codes : List (UInt8 × T)} {u f t} (h : Faithful codes u f t)
    {m : T} (hm : Canonical codes u m) :
    RT cap (writeU8 (t m)) (readU8 >>= fun c => pure (f c)) m :=
  (rt_u8 cap _).map (by rw [Faithful.from_to h hm]; exact readsAs_pure m)

/-! ### Small items -/

theorem rt_protocolName (cap : Nat) (x : ProtocolName) : RT cap x.toBinary ProtocolName.fromBinary x := by
  intro s s' hw
  rw [ProtocolName.toBinary, len8Bytes_eq] at hw
  split at hw
  · rename_i hl
    cases hw
    refine ⟨_, rfl, fun _ => ?_⟩
    refine readsAs_bind (readsAs_u8 _) ?_
    exact readsAs_bind_pure (readsAs_fixed' x.data (toNat_ofNat_lt (by omega))) (readsAs_pure x)
  · cases hw

theorem grows_protocolName (x : ProtocolName) : Grows x.toBinary := grows_len8Bytes _
theorem nonEmpty_protocolName (x : ProtocolName) : NonEmpty x.toBinary := nonEmpty_len8Bytes _

theorem readsAs_nested_fixed {β : Type} {n : Nat} (d : Bytes) (hn : n = d.length) {f : Bytes → RM β} {b : β}
    (hf : ReadsToEnd (f d) [] b) :
    ReadsAs (readNested n >>= fun inner => onReader inner (readFixed n >>= f)) d b := by
  subst hn
  refine readsAs_nested' (p := fun _ => readFixed d.length >>= f) (fun _ _ => ?_)
  have := readsToEnd_bind (f := f) (readsAs_fixed d) hf
  simpa using this

theorem rt_serverName (cap : Nat) (x : ServerName) (hx : x.Canonical) :
    RT cap x.toBinary ServerName.fromBinary x := by
  cases x with
  | hostName t =>
    intro s s' hw
    obtain ⟨u, s1, h1, h2⟩ := bind_ok_inv hw
    cases h1
    rw [len16Bytes_eq] at h2
    split at h2
    · rename_i hl
      cases h2
      refine ⟨[0] ++ (beBytes 2 (utf8Encode t).length ++ utf8Encode t), by simp, fun _ => ?_⟩
      refine readsAs_bind (readsAs_u8 0) (readsAs_bind (readsAs_u16 (by omega)) ?_)
      simp only [if_true]
      refine readsAs_nested_fixed _ rfl ?_
      rw [utf8_round_trip]
      exact readsToEnd_of_readsAs (readsAs_pure _)
    · cases h2
  | other c d =>
    intro s s' hw
    obtain ⟨u, s1, h1, h2⟩ := bind_ok_inv hw
    cases h1
    rw [len16Bytes_eq] at h2
    split at h2
    · rename_i hl
      cases h2
      refine ⟨[c] ++ (beBytes 2 d.length ++ d), by simp, fun _ => ?_⟩
      refine readsAs_bind (readsAs_u8 c) (readsAs_bind (readsAs_u16 (by omega)) ?_)
      have hc : ¬ c = 0 := hx
      simp only [hc, if_false]
      exact readsAs_nested_fixed _ rfl (readsToEnd_of_readsAs (readsAs_pure _))
    · cases h2

theorem grows_serverName (x : ServerName) : Grows x.toBinary := by
  cases x <;> exact grows_seq (grows_u8 _) (grows_len16Bytes _)

theorem nonEmpty_serverName (x : ServerName) : NonEmpty x.toBinary := by
  cases x <;> exact (nonEmpty_u8 _).bind_left (grows_len16Bytes _)

theorem rt_keyShareEntry (cap : Nat) (x : KeyShareEntry) (hx : Canonical namedGroupCodes .unknown x.group)
    (hb : x.group.toRaw < 65536) : RT cap x.toBinary KeyShareEntry.fromBinary x := by
  refine RT.bind (rt_code16 cap namedGroup_faithful hx hb) ?_
  intro s s' hw
  rw [len16Bytes_eq] at hw
  split at hw
  · rename_i hl
    cases hw
    refine ⟨_, rfl, fun _ => ?_⟩
    refine readsAs_bind (readsAs_u16 (by omega)) ?_
    exact readsAs_bind_pure (readsAs_fixed _) (readsAs_pure x)
  · cases hw

theorem grows_keyShareEntry (x : KeyShareEntry) : Grows x.toBinary :=
  grows_seq (grows_u16 _) (grows_len16Bytes _)

theorem nonEmpty_keyShareEntry (x : KeyShareEntry) : NonEmpty x.toBinary :=
  (nonEmpty_u16 _).bind_left (grows_len16Bytes _)

/-! ### Extensions -/

theorem rt_nested {ctx : ExtensionContext} {code : Nat} {f : WM Unit} {ext : Extension}
    (hcode : code < 65536) (hg : Grows f)
    (h : RTB 65535 f (fun n => Extension.body ctx code n) ext) :
    RT 65535 (writeU16 code >>= fun _ => writeU16Nested f) (Extension.fromBinary2 ctx) ext := by
  intro s s' hw
  obtain ⟨u, s1, h1, h2⟩ := bind_ok_inv hw
  cases h1
  rw [u16Nested_eq f hg] at h2
  rcases hf : f (s ++ beBytes 2 code ++ [0, 0]) with ⟨r, t⟩
  rw [hf] at h2
  cases r with
  | error e => cases h2
  | ok u' =>
    obtain ⟨enc, rfl, hr⟩ := h _ _ hf
    simp only [drop_reserved (s ++ beBytes 2 code) enc [0, 0] ((s ++ beBytes 2 code).length + 2) rfl] at h2
    cases h2
    refine ⟨beBytes 2 code ++ (beBytes 2 enc.length ++ enc), by simp, fun hc => ?_⟩
    simp only [List.length_append, beBytes_length] at hc
    refine readsAs_bind (readsAs_u16 hcode) (readsAs_bind (readsAs_u16 (by omega)) ?_)
    exact readsAs_nested' (p := fun _ => Extension.body ctx code enc.length) (fun _ _ => hr (by omega))

theorem grows_extension (e : Extension) : Grows e.toBinary := by
  cases e with
  | certificateAuthorities _ => exact grows_seq (grows_u16 _) (grows_throw _)
  | applicationLayerProtocolNegotiation l =>
    exact grows_seq (grows_u16 _) (grows_u16Nested (grows_len16List fun x _ => grows_protocolName x))
  | signatureAlgorithms l =>
    exact grows_seq (grows_u16 _) (grows_u16Nested (grows_len16List fun x _ => grows_u16 _))
  | serverName l =>
    exact grows_seq (grows_u16 _) (grows_u16Nested (grows_len16List fun x _ => grows_serverName x))
  | supportedGroups l =>
    exact grows_seq (grows_u16 _) (grows_u16Nested (grows_len16List fun x _ => grows_u16 _))
  | ecPointFormats l =>
    exact grows_seq (grows_u16 _) (grows_u16Nested (grows_len8List fun x _ => grows_u8 _))
  | pskKeyExchangeModes l =>
    exact grows_seq (grows_u16 _) (grows_u16Nested (grows_len8List fun x _ => grows_u8 _))
  | keyShareClientHello l =>
    exact grows_seq (grows_u16 _) (grows_u16Nested (grows_len16List fun x _ => grows_keyShareEntry x))
  | keyShareServerHello x => exact grows_seq (grows_u16 _) (grows_u16Nested (grows_keyShareEntry x))
  | encryptThenMac => exact grows_seq (grows_u16 _) (grows_u16Nested grows_pure)
  | extendedMasterSecret => exact grows_seq (grows_u16 _) (grows_u16Nested grows_pure)
  | postHandshakeAuth => exact grows_seq (grows_u16 _) (grows_u16Nested grows_pure)
  | unknown c d => exact grows_seq (grows_u16 _) (grows_u16Nested (grows_raw _))
  | nextProtocolNegotiation d => exact grows_seq (grows_u16 _) (grows_u16Nested (grows_raw _))
  | supportedVersions d => exact grows_seq (grows_u16 _) (grows_u16Nested (grows_raw _))
  | transportParameters d => exact grows_seq (grows_u16 _) (grows_u16Nested (grows_raw _))

theorem rt_extension (ctx : ExtensionContext) (e : Extension) (he : e.Legal ctx) :
    RT 65535 e.toBinary (Extension.fromBinary2 ctx) e := by
  cases e with
  | certificateAuthorities _ =>
    intro s s' hw
    obtain ⟨u, s1, _, h2⟩ := bind_ok_inv hw
    cases h2
  | applicationLayerProtocolNegotiation l =>
    refine rt_nested (by norm_num) (grows_len16List fun x _ => grows_protocolName x) ?_
    exact RTB.of_RT (g := Extension.applicationLayerProtocolNegotiation)
      (rt_list16 _ (fun x _ => rt_protocolName _ x) (fun x _ => nonEmpty_protocolName x)
        (fun x _ => grows_protocolName x))
  | signatureAlgorithms l =>
    refine rt_nested (by norm_num) (grows_len16List fun x _ => grows_u16 _) ?_
    exact RTB.of_RT (g := Extension.signatureAlgorithms)
      (rt_list16 _ (fun x hx => rt_code16 _ signatureScheme_faithful (he x hx).1 (he x hx).2)
        (fun x _ => nonEmpty_u16 _) (fun x _ => grows_u16 _))
  | serverName l =>
    obtain ⟨rfl, hl⟩ := he
    refine rt_nested (by norm_num) (grows_len16List fun x _ => grows_serverName x) ?_
    exact RTB.of_RT (g := Extension.serverName)
      (rt_list16 _ (fun x hx => rt_serverName _ x (hl x hx)) (fun x _ => nonEmpty_serverName x)
        (fun x _ => grows_serverName x))
  | supportedGroups l =>
    refine rt_nested (by norm_num) (grows_len16List fun x _ => grows_u16 _) ?_
    exact RTB.of_RT (g := Extension.supportedGroups)
      (rt_list16 _ (fun x hx => rt_code16 _ namedCurve_faithful (he x hx).1 (he x hx).2)
        (fun x _ => nonEmpty_u16 _) (fun x _ => grows_u16 _))
  | ecPointFormats l =>
    refine rt_nested (by norm_num) (grows_len8List fun x _ => grows_u8 _) ?_
    exact RTB.of_RT (g := Extension.ecPointFormats)
      (rt_list8 _ (fun x hx => rt_code8 _ ecPointFormat_faithful (he x hx))
        (fun x _ => nonEmpty_u8 _) (fun x _ => grows_u8 _))
  | pskKeyExchangeModes l =>
    refine rt_nested (by norm_num) (grows_len8List fun x _ => grows_u8 _) ?_
    exact RTB.of_RT (g := Extension.pskKeyExchangeModes)
      (rt_list8 _ (fun x hx => rt_code8 _ pskKeyExchangeMode_faithful (he x hx))
        (fun x _ => nonEmpty_u8 _) (fun x _ => grows_u8 _))
  | keyShareClientHello l =>
    obtain ⟨rfl, hl⟩ := he
    refine rt_nested (by norm_num) (grows_len16List fun x _ => grows_keyShareEntry x) ?_
    exact RTB.of_RT (g := Extension.keyShareClientHello)
      (rt_list16 _ (fun x hx => rt_keyShareEntry _ x (hl x hx).1 (hl x hx).2)
        (fun x _ => nonEmpty_keyShareEntry x) (fun x _ => grows_keyShareEntry x))
  | keyShareServerHello x =>
    obtain ⟨rfl, hc, hb⟩ := he
    refine rt_nested (by norm_num) (grows_keyShareEntry x) ?_
    exact RTB.of_RT (g := Extension.keyShareServerHello) (rt_keyShareEntry _ x hc hb)
  | encryptThenMac => exact rt_nested (by norm_num) grows_pure (rtb_empty _ _)
  | extendedMasterSecret => exact rt_nested (by norm_num) grows_pure (rtb_empty _ _)
  | postHandshakeAuth => exact rt_nested (by norm_num) grows_pure (rtb_empty _ _)
  | unknown c d =>
    obtain ⟨hc, hn⟩ := he
    refine rt_nested hc (grows_raw _) ?_
    have hb : ∀ n, Extension.body ctx c n = (remainingData >>= fun x => pure (.unknown c x)) := by
      intro n
      simp only [extensionCodes, List.mem_cons, List.not_mem_nil, or_false, not_or] at hn
      simp [Extension.body, hn]
    simp only [hb]
    exact rtb_raw _ (Extension.unknown c) d
  | nextProtocolNegotiation d => exact rt_nested (by norm_num) (grows_raw _) (rtb_raw _ _ d)
  | supportedVersions d => exact rt_nested (by norm_num) (grows_raw _) (rtb_raw _ _ d)
  | transportParameters d => exact rt_nested (by norm_num) (grows_raw _) (rtb_raw _ _ d)

theorem nonEmpty_extension (e : Extension) : NonEmpty e.toBinary := by
  cases e with
  | certificateAuthorities _ => exact (nonEmpty_u16 _).bind_left (grows_throw _)
  | applicationLayerProtocolNegotiation l =>
    exact (nonEmpty_u16 _).bind_left (grows_u16Nested (grows_len16List fun x _ => grows_protocolName x))
  | signatureAlgorithms l =>
    exact (nonEmpty_u16 _).bind_left (grows_u16Nested (grows_len16List fun x _ => grows_u16 _))
  | serverName l =>
    exact (nonEmpty_u16 _).bind_left (grows_u16Nested (grows_len16List fun x _ => grows_serverName x))
  | supportedGroups l =>
    exact (nonEmpty_u16 _).bind_left (grows_u16Nested (grows_len16List fun x _ => grows_u16 _))
  | ecPointFormats l =>
    exact (nonEmpty_u16 _).bind_left (grows_u16Nested (grows_len8List fun x _ => grows_u8 _))
  | pskKeyExchangeModes l =>
    exact (nonEmpty_u16 _).bind_left (grows_u16Nested (grows_len8List fun x _ => grows_u8 _))
  | keyShareClientHello l =>
    exact (nonEmpty_u16 _).bind_left (grows_u16Nested (grows_len16List fun x _ => grows_keyShareEntry x))
  | keyShareServerHello x => exact (nonEmpty_u16 _).bind_left (grows_u16Nested (grows_keyShareEntry x))
  | encryptThenMac => exact (nonEmpty_u16 _).bind_left (grows_u16Nested grows_pure)
  | extendedMasterSecret => exact (nonEmpty_u16 _).bind_left (grows_u16Nested grows_pure)
  | postHandshakeAuth => exact (nonEmpty_u16 _).bind_left (grows_u16Nested grows_pure)
  | unknown c d => exact (nonEmpty_u16 _).bind_left (grows_u16Nested (grows_raw _))
  | nextProtocolNegotiation d => exact (nonEmpty_u16 _).bind_left (grows_u16Nested (grows_raw _))
  | supportedVersions d => exact (nonEmpty_u16 _).bind_left (grows_u16Nested (grows_raw _))
  | transportParameters d => exact (nonEmpty_u16 _).bind_left (grows_u16Nested (grows_raw _))

theorem readsToEnd_extensionsLoop {ctx : ExtensionContext} {encs : List Bytes} {vs : List Extension}
    (h : List.Forall₂ (fun e v => ReadsAs (Extension.fromBinary2 ctx) e v ∧ 0 < e.length) encs vs)
    (n : Nat) (hn : encs.flatten.length < n) :
    ReadsToEnd (extensionsLoop ctx n) encs.flatten vs := by
  induction h generalizing n with
  | nil =>
    intro pre _
    obtain ⟨m, rfl⟩ : ∃ m, n = m + 1 := ⟨n - 1, by simp at hn; omega⟩
    simp [extensionsLoop, Reader.remaining]
  | @cons e v encs vs h1 _ ih =>
    intro pre hl
    obtain ⟨m, rfl⟩ : ∃ m, n = m + 1 := ⟨n - 1, by omega⟩
    obtain ⟨hr, hpos⟩ := h1
    have hl' := hl
    simp only [List.flatten_cons, List.length_append] at hl' hn
    have hrem : (⟨pre ++ (e :: encs).flatten, pre.length⟩ : Reader).remaining > 0 := by
      simp only [Reader.remaining, List.flatten_cons, List.length_append]; omega
    simp only [extensionsLoop]
    rw [if_pos hrem]
    have := readsToEnd_bind (e1 := e) (e2 := encs.flatten) (f := fun ext => extensionsLoop ctx m >>= fun rest =>
      pure (ext :: rest)) hr (readsToEnd_map (g := fun rest => v :: rest) (ih m (by omega)))
    exact this pre hl

theorem rt_extensions (cap : Nat) (ctx : ExtensionContext) (l : List Extension)
    (hl : ∀ e ∈ l, e.Legal ctx) :
    RT cap (writeLen16List Extension.toBinary l) (readExtensions ctx) l := by
  intro s s' hw
  rw [len16List_eq _ _ (fun e _ => grows_extension e)] at hw
  rcases hi : writeItems Extension.toBinary l (s ++ [0, 0]) with ⟨r, t⟩
  rw [hi] at hw
  cases r with
  | error e => cases hw
  | ok u =>
    obtain ⟨encs, rfl, rs⟩ := items_inv (cap := 65535) (p := Extension.fromBinary2 ctx)
      (fun e he => rt_extension ctx e (hl e he)) (fun e _ => nonEmpty_extension e) _ _ hi
    simp only [drop_reserved s encs.flatten [0, 0] (s.length + 2) rfl] at hw
    split at hw
    · rename_i hle
      cases hw
      refine ⟨_, rfl, fun _ => readsAs_bind (readsAs_u16 (by omega)) ?_⟩
      refine readsAs_nested' (p := fun inner => extensionsLoop ctx (inner.remaining + 1)) ?_
      intro inner hin
      exact readsToEnd_extensionsLoop (rs hle) _ (by omega)
    · cases hw

theorem grows_extensions (l : List Extension) : Grows (writeLen16List Extension.toBinary l) :=
  grows_len16List fun e _ => grows_extension e

/-! ### Messages -/

theorem readsAs_compressionLoop (d : Bytes) : ReadsAs (compressionLoop d.length) d d := by
  induction d with
  | nil => exact readsAs_pure _
  | cons b d ih =>
    exact readsAs_bind (e1 := [b]) (readsAs_u8 b) (readsAs_bind_pure ih (readsAs_pure _))

theorem rt_clientHello (cap : Nat) (m : ClientHello) (hm : m.WellFormed) :
    RT cap m.toBinary ClientHello.fromBinary m := by
  obtain ⟨h1, h2, h3, h4⟩ := hm
  refine RT.bind (rt_u16 cap h1) (RT.bind (rt_raw cap h2.symm) (RT.bind (rt_len8 cap _)
    (RT.bind (rt_list16 cap (fun x hx => rt_code16 _ cipherSuite_faithful (h3 x hx).1 (h3 x hx).2)
      (fun x _ => nonEmpty_u16 _) (fun x _ => grows_u16 _)) ?_)))
  have hcomp : RT cap (writeLen8Bytes m.legacyCompressionMethods)
      (readU8 >>= fun len => readNested len.toNat >>= fun inner =>
        onReader inner (compressionLoop len.toNat)) m.legacyCompressionMethods := by
    intro s s' hw
    rw [len8Bytes_eq] at hw
    split at hw
    · cases hw
      refine ⟨_, rfl, fun _ => readsAs_bind (readsAs_u8 _) ?_⟩
      rw [toNat_ofNat_lt (by omega)]
      exact readsAs_nested' (p := fun _ => compressionLoop m.legacyCompressionMethods.length)
        (fun _ _ => readsToEnd_of_readsAs (readsAs_compressionLoop _))
    · cases hw
  have hext := rt_extensions cap .clientHello m.extensions h4
  have hall := RT.bind (f := fun comp => readExtensions .clientHello >>= fun exts =>
    pure (⟨m.legacyVersion, m.random, m.legacySessionId, m.cipherSuites, comp, exts⟩ : ClientHello)) hcomp
    (RT.map hext (readsAs_pure m))
  simp only [← bind_assoc'] at hall
  exact hall

theorem rt_serverHello (cap : Nat) (m : ServerHello) (hm : m.WellFormed) :
    RT cap m.toBinary ServerHello.fromBinary m := by
  obtain ⟨h1, h2, h3, h4, h5⟩ := hm
  exact RT.bind (rt_u16 cap h1) (RT.bind (rt_raw cap h2.symm) (RT.bind (rt_len8 cap _)
    (RT.bind (rt_code16 cap cipherSuite_faithful h3 h4) (RT.bind (rt_u8 cap _)
      (RT.map (rt_extensions cap .serverHello _ h5) (readsAs_pure m))))))

theorem rt_certificateEntry {X : Type} (cap : Nat) (x509 : Bytes → Option X) (e : CertificateEntry X)
    (he : e.WellFormed x509) : RT cap e.toBinary (CertificateEntry.fromBinary x509) e := by
  obtain ⟨h1, h2⟩ := he
  refine RT.bind (rt_len24 cap _) ?_
  rw [h1]
  exact RT.map (rt_extensions cap .certificate _ h2) (readsAs_pure e)

theorem grows_certificateEntry {X : Type} (e : CertificateEntry X) : Grows e.toBinary :=
  grows_seq (grows_len24Bytes _) (grows_extensions _)

theorem rt_certificate {X : Type} (cap : Nat) (x509 : Bytes → Option X) (m : Certificate X)
    (hm : ∀ e ∈ m.certificateList, e.WellFormed x509) :
    RT cap m.toBinary (Certificate.fromBinary x509) m :=
  RT.bind (rt_len8 cap _) (RT.map (rt_list24 cap (fun e he => rt_certificateEntry _ x509 e (hm e he))
    (fun e _ => (nonEmpty_len24Bytes _).bind_left (grows_extensions _))
    (fun e _ => grows_certificateEntry e)) (readsAs_pure m))

theorem rt_certificateVerify (cap : Nat) (m : CertificateVerify)
    (h1 : Canonical signatureSchemeCodes .unknown m.algorithm) (h2 : m.algorithm.toRaw < 65536) :
    RT cap m.toBinary CertificateVerify.fromBinary m :=
  RT.bind (rt_code16 cap signatureScheme_faithful h1 h2) (RT.map (rt_len16 cap _) (readsAs_pure m))

end Ngfs.Tls
