import Verif.Model.MultiaddrText
import Verif.Lemmas.Asn1PrintInj

/-! C146 (the text of an address determines it) and C147 (it is in the standard notation). -/
namespace Ngfs.Multiaddr
open Ngfs.Asn1 (txt decimal decimal_inj decimal_free toHex_free toHex_inj NoDigit)
open Ngfs.Util (toHex)

/-! ### Specification -/

/-- An address as the Rust types allow it: four or sixteen octets, a port of 16 bits. -/
def Addr.Typed : Addr → Prop
  | .ip4 octets => octets.length = 4
  | .ip6 octets => octets.length = 16
  | .tcp port => port < 2 ^ 16
  | .udp port => port < 2 ^ 16
  | _ => True

/-- What is assumed of the text of IPv6 addresses: it determines the address and has no slash. -/
structure Ip6Text (f : Bytes → List Char) : Prop where
  inj : ∀ a b, a.length = 16 → b.length = 16 → f a = f b → a = b
  free : ∀ a, '/' ∉ f a

/-- The notation of the multiaddr specification, for the protocols it defines: the names of the protocol and its
value, each after a slash. -/
def Standard (ip6Text : Bytes → List Char) : Addr → Option (List Char)
  | .ip4 [a, b, c, d] => some ("/ip4/".toList ++ Nat.toDigits 10 a.toNat ++ '.' :: Nat.toDigits 10 b.toNat ++
      '.' :: Nat.toDigits 10 c.toNat ++ '.' :: Nat.toDigits 10 d.toNat)
  | .ip6 octets => some ("/ip6/".toList ++ ip6Text octets)
  | .tcp port => some ("/tcp/".toList ++ Nat.toDigits 10 port)
  | .udp port => some ("/udp/".toList ++ Nat.toDigits 10 port)
  | .quic => some "/quic".toList
  | _ => none

/-! ### Pieces -/

/-- Pieces, each after a separator. -/
def pieces (sep : Char) (l : List (List Char)) : List Char := l.flatMap (sep :: ·)

theorem pieces_append (sep : Char) (a b : List (List Char)) : pieces sep (a ++ b) = pieces sep a ++ pieces sep b :=
  List.flatMap_append

theorem pieces_inj (sep : Char) : ∀ a b : List (List Char), (∀ x ∈ a, sep ∉ x) → (∀ x ∈ b, sep ∉ x) →
    pieces sep a = pieces sep b → a = b := by
  have key : ∀ (x y r s : List Char), sep ∉ x → sep ∉ y → (r = [] ∨ ∃ r', r = sep :: r') → (s = [] ∨ ∃ s', s = sep :: s') →
      x ++ r = y ++ s → x = y ∧ r = s := by
    intro x
    induction x with
    | nil =>
      intro y r s _ hy hr hs h
      rcases y with _ | ⟨c, y⟩
      · exact ⟨rfl, by simpa using h⟩
      · rcases hr with rfl | ⟨r', rfl⟩
        · simp at h
        · simp only [List.nil_append, List.cons_append, List.cons.injEq] at h
          exact absurd (by rw [h.1]; simp) hy
    | cons c x ih =>
      intro y r s hx hy hr hs h
      rcases y with _ | ⟨d, y⟩
      · rcases hs with rfl | ⟨s', rfl⟩
        · simp at h
        · simp only [List.nil_append, List.cons_append, List.cons.injEq] at h
          exact absurd (by rw [← h.1]; simp) hx
      · simp only [List.cons_append, List.cons.injEq] at h
        obtain ⟨h1, h2⟩ := ih y r s (fun hm => hx (by simp [hm])) (fun hm => hy (by simp [hm])) hr hs h.2
        exact ⟨by rw [h.1, h1], h2⟩
  have hp : ∀ l, pieces sep l = [] ∨ ∃ r, pieces sep l = sep :: r := by
    intro l
    rcases l with _ | ⟨x, l⟩
    · exact Or.inl rfl
    · exact Or.inr ⟨_, rfl⟩
  intro a
  induction a with
  | nil =>
    intro b _ _ h
    rcases b with _ | ⟨y, b⟩
    · rfl
    · simp [pieces] at h
  | cons x a ih =>
    intro b ha hb h
    rcases b with _ | ⟨y, b⟩
    · simp [pieces] at h
    · have h : sep :: (x ++ pieces sep a) = sep :: (y ++ pieces sep b) := h
      injection h with _ h
      obtain ⟨h1, h2⟩ := key x y _ _ (ha x (by simp)) (hb y (by simp)) (hp a) (hp b) h
      rw [h1, ih b (fun z hz => ha z (by simp [hz])) (fun z hz => hb z (by simp [hz])) h2]

/-- The pieces of an address. -/
def parts (f : Bytes → List Char) : Addr → List (List Char)
  | .ip4 octets => [['i', 'p', 'v', '4'], ip4Text octets]
  | .ip6 octets => [['i', 'p', 'v', '6'], f octets]
  | .tcp port => [['t', 'c', 'p'], decimal port]
  | .udp port => [['u', 'd', 'p'], decimal port]
  | .quic => [['q', 'u', 'i', 'c']]
  | .unknown proto data => [['u', 'n', 'k', 'n', 'o', 'w', 'n'], decimal proto, toHex data]
  | .invalid data => [['i', 'n', 'v', 'a', 'l', 'i', 'd'], toHex data]

theorem txt_ip4 : txt "/ipv4/" = ['/', 'i', 'p', 'v', '4', '/'] := by decide +kernel
theorem txt_ip6 : txt "/ipv6/" = ['/', 'i', 'p', 'v', '6', '/'] := by decide +kernel
theorem txt_tcp : txt "/tcp/" = ['/', 't', 'c', 'p', '/'] := by decide +kernel
theorem txt_udp : txt "/udp/" = ['/', 'u', 'd', 'p', '/'] := by decide +kernel
theorem txt_quic : txt "/quic" = ['/', 'q', 'u', 'i', 'c'] := by decide +kernel
theorem txt_unknown : txt "/unknown/" = ['/', 'u', 'n', 'k', 'n', 'o', 'w', 'n', '/'] := by decide +kernel
theorem txt_invalid : txt "/invalid/" = ['/', 'i', 'n', 'v', 'a', 'l', 'i', 'd', '/'] := by decide +kernel

theorem text_parts (f : Bytes → List Char) (a : Addr) : a.text f = pieces '/' (parts f a) := by
  cases a <;> simp [Addr.text, pieces, parts, txt_ip4, txt_ip6, txt_tcp, txt_udp, txt_quic, txt_unknown, txt_invalid]

theorem ip4Text_pieces : ∀ bs : Bytes, bs ≠ [] → '.' :: ip4Text bs = pieces '.' (bs.map fun b => decimal b.toNat)
  | [b], _ => by simp [ip4Text, pieces]
  | b :: c :: bs, _ => by
    have ih := ip4Text_pieces (c :: bs) (by simp)
    have e : pieces '.' ((b :: c :: bs).map fun b => decimal b.toNat)
        = '.' :: (decimal b.toNat ++ pieces '.' ((c :: bs).map fun b => decimal b.toNat)) := rfl
    rw [e, ← ih]
    simp [ip4Text]

theorem ip4Text_free : ∀ bs : Bytes, '/' ∉ ip4Text bs
  | [] => by simp [ip4Text]
  | [b] => decimal_free (by decide) _
  | b :: c :: bs => by
    have := ip4Text_free (c :: bs)
    have := decimal_free (c := '/') (by decide) b.toNat
    simp_all [ip4Text]

theorem ip4Text_inj (a b : Bytes) (ha : a ≠ []) (hb : b ≠ []) (h : ip4Text a = ip4Text b) : a = b := by
  have h1 : pieces '.' (a.map fun b => decimal b.toNat) = pieces '.' (b.map fun b => decimal b.toNat) := by
    rw [← ip4Text_pieces a ha, ← ip4Text_pieces b hb, h]
  have free : ∀ l : Bytes, ∀ x ∈ l.map fun b => decimal b.toNat, '.' ∉ x := by
    intro l x hx
    obtain ⟨b, _, rfl⟩ := List.mem_map.1 hx
    exact decimal_free (by decide) _
  have h2 := pieces_inj '.' _ _ (free a) (free b) h1
  exact List.map_injective_iff.mpr (fun x y e => UInt8.toNat_inj.1 (decimal_inj e)) h2

theorem parts_free {f : Bytes → List Char} (hf : Ip6Text f) (a : Addr) : ∀ x ∈ parts f a, '/' ∉ x := by
  have hd := fun n => decimal_free (c := '/') (by decide) n
  have hx := fun n => toHex_free (c := '/') (by decide) n
  cases a <;> simp [parts, ip4Text_free, hf.free, hd, hx]

/-- The first pieces tell the first address. -/
theorem parts_head {f : Bytes → List Char} (hf : Ip6Text f) (a b : Addr) (ha : a.Typed) (hb : b.Typed)
    (r s : List (List Char)) (h : parts f a ++ r = parts f b ++ s) : a = b ∧ r = s := by
  have h4 : ∀ l : Bytes, l.length = 4 → l ≠ [] := by rintro l h rfl; simp at h
  cases a <;> cases b <;> simp [parts] at h <;> simp only [Addr.Typed] at ha hb
  · exact ⟨by rw [ip4Text_inj _ _ (h4 _ ha) (h4 _ hb) h.1], h.2⟩
  · exact ⟨by rw [hf.inj _ _ ha hb h.1], h.2⟩
  · exact ⟨by rw [decimal_inj h.1], h.2⟩
  · exact ⟨by rw [decimal_inj h.1], h.2⟩
  · exact ⟨rfl, h⟩
  · exact ⟨by rw [decimal_inj h.1, toHex_inj h.2.1], h.2.2⟩
  · exact ⟨by rw [toHex_inj h.1], h.2⟩

theorem text_pieces (f : Bytes → List Char) (l : List Addr) : text f l = pieces '/' (l.flatMap (parts f)) := by
  induction l with
  | nil => rfl
  | cons a l ih =>
    rw [List.flatMap_cons, pieces_append, ← ih, ← text_parts]
    rfl

/-! ### C146 -/

/-- C146. Two addresses that are shown alike are the same address, whatever they are made of. -/
theorem C146_text_determines (f : Bytes → List Char) (hf : Ip6Text f) (as bs : List Addr)
    (ha : ∀ a ∈ as, a.Typed) (hb : ∀ b ∈ bs, b.Typed) (h : text f as = text f bs) : as = bs := by
  rw [text_pieces, text_pieces] at h
  have free : ∀ l : List Addr, ∀ x ∈ l.flatMap (parts f), '/' ∉ x := by
    intro l x hx
    obtain ⟨a, _, ha⟩ := List.mem_flatMap.1 hx
    exact parts_free hf a x ha
  replace h := pieces_inj '/' _ _ (free as) (free bs) h
  induction as generalizing bs with
  | nil =>
    rcases bs with _ | ⟨b, bs⟩
    · rfl
    · cases b <;> simp [parts] at h
  | cons a as ih =>
    rcases bs with _ | ⟨b, bs⟩
    · cases a <;> simp [parts] at h
    · rw [List.flatMap_cons, List.flatMap_cons] at h
      obtain ⟨h1, h2⟩ := parts_head hf a b (ha a (by simp)) (hb b (by simp)) _ _ h
      rw [h1, ih bs (fun x hx => ha x (by simp [hx])) (fun x hx => hb x (by simp [hx])) h2]

theorem read_typed (bytes : Bytes) : (Addr.read bytes).1.Typed := by
  have hbe : ∀ o, beU16 bytes o < 2 ^ 16 := by
    intro o
    have h1 := (bytes.getD o 0).toNat_lt
    have h2 := (bytes.getD (o + 1) 0).toNat_lt
    unfold beU16
    omega
  unfold Addr.read
  split
  · trivial
  · repeat' split
    all_goals first | trivial | exact hbe _ | skip
    all_goals simp only [Addr.Typed, slice, List.length_take, List.length_drop]; omega

theorem fromBytes_typed (bytes : Bytes) : ∀ a ∈ fromBytes bytes, a.Typed := by
  induction h : bytes.length using Nat.strongRecOn generalizing bytes with
  | ind n ih =>
    intro a ha
    rw [fromBytes] at ha
    split at ha
    · cases ha
    · rename_i hne
      have hb := read_bounds bytes hne
      rcases List.mem_cons.1 ha with rfl | ha
      · exact read_typed bytes
      · exact ih _ (by simp only [List.length_drop]; omega) _ rfl a ha

/-- C146, for addresses received from peers: no two byte strings that are decoded differently are shown alike. -/
theorem C146_received (f : Bytes → List Char) (hf : Ip6Text f) (x y : Bytes)
    (h : text f (fromBytes x) = text f (fromBytes y)) : fromBytes x = fromBytes y :=
  C146_text_determines f hf _ _ (fromBytes_typed x) (fromBytes_typed y) h

/-- A text for IPv6 addresses with the assumed properties. -/
theorem toHex_ip6Text : Ip6Text toHex := ⟨fun _ _ _ _ h => toHex_inj h, fun _ => toHex_free (by decide) _⟩

example : text toHex (fromBytes [4, 127, 0, 0, 1, 6, 15, 161]) = "/ipv4/127.0.0.1/tcp/4001".toList := by
  decide +kernel

/-! ### C147 -/

/-- C147: an address of known protocols is shown in the notation of the multiaddr specification. -/
def C147_statement : Prop :=
  ∀ (f : Bytes → List Char) (a : Addr) (t : List Char), Ip6Text f → a.Typed → Standard f a = some t → a.text f = t

/-- The code does not satisfy C147: it writes `/ipv4/` and `/ipv6/` instead of `/ip4/` and `/ip6/`. Such an address is
not understood by other programs. -/
theorem C147_false : ¬ C147_statement := by
  intro h
  have := h toHex (.ip4 [127, 0, 0, 1]) _ toHex_ip6Text rfl rfl
  revert this
  decide +kernel

/-- C147, what holds: for the protocols other than the two IP protocols. Missing from C147: the names of these. -/
theorem C147_other_protocols_partial (f : Bytes → List Char) (a : Addr) (t : List Char)
    (h4 : ∀ o, a ≠ .ip4 o) (h6 : ∀ o, a ≠ .ip6 o) (h : Standard f a = some t) : a.text f = t := by
  have e1 : txt "/tcp/" = "/tcp/".toList := by unfold txt; rfl
  have e2 : txt "/udp/" = "/udp/".toList := by unfold txt; rfl
  have e3 : txt "/quic" = "/quic".toList := by unfold txt; rfl
  cases a with
  | ip4 o => exact absurd rfl (h4 o)
  | ip6 o => exact absurd rfl (h6 o)
  | tcp p => injection h with h; rw [← h, Addr.text, e1]; rfl
  | udp p => injection h with h; rw [← h, Addr.text, e2]; rfl
  | quic => injection h with h; rw [← h, Addr.text, e3]
  | unknown p d => cases h
  | invalid d => cases h

/-- C147, for the two IP protocols: behind the first component, which is wrong, the text is the standard one. -/
theorem C147_ip_partial (f : Bytes → List Char) (o : Bytes) (t : List Char) :
    (Standard f (.ip4 o) = some t → ∃ v, t = "/ip4/".toList ++ v ∧ (Addr.ip4 o).text f = "/ipv4/".toList ++ v) ∧
    (Standard f (.ip6 o) = some t → ∃ v, t = "/ip6/".toList ++ v ∧ (Addr.ip6 o).text f = "/ipv6/".toList ++ v) := by
  have e1 : txt "/ipv4/" = "/ipv4/".toList := by unfold txt; rfl
  have e2 : txt "/ipv6/" = "/ipv6/".toList := by unfold txt; rfl
  constructor
  · intro h
    match o, h with
    | [a, b, c, d], h =>
      injection h with h
      refine ⟨ip4Text [a, b, c, d], ?_, by rw [Addr.text, e1]⟩
      rw [← h]
      simp only [ip4Text, decimal, List.append_assoc, List.cons_append, List.nil_append]
  · intro h
    injection h with h
    exact ⟨f o, h.symm, by rw [Addr.text, e2]⟩

example : Standard toHex (.tcp 4001) = some "/tcp/4001".toList := by decide +kernel

end Ngfs.Multiaddr
