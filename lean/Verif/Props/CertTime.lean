import Verif.Props.Libp2pTls
import Verif.Lemmas.CertTime

/-!
C197 (the period in which the certificate of a libp2p host is valid), C198 (the form of its times).
-/
namespace Ngfs.X509
open Ngfs.Spec Ngfs.Multibase

/-- The moments with which `generate_certificate` is called: from an hour after the beginning of 1970 on, as long as the end of the period is
before the year 10000. -/
def InReach (now : Nat) : Prop := 3600 ≤ now ∧ now + 3650 * 86400 < 253402300800

instance (now : Nat) : Decidable (InReach now) := inferInstanceAs (Decidable (_ ∧ _))

example : InReach 1794860042 := by decide

/-- A text stands for one day. -/
theorem dayNumber_unique {y m d n n' : Nat} (h : DayNumber y m d n) (h' : DayNumber y m d n') : n = n' := by
  obtain ⟨s, e, l, a, _, s1, e1, l1, a1, _, _, r⟩ := h
  obtain ⟨s', e', l', a', _, s1', e1', l1', a1', _, _, r'⟩ := h'
  rw [s1] at s1'
  cases s1'
  have : l = l' := by
    rcases l1 with ⟨p, rfl⟩ | ⟨p, rfl⟩ <;> rcases l1' with ⟨q, rfl⟩ | ⟨q, rfl⟩ <;> first | rfl | exact absurd p q | exact absurd q p
  subst this
  rw [r, r', a1, a1']

/-- **C197**: a text stands for one moment. -/
theorem C197_one_moment {text : List Char} {t t' : Nat} (h : TimeText text t) (h' : TimeText text t') : t = t' := by
  obtain ⟨a, b, c, d, e, f, y, m, dd, hh, mi, s, n, h0, la, lb, lc, ld, le, lf, na, nb, nc, nd, ne, nf, hn, _, _, _, r⟩ := h
  obtain ⟨a', b', c', d', e', f', y', m', dd', hh', mi', s', n', h0', la', lb', lc', ld', le', lf', na', nb', nc', nd', ne', nf', hn', _, _, _, r'⟩ := h'
  have qa := h0.symm.trans h0'
  obtain ⟨ea, qb⟩ := List.append_inj qa (by rw [la, la'])
  subst ea
  obtain ⟨eb, qc⟩ := List.append_inj qb (by rw [lb, lb'])
  subst eb
  obtain ⟨ec, qd⟩ := List.append_inj qc (by rw [lc, lc'])
  subst ec
  obtain ⟨ed, qe⟩ := List.append_inj qd (by rw [ld, ld'])
  subst ed
  obtain ⟨ee, qf⟩ := List.append_inj qe (by rw [le, le'])
  subst ee
  obtain ⟨ef, _⟩ := List.append_inj qf (by rw [lf, lf'])
  subst ef
  rw [na] at na'; cases na'
  rw [nb] at nb'; cases nb'
  rw [nc] at nc'; cases nc'
  rw [nd] at nd'; cases nd'
  rw [ne] at ne'; cases ne'
  rw [nf] at nf'; cases nf'
  have := dayNumber_unique hn hn'
  omega

example : TimeText "20261116202733Z".toList 1794860853 :=
  ⟨"2026".toList, "11".toList, "16".toList, "20".toList, "27".toList, "33".toList, 2026, 11, 16, 20, 27, 33, 740301, by decide,
    by decide, by decide, by decide, by decide, by decide, by decide, by decide, by decide, by decide, by decide, by decide, by decide,
    ⟨304, 334, 0, 0, by decide, by decide, by decide, .inr ⟨by simp only [LeapYear]; omega, rfl⟩, by decide, by decide, by decide, by decide⟩,
    by decide, by decide, by decide, by decide⟩

/-- Such a text has 15 characters. -/
theorem timeText_length {text : List Char} {t : Nat} (h : TimeText text t) : text.length = 15 := by
  obtain ⟨a, b, c, d, e, f, y, m, dd, hh, mi, s, n, rfl, la, lb, lc, ld, le, lf, _⟩ := h
  simp only [List.length_append, la, lb, lc, ld, le, lf, List.length_cons, List.length_nil]

theorem asBytes_length (cs : List Char) : (asBytes cs).length ≤ 4 * cs.length := by
  induction cs with
  | nil => exact Nat.le_refl _
  | cons c cs ih =>
    have hc : (String.utf8EncodeChar c).length ≤ 4 := by
      rw [String.length_utf8EncodeChar]
      exact Char.utf8Size_le_four c
    simp only [asBytes, List.flatMap_cons, List.length_append, List.length_cons] at ih ⊢
    omega

/-- What `generate_certificate` gives at any moment within reach. -/
theorem generated_at (verify : SigAlg → Bytes → Bytes → Bytes → Bool) (x h : KeyPair) (hx : x.Ed25519 verify)
    (hh : h.Ed25519 verify) (now : Nat) (hn : InReach now) :
    ∃ raw c, generateCertificateAt now x h = .ok raw ∧ ProvesHost verify raw x.publicKey h.publicKey c ∧
      verifyCertificate verify raw raw = .ok () ∧ ∃ s s', c.tbsCertificate.validity = ⟨.generalizedTime s, .generalizedTime s'⟩ ∧
        TimeText s.toList (now - 3600) ∧ TimeText s'.toList (now + 3650 * 86400) := by
  obtain ⟨h1, h2⟩ := hn
  have a : TimeText (notBeforeText now) (now - 3600) := timeText_spec _ (by omega)
  have b : TimeText (notAfterText now) (now + 3650 * 86400) := timeText_spec _ h2
  have la := asBytes_length (notBeforeText now)
  have lb := asBytes_length (notAfterText now)
  rw [timeText_length a] at la
  rw [timeText_length b] at lb
  obtain ⟨raw, c, g1, g2, g3, g4⟩ := C102_generated verify x h hx hh (String.ofList (notBeforeText now)) (String.ofList (notAfterText now))
    (by rw [Pem.utf8Encode_ofList]; omega) (by rw [Pem.utf8Encode_ofList]; omega)
  refine ⟨raw, c, g1, g2, g3, String.ofList (notBeforeText now), String.ofList (notAfterText now), g4, ?_, ?_⟩
  · rw [String.toList_ofList]
    exact a
  · rw [String.toList_ofList]
    exact b

/-- **C197**: the certificate that a host makes is valid from an hour before it was made until 3650 days after, and at no other moment. -/
theorem C197_valid (verify : SigAlg → Bytes → Bytes → Bytes → Bool) (x h : KeyPair) (hx : x.Ed25519 verify)
    (hh : h.Ed25519 verify) (now : Nat) (hn : InReach now) :
    ∃ raw c, generateCertificateAt now x h = .ok raw ∧ ProvesHost verify raw x.publicKey h.publicKey c ∧
      verifyCertificate verify raw raw = .ok () ∧ ∀ t, ValidAt c t ↔ now - 3600 ≤ t ∧ t ≤ now + 3650 * 86400 := by
  obtain ⟨raw, c, g1, g2, g3, s, s', g4, g5, g6⟩ := generated_at verify x h hx hh now hn
  refine ⟨raw, c, g1, g2, g3, fun t => ?_⟩
  simp only [ValidAt, g4, TimeIs]
  constructor
  · rintro ⟨a, b, ha, hb, p, q⟩
    rw [C197_one_moment ha g5] at p
    rw [C197_one_moment hb g6] at q
    exact ⟨p, q⟩
  · rintro ⟨p, q⟩
    exact ⟨_, _, g5, g6, p, q⟩

example : ∃ raw c, generateCertificateAt 1794860042 (toyPair 1) (toyPair 2) = .ok raw ∧ Certificate.fromBytes raw = .ok c ∧
    ValidAt c 1794860042 := by
  obtain ⟨raw, c, h1, h2, _, h4⟩ := C197_valid toyVerify (toyPair 1) (toyPair 2) (toy_pair 1) (toy_pair 2) 1794860042 (by decide)
  exact ⟨raw, c, h1, h2.read, (h4 _).mpr (by decide)⟩

/-! ### C198 -/

example : TimeText "20500101000000Z".toList startOf2050 :=
  ⟨"2050".toList, "01".toList, "01".toList, "00".toList, "00".toList, "00".toList, 2050, 1, 1, 0, 0, 0, 748748, by decide,
    by decide, by decide, by decide, by decide, by decide, by decide, by decide, by decide, by decide, by decide, by decide, by decide,
    ⟨0, 31, 0, 0, by decide, by decide, by decide, .inr ⟨by simp only [LeapYear]; omega, rfl⟩, by decide, by decide, by decide, by decide⟩,
    by decide, by decide, by decide, by decide⟩

/-- The claim: the times in the certificate are in the form that RFC 5280 demands. -/
def C198_statement : Prop := ∀ (verify : SigAlg → Bytes → Bytes → Bytes → Bool) (x h : KeyPair) (now : Nat) (raw : Bytes) (c : Certificate) (a b : Nat),
  x.Ed25519 verify → h.Ed25519 verify → InReach now → generateCertificateAt now x h = .ok raw → Certificate.fromBytes raw = .ok c →
    TimeIs c.tbsCertificate.validity.notBefore a → TimeIs c.tbsCertificate.validity.notAfter b →
    RightForm c.tbsCertificate.validity.notBefore a ∧ RightForm c.tbsCertificate.validity.notAfter b

/-- The times are in that form exactly if the certificate is made after 2049, more than an hour after.

Missing from the full claim: the certificates that are made before, see `C198_false`. -/
theorem C198_exactly_partial (verify : SigAlg → Bytes → Bytes → Bytes → Bool) (x h : KeyPair) (hx : x.Ed25519 verify)
    (hh : h.Ed25519 verify) (now : Nat) (hn : InReach now) :
    ∃ raw c a b, generateCertificateAt now x h = .ok raw ∧ Certificate.fromBytes raw = .ok c ∧
      TimeIs c.tbsCertificate.validity.notBefore a ∧ TimeIs c.tbsCertificate.validity.notAfter b ∧
      (RightForm c.tbsCertificate.validity.notBefore a ↔ startOf2050 + 3600 ≤ now) ∧
      (RightForm c.tbsCertificate.validity.notAfter b ↔ startOf2050 ≤ now + 3650 * 86400) := by
  obtain ⟨raw, c, g1, g2, g3, s, s', g4, g5, g6⟩ := generated_at verify x h hx hh now hn
  refine ⟨raw, c, now - 3600, now + 3650 * 86400, g1, g2.read, ?_⟩
  simp only [g4, TimeIs, RightForm, startOf2050]
  have := hn.1
  exact ⟨g5, g6, by omega, trivial⟩

/-- **C198** is false: in a certificate made in 2026 both times are `GeneralizedTime`, though they are before 2050. -/
theorem C198_false : ¬ C198_statement := by
  intro hc
  obtain ⟨raw, c, a, b, h1, h2, h3, h4, h5, _⟩ :=
    C198_exactly_partial toyVerify (toyPair 1) (toyPair 2) (toy_pair 1) (toy_pair 2) 1794860042 (by decide)
  have := h5.mp (hc toyVerify _ _ _ raw c a b (toy_pair 1) (toy_pair 2) (by decide) h1 h2 h3 h4).1
  exact absurd this (by decide)

example : ∃ raw c a b, generateCertificateAt 2600000000 (toyPair 1) (toyPair 2) = .ok raw ∧ Certificate.fromBytes raw = .ok c ∧
    RightForm c.tbsCertificate.validity.notBefore a ∧ RightForm c.tbsCertificate.validity.notAfter b := by
  obtain ⟨raw, c, a, b, h1, h2, _, _, h5, h6⟩ :=
    C198_exactly_partial toyVerify (toyPair 1) (toyPair 2) (toy_pair 1) (toy_pair 2) 2600000000 (by decide)
  exact ⟨raw, c, a, b, h1, h2, h5.mpr (by decide), h6.mpr (by decide)⟩

end Ngfs.X509
