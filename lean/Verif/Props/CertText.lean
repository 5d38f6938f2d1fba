import Verif.Model.CertText
import Verif.Props.View

/-! C158, C159: the printout of a certificate (`src/bin/x509.rs`, `src/crypto/x509.rs`). -/
namespace Ngfs.X509
open Ngfs.Asn1 Ngfs.Util
open Ngfs.View (joinLines joinLines_inj joinLines_append joinLines_cons no_newline_append split_last)

/-! ## Texts -/

theorem mem_of_lookup {α β : Type} [BEq α] [LawfulBEq α] {k : α} {v : β} : ∀ {l : List (α × β)}, l.lookup k = some v → (k, v) ∈ l
  | [], h => by cases h
  | (k', v') :: l, h => by
    rw [List.lookup_cons] at h
    rcases e : k == k' with _ | _
    · rw [e] at h
      exact List.mem_cons_of_mem _ (mem_of_lookup h)
    · rw [e] at h
      cases h
      rw [eq_of_beq e]
      exact List.mem_cons_self

theorem long_names_differ : ∀ p ∈ registry, ∀ q ∈ registry, p.2.1 = q.2.1 → p.1 = q.1 := by decide +kernel

theorem long_names_letters : ∀ p ∈ registry, (∃ c ∈ p.2.1.toList, NoDigit c ∧ c ≠ '.') ∧ ' ' ∉ p.2.1.toList ∧ '\n' ∉ p.2.1.toList := by
  decide +kernel

theorem lookupLongName_mem {oid : List Nat} {s : String} (h : lookupLongName oid = some s) :
    ∃ p ∈ registry, p.1 = oid ∧ p.2.1 = s := by
  unfold lookupLongName at h
  rcases hl : registry.lookup oid with _ | v
  · rw [hl] at h; cases h
  · rw [hl] at h
    exact ⟨(oid, v), mem_of_lookup hl, rfl, by simpa using h⟩

theorem getLongName_inj {a b : List Nat} (h : getLongName a = getLongName b) : a = b := by
  have mixed : ∀ {a b : List Nat} {s : String}, lookupLongName a = some s → s.toList ≠ oidText 0 b := by
    intro a b s ha e
    obtain ⟨p, hp, _, hs⟩ := lookupLongName_mem ha
    obtain ⟨⟨c, hc, hn, hd⟩, _⟩ := long_names_letters p hp
    rw [hs, e] at hc
    exact oidText_free hn hd b 0 hc
  unfold getLongName at h
  rcases ha : lookupLongName a with _ | s <;> rcases hb : lookupLongName b with _ | t <;> rw [ha, hb] at h
  · exact oidText_inj h
  · exact absurd h.symm (mixed hb)
  · exact absurd h (mixed ha)
  · obtain ⟨p, hp, h1, h2⟩ := lookupLongName_mem ha
    obtain ⟨q, hq, h3, h4⟩ := lookupLongName_mem hb
    rw [← h1, ← h3]
    exact long_names_differ p hp q hq (by rw [h2, h4]; exact String.toList_inj.mp h)

theorem getLongName_free (a : List Nat) : ' ' ∉ getLongName a ∧ '\n' ∉ getLongName a := by
  unfold getLongName
  rcases ha : lookupLongName a with _ | s
  · exact ⟨oidText_free (by decide) (by decide) a 0, oidText_free (by decide) (by decide) a 0⟩
  · obtain ⟨p, hp, _, hs⟩ := lookupLongName_mem ha
    rw [← hs]
    exact (long_names_letters p hp).2

theorem typeStr_line (i : Item) : '\n' ∉ typeStr i := by
  obtain ⟨_, _, v⟩ := i
  cases v <;> (rw [typeStr]; decide +kernel)

theorem none_text : txt " None" = ' ' :: txt "None" ∧ txt " " = [' '] ∧ '\n' ∉ txt "None" := by decide +kernel

theorem algorithm_eq (a : AlgorithmIdentifier) : ∃ r, '\n' ∉ r ∧ a.text = getLongName a.algorithm ++ ' ' :: r := by
  obtain ⟨e1, e2, e3⟩ := none_text
  unfold AlgorithmIdentifier.text
  split
  · rename_i i _
    exact ⟨typeStr i, typeStr_line i, by rw [e2]; simp⟩
  · exact ⟨_, e3, by rw [e1]⟩

theorem algorithm_inj {a b : AlgorithmIdentifier} (h : a.text = b.text) : a.algorithm = b.algorithm := by
  obtain ⟨r, _, e⟩ := algorithm_eq a
  obtain ⟨s, _, f⟩ := algorithm_eq b
  rw [e, f] at h
  exact getLongName_inj (split_unique (getLongName_free _).1 (getLongName_free _).1 h).1

theorem algorithm_line (a : AlgorithmIdentifier) : '\n' ∉ a.text := by
  obtain ⟨r, hr, e⟩ := algorithm_eq a
  rw [e]
  exact no_newline_append (getLongName_free _).2 (by rw [List.mem_cons, not_or]; exact ⟨by decide, hr⟩)

theorem version_text : (∀ v : Version, '\n' ∉ v.debug) ∧ ∀ v w : Version, v.debug = w.debug → v = w := by
  have h1 : '\n' ∉ txt "V1" ∧ '\n' ∉ txt "V2" ∧ '\n' ∉ txt "V3" ∧ txt "V1" ≠ txt "V2" ∧ txt "V1" ≠ txt "V3" ∧ txt "V2" ≠ txt "V3" := by
    decide +kernel
  obtain ⟨a, b, c, d, e, f⟩ := h1
  refine ⟨fun v => by cases v <;> assumption, ?_⟩
  intro v w h
  cases v <;> cases w <;> simp only [Version.debug] at h <;>
    first | rfl | exact absurd h d | exact absurd h e | exact absurd h f | exact absurd h.symm d | exact absurd h.symm e |
      exact absurd h.symm f

/-! ## The lines -/

/-- The lines for one extension. -/
def extensionLines (i : Nat) (e : Extension) : List (List Char) :=
  [txt "        " ++ txt "extensions[" ++ decimal i ++ txt "] =",
   txt "        " ++ txt "    " ++ txt "id = " ++ getLongName e.id,
   txt "        " ++ txt "    " ++ txt "critical = " ++ (if e.critical then txt "true" else txt "false"),
   txt "        " ++ txt "    " ++ txt "value = <" ++ decimal e.data.length ++ txt " bytes>"]

/-- The lines for all of them. -/
def extensionsLines (i : Nat) : List Extension → List (List Char)
  | [] => []
  | e :: es => extensionLines i e ++ extensionsLines (i + 1) es

/-- The lines before the issuer. -/
def headLines (c : Certificate) : List (List Char) :=
  [txt "Certificate", txt "    tbs_certificate",
   txt "        " ++ txt "version = " ++ c.tbsCertificate.version.debug,
   txt "        " ++ txt "serial_number = " ++ toHex c.tbsCertificate.serialNumber,
   txt "        " ++ txt "signature = " ++ c.tbsCertificate.signature.text]

/-- The lines up to the subject. -/
def midLines (c : Certificate) : List (List Char) :=
  [txt "        " ++ txt "issuer = " ++ nameText 0 c.tbsCertificate.issuer,
   txt "        " ++ txt "validity =",
   txt "        " ++ txt "    not before = " ++ c.tbsCertificate.validity.notBefore.text,
   txt "        " ++ txt "    not after = " ++ c.tbsCertificate.validity.notAfter.text,
   txt "        " ++ txt "subject = " ++ nameText 0 c.tbsCertificate.subject]

/-- The lines on the public key. -/
def keyLines (c : Certificate) : List (List Char) :=
  [txt "        " ++ txt "subject_public_key_info =",
   txt "        " ++ txt "    " ++ txt "algorithm = " ++ c.tbsCertificate.subjectPublicKeyInfo.algorithm.text,
   txt "        " ++ txt "    " ++ txt "subject_public_key = <" ++
     decimal c.tbsCertificate.subjectPublicKeyInfo.subjectPublicKey.bytes.length ++ txt " bytes>"]

/-- The last two lines. -/
def tailLines (c : Certificate) : List (List Char) :=
  [txt "    signature_algorithm = " ++ c.signatureAlgorithm.text,
   txt "    signature_value = <" ++ decimal c.signatureValue.bytes.length ++ txt " bytes>"]

theorem extensions_lines : ∀ (i : Nat) (es : List Extension),
    extensionsText i (txt "        ") (txt "        " ++ txt "    ") es = joinLines (extensionsLines i es)
  | _, [] => rfl
  | i, e :: es => by
    rw [extensionsText, extensionsLines, joinLines_append, ← extensions_lines (i + 1) es]
    simp [extensionLines, joinLines, println, Extension.text]

theorem text_lines (c : Certificate) : c.text =
    joinLines (headLines c) ++ (joinLines (midLines c) ++ (joinLines (keyLines c) ++
      (joinLines (extensionsLines 0 c.tbsCertificate.extensions) ++ joinLines (tailLines c)))) := by
  rw [← extensions_lines]
  simp only [Certificate.text, TbsCertificate.text, SubjectPublicKeyInfo.text, headLines, midLines, keyLines, tailLines, println,
    joinLines, List.flatMap_cons, List.flatMap_nil, List.append_assoc, List.append_nil]

/-- The texts of the printout that do not depend on the certificate. -/
def fixedTexts : List String := ["Certificate", "    tbs_certificate", "        ", "version = ", "serial_number = ", "signature = ", "issuer = ", "validity =", "    not before = ", "    not after = ", "subject = ", "subject_public_key_info =", "    ", "algorithm = ", "subject_public_key = <", " bytes>", "extensions[", "] =", "id = ", "critical = ", "true", "false", "value = <", "    signature_algorithm = ", "    signature_value = <"]

theorem fixed_free : ∀ s ∈ fixedTexts, '\n' ∉ txt s := by decide +kernel

theorem fixed {s : String} (h : s ∈ fixedTexts := by decide) : '\n' ∉ txt s := fixed_free s h

theorem true_ne_false : txt "true" ≠ txt "false" := by decide +kernel

theorem lines_free : (∀ c, ∀ l ∈ headLines c, '\n' ∉ l) ∧ (∀ c, ∀ l ∈ keyLines c, '\n' ∉ l) ∧ (∀ c, ∀ l ∈ tailLines c, '\n' ∉ l) ∧
    ∀ i e, ∀ l ∈ extensionLines i e, '\n' ∉ l := by
  have a1 := fixed (s := "Certificate")
  have a2 := fixed (s := "    tbs_certificate")
  have a3 := fixed (s := "        ")
  have a4 := fixed (s := "version = ")
  have a5 := fixed (s := "serial_number = ")
  have a6 := fixed (s := "signature = ")
  have a7 := fixed (s := "issuer = ")
  have a8 := fixed (s := "validity =")
  have a9 := fixed (s := "    not before = ")
  have a10 := fixed (s := "    not after = ")
  have a11 := fixed (s := "subject = ")
  have a12 := fixed (s := "subject_public_key_info =")
  have a13 := fixed (s := "    ")
  have a14 := fixed (s := "algorithm = ")
  have a15 := fixed (s := "subject_public_key = <")
  have a16 := fixed (s := " bytes>")
  have a17 := fixed (s := "extensions[")
  have a18 := fixed (s := "] =")
  have a19 := fixed (s := "id = ")
  have a20 := fixed (s := "critical = ")
  have a21 := fixed (s := "true")
  have a22 := fixed (s := "false")
  have a23 := fixed (s := "value = <")
  have a24 := fixed (s := "    signature_algorithm = ")
  have a25 := fixed (s := "    signature_value = <")
  have hd : ∀ n, '\n' ∉ decimal n := decimal_free (by decide)
  have hh : ∀ n, '\n' ∉ toHex n := toHex_free (by decide)
  have hv := version_text.1
  have hg : ∀ o, '\n' ∉ getLongName o := fun o => (getLongName_free o).2
  have ha := algorithm_line
  refine ⟨?_, ?_, ?_, ?_⟩
  · intro c l hl
    simp only [headLines, List.mem_cons, List.not_mem_nil, or_false] at hl
    rcases hl with rfl | rfl | rfl | rfl | rfl <;> simp [*]
  · intro c l hl
    simp only [keyLines, List.mem_cons, List.not_mem_nil, or_false] at hl
    rcases hl with rfl | rfl | rfl <;> simp [*]
  · intro c l hl
    simp only [tailLines, List.mem_cons, List.not_mem_nil, or_false] at hl
    rcases hl with rfl | rfl <;> simp [*]
  · intro i e l hl
    simp only [extensionLines, List.mem_cons, List.not_mem_nil, or_false] at hl
    rcases hl with rfl | rfl | rfl | rfl
    · simp [*]
    · simp [*]
    · split <;> simp [*]
    · simp [*]

theorem extensionsLines_free : ∀ (i : Nat) (es : List Extension), ∀ l ∈ extensionsLines i es, '\n' ∉ l
  | _, [], l, hl => by cases hl
  | i, e :: es, l, hl => by
    rcases List.mem_append.mp hl with hl | hl
    · exact lines_free.2.2.2 i e l hl
    · exact extensionsLines_free (i + 1) es l hl

/-- Lines taken off at the front. -/
theorem joinLines_front : ∀ {a b : List (List Char)} {r s : List Char}, a.length = b.length → (∀ l ∈ a, '\n' ∉ l) →
    (∀ l ∈ b, '\n' ∉ l) → joinLines a ++ r = joinLines b ++ s → a = b ∧ r = s
  | [], [], _, _, _, _, _, h => ⟨rfl, h⟩
  | [], _ :: _, _, _, h, _, _, _ => by cases h
  | _ :: _, [], _, _, h, _, _, _ => by cases h
  | l :: a, m :: b, r, s, hlen, ha, hb, h => by
    simp only [joinLines_cons, List.append_assoc, List.singleton_append] at h
    obtain ⟨h1, h2⟩ := split_unique (ha l (by simp)) (hb m (by simp)) h
    obtain ⟨h3, h4⟩ := joinLines_front (by simpa using hlen) (fun x hx => ha x (by simp [hx])) (fun x hx => hb x (by simp [hx])) h2
    exact ⟨by rw [h1, h3], h4⟩

theorem tail_split {r s l1 l2 m1 m2 : List Char} (h1 : '\n' ∉ l1) (h2 : '\n' ∉ l2) (h3 : '\n' ∉ m1) (h4 : '\n' ∉ m2)
    (h : (r ++ ['\n']) ++ joinLines [l1, l2] = (s ++ ['\n']) ++ joinLines [m1, m2]) : r = s ∧ l1 = m1 ∧ l2 = m2 := by
  simp only [joinLines, List.flatMap_cons, List.flatMap_nil, List.append_nil] at h
  have e : ∀ x a b : List Char, x ++ ['\n'] ++ (a ++ ['\n'] ++ (b ++ ['\n'])) = (x ++ '\n' :: a ++ '\n' :: b) ++ ['\n'] := by simp
  rw [e, e] at h
  obtain ⟨h5, h6⟩ := split_last h2 h4 (List.append_cancel_right h)
  obtain ⟨h7, h8⟩ := split_last h1 h3 h5
  exact ⟨h7, h8, h6⟩

theorem line_last (ls : List (List Char)) (h : ls ≠ []) : ∃ r, joinLines ls = r ++ ['\n'] := by
  rcases List.eq_nil_or_concat ls with rfl | ⟨i, l, rfl⟩
  · exact absurd rfl h
  · exact ⟨joinLines i ++ l, by simp [joinLines]⟩

theorem bytes_inj {n m : Nat} (p : List Char) (h : p ++ decimal n ++ txt " bytes>" = p ++ decimal m ++ txt " bytes>") : n = m :=
  decimal_inj (List.append_cancel_left (List.append_cancel_right h))

/-! ## C159 -/

/-- C159. Two certificates with the same printout, whatever is in their names and dates, have the same version, serial
number, signature algorithms (the one in the signed part and the one outside), and length of the signature. -/
theorem C159_reliable (c d : Certificate) (h : c.text = d.text) :
    c.tbsCertificate.version = d.tbsCertificate.version ∧ c.tbsCertificate.serialNumber = d.tbsCertificate.serialNumber ∧
    c.tbsCertificate.signature.algorithm = d.tbsCertificate.signature.algorithm ∧
    c.signatureAlgorithm.algorithm = d.signatureAlgorithm.algorithm ∧
    c.signatureValue.bytes.length = d.signatureValue.bytes.length := by
  rw [text_lines, text_lines] at h
  obtain ⟨f1, f2, f3, f4⟩ := lines_free
  obtain ⟨h1, h2⟩ := joinLines_front (a := headLines c) (b := headLines d) rfl (f1 c) (f1 d) h
  simp only [headLines, List.cons.injEq, and_true, true_and, List.append_assoc] at h1
  obtain ⟨hv, hs, ha⟩ := h1
  have hv := List.append_cancel_left (List.append_cancel_left hv)
  have hs := List.append_cancel_left (List.append_cancel_left hs)
  have ha := List.append_cancel_left (List.append_cancel_left ha)
  have last : ∀ c : Certificate, ∃ r, joinLines (midLines c) ++ (joinLines (keyLines c) ++
      joinLines (extensionsLines 0 c.tbsCertificate.extensions)) = r ++ ['\n'] := by
    intro c
    rw [← joinLines_append, ← joinLines_append]
    exact line_last _ (by simp [midLines])
  obtain ⟨r, hr⟩ := last c
  obtain ⟨s, hs'⟩ := last d
  simp only [← List.append_assoc] at h2 hr hs'
  rw [hr, hs'] at h2
  obtain ⟨-, h3, h4⟩ := tail_split (f3 c _ (by simp [tailLines])) (f3 c _ (by simp [tailLines])) (f3 d _ (by simp [tailLines]))
    (f3 d _ (by simp [tailLines])) h2
  exact ⟨version_text.2 _ _ hv, toHex_inj hs, algorithm_inj ha, algorithm_inj (List.append_cancel_left h3), bytes_inj _ h4⟩

/-! ## C158 -/

/-- The attributes of a name: which ones, and the texts. -/
def attributes (name : List RelativeDistinguishedName) : List (List Nat × Option String) :=
  name.map fun p => (p.id, match p.value with
    | .mk _ _ (.printableString s) => some s
    | .mk _ _ (.utf8String s) => some s
    | _ => none)

/-- C158: two certificates with the same printout are issued by and for the same names. -/
def C158_statement : Prop :=
  ∀ (a b : Bytes) (c d : Certificate), Certificate.fromBytes a = .ok c → Certificate.fromBytes b = .ok d → c.text = d.text →
    attributes c.tbsCertificate.issuer = attributes d.tbsCertificate.issuer ∧
    attributes c.tbsCertificate.subject = attributes d.tbsCertificate.subject

/-- A name in which every attribute has a label and a text without commas and newlines. -/
def PlainName (name : List RelativeDistinguishedName) : Prop :=
  ∀ p ∈ name, (∃ q ∈ registry, q.1 = p.id) ∧ ∃ s, asString p.value = .ok s ∧ ',' ∉ s.toList ∧ '\n' ∉ s.toList

/-- The label that `attributeLabel` gives to an entry of the registry. -/
def entryLabel (q : List Nat × String × Option String) : List Char :=
  match q.2.2 with
  | some s => s.toList.map Char.toUpper
  | none => q.2.1.toList

theorem entry_labels : (∀ q ∈ registry, attributeLabel q.1 = entryLabel q) ∧
    (∀ p ∈ registry, ∀ q ∈ registry, entryLabel p = entryLabel q → p.1 = q.1) ∧
    ∀ p ∈ registry, '=' ∉ entryLabel p ∧ '\n' ∉ entryLabel p := by
  refine ⟨?_, ?_, ?_⟩ <;> decide +kernel

theorem comma_text : txt ", " = [',', ' '] ∧ txt "=" = ['='] := by decide +kernel

/-- The parts of a name after the first. -/
def moreText (parts : List RelativeDistinguishedName) : List Char :=
  parts.flatMap fun p => ',' :: ' ' :: (attributeLabel p.id ++ '=' :: attributeValue p.value)

theorem nameText_succ (i : Nat) : ∀ parts : List RelativeDistinguishedName, nameText (i + 1) parts = moreText parts
  | [] => rfl
  | p :: ps => by
    rw [nameText, nameText_succ (i + 1) ps]
    simp [moreText, comma_text.1, comma_text.2]

theorem part_inj {p q : RelativeDistinguishedName} {r s : List Char} (hp : PlainName [p]) (hq : PlainName [q])
    (hr : r = [] ∨ r.head? = some ',') (hs : s = [] ∨ s.head? = some ',')
    (h : attributeLabel p.id ++ '=' :: (attributeValue p.value ++ r) = attributeLabel q.id ++ '=' :: (attributeValue q.value ++ s)) :
    attributes [p] = attributes [q] ∧ r = s := by
  obtain ⟨⟨e, he, hpe⟩, x, hx, hx1, hx2⟩ := hp p (by simp)
  obtain ⟨⟨f, hf, hqf⟩, y, hy, hy1, hy2⟩ := hq q (by simp)
  obtain ⟨l1, l2, l3⟩ := entry_labels
  rw [← hpe, ← hqf, l1 e he, l1 f hf] at h
  obtain ⟨h1, h2⟩ := split_unique (l3 e he).1 (l3 f hf).1 h
  have hid : p.id = q.id := by rw [← hpe, ← hqf]; exact l2 e he f hf h1
  have v1 : attributeValue p.value = x.toList := by rw [attributeValue, hx]
  have v2 : attributeValue q.value = y.toList := by rw [attributeValue, hy]
  rw [v1, v2] at h2
  have hcomma : ∀ t : List Char, t = [] ∨ t.head? = some ',' → ∃ u, t ++ [','] = ',' :: u := by
    rintro (_ | ⟨c, t⟩) (ht | ht)
    · exact ⟨[], rfl⟩
    · cases ht
    · cases ht
    · exact ⟨t ++ [','], by simpa using ht⟩
  obtain ⟨u, hu⟩ := hcomma r hr
  obtain ⟨v, hv⟩ := hcomma s hs
  have h3 := congrArg (· ++ [',']) h2
  simp only [List.append_assoc, hu, hv] at h3
  obtain ⟨h4, h5⟩ := split_unique hx1 hy1 h3
  have hxy : x = y := String.toList_inj.mp h4
  have at' : ∀ (p : RelativeDistinguishedName) (x : String), asString p.value = .ok x → attributes [p] = [(p.id, some x)] := by
    rintro ⟨id, ⟨_, _, v⟩⟩ x hx
    cases v <;> simp_all [attributes, asString]
  refine ⟨by rw [at' p x hx, at' q y hy, hid, hxy], ?_⟩
  rw [h4] at h2
  exact List.append_cancel_left h2

theorem moreText_head (ps : List RelativeDistinguishedName) : moreText ps = [] ∨ (moreText ps).head? = some ',' := by
  cases ps with
  | nil => exact .inl rfl
  | cons p ps => right; simp [moreText]

theorem plain_tail {p : RelativeDistinguishedName} {ps : List RelativeDistinguishedName} (h : PlainName (p :: ps)) :
    PlainName [p] ∧ PlainName ps :=
  ⟨fun q hq => h q (by simp at hq; simp [hq]), fun q hq => h q (by simp [hq])⟩

theorem attributes_cons (p : RelativeDistinguishedName) (ps) : attributes (p :: ps) = attributes [p] ++ attributes ps := rfl

theorem moreText_inj : ∀ {ps qs : List RelativeDistinguishedName}, PlainName ps → PlainName qs → moreText ps = moreText qs →
    attributes ps = attributes qs
  | [], [], _, _, _ => rfl
  | [], q :: qs, _, _, h => by simp [moreText] at h
  | p :: ps, [], _, _, h => by simp [moreText] at h
  | p :: ps, q :: qs, hp, hq, h => by
    have h' : attributeLabel p.id ++ '=' :: (attributeValue p.value ++ moreText ps) =
        attributeLabel q.id ++ '=' :: (attributeValue q.value ++ moreText qs) := by
      simpa [moreText] using h
    obtain ⟨h1, h2⟩ := part_inj (plain_tail hp).1 (plain_tail hq).1 (moreText_head ps) (moreText_head qs) h'
    rw [attributes_cons p ps, attributes_cons q qs, h1, moreText_inj (plain_tail hp).2 (plain_tail hq).2 h2]

theorem nameText_cons (p : RelativeDistinguishedName) (ps : List RelativeDistinguishedName) :
    nameText 0 (p :: ps) = attributeLabel p.id ++ '=' :: (attributeValue p.value ++ moreText ps) := by
  rw [nameText, nameText_succ, comma_text.2]
  simp

theorem nameText_inj {ps qs : List RelativeDistinguishedName} (hp : PlainName ps) (hq : PlainName qs)
    (h : nameText 0 ps = nameText 0 qs) : attributes ps = attributes qs := by
  cases ps with
  | nil => cases qs with
    | nil => rfl
    | cons q qs => rw [nameText_cons] at h; simp [nameText] at h
  | cons p ps => cases qs with
    | nil => rw [nameText_cons] at h; simp [nameText] at h
    | cons q qs =>
      rw [nameText_cons, nameText_cons] at h
      obtain ⟨h1, h2⟩ := part_inj (plain_tail hp).1 (plain_tail hq).1 (moreText_head ps) (moreText_head qs) h
      rw [attributes_cons p ps, attributes_cons q qs, h1, moreText_inj (plain_tail hp).2 (plain_tail hq).2 h2]

theorem part_line {p : RelativeDistinguishedName} (hp : PlainName [p]) : '\n' ∉ attributeLabel p.id ++ '=' :: attributeValue p.value := by
  obtain ⟨⟨e, he, hpe⟩, x, hx, hx1, hx2⟩ := hp p (by simp)
  obtain ⟨l1, l2, l3⟩ := entry_labels
  rw [← hpe, l1 e he, attributeValue, hx]
  refine no_newline_append (l3 e he).2 ?_
  rw [List.mem_cons, not_or]
  exact ⟨by decide, hx2⟩

theorem moreText_line : ∀ {ps : List RelativeDistinguishedName}, PlainName ps → '\n' ∉ moreText ps
  | [], _ => by simp [moreText]
  | p :: ps, h => by
    have h1 := part_line (plain_tail h).1
    have h2 := moreText_line (plain_tail h).2
    simp only [moreText, List.flatMap_cons, List.mem_append, List.mem_cons, not_or] at h1 h2 ⊢
    exact ⟨⟨by decide, by decide, h1⟩, h2⟩

theorem nameText_line {ps : List RelativeDistinguishedName} (h : PlainName ps) : '\n' ∉ nameText 0 ps := by
  cases ps with
  | nil => simp [nameText]
  | cons p ps =>
    have h1 := part_line (plain_tail h).1
    have h2 := moreText_line (plain_tail h).2
    rw [nameText_cons]
    simp only [List.mem_append, List.mem_cons, not_or] at h1 ⊢
    exact ⟨h1.1, h1.2.1, h1.2.2, h2⟩

/-- What the printout shows of an extension. -/
def extensionSummary (e : Extension) : List Nat × Bool × Nat := (e.id, e.critical, e.data.length)

theorem extensionsLines_inj : ∀ {i : Nat} {es fs : List Extension}, extensionsLines i es = extensionsLines i fs →
    es.map extensionSummary = fs.map extensionSummary
  | _, [], [], _ => rfl
  | _, [], _ :: _, h => by simp [extensionsLines, extensionLines] at h
  | _, _ :: _, [], h => by simp [extensionsLines, extensionLines] at h
  | i, e :: es, f :: fs, h => by
    simp only [extensionsLines, extensionLines, List.cons_append, List.nil_append, List.cons.injEq, List.append_assoc, true_and] at h
    obtain ⟨h1, h2, h3, h4⟩ := h
    have h1 := getLongName_inj (List.append_cancel_left (List.append_cancel_left (List.append_cancel_left h1)))
    have h2 := List.append_cancel_left (List.append_cancel_left (List.append_cancel_left h2))
    have h3 := List.append_cancel_left (List.append_cancel_left (List.append_cancel_left h3))
    have h3 := decimal_inj (List.append_cancel_right h3)
    have h2 : e.critical = f.critical := by
      have hne := true_ne_false
      cases he : e.critical <;> cases hf : f.critical <;> simp [he, hf] at h2 ⊢
      · exact hne h2.symm
      · exact hne h2
    rw [List.map_cons, List.map_cons, extensionsLines_inj h4, extensionSummary, extensionSummary, h1, h2, h3]

/-- C158, if the names have only attributes with a label and with texts without commas and newlines, and the dates have no
newlines in them: then the printout determines the names, the dates, the algorithm and length of the key and which
extensions there are. Missing: other names. -/
theorem C158_plain_names_partial (c d : Certificate) (hc1 : PlainName c.tbsCertificate.issuer) (hc2 : PlainName c.tbsCertificate.subject)
    (hd1 : PlainName d.tbsCertificate.issuer) (hd2 : PlainName d.tbsCertificate.subject)
    (hc3 : '\n' ∉ c.tbsCertificate.validity.notBefore.text ∧ '\n' ∉ c.tbsCertificate.validity.notAfter.text)
    (hd3 : '\n' ∉ d.tbsCertificate.validity.notBefore.text ∧ '\n' ∉ d.tbsCertificate.validity.notAfter.text)
    (h : c.text = d.text) :
    attributes c.tbsCertificate.issuer = attributes d.tbsCertificate.issuer ∧
    attributes c.tbsCertificate.subject = attributes d.tbsCertificate.subject ∧
    c.tbsCertificate.validity.notBefore.text = d.tbsCertificate.validity.notBefore.text ∧
    c.tbsCertificate.validity.notAfter.text = d.tbsCertificate.validity.notAfter.text ∧
    c.tbsCertificate.subjectPublicKeyInfo.algorithm.algorithm = d.tbsCertificate.subjectPublicKeyInfo.algorithm.algorithm ∧
    c.tbsCertificate.subjectPublicKeyInfo.subjectPublicKey.bytes.length =
      d.tbsCertificate.subjectPublicKeyInfo.subjectPublicKey.bytes.length ∧
    c.tbsCertificate.extensions.map extensionSummary = d.tbsCertificate.extensions.map extensionSummary := by
  rw [text_lines, text_lines] at h
  obtain ⟨f1, f2, f3, f4⟩ := lines_free
  have a1 := fixed (s := "Certificate")
  have a2 := fixed (s := "    tbs_certificate")
  have a3 := fixed (s := "        ")
  have a4 := fixed (s := "version = ")
  have a5 := fixed (s := "serial_number = ")
  have a6 := fixed (s := "signature = ")
  have a7 := fixed (s := "issuer = ")
  have a8 := fixed (s := "validity =")
  have a9 := fixed (s := "    not before = ")
  have a10 := fixed (s := "    not after = ")
  have a11 := fixed (s := "subject = ")
  have mid : ∀ c : Certificate, PlainName c.tbsCertificate.issuer → PlainName c.tbsCertificate.subject →
      ('\n' ∉ c.tbsCertificate.validity.notBefore.text ∧ '\n' ∉ c.tbsCertificate.validity.notAfter.text) →
      ∀ l ∈ midLines c, '\n' ∉ l := by
    intro c h1 h2 h3 l hl
    have n1 := nameText_line h1
    have n2 := nameText_line h2
    simp only [midLines, List.mem_cons, List.not_mem_nil, or_false] at hl
    rcases hl with rfl | rfl | rfl | rfl | rfl <;> simp [*]
  obtain ⟨-, h⟩ := joinLines_front (a := headLines c) (b := headLines d) rfl (f1 c) (f1 d) h
  obtain ⟨h1, h⟩ := joinLines_front (a := midLines c) (b := midLines d) rfl (mid c hc1 hc2 hc3) (mid d hd1 hd2 hd3) h
  obtain ⟨h2, h⟩ := joinLines_front (a := keyLines c) (b := keyLines d) rfl (f2 c) (f2 d) h
  rw [← joinLines_append, ← joinLines_append] at h
  have h3 := joinLines_inj (by
      intro l hl
      rcases List.mem_append.mp hl with hl | hl
      · exact extensionsLines_free _ _ l hl
      · exact f3 c l hl) (by
      intro l hl
      rcases List.mem_append.mp hl with hl | hl
      · exact extensionsLines_free _ _ l hl
      · exact f3 d l hl) h
  have h3 := (List.append_inj' h3 rfl).1
  simp only [midLines, List.cons.injEq, and_true, true_and, List.append_assoc] at h1
  simp only [keyLines, List.cons.injEq, and_true, true_and, List.append_assoc] at h2
  obtain ⟨m1, m2, m3, m4⟩ := h1
  obtain ⟨k1, k2⟩ := h2
  refine ⟨nameText_inj hc1 hd1 (List.append_cancel_left (List.append_cancel_left m1)),
    nameText_inj hc2 hd2 (List.append_cancel_left (List.append_cancel_left m4)),
    List.append_cancel_left (List.append_cancel_left m2), List.append_cancel_left (List.append_cancel_left m3),
    algorithm_inj (List.append_cancel_left (List.append_cancel_left (List.append_cancel_left k1))), ?_, extensionsLines_inj h3⟩
  have k2 := List.append_cancel_left (List.append_cancel_left (List.append_cancel_left k2))
  exact decimal_inj (List.append_cancel_right k2)

/-- A certificate for the given subject. -/
def certificateFor (subject : List RelativeDistinguishedName) : Certificate :=
  ⟨⟨.v3, [1], ⟨[1, 3, 101, 112], none⟩, [⟨[2, 5, 4, 3], .ofValue (.utf8String "a")⟩],
    ⟨.utcTime "700101000000Z", .utcTime "710101000000Z"⟩, subject,
    ⟨⟨[1, 3, 101, 112], some (.ofValue .null)⟩, ⟨0, [7]⟩⟩, none, none, [⟨[2, 5, 29, 19], false, [9]⟩]⟩,
    ⟨[1, 3, 101, 112], none⟩, ⟨0, [5]⟩⟩

/-- One attribute, with a comma in it. -/
def oneAttribute : List RelativeDistinguishedName := [⟨[2, 5, 4, 3], .ofValue (.utf8String "x, O=y")⟩]
/-- Two attributes. -/
def twoAttributes : List RelativeDistinguishedName :=
  [⟨[2, 5, 4, 3], .ofValue (.utf8String "x")⟩, ⟨[2, 5, 4, 10], .ofValue (.utf8String "y")⟩]

/-- The bytes of a certificate. -/
def derOf (c : Certificate) : Bytes :=
  match encodeItem c.toAsn1 with
  | .ok b => b
  | .error _ => []

/-- The printout and the subject of a certificate in bytes. -/
def printed (b : Bytes) : Option (List Char × List (List Nat × Option String)) :=
  match Certificate.fromBytes b with
  | .ok c => some (c.text, attributes c.tbsCertificate.subject)
  | .error _ => none

theorem one_printed : printed (derOf (certificateFor oneAttribute)) =
    some ((certificateFor oneAttribute).text, [([2, 5, 4, 3], some "x, O=y")]) := by decide +kernel
theorem two_printed : printed (derOf (certificateFor twoAttributes)) =
    some ((certificateFor oneAttribute).text, [([2, 5, 4, 3], some "x"), ([2, 5, 4, 10], some "y")]) := by decide +kernel

/-- C158 is false: whoever chooses a common name with a comma and an equals sign in it seems to have further attributes. -/
theorem C158_false : ¬ C158_statement := by
  intro h
  have h1 := one_printed
  have h2 := two_printed
  unfold printed at h1 h2
  rcases hc : Certificate.fromBytes (derOf (certificateFor oneAttribute)) with e | c
  · rw [hc] at h1; cases h1
  rcases hd : Certificate.fromBytes (derOf (certificateFor twoAttributes)) with e | d
  · rw [hd] at h2; cases h2
  rw [hc] at h1
  rw [hd] at h2
  simp only [Option.some.injEq, Prod.mk.injEq] at h1 h2
  have := (h _ _ c d hc hd (by rw [h1.1, h2.1])).2
  rw [h1.2, h2.2] at this
  revert this
  decide

/-- The hypotheses of C158 can be met. -/
example : PlainName twoAttributes ∧ '\n' ∉ (certificateFor twoAttributes).tbsCertificate.validity.notBefore.text := by
  refine ⟨?_, by decide +kernel⟩
  intro p hp
  simp only [twoAttributes, List.mem_cons, List.not_mem_nil, or_false] at hp
  rcases hp with rfl | rfl
  · exact ⟨⟨([2, 5, 4, 3], "commonName", some "cn"), by simp [registry], rfl⟩, "x", rfl, by decide +kernel, by decide +kernel⟩
  · exact ⟨⟨([2, 5, 4, 10], "organizationName", some "o"), by simp [registry], rfl⟩, "y", rfl, by decide +kernel, by decide +kernel⟩

/-- Two different certificates with the same printout. -/
example : (certificateFor oneAttribute).text = (certificateFor twoAttributes).text := by decide +kernel

end Ngfs.X509
