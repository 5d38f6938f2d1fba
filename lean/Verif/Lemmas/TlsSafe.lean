import Verif.Lemmas.TlsTypes

/-! Helper lemmas: parsing TLS messages stays in bounds. No claims here. -/
namespace Ngfs.Tls

open Ngfs.Binary Ngfs.Spec

theorem safe_code16 {T : Type} (f : Nat → T) : Safe (readU16 >>= fun c => pure (f c)) :=
  safe_bind (safe_uint 2) (fun _ => safe_pure _)

theorem safe_code8 {T : Type} (f : UInt8 → T) : Safe (readU8 >>= fun c => pure (f c)) :=
  safe_bind safe_u8 (fun _ => safe_pure _)

theorem safe_protocolName : Safe ProtocolName.fromBinary :=
  safe_bind safe_u8 (fun _ => safe_bind (safe_fixed _) (fun _ => safe_pure _))

theorem safe_distinguishedName : Safe DistinguishedName.fromBinary :=
  safe_bind safe_len16Bytes (fun _ => safe_pure _)

theorem safe_keyShareEntry : Safe KeyShareEntry.fromBinary :=
  safe_bind (safe_code16 _) (fun _ => safe_bind (safe_uint 2) (fun _ => safe_bind (safe_fixed _)
    (fun _ => safe_pure _)))

theorem safe_nested_safe {α : Type} (n : Nat) {p : Reader → RM α} (h : ∀ r, Safe (p r)) :
    Safe (readNested n >>= fun inner => onReader inner (p inner)) :=
  safe_nested n (fun inner hi => ⟨(h inner inner hi).2.2.2.1, (h inner inner hi).2.2.2.2⟩)

theorem safe_serverName : Safe ServerName.fromBinary := by
  refine safe_bind safe_u8 (fun t => safe_bind (safe_uint 2) (fun n => safe_nested_safe n
    (p := fun _ => _) (fun _ => ?_)))
  by_cases ht : t = 0
  · simp only [ht, if_true]
    refine safe_bind (safe_fixed _) (fun d => ?_)
    cases utf8Decode d with
    | some s => exact safe_pure _
    | none => exact safe_throw (by simp) (by simp)
  · simp only [ht, if_false]
    exact safe_bind (safe_fixed _) (fun d => safe_pure _)

theorem safe_ite {α : Type} {c : Prop} [Decidable c] {p q : RM α} (hp : Safe p) (hq : Safe q) :
    Safe (if c then p else q) := by
  split <;> assumption

theorem safe_extension_body (ctx : ExtensionContext) (t n : Nat) : Safe (Extension.body ctx t n) := by
  unfold Extension.body
  refine safe_ite (?_) <|
    safe_ite (safe_bind (safe_len16List (safe_code16 _)) (fun _ => safe_pure _)) <|
    safe_ite (safe_bind (safe_len8List (safe_code8 _)) (fun _ => safe_pure _)) <|
    safe_ite (safe_bind (safe_len16List safe_protocolName) (fun _ => safe_pure _)) <|
    safe_ite (safe_bind (safe_len16List (safe_code16 _)) (fun _ => safe_pure _)) <|
    safe_ite (safe_bind safe_expectEof (fun _ => safe_pure _)) <|
    safe_ite (safe_bind safe_expectEof (fun _ => safe_pure _)) <|
    safe_ite (safe_bind safe_expectEof (fun _ => safe_pure _)) <|
    safe_ite (safe_bind safe_remainingData (fun _ => safe_pure _)) <|
    safe_ite (safe_bind safe_remainingData (fun _ => safe_pure _)) <|
    safe_ite (safe_bind (safe_len8List (safe_code8 _)) (fun _ => safe_pure _)) <|
    safe_ite (safe_bind (safe_len16List safe_distinguishedName) (fun _ => safe_pure _)) <|
    safe_ite (?_) <|
    safe_ite (safe_bind safe_remainingData (fun _ => safe_pure _)) <|
    safe_bind safe_remainingData (fun _ => safe_pure _)
  · cases ctx with
    | clientHello => exact safe_bind (safe_len16List safe_serverName) (fun _ => safe_pure _)
    | serverHello => exact safe_ite (safe_throw (by simp) (by simp)) (safe_pure _)
    | certificate => exact safe_ite (safe_throw (by simp) (by simp)) (safe_pure _)
  · cases ctx with
    | clientHello => exact safe_bind (safe_len16List safe_keyShareEntry) (fun _ => safe_pure _)
    | serverHello => exact safe_bind safe_keyShareEntry (fun _ => safe_pure _)
    | certificate => exact safe_throw (by simp) (by simp)

theorem safe_extension (ctx : ExtensionContext) : Safe (Extension.fromBinary2 ctx) :=
  safe_bind (safe_uint 2) (fun _ => safe_bind (safe_uint 2) (fun _ => safe_nested_safe _
    (p := fun _ => _) (fun _ => safe_extension_body ctx _ _)))

theorem uint_advances {w : Nat} {r r' : Reader} {n : Nat} (h : readUint w r = (.ok n, r')) :
    r'.offset = r.offset + w := by
  rw [readUint] at h
  obtain ⟨e, r1, h1, h2⟩ := bind_ok_inv h
  simp only [checkAvailable] at h1
  split at h1
  · split at h1
    · cases h1; cases h2; rfl
    · cases h1
  · cases h1

theorem extension_advances {ctx : ExtensionContext} {r r' : Reader} {e : Extension} (hr : InBounds r)
    (h : Extension.fromBinary2 ctx r = (.ok e, r')) : r.offset < r'.offset := by
  obtain ⟨t, r1, h1, h2⟩ := bind_ok_inv h
  have a1 := uint_advances h1
  have s1 := safe_uint 2 r hr
  rw [show readUint 2 r = readU16 r from rfl, h1] at s1
  have s2 := safe_bind (safe_uint 2) (fun n => safe_nested_safe n (p := fun _ => Extension.body ctx t n)
    (fun _ => safe_extension_body ctx t n)) r1 s1.2.2.1
  have h2' := h2
  have : (readUint 2 >>= fun n => readNested n >>= fun inner => onReader inner (Extension.body ctx t n)) r1
      = (.ok e, r') := h2'
  rw [this] at s2
  have := s2.2.1
  simp only at this
  omega

theorem safe_extensionsLoop (ctx : ExtensionContext) (n : Nat) (r : Reader) (hr : InBounds r)
    (hn : r.remaining < n) :
    (extensionsLoop ctx n r).1 ≠ .error .panic ∧ (extensionsLoop ctx n r).1 ≠ .error .fuel := by
  induction n generalizing r with
  | zero => omega
  | succ n ih =>
    simp only [extensionsLoop]
    split
    · rename_i hpos
      obtain ⟨a1, a2, a3, a4, a5⟩ := safe_extension ctx r hr
      rcases hi : Extension.fromBinary2 ctx r with ⟨res, r'⟩
      rw [hi] at a1 a2 a3 a4 a5
      cases res with
      | error e =>
        rw [bind_error hi]
        exact ⟨by simpa using a4, by simpa using a5⟩
      | ok a =>
        rw [bind_ok hi]
        have hadv := extension_advances hr hi
        have hd : r'.remaining < r.remaining := by
          simp only at a1
          simp only [Reader.remaining, a1] at hpos ⊢
          omega
        obtain ⟨b1, b2⟩ := ih r' a3 (by omega)
        rcases hl : extensionsLoop ctx n r' with ⟨res2, r2⟩
        rw [hl] at b1 b2
        cases res2 with
        | error e =>
          rw [bind_error hl]
          exact ⟨by simpa using b1, by simpa using b2⟩
        | ok as => rw [bind_ok hl]; simp [pure_def]
    · simp

theorem safe_extensions (ctx : ExtensionContext) : Safe (readExtensions ctx) :=
  safe_bind (safe_uint 2) (fun _ => safe_nested _
    (p := fun inner => extensionsLoop ctx (inner.remaining + 1))
    (fun inner hi => safe_extensionsLoop ctx _ inner hi (Nat.lt_succ_self _)))

theorem safe_compressionLoop (n : Nat) : Safe (compressionLoop n) := by
  induction n with
  | zero => exact safe_pure _
  | succ n ih => exact safe_bind safe_u8 (fun _ => safe_bind ih (fun _ => safe_pure _))

theorem safe_clientHello : Safe ClientHello.fromBinary := by
  refine safe_bind (safe_uint 2) (fun v => safe_bind (safe_fixed _) (fun rnd => safe_bind safe_len8Bytes
    (fun sid => safe_bind (safe_len16List (safe_code16 _)) (fun cs => safe_bind safe_u8 (fun n => ?_)))))
  have := safe_bind (safe_nested_safe n.toNat (p := fun _ => compressionLoop n.toNat)
    (fun _ => safe_compressionLoop _))
    (f := fun comp => readExtensions .clientHello >>= fun exts =>
      pure (⟨v, rnd, sid, cs, comp, exts⟩ : ClientHello))
    (fun _ => safe_bind (safe_extensions _) (fun _ => safe_pure _))
  rw [← bind_assoc'] at this
  exact this

theorem safe_serverHello : Safe ServerHello.fromBinary :=
  safe_bind (safe_uint 2) (fun _ => safe_bind (safe_fixed _) (fun _ => safe_bind safe_len8Bytes
    (fun _ => safe_bind (safe_code16 _) (fun _ => safe_bind safe_u8 (fun _ =>
      safe_bind (safe_extensions _) (fun _ => safe_pure _))))))

theorem safe_certificateRequest : Safe CertificateRequest.fromBinary :=
  safe_bind safe_len8Bytes (fun _ => safe_bind (safe_extensions _) (fun _ => safe_pure _))

theorem safe_certificateEntry {X : Type} (x509 : Bytes → Option X) :
    Safe (CertificateEntry.fromBinary x509) := by
  refine safe_bind safe_len24Bytes (fun d => ?_)
  cases x509 d with
  | none => exact safe_throw (by simp) (by simp)
  | some c => exact safe_bind (safe_extensions _) (fun _ => safe_pure _)

theorem safe_certificate {X : Type} (x509 : Bytes → Option X) : Safe (Certificate.fromBinary x509) :=
  safe_bind safe_len8Bytes (fun _ => safe_bind (safe_len24List (safe_certificateEntry x509))
    (fun _ => safe_pure _))

theorem safe_certificateVerify : Safe CertificateVerify.fromBinary :=
  safe_bind (safe_code16 _) (fun _ => safe_bind safe_len16Bytes (fun _ => safe_pure _))

theorem safe_newSessionTicket : Safe NewSessionTicket.fromBinary :=
  safe_bind (safe_uint 4) (fun _ => safe_bind (safe_uint 4) (fun _ => safe_bind safe_len8Bytes
    (fun _ => safe_bind safe_len16Bytes (fun _ => safe_bind (safe_extensions _) (fun _ => safe_pure _)))))

theorem safe_handshake2 {X : Type} (x509 : Bytes → Option X) (t : UInt8) (ht : t ≠ 24) :
    Safe (Handshake.fromBinary2 x509 t) := by
  refine safe_bind (safe_uint 3) (fun n => ?_)
  repeat' split
  all_goals first
    | contradiction
    | exact safe_bind safe_clientHello (fun _ => safe_pure _)
    | exact safe_bind safe_serverHello (fun _ => safe_pure _)
    | (refine safe_throw ?_ ?_ <;> simp)
    | exact safe_bind (safe_extensions _) (fun _ => safe_pure _)
    | exact safe_bind safe_certificateRequest (fun _ => safe_pure _)
    | exact safe_bind (safe_certificate x509) (fun _ => safe_pure _)
    | exact safe_bind safe_certificateVerify (fun _ => safe_pure _)
    | exact safe_bind safe_remainingData (fun _ => safe_pure _)
    | exact safe_bind safe_newSessionTicket (fun _ => safe_pure _)
    | exact safe_bind (safe_fixed _) (fun _ => safe_pure _)

end Ngfs.Tls
