import Verif.Lemmas.X509
import Verif.Props.Asn1
import Verif.Model.TlsTypes

/-!
Lemmas for C100: reading a certificate does not panic, and what the TLS reader guarantees about the certificates in a
message.
-/
namespace Ngfs.X509
open Ngfs.Binary Ngfs.Asn1 Ngfs.Spec

/-- Not a panic. -/
def NP {α : Type} (x : Except PErr α) : Prop := x ≠ .error .panic

theorem np_bind {α β : Type} {x : Except PErr α} {f : α → Except PErr β} (h1 : NP x) (h2 : ∀ a, x = .ok a → NP (f a)) :
    NP (x >>= f) := by
  cases x with
  | error e => exact fun h => h1 (by injection h with h; rw [h])
  | ok a => exact h2 a rfl

theorem np_ok {α : Type} {a : α} : NP (Except.ok a : Except PErr α) := nofun

theorem np_mapM {α β : Type} {f : α → Except PErr β} (h : ∀ a, NP (f a)) : ∀ l : List α, NP (l.mapM f)
  | [] => nofun
  | a :: l => by
    rw [List.mapM_cons]
    exact np_bind (h a) (fun _ _ => np_bind (np_mapM h l) (fun _ _ => nofun))

theorem np_asSequence {i : Item} : NP (asSequence i) := by unfold asSequence; split <;> nofun
theorem np_asSet {i : Item} : NP (asSet i) := by unfold asSet; split <;> nofun
theorem np_asObjectIdentifier {i : Item} : NP (asObjectIdentifier i) := by unfold asObjectIdentifier; split <;> nofun
theorem np_asOctetString {i : Item} : NP (asOctetString i) := by unfold asOctetString; split <;> nofun
theorem np_asInteger {i : Item} : NP (asInteger i) := by unfold asInteger; split <;> nofun
theorem np_asBitString {i : Item} : NP (asBitString i) := by unfold asBitString; split <;> nofun
theorem np_next {m : String} {l : List Item} : NP (next m l) := by unfold next; split <;> nofun

theorem np_asExactSequence {n : Nat} {i : Item} : NP (asExactSequence n i) :=
  np_bind np_asSequence (fun _ _ => by split <;> nofun)
theorem np_asExactSet {n : Nat} {i : Item} : NP (asExactSet n i) := np_bind np_asSet (fun _ _ => by split <;> nofun)

theorem np_index {l : List Item} {i : Nat} (h : i < l.length) : NP (index l i) := by
  unfold index; rw [List.getElem?_eq_getElem h]; nofun

theorem len_sequence {n : Nat} {i : Item} {l : List Item} (h : asExactSequence n i = .ok l) : l.length = n :=
  (asExactSequence_iff.mp h).2

theorem len_set {n : Nat} {i : Item} {l : List Item} (h : asExactSet n i = .ok l) : l.length = n :=
  (asExactSet_iff.mp h).2

theorem np_algorithm {i : Item} : NP (AlgorithmIdentifier.fromAsn1 i) :=
  np_bind np_asSequence (fun _ _ => np_bind np_next (fun _ _ => np_bind np_asObjectIdentifier (fun _ _ => by split <;> nofun)))

theorem np_version {i : Item} : NP (Version.fromAsn1 i) :=
  np_bind np_asInteger (fun _ _ => by repeat' split
                                      all_goals nofun)

theorem np_rdn {i : Item} : NP (RelativeDistinguishedName.fromAsn1 i) :=
  np_bind np_asExactSet (fun _ h1 => np_bind (np_index (by rw [len_set h1]; decide)) (fun _ _ =>
    np_bind np_asExactSequence (fun _ h2 => np_bind (np_index (by rw [len_sequence h2]; decide)) (fun _ _ =>
      np_bind np_asObjectIdentifier (fun _ _ => np_bind (np_index (by rw [len_sequence h2]; decide)) (fun _ _ => nofun))))))

theorem np_name {i : Item} : NP (Name.fromAsn1 i) := np_bind np_asSequence (fun _ _ => np_mapM (fun _ => np_rdn) _)

theorem np_time {i : Item} : NP (Time.fromAsn1 i) := by unfold Time.fromAsn1; split <;> nofun

theorem np_validity {i : Item} : NP (Validity.fromAsn1 i) :=
  np_bind np_asExactSequence (fun _ h => np_bind (np_index (by rw [len_sequence h]; decide)) (fun _ _ =>
    np_bind np_time (fun _ _ => np_bind (np_index (by rw [len_sequence h]; decide)) (fun _ _ => np_bind np_time (fun _ _ => nofun)))))

theorem np_keyInfo {i : Item} : NP (SubjectPublicKeyInfo.fromAsn1 i) :=
  np_bind np_asExactSequence (fun _ h => np_bind (np_index (by rw [len_sequence h]; decide)) (fun _ _ =>
    np_bind np_algorithm (fun _ _ => np_bind (np_index (by rw [len_sequence h]; decide)) (fun _ _ =>
      np_bind np_asBitString (fun _ _ => nofun)))))

theorem np_critical {i : Item} {l : List Item} : NP (Extension.critical? i l) := by
  unfold Extension.critical?
  split
  · exact np_bind np_next (fun _ _ => nofun)
  · nofun

theorem np_extension {i : Item} : NP (Extension.fromAsn1 i) :=
  np_bind np_asSequence (fun _ _ => np_bind np_next (fun _ _ => np_bind np_asObjectIdentifier (fun _ _ =>
    np_bind np_next (fun _ _ => np_bind np_critical (fun _ _ => np_bind np_asOctetString (fun _ _ => nofun))))))

theorem np_tbsVersion {i : Item} {l : List Item} : NP (TbsCertificate.version? i l) := by
  unfold TbsCertificate.version?
  split
  · exact np_bind np_version (fun _ _ => np_bind np_next (fun _ _ => nofun))
  · nofun

theorem np_extensions {l : List Item} : NP (TbsCertificate.extensions? l) := by
  unfold TbsCertificate.extensions?
  split
  · nofun
  · exact np_bind np_asSequence (fun _ _ => np_bind (np_mapM (fun _ => np_extension) _) (fun _ _ => nofun))
  · nofun

theorem np_tbs {i : Item} : NP (TbsCertificate.fromAsn1 i) :=
  np_bind np_asSequence (fun _ _ => np_bind np_next (fun _ _ => np_bind np_tbsVersion (fun _ _ =>
    np_bind np_asInteger (fun _ _ => np_bind np_next (fun _ _ => np_bind np_algorithm (fun _ _ =>
      np_bind np_next (fun _ _ => np_bind np_name (fun _ _ => np_bind np_next (fun _ _ => np_bind np_validity (fun _ _ =>
        np_bind np_next (fun _ _ => np_bind np_name (fun _ _ => np_bind np_next (fun _ _ => np_bind np_keyInfo (fun _ _ =>
          np_bind np_extensions (fun x _ => by cases x; dsimp only; split <;> nofun)))))))))))))))

theorem np_certificate {i : Item} : NP (Certificate.fromAsn1 i) :=
  np_bind np_asExactSequence (fun _ h => np_bind (np_index (by rw [len_sequence h]; decide)) (fun _ _ =>
    np_bind np_tbs (fun _ _ => np_bind (np_index (by rw [len_sequence h]; decide)) (fun _ _ =>
      np_bind np_algorithm (fun _ _ => np_bind (np_index (by rw [len_sequence h]; decide)) (fun _ _ =>
        by split <;> nofun))))))

theorem np_readAll {data : Bytes} : NP (readAll data) := by
  obtain ⟨res, o', h, -, -, h1, -⟩ := C63_total data 0 (Nat.zero_le _)
  unfold readAll NP
  rw [h]
  cases res with
  | ok i => nofun
  | error e => cases e <;> simp_all

theorem np_fromBytes {data : Bytes} : NP (Certificate.fromBytes data) := np_bind np_readAll (fun _ _ => np_certificate)

theorem np_orInvalid {α : Type} {x : Except PErr α} (h : NP x) : orInvalid x ≠ .error .panic := by
  rcases x with (_ | _ | _ | _) | _ <;> simp_all [orInvalid, NP]

theorem vp_bind {α β : Type} {x : Except VErr α} {f : α → Except VErr β} (h1 : x ≠ .error .panic)
    (h2 : ∀ a, x = .ok a → f a ≠ .error .panic) : (x >>= f) ≠ .error .panic := by
  cases x with
  | error e => exact fun h => h1 (by injection h with h; rw [h])
  | ok a => exact h2 a rfl

end Ngfs.X509

namespace Ngfs.Tls
open Ngfs.Binary

/-- Whenever the reader succeeds, its result is as said. -/
def Always {α : Type} (p : RM α) (P : α → Prop) : Prop := ∀ r a r', p r = (.ok a, r') → P a

theorem always_bind {α β : Type} {m : RM α} {f : α → RM β} {Q : α → Prop} {P : β → Prop} (hm : Always m Q)
    (hf : ∀ a, Q a → Always (f a) P) : Always (m >>= f) P := by
  intro r b r' h
  simp only [bind] at h
  rcases hr : m r with ⟨_ | a, r1⟩
  · rw [hr] at h; cases h
  · rw [hr] at h; exact hf a (hm _ _ _ hr) _ _ _ h

theorem always_true {α : Type} {m : RM α} : Always m (fun _ => True) := fun _ _ _ _ => trivial

theorem always_bind' {α β : Type} {m : RM α} {f : α → RM β} {P : β → Prop} (hf : ∀ a, Always (f a) P) :
    Always (m >>= f) P := always_bind always_true (fun a _ => hf a)

theorem always_listLoop {α : Type} {item : RM α} {P : α → Prop} (h : Always item P) (n : Nat) :
    Always (listLoop item n) (fun l => ∀ a ∈ l, P a) := by
  induction n with
  | zero => intro r a r' h; cases h
  | succ n ih =>
    intro r l r' hl
    rw [listLoop] at hl
    simp only at hl
    split at hl
    · split at hl
      · cases hl
      · rename_i a r1 ha
        split at hl
        · cases hl
        · split at hl
          · cases hl
          · rename_i as r2 has
            cases hl
            intro b hb
            rcases List.mem_cons.mp hb with rfl | hb
            · exact h _ _ _ ha
            · exact ih _ _ _ has b hb
    · cases hl; simp

theorem always_entry {X : Type} (x509 : Bytes → Option X) :
    Always (CertificateEntry.fromBinary x509) (fun e => x509 e.data = some e.certificate) := by
  refine always_bind' (fun d => ?_)
  split
  · intro r a r' h; cases h
  · rename_i c hc
    refine always_bind' (fun x => ?_)
    intro r a r' h
    cases h
    exact hc

theorem always_certificate {X : Type} (x509 : Bytes → Option X) :
    Always (Certificate.fromBinary x509) (fun m => ∀ e ∈ m.certificateList, x509 e.data = some e.certificate) := by
  refine always_bind' (fun d => always_bind (Q := fun l => ∀ e ∈ l, x509 e.data = some e.certificate) ?_ (fun l hl => ?_))
  · refine always_bind' (fun n => always_bind' (fun inner => ?_))
    intro r a r' h
    simp only [onReader] at h
    rcases h1 : listLoop (CertificateEntry.fromBinary x509) (inner.remaining + 1) inner with ⟨res, r1⟩
    rw [h1] at h
    cases h
    exact always_listLoop (always_entry x509) _ _ _ _ h1
  · intro r a r' h; cases h; exact hl

theorem always_handshake {X : Type} (x509 : Bytes → Option X) : Always (Handshake.fromBinary x509)
    (fun h => ∀ m, h = .certificate m → ∀ e ∈ m.certificateList, x509 e.data = some e.certificate) := by
  refine always_bind' (fun t => always_bind' (fun n => ?_))
  repeat' split
  all_goals first
    | exact always_bind (always_certificate x509) (fun m hm r a r' h => by cases h; intro m' hm'; cases hm'; exact hm)
    | exact always_bind' (fun m r a r' h => by cases h; nofun)
    | (intro r a r' h; cases h)

theorem message_certificates {X : Type} {x509 : Bytes → Option X} {raw : Bytes} {m : Certificate X}
    (h : Message.fromRaw x509 raw .handshake = .ok (.handshake (.certificate m))) :
    ∀ e ∈ m.certificateList, x509 e.data = some e.certificate := by
  unfold Message.fromRaw at h
  simp only at h
  rcases hr : Handshake.fromBinary x509 (Reader.new raw) with ⟨_ | a, r'⟩
  · rw [hr] at h; cases h
  · rw [hr] at h
    simp only [Except.map, Except.ok.injEq, Message.handshake.injEq] at h
    exact always_handshake x509 _ _ _ hr m h

end Ngfs.Tls
