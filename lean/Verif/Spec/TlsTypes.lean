import Verif.Spec.TlsCodes

/-!
Which in-memory TLS messages are legal, for C22: fields fit their Rust types, extensions stand where
the protocol allows them, and a code that has a name is represented by its name.
-/
namespace Ngfs.Tls

open Ngfs.Spec

/-- A name that the reader gives the same form: "other" is not used for host names. -/
def ServerName.Canonical : ServerName → Prop
  | .hostName _ => True
  | .other code _ => code ≠ 0

/-- An extension that may stand in the given message, in the form the reader gives it. -/
def Extension.Legal (ctx : ExtensionContext) : Extension → Prop
  | .signatureAlgorithms l => ∀ x ∈ l, Canonical signatureSchemeCodes .unknown x ∧ x.toRaw < 65536
  | .serverName l => ctx = .clientHello ∧ ∀ x ∈ l, x.Canonical
  | .supportedGroups l => ∀ x ∈ l, Canonical namedCurveCodes .other x ∧ x.toRaw < 65536
  | .ecPointFormats l => ∀ x ∈ l, Canonical ecPointFormatCodes .other x
  | .unknown code _ => code < 65536 ∧ code ∉ extensionCodes
  | .pskKeyExchangeModes l => ∀ x ∈ l, Canonical pskKeyExchangeModeCodes .unknown x
  | .keyShareClientHello l => ctx = .clientHello ∧
      ∀ x ∈ l, Canonical namedGroupCodes .unknown x.group ∧ x.group.toRaw < 65536
  | .keyShareServerHello x => ctx = .serverHello ∧
      Canonical namedGroupCodes .unknown x.group ∧ x.group.toRaw < 65536
  | _ => True

/-- The in-memory form is one the Rust types allow and the reader produces. -/
def ClientHello.WellFormed (m : ClientHello) : Prop :=
  m.legacyVersion < 65536 ∧ m.random.length = 32 ∧
  (∀ x ∈ m.cipherSuites, Canonical cipherSuiteCodes .unknown x ∧ x.toRaw < 65536) ∧
  (∀ e ∈ m.extensions, e.Legal .clientHello)

@[inherit_doc ClientHello.WellFormed]
def ServerHello.WellFormed (m : ServerHello) : Prop :=
  m.legacyVersion < 65536 ∧ m.random.length = 32 ∧
  Canonical cipherSuiteCodes .unknown m.cipherSuite ∧ m.cipherSuite.toRaw < 65536 ∧
  (∀ e ∈ m.extensions, e.Legal .serverHello)

/-- The parsed certificate is the parse of the bytes. -/
def CertificateEntry.WellFormed {X : Type} (x509 : Bytes → Option X) (e : CertificateEntry X) : Prop :=
  x509 e.data = some e.certificate ∧ ∀ x ∈ e.extensions, x.Legal .certificate

/-- Messages the writer supports, in legal form. -/
def Handshake.WellFormed {X : Type} (x509 : Bytes → Option X) : Handshake X → Prop
  | .clientHello m => m.WellFormed
  | .serverHello m => m.WellFormed
  | .certificate m => ∀ e ∈ m.certificateList, e.WellFormed x509
  | .certificateVerify m => Canonical signatureSchemeCodes .unknown m.algorithm ∧ m.algorithm.toRaw < 65536
  | _ => True

end Ngfs.Tls
