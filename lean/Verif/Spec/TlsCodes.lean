import Verif.Model.TlsTypes

/-!
The code points assigned by the TLS standards, as plain tables, for the claims C22 and C23.
-/
namespace Ngfs.Spec

open Ngfs.Tls

/-- `fromRaw`/`toRaw` implement the table `codes`: assigned codes and names correspond to each
other, and every other code is kept as itself. -/
structure Faithful {C T : Type} (codes : List (C × T)) (unknown : C → T) (fromRaw : C → T)
    (toRaw : T → C) : Prop where
  assigned : ∀ p ∈ codes, fromRaw p.1 = p.2 ∧ toRaw p.2 = p.1
  unassigned : ∀ c, c ∉ codes.map Prod.fst → fromRaw c = unknown c
  kept : ∀ c, toRaw (unknown c) = c
  covers : ∀ m, m ∈ codes.map Prod.snd ∨ ∃ c, m = unknown c

/-- A member that is named if its code has a name. -/
def Canonical {C T : Type} (codes : List (C × T)) (unknown : C → T) (m : T) : Prop :=
  ∀ c, m = unknown c → c ∉ codes.map Prod.fst

/-- RFC 8446 B.4. -/
def cipherSuiteCodes : List (Nat × CipherSuite) :=
  [(0x1301, .tlsAes128GcmSha256),
   (0x1302, .tlsAes256GcmSha384),
   (0x1303, .tlsChacha20Poly1305Sha256),
   (0x1304, .tlsAes128CcmSha256),
   (0x1305, .tlsAes128Ccm8Sha256)]

/-- RFC 8446 4.2.3. -/
def signatureSchemeCodes : List (Nat × SignatureScheme) :=
  [(0x401, .rsaPkcs1Sha256),
   (0x501, .rsaPkcs1Sha384),
   (0x601, .rsaPkcs1Sha512),
   (0x403, .ecdsaSecp256r1Sha256),
   (0x503, .ecdsaSecp384r1Sha384),
   (0x603, .ecdsaSecp521r1Sha512),
   (0x804, .rsaPssRsaeSha256),
   (0x805, .rsaPssRsaeSha384),
   (0x806, .rsaPssRsaeSha512),
   (0x807, .ed25519),
   (0x808, .ed448),
   (0x809, .rsaPssPssSha256),
   (0x80a, .rsaPssPssSha384),
   (0x80b, .rsaPssPssSha512),
   (0x201, .rsaPkcs1Sha1),
   (0x203, .ecdsaSha1)]

/-- RFC 8446 4.2.7. -/
def namedGroupCodes : List (Nat × NamedGroup) :=
  [(23, .secp256r1),
   (24, .secp384r1),
   (25, .secp521r1),
   (29, .x25519),
   (30, .x448),
   (0x100, .ffdhe2048),
   (0x101, .ffdhe3072),
   (0x102, .ffdhe4096),
   (0x103, .ffdhe6144),
   (0x104, .ffdhe8192)]

/-- RFC 4492 5.1.1, RFC 8422 5.1.1. -/
def namedCurveCodes : List (Nat × NamedCurve) :=
  [(1, .sect163k1),
   (2, .sect163r1),
   (3, .sect163r2),
   (4, .sect193r1),
   (5, .sect193r2),
   (6, .sect233k1),
   (7, .sect233r1),
   (8, .sect239k1),
   (9, .sect283k1),
   (10, .sect283r1),
   (11, .sect409k1),
   (12, .sect409r1),
   (13, .sect571k1),
   (14, .sect571r1),
   (15, .secp160k1),
   (16, .secp160r1),
   (17, .secp160r2),
   (18, .secp192k1),
   (19, .secp192r1),
   (20, .secp224k1),
   (21, .secp224r1),
   (22, .secp256k1),
   (23, .secp256r1),
   (24, .secp384r1),
   (25, .secp521r1),
   (29, .x25519),
   (30, .x448),
   (0xff01, .arbitraryExplicitPrimeCurves),
   (0xff02, .arbitraryExplicitChar2Curves)]

/-- RFC 4492 5.1.2. -/
def ecPointFormatCodes : List (UInt8 × ECPointFormat) :=
  [(0, .uncompressed),
   (1, .ansiX962CompressedPrime),
   (2, .ansiX962CompressedChar2)]

/-- RFC 8446 4.2.9. -/
def pskKeyExchangeModeCodes : List (UInt8 × PskKeyExchangeMode) :=
  [(0, .pskKe),
   (1, .pskDheKe)]

/-- RFC 8446 6. -/
def alertLevelCodes : List (UInt8 × AlertLevel) :=
  [(1, .warning),
   (2, .fatal)]

/-- RFC 8446 6. -/
def alertDescriptionCodes : List (UInt8 × AlertDescription) :=
  [(0, .closeNotify),
   (10, .unexpectedMessage),
   (20, .badRecordMac),
   (22, .recordOverflow),
   (40, .handshakeFailure),
   (42, .badCertificate),
   (43, .unsupportedCertificate),
   (44, .certificateRevoked),
   (45, .certificateExpired),
   (46, .certificateUnknown),
   (47, .illegalParameter),
   (48, .unknownCa),
   (49, .accessDenied),
   (50, .decodeError),
   (51, .decryptError),
   (70, .protocolVersion),
   (71, .insufficientSecurity),
   (80, .internalError),
   (86, .inappropriateFallback),
   (90, .userCanceled),
   (109, .missingExtension),
   (110, .unsupportedExtension),
   (112, .unrecognizedName),
   (113, .badCertificateStatusResponse),
   (115, .unknownPskIdentity),
   (116, .certificateRequired),
   (120, .noApplicationProtocol)]

/-- RFC 8446 5.1. -/
def contentTypeCodes : List (UInt8 × ContentType) :=
  [(0, .invalid),
   (20, .changeCipherSpec),
   (21, .alert),
   (22, .handshake),
   (23, .applicationData)]

/-- The extension types the code knows (IANA TLS ExtensionType values). -/
def extensionCodes : List Nat := [0, 10, 11, 13, 16, 22, 23, 43, 45, 47, 49, 51, 57, 13172]

end Ngfs.Spec
