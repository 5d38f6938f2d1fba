import Verif.Model.Binary

/-!
Model of the TLS code-point enumerations: `src/tls/types/{handshake,extension,alert,record}.rs`.
16-bit codes are natural numbers (below 65536 when they come from the wire), 8-bit codes bytes.
-/
namespace Ngfs.Tls

open Ngfs.Binary

/-- `CipherSuite`, src/tls/types/handshake.rs:138-145. -/
inductive CipherSuite where
  | tlsAes128GcmSha256
  | tlsAes256GcmSha384
  | tlsChacha20Poly1305Sha256
  | tlsAes128CcmSha256
  | tlsAes128Ccm8Sha256
  | unknown (code : Nat)
  deriving DecidableEq, Repr

/-- The code of the raw value: src/tls/types/handshake.rs:150-159. -/
def CipherSuite.fromRaw (code : Nat) : CipherSuite :=
  if code = 0x1301 then .tlsAes128GcmSha256
  else if code = 0x1302 then .tlsAes256GcmSha384
  else if code = 0x1303 then .tlsChacha20Poly1305Sha256
  else if code = 0x1304 then .tlsAes128CcmSha256
  else if code = 0x1305 then .tlsAes128Ccm8Sha256
  else .unknown code

/-- src/tls/types/handshake.rs:163-172. -/
def CipherSuite.toRaw : CipherSuite → Nat
  | .tlsAes128GcmSha256 => 0x1301
  | .tlsAes256GcmSha384 => 0x1302
  | .tlsChacha20Poly1305Sha256 => 0x1303
  | .tlsAes128CcmSha256 => 0x1304
  | .tlsAes128Ccm8Sha256 => 0x1305
  | .unknown code => code

/-- `FromBinary`/`ToBinary` of `CipherSuite` (src/tls/types/handshake.rs:150-159, 163-172). -/
def CipherSuite.fromBinary : RM CipherSuite := do
  let code ← readU16
  pure (.fromRaw code)

@[inherit_doc CipherSuite.fromBinary]
def CipherSuite.toBinary (x : CipherSuite) : WM Unit := writeU16 x.toRaw

/-- `SignatureScheme`, src/tls/types/extension.rs:32-50. -/
inductive SignatureScheme where
  | rsaPkcs1Sha256
  | rsaPkcs1Sha384
  | rsaPkcs1Sha512
  | ecdsaSecp256r1Sha256
  | ecdsaSecp384r1Sha384
  | ecdsaSecp521r1Sha512
  | rsaPssRsaeSha256
  | rsaPssRsaeSha384
  | rsaPssRsaeSha512
  | ed25519
  | ed448
  | rsaPssPssSha256
  | rsaPssPssSha384
  | rsaPssPssSha512
  | rsaPkcs1Sha1
  | ecdsaSha1
  | unknown (code : Nat)
  deriving DecidableEq, Repr

/-- The code of the raw value: src/tls/types/extension.rs:53-79. -/
def SignatureScheme.fromRaw (code : Nat) : SignatureScheme :=
  if code = 0x0401 then .rsaPkcs1Sha256
  else if code = 0x0501 then .rsaPkcs1Sha384
  else if code = 0x0601 then .rsaPkcs1Sha512
  else if code = 0x0403 then .ecdsaSecp256r1Sha256
  else if code = 0x0503 then .ecdsaSecp384r1Sha384
  else if code = 0x0603 then .ecdsaSecp521r1Sha512
  else if code = 0x0804 then .rsaPssRsaeSha256
  else if code = 0x0805 then .rsaPssRsaeSha384
  else if code = 0x0806 then .rsaPssRsaeSha512
  else if code = 0x0807 then .ed25519
  else if code = 0x0808 then .ed448
  else if code = 0x0809 then .rsaPssPssSha256
  else if code = 0x080a then .rsaPssPssSha384
  else if code = 0x080b then .rsaPssPssSha512
  else if code = 0x0201 then .rsaPkcs1Sha1
  else if code = 0x0203 then .ecdsaSha1
  else .unknown code

/-- src/tls/types/extension.rs:113-140. -/
def SignatureScheme.toRaw : SignatureScheme → Nat
  | .rsaPkcs1Sha256 => 0x0401
  | .rsaPkcs1Sha384 => 0x0501
  | .rsaPkcs1Sha512 => 0x0601
  | .ecdsaSecp256r1Sha256 => 0x0403
  | .ecdsaSecp384r1Sha384 => 0x0503
  | .ecdsaSecp521r1Sha512 => 0x0603
  | .rsaPssRsaeSha256 => 0x0804
  | .rsaPssRsaeSha384 => 0x0805
  | .rsaPssRsaeSha512 => 0x0806
  | .ed25519 => 0x0807
  | .ed448 => 0x0808
  | .rsaPssPssSha256 => 0x0809
  | .rsaPssPssSha384 => 0x080a
  | .rsaPssPssSha512 => 0x080b
  | .rsaPkcs1Sha1 => 0x0201
  | .ecdsaSha1 => 0x0203
  | .unknown code => code

/-- `FromBinary`/`ToBinary` of `SignatureScheme` (src/tls/types/extension.rs:53-79, 113-140). -/
def SignatureScheme.fromBinary : RM SignatureScheme := do
  let code ← readU16
  pure (.fromRaw code)

@[inherit_doc SignatureScheme.fromBinary]
def SignatureScheme.toBinary (x : SignatureScheme) : WM Unit := writeU16 x.toRaw

/-- `NamedGroup`, src/tls/types/extension.rs:192-217. -/
inductive NamedGroup where
  | secp256r1
  | secp384r1
  | secp521r1
  | x25519
  | x448
  | ffdhe2048
  | ffdhe3072
  | ffdhe4096
  | ffdhe6144
  | ffdhe8192
  | unknown (code : Nat)
  deriving DecidableEq, Repr

/-- The code of the raw value: src/tls/types/extension.rs:219-237. -/
def NamedGroup.fromRaw (code : Nat) : NamedGroup :=
  if code = 0x0017 then .secp256r1
  else if code = 0x0018 then .secp384r1
  else if code = 0x0019 then .secp521r1
  else if code = 0x001D then .x25519
  else if code = 0x001E then .x448
  else if code = 0x0100 then .ffdhe2048
  else if code = 0x0101 then .ffdhe3072
  else if code = 0x0102 then .ffdhe4096
  else if code = 0x0103 then .ffdhe6144
  else if code = 0x0104 then .ffdhe8192
  else .unknown code

/-- src/tls/types/extension.rs:239-256. -/
def NamedGroup.toRaw : NamedGroup → Nat
  | .secp256r1 => 0x0017
  | .secp384r1 => 0x0018
  | .secp521r1 => 0x0019
  | .x25519 => 0x001D
  | .x448 => 0x001E
  | .ffdhe2048 => 0x0100
  | .ffdhe3072 => 0x0101
  | .ffdhe4096 => 0x0102
  | .ffdhe6144 => 0x0103
  | .ffdhe8192 => 0x0104
  | .unknown code => code

/-- `FromBinary`/`ToBinary` of `NamedGroup` (src/tls/types/extension.rs:219-237, 239-256). -/
def NamedGroup.fromBinary : RM NamedGroup := do
  let code ← readU16
  pure (.fromRaw code)

@[inherit_doc NamedGroup.fromBinary]
def NamedGroup.toBinary (x : NamedGroup) : WM Unit := writeU16 x.toRaw

/-- `NamedCurve`, src/tls/types/extension.rs:277-308. -/
inductive NamedCurve where
  | sect163k1
  | sect163r1
  | sect163r2
  | sect193r1
  | sect193r2
  | sect233k1
  | sect233r1
  | sect239k1
  | sect283k1
  | sect283r1
  | sect409k1
  | sect409r1
  | sect571k1
  | sect571r1
  | secp160k1
  | secp160r1
  | secp160r2
  | secp192k1
  | secp192r1
  | secp224k1
  | secp224r1
  | secp256k1
  | secp256r1
  | secp384r1
  | secp521r1
  | x25519
  | x448
  | arbitraryExplicitPrimeCurves
  | arbitraryExplicitChar2Curves
  | other (code : Nat)
  deriving DecidableEq, Repr

/-- The code of the raw value: src/tls/types/extension.rs:309-346. -/
def NamedCurve.fromRaw (code : Nat) : NamedCurve :=
  if code = 1 then .sect163k1
  else if code = 2 then .sect163r1
  else if code = 3 then .sect163r2
  else if code = 4 then .sect193r1
  else if code = 5 then .sect193r2
  else if code = 6 then .sect233k1
  else if code = 7 then .sect233r1
  else if code = 8 then .sect239k1
  else if code = 9 then .sect283k1
  else if code = 10 then .sect283r1
  else if code = 11 then .sect409k1
  else if code = 12 then .sect409r1
  else if code = 13 then .sect571k1
  else if code = 14 then .sect571r1
  else if code = 15 then .secp160k1
  else if code = 16 then .secp160r1
  else if code = 17 then .secp160r2
  else if code = 18 then .secp192k1
  else if code = 19 then .secp192r1
  else if code = 20 then .secp224k1
  else if code = 21 then .secp224r1
  else if code = 22 then .secp256k1
  else if code = 23 then .secp256r1
  else if code = 24 then .secp384r1
  else if code = 25 then .secp521r1
  else if code = 29 then .x25519
  else if code = 30 then .x448
  else if code = 0xFF01 then .arbitraryExplicitPrimeCurves
  else if code = 0xFF02 then .arbitraryExplicitChar2Curves
  else .other code

/-- src/tls/types/extension.rs:348-384. -/
def NamedCurve.toRaw : NamedCurve → Nat
  | .sect163k1 => 1
  | .sect163r1 => 2
  | .sect163r2 => 3
  | .sect193r1 => 4
  | .sect193r2 => 5
  | .sect233k1 => 6
  | .sect233r1 => 7
  | .sect239k1 => 8
  | .sect283k1 => 9
  | .sect283r1 => 10
  | .sect409k1 => 11
  | .sect409r1 => 12
  | .sect571k1 => 13
  | .sect571r1 => 14
  | .secp160k1 => 15
  | .secp160r1 => 16
  | .secp160r2 => 17
  | .secp192k1 => 18
  | .secp192r1 => 19
  | .secp224k1 => 20
  | .secp224r1 => 21
  | .secp256k1 => 22
  | .secp256r1 => 23
  | .secp384r1 => 24
  | .secp521r1 => 25
  | .x25519 => 29
  | .x448 => 30
  | .arbitraryExplicitPrimeCurves => 0xFF01
  | .arbitraryExplicitChar2Curves => 0xFF02
  | .other code => code

/-- `FromBinary`/`ToBinary` of `NamedCurve` (src/tls/types/extension.rs:309-346, 348-384). -/
def NamedCurve.fromBinary : RM NamedCurve := do
  let code ← readU16
  pure (.fromRaw code)

@[inherit_doc NamedCurve.fromBinary]
def NamedCurve.toBinary (x : NamedCurve) : WM Unit := writeU16 x.toRaw

/-- `ECPointFormat`, src/tls/types/extension.rs:387-393. -/
inductive ECPointFormat where
  | uncompressed
  | ansiX962CompressedPrime
  | ansiX962CompressedChar2
  | other (code : UInt8)
  deriving DecidableEq, Repr

/-- The code of the raw value: src/tls/types/extension.rs:395-406. -/
def ECPointFormat.fromRaw (code : UInt8) : ECPointFormat :=
  if code = 0 then .uncompressed
  else if code = 1 then .ansiX962CompressedPrime
  else if code = 2 then .ansiX962CompressedChar2
  else .other code

/-- src/tls/types/extension.rs:408-418. -/
def ECPointFormat.toRaw : ECPointFormat → UInt8
  | .uncompressed => 0
  | .ansiX962CompressedPrime => 1
  | .ansiX962CompressedChar2 => 2
  | .other code => code

/-- `FromBinary`/`ToBinary` of `ECPointFormat` (src/tls/types/extension.rs:395-406, 408-418). -/
def ECPointFormat.fromBinary : RM ECPointFormat := do
  let code ← readU8
  pure (.fromRaw code)

@[inherit_doc ECPointFormat.fromBinary]
def ECPointFormat.toBinary (x : ECPointFormat) : WM Unit := writeU8 x.toRaw

/-- `PskKeyExchangeMode`, src/tls/types/extension.rs:420-424. -/
inductive PskKeyExchangeMode where
  | pskKe
  | pskDheKe
  | unknown (code : UInt8)
  deriving DecidableEq, Repr

/-- The code of the raw value: src/tls/types/extension.rs:426-436. -/
def PskKeyExchangeMode.fromRaw (code : UInt8) : PskKeyExchangeMode :=
  if code = 0 then .pskKe
  else if code = 1 then .pskDheKe
  else .unknown code

/-- src/tls/types/extension.rs:438-447. -/
def PskKeyExchangeMode.toRaw : PskKeyExchangeMode → UInt8
  | .pskKe => 0
  | .pskDheKe => 1
  | .unknown code => code

/-- `FromBinary`/`ToBinary` of `PskKeyExchangeMode` (src/tls/types/extension.rs:426-436, 438-447). -/
def PskKeyExchangeMode.fromBinary : RM PskKeyExchangeMode := do
  let code ← readU8
  pure (.fromRaw code)

@[inherit_doc PskKeyExchangeMode.fromBinary]
def PskKeyExchangeMode.toBinary (x : PskKeyExchangeMode) : WM Unit := writeU8 x.toRaw

/-- `AlertLevel`, src/tls/types/alert.rs:4-8. -/
inductive AlertLevel where
  | warning
  | fatal
  | unknown (code : UInt8)
  deriving DecidableEq, Repr

/-- The code of the raw value: src/tls/types/alert.rs:11-17. -/
def AlertLevel.fromRaw (code : UInt8) : AlertLevel :=
  if code = 1 then .warning
  else if code = 2 then .fatal
  else .unknown code

/-- src/tls/types/alert.rs:19-25. -/
def AlertLevel.toRaw : AlertLevel → UInt8
  | .warning => 1
  | .fatal => 2
  | .unknown code => code

/-- `FromBinary`/`ToBinary` of `AlertLevel` (src/tls/types/alert.rs:11-17, 19-25). -/
def AlertLevel.fromBinary : RM AlertLevel := do
  let code ← readU8
  pure (.fromRaw code)

@[inherit_doc AlertLevel.fromBinary]
def AlertLevel.toBinary (x : AlertLevel) : WM Unit := writeU8 x.toRaw

/-- `AlertDescription`, src/tls/types/alert.rs:43-72. -/
inductive AlertDescription where
  | closeNotify
  | unexpectedMessage
  | badRecordMac
  | recordOverflow
  | handshakeFailure
  | badCertificate
  | unsupportedCertificate
  | certificateRevoked
  | certificateExpired
  | certificateUnknown
  | illegalParameter
  | unknownCa
  | accessDenied
  | decodeError
  | decryptError
  | protocolVersion
  | insufficientSecurity
  | internalError
  | inappropriateFallback
  | userCanceled
  | missingExtension
  | unsupportedExtension
  | unrecognizedName
  | badCertificateStatusResponse
  | unknownPskIdentity
  | certificateRequired
  | noApplicationProtocol
  | unknown (code : UInt8)
  deriving DecidableEq, Repr

/-- The code of the raw value: src/tls/types/alert.rs:75-106. -/
def AlertDescription.fromRaw (code : UInt8) : AlertDescription :=
  if code = 0 then .closeNotify
  else if code = 10 then .unexpectedMessage
  else if code = 20 then .badRecordMac
  else if code = 22 then .recordOverflow
  else if code = 40 then .handshakeFailure
  else if code = 42 then .badCertificate
  else if code = 43 then .unsupportedCertificate
  else if code = 44 then .certificateRevoked
  else if code = 45 then .certificateExpired
  else if code = 46 then .certificateUnknown
  else if code = 47 then .illegalParameter
  else if code = 48 then .unknownCa
  else if code = 49 then .accessDenied
  else if code = 50 then .decodeError
  else if code = 51 then .decryptError
  else if code = 70 then .protocolVersion
  else if code = 71 then .insufficientSecurity
  else if code = 80 then .internalError
  else if code = 86 then .inappropriateFallback
  else if code = 90 then .userCanceled
  else if code = 109 then .missingExtension
  else if code = 110 then .unsupportedExtension
  else if code = 112 then .unrecognizedName
  else if code = 113 then .badCertificateStatusResponse
  else if code = 115 then .unknownPskIdentity
  else if code = 116 then .certificateRequired
  else if code = 120 then .noApplicationProtocol
  else .unknown code

/-- src/tls/types/alert.rs:108-139. -/
def AlertDescription.toRaw : AlertDescription → UInt8
  | .closeNotify => 0
  | .unexpectedMessage => 10
  | .badRecordMac => 20
  | .recordOverflow => 22
  | .handshakeFailure => 40
  | .badCertificate => 42
  | .unsupportedCertificate => 43
  | .certificateRevoked => 44
  | .certificateExpired => 45
  | .certificateUnknown => 46
  | .illegalParameter => 47
  | .unknownCa => 48
  | .accessDenied => 49
  | .decodeError => 50
  | .decryptError => 51
  | .protocolVersion => 70
  | .insufficientSecurity => 71
  | .internalError => 80
  | .inappropriateFallback => 86
  | .userCanceled => 90
  | .missingExtension => 109
  | .unsupportedExtension => 110
  | .unrecognizedName => 112
  | .badCertificateStatusResponse => 113
  | .unknownPskIdentity => 115
  | .certificateRequired => 116
  | .noApplicationProtocol => 120
  | .unknown code => code

/-- `FromBinary`/`ToBinary` of `AlertDescription` (src/tls/types/alert.rs:75-106, 108-139). -/
def AlertDescription.fromBinary : RM AlertDescription := do
  let code ← readU8
  pure (.fromRaw code)

@[inherit_doc AlertDescription.fromBinary]
def AlertDescription.toBinary (x : AlertDescription) : WM Unit := writeU8 x.toRaw

/-- `ContentType`, src/tls/types/record.rs:16-23. -/
inductive ContentType where
  | invalid
  | changeCipherSpec
  | alert
  | handshake
  | applicationData
  | unknown (code : UInt8)
  deriving DecidableEq, Repr

/-- The code of the raw value: src/tls/types/record.rs:26-35. -/
def ContentType.fromRaw (code : UInt8) : ContentType :=
  if code = 0 then .invalid
  else if code = 20 then .changeCipherSpec
  else if code = 21 then .alert
  else if code = 22 then .handshake
  else if code = 23 then .applicationData
  else .unknown code

/-- src/tls/types/record.rs:37-46. -/
def ContentType.toRaw : ContentType → UInt8
  | .invalid => 0
  | .changeCipherSpec => 20
  | .alert => 21
  | .handshake => 22
  | .applicationData => 23
  | .unknown code => code


end Ngfs.Tls
