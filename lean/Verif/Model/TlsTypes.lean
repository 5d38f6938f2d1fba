import Verif.Model.TlsCodes

/-!
Model of the TLS handshake messages: `src/tls/types/extension.rs`, `src/tls/types/handshake.rs`.

An X.509 certificate is whatever a parser `x509 : Bytes → Option X` makes of its bytes
(`x509::Certificate::from_bytes`); the handshake code only needs it to succeed and keeps the result.
`Debug` printing is not modelled. `u16`/`u32` fields are natural numbers, `[u8; 32]` is a byte list.
-/
namespace Ngfs.Tls

open Ngfs.Binary

/-! ### extension.rs -/

/-- `ProtocolName`, extension.rs:5-22. -/
structure ProtocolName where
  data : Bytes
  deriving DecidableEq, Repr

/-- extension.rs:11-15. -/
def ProtocolName.fromBinary : RM ProtocolName := do
  let nameLen ← readU8
  let nameData ← readFixed nameLen.toNat
  pure ⟨nameData⟩

/-- extension.rs:19-21. -/
def ProtocolName.toBinary (x : ProtocolName) : WM Unit := writeLen8Bytes x.data

/-- `ServerName`, extension.rs:142-145. -/
inductive ServerName where
  | hostName (s : String)
  | other (code : UInt8) (data : Bytes)
  deriving DecidableEq, Repr

/-- extension.rs:149-164. -/
def ServerName.fromBinary : RM ServerName := do
  let nameType ← readU8
  let nameLen ← readU16
  let nameReader ← readNested nameLen
  onReader nameReader (
    if nameType = 0 then do
      let data ← readFixed nameLen
      match utf8Decode data with
      | some s => pure (.hostName s)
      | none => throw .invalidUtf8
    else do
      let data ← readFixed nameLen
      pure (.other nameType data))

/-- extension.rs:168-179. -/
def ServerName.toBinary : ServerName → WM Unit
  | .hostName s => do
    writeU8 0
    writeLen16Bytes (utf8Encode s)
  | .other code data => do
    writeU8 code
    writeLen16Bytes data

/-- `KeyShareEntry`, extension.rs:459-462. -/
structure KeyShareEntry where
  group : NamedGroup
  keyExchange : Bytes
  deriving DecidableEq, Repr

/-- extension.rs:466-471. -/
def KeyShareEntry.fromBinary : RM KeyShareEntry := do
  let group ← NamedGroup.fromBinary
  let keyExchangeLen ← readU16
  let keyExchange ← readFixed keyExchangeLen
  pure ⟨group, keyExchange⟩

/-- extension.rs:475-479. -/
def KeyShareEntry.toBinary (x : KeyShareEntry) : WM Unit := do
  x.group.toBinary
  writeLen16Bytes x.keyExchange

/-- `DistinguishedName`, extension.rs:488-490. -/
structure DistinguishedName where
  data : Bytes
  deriving DecidableEq, Repr

/-- extension.rs:500-503. There is no `to_binary`. -/
def DistinguishedName.fromBinary : RM DistinguishedName := do
  let data ← readLen16Bytes
  pure ⟨data⟩

/-- `Extension`, extension.rs:530-547. `TransportParameters` wraps raw bytes (507-527). -/
inductive Extension where
  | applicationLayerProtocolNegotiation (names : List ProtocolName)
  | signatureAlgorithms (schemes : List SignatureScheme)
  | serverName (names : List ServerName)
  | supportedGroups (curves : List NamedCurve)
  | ecPointFormats (formats : List ECPointFormat)
  | unknown (code : Nat) (data : Bytes)
  | encryptThenMac
  | extendedMasterSecret
  | nextProtocolNegotiation (data : Bytes)
  | postHandshakeAuth
  | supportedVersions (data : Bytes)
  | pskKeyExchangeModes (modes : List PskKeyExchangeMode)
  | certificateAuthorities (names : List DistinguishedName)
  | keyShareClientHello (entries : List KeyShareEntry)
  | keyShareServerHello (entry : KeyShareEntry)
  | transportParameters (data : Bytes)
  deriving DecidableEq, Repr

/-- `ExtensionContext`, extension.rs:574-579. -/
inductive ExtensionContext where
  | clientHello
  | serverHello
  | certificate
  deriving DecidableEq, Repr

/-- The body of `Extension::from_binary2` on the nested reader, extension.rs:600-679. -/
def Extension.body (ctx : ExtensionContext) (extensionType extensionLen : Nat) : RM Extension :=
  if extensionType = 0 then
    match ctx with
    | .clientHello => do
      let names ← readLen16List ServerName.fromBinary
      pure (.serverName names)
    | .serverHello | .certificate =>
      if extensionLen > 0 then throw (.plain "Expected empty extension data")
      else pure (.serverName [])
  else if extensionType = 10 then do
    let curves ← readLen16List NamedCurve.fromBinary
    pure (.supportedGroups curves)
  else if extensionType = 11 then do
    let formats ← readLen8List ECPointFormat.fromBinary
    pure (.ecPointFormats formats)
  else if extensionType = 16 then do
    let names ← readLen16List ProtocolName.fromBinary
    pure (.applicationLayerProtocolNegotiation names)
  else if extensionType = 13 then do
    let schemes ← readLen16List SignatureScheme.fromBinary
    pure (.signatureAlgorithms schemes)
  else if extensionType = 22 then do
    expectEof
    pure .encryptThenMac
  else if extensionType = 23 then do
    expectEof
    pure .extendedMasterSecret
  else if extensionType = 49 then do
    expectEof
    pure .postHandshakeAuth
  else if extensionType = 43 then do
    let data ← remainingData
    pure (.supportedVersions data)
  else if extensionType = 13172 then do
    let data ← remainingData
    pure (.nextProtocolNegotiation data)
  else if extensionType = 45 then do
    let modes ← readLen8List PskKeyExchangeMode.fromBinary
    pure (.pskKeyExchangeModes modes)
  else if extensionType = 47 then do
    let names ← readLen16List DistinguishedName.fromBinary
    pure (.certificateAuthorities names)
  else if extensionType = 51 then
    match ctx with
    | .serverHello => do
      let entry ← KeyShareEntry.fromBinary
      pure (.keyShareServerHello entry)
    | .clientHello => do
      let entries ← readLen16List KeyShareEntry.fromBinary
      pure (.keyShareClientHello entries)
    | .certificate => throw (.plain "KeyShare extension not supported in certificates")
  else if extensionType = 57 then do
    let data ← remainingData
    pure (.transportParameters data)
  else do
    let data ← remainingData
    pure (.unknown extensionType data)

/-- `Extension::from_binary2`, extension.rs:595-681. -/
def Extension.fromBinary2 (ctx : ExtensionContext) : RM Extension := do
  let extensionType ← readU16
  let extensionLen ← readU16
  let nestedReader ← readNested extensionLen
  onReader nestedReader (Extension.body ctx extensionType extensionLen)

/-- The loop `while extensions_reader.remaining() > 0` (extension.rs:589-591 and its copies in
handshake.rs:220-222, 362-364, 391-393), run on the nested reader. Unlike `read_fixed_list` it has
no check that something was consumed. -/
def extensionsLoop (ctx : ExtensionContext) : Nat → RM (List Extension)
  | 0 => throw .fuel
  | n + 1 => fun r =>
    if r.remaining > 0 then
      (do
        let ext ← Extension.fromBinary2 ctx
        let rest ← extensionsLoop ctx n
        pure (ext :: rest) : RM (List Extension)) r
    else (.ok [], r)

/-- `Extension::read_extensions`, extension.rs:582-593. The same code is repeated in
`ClientHello`, `CertificateRequest` and `CertificateEntry` (handshake.rs:217-222, 359-364, 388-393). -/
def readExtensions (ctx : ExtensionContext) : RM (List Extension) := do
  let extensionsLen ← readU16
  let extensionsReader ← readNested extensionsLen
  onReader extensionsReader (extensionsLoop ctx (extensionsReader.remaining + 1))

/-- `Extension::to_binary`, extension.rs:685-752. `CertificateAuthorities` is `unimplemented!()`. -/
def Extension.toBinary : Extension → WM Unit
  | .applicationLayerProtocolNegotiation names => do
    writeU16 16
    writeU16Nested (writeLen16List ProtocolName.toBinary names)
  | .signatureAlgorithms schemes => do
    writeU16 13
    writeU16Nested (writeLen16List SignatureScheme.toBinary schemes)
  | .serverName names => do
    writeU16 0
    writeU16Nested (writeLen16List ServerName.toBinary names)
  | .supportedGroups curves => do
    writeU16 10
    writeU16Nested (writeLen16List NamedCurve.toBinary curves)
  | .ecPointFormats formats => do
    writeU16 11
    writeU16Nested (writeLen8List ECPointFormat.toBinary formats)
  | .unknown code data => do
    writeU16 code
    writeU16Nested (writeRaw data)
  | .encryptThenMac => do
    writeU16 22
    writeU16Nested (pure ())
  | .extendedMasterSecret => do
    writeU16 23
    writeU16Nested (pure ())
  | .nextProtocolNegotiation data => do
    writeU16 13172
    writeU16Nested (writeRaw data)
  | .postHandshakeAuth => do
    writeU16 49
    writeU16Nested (pure ())
  | .supportedVersions data => do
    writeU16 43
    writeU16Nested (writeRaw data)
  | .pskKeyExchangeModes modes => do
    writeU16 45
    writeU16Nested (writeLen8List PskKeyExchangeMode.toBinary modes)
  | .certificateAuthorities _ => do
    writeU16 47
    throw .panic
  | .keyShareClientHello entries => do
    writeU16 51
    writeU16Nested (writeLen16List KeyShareEntry.toBinary entries)
  | .keyShareServerHello entry => do
    writeU16 51
    writeU16Nested entry.toBinary
  | .transportParameters data => do
    writeU16 57
    writeU16Nested (writeRaw data)

/-! ### handshake.rs -/

/-- `ClientHello`, handshake.rs:188-195. -/
structure ClientHello where
  legacyVersion : Nat
  random : Bytes
  legacySessionId : Bytes
  cipherSuites : List CipherSuite
  legacyCompressionMethods : Bytes
  extensions : List Extension
  deriving DecidableEq, Repr

/-- The loop reading compression methods one byte at a time, handshake.rs:212-214. -/
def compressionLoop : Nat → RM Bytes
  | 0 => pure []
  | n + 1 => do
    let b ← readU8
    let rest ← compressionLoop n
    pure (b :: rest)

/-- handshake.rs:199-235. -/
def ClientHello.fromBinary : RM ClientHello := do
  let legacyVersion ← readU16
  let random ← readFixed 32
  let legacySessionId ← readLen8Bytes
  let cipherSuites ← readLen16List CipherSuite.fromBinary
  let compressionLen ← readU8
  let compressionReader ← readNested compressionLen.toNat
  let legacyCompressionMethods ← onReader compressionReader (compressionLoop compressionLen.toNat)
  let extensions ← readExtensions .clientHello
  pure ⟨legacyVersion, random, legacySessionId, cipherSuites, legacyCompressionMethods, extensions⟩

/-- handshake.rs:239-247. -/
def ClientHello.toBinary (x : ClientHello) : WM Unit := do
  writeU16 x.legacyVersion
  writeRaw x.random
  writeLen8Bytes x.legacySessionId
  writeLen16List CipherSuite.toBinary x.cipherSuites
  writeLen8Bytes x.legacyCompressionMethods
  writeLen16List Extension.toBinary x.extensions

/-- `ServerHello`, handshake.rs:264-271. -/
structure ServerHello where
  legacyVersion : Nat
  random : Bytes
  legacySessionIdEcho : Bytes
  cipherSuite : CipherSuite
  legacyCompressionMethod : UInt8
  extensions : List Extension
  deriving DecidableEq, Repr

/-- handshake.rs:289-307. -/
def ServerHello.fromBinary : RM ServerHello := do
  let legacyVersion ← readU16
  let random ← readFixed 32
  let legacySessionIdEcho ← readLen8Bytes
  let cipherSuite ← CipherSuite.fromBinary
  let legacyCompressionMethod ← readU8
  let extensions ← readExtensions .serverHello
  pure ⟨legacyVersion, random, legacySessionIdEcho, cipherSuite, legacyCompressionMethod, extensions⟩

/-- handshake.rs:311-319. -/
def ServerHello.toBinary (x : ServerHello) : WM Unit := do
  writeU16 x.legacyVersion
  writeRaw x.random
  writeLen8Bytes x.legacySessionIdEcho
  x.cipherSuite.toBinary
  writeU8 x.legacyCompressionMethod
  writeLen16List Extension.toBinary x.extensions

/-- `CertificateRequest`, handshake.rs:348-352. -/
structure CertificateRequest where
  certificateRequestContext : Bytes
  extensions : List Extension
  deriving DecidableEq, Repr

/-- handshake.rs:357-371. -/
def CertificateRequest.fromBinary : RM CertificateRequest := do
  let context ← readLen8Bytes
  let extensions ← readExtensions .certificate
  pure ⟨context, extensions⟩

/-- `CertificateEntry`, handshake.rs:375-379. -/
structure CertificateEntry (X : Type) where
  data : Bytes
  certificate : X
  extensions : List Extension
  deriving DecidableEq, Repr

/-- handshake.rs:384-400. -/
def CertificateEntry.fromBinary {X : Type} (x509 : Bytes → Option X) : RM (CertificateEntry X) := do
  let data ← readLen24Bytes
  match x509 data with
  | none => throw .string
  | some certificate =>
    let extensions ← readExtensions .certificate
    pure ⟨data, certificate, extensions⟩

/-- handshake.rs:404-408. -/
def CertificateEntry.toBinary {X : Type} (x : CertificateEntry X) : WM Unit := do
  writeLen24Bytes x.data
  writeLen16List Extension.toBinary x.extensions

/-- `Certificate`, handshake.rs:420-424. -/
structure Certificate (X : Type) where
  certificateRequestContext : Bytes
  certificateList : List (CertificateEntry X)
  deriving DecidableEq, Repr

/-- handshake.rs:429-437. -/
def Certificate.fromBinary {X : Type} (x509 : Bytes → Option X) : RM (Certificate X) := do
  let context ← readLen8Bytes
  let list ← readLen24List (CertificateEntry.fromBinary x509)
  pure ⟨context, list⟩

/-- handshake.rs:441-445. -/
def Certificate.toBinary {X : Type} (x : Certificate X) : WM Unit := do
  writeLen8Bytes x.certificateRequestContext
  writeLen24List CertificateEntry.toBinary x.certificateList

/-- `CertificateVerify`, handshake.rs:448-452. -/
structure CertificateVerify where
  algorithm : SignatureScheme
  signature : Bytes
  deriving DecidableEq, Repr

/-- handshake.rs:457-461. -/
def CertificateVerify.fromBinary : RM CertificateVerify := do
  let algorithm ← SignatureScheme.fromBinary
  let signature ← readLen16Bytes
  pure ⟨algorithm, signature⟩

/-- handshake.rs:465-469. -/
def CertificateVerify.toBinary (x : CertificateVerify) : WM Unit := do
  x.algorithm.toBinary
  writeLen16Bytes x.signature

/-- `NewSessionTicket`, handshake.rs:493-499. -/
structure NewSessionTicket where
  ticketLifetime : Nat
  ticketAgeAdd : Nat
  ticketNonce : Bytes
  ticket : Bytes
  extensions : List Extension
  deriving DecidableEq, Repr

/-- handshake.rs:504-518. -/
def NewSessionTicket.fromBinary : RM NewSessionTicket := do
  let ticketLifetime ← readU32
  let ticketAgeAdd ← readU32
  let ticketNonce ← readLen8Bytes
  let ticket ← readLen16Bytes
  let extensions ← readExtensions .serverHello
  pure ⟨ticketLifetime, ticketAgeAdd, ticketNonce, ticket, extensions⟩

/-- `Handshake`, handshake.rs:7-20. `EndOfEarlyData` and `KeyUpdate` carry nothing; `Finished`
(472-475) carries `verify_data`; `EncryptedExtensions` (334-337) carries its extensions. -/
inductive Handshake (X : Type) where
  | clientHello (m : ClientHello)
  | serverHello (m : ServerHello)
  | endOfEarlyData
  | encryptedExtensions (extensions : List Extension)
  | certificateRequest (m : CertificateRequest)
  | certificate (m : Certificate X)
  | certificateVerify (m : CertificateVerify)
  | finished (verifyData : Bytes)
  | newSessionTicket (m : NewSessionTicket)
  | keyUpdate
  | unknown (code : UInt8) (data : Bytes)
  deriving DecidableEq, Repr

/-- `Handshake::from_binary2`, handshake.rs:48-63. The length is only used for unknown types.
`EndOfEarlyData` is refused (329-331); `KeyUpdate` is `unimplemented!()` (540-542), a panic;
`Finished` takes all remaining bytes without moving the position (480-482). -/
def Handshake.fromBinary2 {X : Type} (x509 : Bytes → Option X) (handshakeType : UInt8) :
    RM (Handshake X) := do
  let length ← readU24
  if handshakeType = 1 then do
    let m ← ClientHello.fromBinary
    pure (.clientHello m)
  else if handshakeType = 2 then do
    let m ← ServerHello.fromBinary
    pure (.serverHello m)
  else if handshakeType = 5 then
    throw (.plain "EndOfEarlyData::from_binary(): Not implemented")
  else if handshakeType = 8 then do
    let extensions ← readExtensions .serverHello
    pure (.encryptedExtensions extensions)
  else if handshakeType = 13 then do
    let m ← CertificateRequest.fromBinary
    pure (.certificateRequest m)
  else if handshakeType = 11 then do
    let m ← Certificate.fromBinary x509
    pure (.certificate m)
  else if handshakeType = 15 then do
    let m ← CertificateVerify.fromBinary
    pure (.certificateVerify m)
  else if handshakeType = 20 then do
    let verifyData ← remainingData
    pure (.finished verifyData)
  else if handshakeType = 4 then do
    let m ← NewSessionTicket.fromBinary
    pure (.newSessionTicket m)
  else if handshakeType = 24 then throw .panic
  else do
    let data ← readFixed length
    pure (.unknown handshakeType data)

/-- `Handshake::from_binary`, handshake.rs:25-28. -/
def Handshake.fromBinary {X : Type} (x509 : Bytes → Option X) : RM (Handshake X) := do
  let handshakeType ← readU8
  Handshake.fromBinary2 x509 handshakeType

/-- `Handshake::inner_to_binary`, handshake.rs:65-106: writes the body, gives the code. -/
def Handshake.innerToBinary {X : Type} : Handshake X → WM UInt8
  | .clientHello m => do
    m.toBinary
    pure 1
  | .serverHello m => do
    m.toBinary
    pure 2
  | .certificate m => do
    m.toBinary
    pure 11
  | .certificateVerify m => do
    m.toBinary
    pure 15
  | .finished verifyData => do
    writeRaw verifyData
    pure 20
  | _ => throw .panic

/-- `Handshake::to_binary`, handshake.rs:110-117: the body is first written to a separate writer. -/
def Handshake.toBinary {X : Type} (x : Handshake X) : WM Unit := fun s =>
  match x.innerToBinary [] with
  | (.error e, _) => (.error e, s)
  | (.ok code, tempData) =>
    (do
      writeU8 code
      writeU24 tempData.length
      writeRaw tempData : WM Unit) s

/-! ### alert.rs -/

/-- `Alert`, alert.rs:157-160. -/
structure Alert where
  level : AlertLevel
  description : AlertDescription
  deriving DecidableEq, Repr

/-- alert.rs:199-203. -/
def Alert.fromBinary : RM Alert := do
  let level ← AlertLevel.fromBinary
  let description ← AlertDescription.fromBinary
  pure ⟨level, description⟩

/-- alert.rs:207-211. -/
def Alert.toBinary (x : Alert) : WM Unit := do
  x.level.toBinary
  x.description.toBinary

/-! ### record.rs -/

/-- `Message`, record.rs:49-56. -/
inductive Message (X : Type) where
  | invalid
  | changeCipherSpec
  | alert (a : Alert)
  | handshake (h : Handshake X)
  | applicationData (d : Bytes)
  | unknown (code : UInt8)
  deriving DecidableEq, Repr

/-- `Alert::name`, alert.rs:163-194. -/
def Alert.name (a : Alert) : String :=
  match a.description with
  | .closeNotify => "Alert.CloseNotify"
  | .unexpectedMessage => "Alert.UnexpectedMessage"
  | .badRecordMac => "Alert.BadRecordMac"
  | .recordOverflow => "Alert.RecordOverflow"
  | .handshakeFailure => "Alert.HandshakeFailure"
  | .badCertificate => "Alert.BadCertificate"
  | .unsupportedCertificate => "Alert.UnsupportedCertificate"
  | .certificateRevoked => "Alert.CertificateRevoked"
  | .certificateExpired => "Alert.CertificateExpired"
  | .certificateUnknown => "Alert.CertificateUnknown"
  | .illegalParameter => "Alert.IllegalParameter"
  | .unknownCa => "Alert.UnknownCa"
  | .accessDenied => "Alert.AccessDenied"
  | .decodeError => "Alert.DecodeError"
  | .decryptError => "Alert.DecryptError"
  | .protocolVersion => "Alert.ProtocolVersion"
  | .insufficientSecurity => "Alert.InsufficientSecurity"
  | .internalError => "Alert.InternalError"
  | .inappropriateFallback => "Alert.InappropriateFallback"
  | .userCanceled => "Alert.UserCanceled"
  | .missingExtension => "Alert.MissingExtension"
  | .unsupportedExtension => "Alert.UnsupportedExtension"
  | .unrecognizedName => "Alert.UnrecognizedName"
  | .badCertificateStatusResponse => "Alert.BadCertificateStatusResponse"
  | .unknownPskIdentity => "Alert.UnknownPskIdentity"
  | .certificateRequired => "Alert.CertificateRequired"
  | .noApplicationProtocol => "Alert.NoApplicationProtocol"
  | .unknown _ => "Alert.Unknown"

/-- `Handshake::name`, handshake.rs:32-46. -/
def Handshake.name {X : Type} : Handshake X → String
  | .clientHello .. => "Handshake.ClientHello"
  | .serverHello .. => "Handshake.ServerHello"
  | .endOfEarlyData .. => "Handshake.EndOfEarlyData"
  | .encryptedExtensions .. => "Handshake.EncryptedExtensions"
  | .certificateRequest .. => "Handshake.CertificateRequest"
  | .certificate .. => "Handshake.Certificate"
  | .certificateVerify .. => "Handshake.CertificateVerify"
  | .finished .. => "Handshake.Finished"
  | .newSessionTicket .. => "Handshake.NewSessionTicket"
  | .keyUpdate .. => "Handshake.KeyUpdate"
  | .unknown .. => "Handshake.Unknown"

/-- `Message::name`, record.rs:70-79. -/
def Message.name {X : Type} : Message X → String
  | .invalid => "Invalid"
  | .changeCipherSpec => "ChangeCipherSpec"
  | .alert a => a.name
  | .handshake h => h.name
  | .applicationData _ => "ApplicationData"
  | .unknown _ => "Unknown"

/-- `Message::from_raw`, record.rs:81-90. -/
def Message.fromRaw {X : Type} (x509 : Bytes → Option X) (data : Bytes) (contentType : ContentType) :
    Except BinErr (Message X) :=
  match contentType with
  | .invalid => .ok .invalid
  | .changeCipherSpec => .ok .changeCipherSpec
  | .alert => (Alert.fromBinary (Reader.new data)).1.map .alert
  | .handshake => (Handshake.fromBinary x509 (Reader.new data)).1.map .handshake
  | .applicationData => .ok (.applicationData data)
  | .unknown code => .ok (.unknown code)

end Ngfs.Tls
