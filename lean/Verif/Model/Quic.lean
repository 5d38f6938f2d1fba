import Verif.Model.Binary

/-! The QUIC code: packet protection (`quic/encryption.rs`), crypto stream (`quic/spec.rs`), transport parameters
(`quic/parameters.rs`), and the packets and frames of `bin/quic_test.rs`. -/
namespace Ngfs.Quic
open Binary

/-- Errors. `panic` stands for a Rust panic; message texts are dropped. -/
inductive Err where
  | text
  | bin (e : BinErr)
  | crypt
  | panic
  deriving DecidableEq, Repr

/-- The cryptographic primitives: AES-128 on one block (16 bytes in, 16 bytes out), and an AEAD that takes key, nonce,
associated data and text. -/
structure Crypto where
  aes : Bytes → Bytes → Bytes
  encrypt : Bytes → Bytes → Bytes → Bytes → Option Bytes
  decrypt : Bytes → Bytes → Bytes → Bytes → Option Bytes

/-- `EndpointSecrets` (`quic/wire.rs` 17-23), without `initial`. -/
structure Secrets where
  key : Bytes
  iv : Bytes
  hp : Bytes
  deriving DecidableEq, Repr

/-! ### Header protection -/

/-- `get_sample` (`quic/encryption.rs` 115-127). -/
def getSample (packet : Bytes) (pnOffset : Nat) : Except Err Bytes :=
  let sampleOffset := pnOffset + 4
  if sampleOffset + 16 > packet.length then .error .text
  else .ok (slice packet sampleOffset (sampleOffset + 16))

/-- The loop that masks the packet number (`quic/encryption.rs` 28-30, 57-59). -/
def maskLoop (mask : Bytes) (pnOffset : Nat) : Nat → Bytes → Bytes
  | 0, packet => packet
  | n + 1, packet => (maskLoop mask pnOffset n packet).modify (pnOffset + n) (· ^^^ mask.getD (n + 1) 0)

/-- The masking of the first byte (`quic/encryption.rs` 18-23, 45-50). -/
def maskFirst (mask : Bytes) (b0 : UInt8) : UInt8 :=
  if b0 &&& 0x80 == 0x80 then b0 ^^^ (mask.getD 0 0 &&& 0x0f) else b0 ^^^ (mask.getD 0 0 &&& 0x1f)

/-- The length of the packet number told by the first byte (`quic/encryption.rs` 17, 52). -/
def pnLength (b0 : UInt8) : Nat := (b0 &&& 0x03).toNat + 1

/-- `add_header_protection` (`quic/encryption.rs` 7-33); the packet is changed in place. -/
def addHeaderProtection (c : Crypto) (packet : Bytes) (pnOffset : Nat) (s : Secrets) : Except Err Unit × Bytes :=
  match getSample packet pnOffset with
  | .error e => (.error e, packet)
  | .ok sample =>
    let mask := c.aes s.hp sample
    match packet with
    | [] => (.error .panic, packet)
    | b0 :: rest =>
      let n := pnLength b0
      let packet1 := maskFirst mask b0 :: rest
      if pnOffset + n > packet1.length then (.error .text, packet1)
      else (.ok (), maskLoop mask pnOffset n packet1)

/-- `remove_header_protection` (`quic/encryption.rs` 35-62). -/
def removeHeaderProtection (c : Crypto) (packet : Bytes) (pnOffset : Nat) (s : Secrets) : Except Err Unit × Bytes :=
  match getSample packet pnOffset with
  | .error e => (.error e, packet)
  | .ok sample =>
    let mask := c.aes s.hp sample
    match packet with
    | [] => (.error .panic, packet)
    | b0 :: rest =>
      let b1 := maskFirst mask b0
      let packet1 := b1 :: rest
      let n := pnLength b1
      if pnOffset + n > packet1.length then (.error .text, packet1)
      else (.ok (), maskLoop mask pnOffset n packet1)

/-! ### Packet protection -/

/-- `make_nonce` (`quic/encryption.rs` 129-136). The initialisation vector has twelve bytes. -/
def makeNonce (s : Secrets) (packetNo : Nat) : Bytes :=
  s.iv.take 4 ++ List.zipWith (· ^^^ ·) (s.iv.drop 4) (beBytes 8 packetNo)

/-- `u64_from_slice` (`quic/encryption.rs` 138-144), for at most four bytes. -/
def u64FromSlice (bs : Bytes) : Nat := beNat bs

/-- The length of the authentication tag (`crypto/aead.rs` 95-100). -/
def tagLen : Nat := 16

/-- `encrypt_payload` (`quic/encryption.rs` 64-85). -/
def encryptPayload (c : Crypto) (packetNo : Nat) (header : Bytes) (pnOffset : Nat) (payload : Bytes) (expectedLength : Nat)
    (s : Secrets) : Except Err Bytes :=
  let nonce := makeNonce s packetNo
  if payload.length + tagLen = expectedLength then
    match c.encrypt s.key nonce header payload with
    | none => .error .crypt
    | some sealed =>
      if sealed.length = expectedLength then
        match addHeaderProtection c (header ++ sealed) pnOffset s with
        | (.error e, _) => .error e
        | (.ok (), packet) => .ok packet
      else .error .panic
  else .error .panic

/-- `decrypt_payload` (`quic/encryption.rs` 87-113). The slice `packet[payload_start..payload_end]` panics if the
announced length is shorter than the packet number or reaches beyond the packet. -/
def decryptPayload (c : Crypto) (packet : Bytes) (pnOffset length : Nat) (s : Secrets) : Except Err (Nat × Bytes) :=
  match removeHeaderProtection c packet pnOffset s with
  | (.error e, _) => .error e
  | (.ok (), packet1) =>
    let n := pnLength (packet1.getD 0 0)
    let start := pnOffset + n
    let stop := pnOffset + length
    if start ≤ stop ∧ stop ≤ packet1.length then
      let packetNo := u64FromSlice (slice packet1 pnOffset (pnOffset + n))
      match c.decrypt s.key (makeNonce s packetNo) (packet1.take start) (slice packet1 start stop) with
      | none => .error .crypt
      | some payload => .ok (packetNo, payload)
    else .error .panic

/-! ### Crypto stream -/

/-- `CryptoFrame` (`quic/spec.rs` 319-323). -/
structure CryptoFrame where
  startOffset : Nat
  data : Bytes
  deriving DecidableEq, Repr

/-- `CryptoStream` (`quic/spec.rs` 361-366). -/
structure CryptoStream where
  pending : List CryptoFrame
  data : Bytes
  dataStartOffset : Nat
  deriving DecidableEq, Repr

/-- `CryptoStream::new` (`quic/spec.rs` 369-375). -/
def CryptoStream.new : CryptoStream := ⟨[], [], 0⟩

/-- The end of the data received so far (`quic/spec.rs` 385). -/
def CryptoStream.endOffset (s : CryptoStream) : Nat := s.dataStartOffset + s.data.length

/-- The loop of `check_pending` (`quic/spec.rs` 382-403). Each round takes one pending frame, so as many rounds as there are
pending frames are enough. `none` is a panic: the slice `frame.data[start_offset_in_frame..]` out of range. -/
def CryptoStream.checkPending : Nat → CryptoStream → Option CryptoStream
  | 0, s => some s
  | n + 1, s =>
    match s.pending.findIdx? (fun f => decide (f.startOffset ≤ s.endOffset)) with
    | none => some s
    | some i =>
      match s.pending[i]? with
      | none => none
      | some f =>
        let from_ := s.endOffset - f.startOffset
        if from_ ≤ f.data.length then
          CryptoStream.checkPending n { s with pending := s.pending.eraseIdx i, data := s.data ++ f.data.drop from_ }
        else none

/-- `CryptoStream::add_frame` (`quic/spec.rs` 377-380). -/
def CryptoStream.addFrame (s : CryptoStream) (f : CryptoFrame) : Option CryptoStream :=
  CryptoStream.checkPending (s.pending.length + 1) { s with pending := s.pending ++ [f] }

/-- Frames arriving one after the other. -/
def CryptoStream.addFrames : CryptoStream → List CryptoFrame → Option CryptoStream
  | s, [] => some s
  | s, f :: fs =>
    match s.addFrame f with
    | none => none
    | some s' => CryptoStream.addFrames s' fs

/-! ### Transport parameters -/

/-- `TransportParameter` (`quic/parameters.rs` 14-28). -/
inductive Param where
  | originalDst (id : Bytes)
  | maxIdleTimeout (v : Nat)
  | maxUdpPayloadSize (v : Nat)
  | initialMaxData (v : Nat)
  | initialMaxStreamDataBidiLocal (v : Nat)
  | initialMaxStreamDataBidiRemote (v : Nat)
  | initialMaxStreamDataUni (v : Nat)
  | initialMaxStreamsBidi (v : Nat)
  | initialMaxStreamsUni (v : Nat)
  | activeConnectionIdLimit (v : Nat)
  | initialSource (id : Bytes)
  | invalid (id : Nat) (raw : Bytes)
  | unknown (id : Nat) (raw : Bytes)
  deriving DecidableEq, Repr

/-- `quic_varint_from_bytes` (`quic/parameters.rs` 7-12). -/
def varintFromBytes (data : Bytes) : Except BinErr Nat :=
  ((do
    let v ← readQuicVarint
    expectEof
    pure v : RM Nat) (.new data)).1

/-- `ConnectionId::from_raw` (`quic/spec.rs` 42-49). -/
def connectionIdFromRaw (data : Bytes) : Except Err Bytes := if data.length ≤ 20 then .ok data else .error .text

/-- A parameter whose value is a number (`quic/parameters.rs` 56-64). -/
def numeric (mk : Nat → Param) (raw : Bytes) : Except Err Param :=
  match varintFromBytes raw with
  | .ok v => .ok (mk v)
  | .error e => .error (.bin e)

/-- `TransportParameter::decode` (`quic/parameters.rs` 53-68). -/
def Param.decode (id : Nat) (raw : Bytes) : Except Err Param :=
  match id with
  | 0x01 => numeric .maxIdleTimeout raw
  | 0x03 => numeric .maxUdpPayloadSize raw
  | 0x04 => numeric .initialMaxData raw
  | 0x05 => numeric .initialMaxStreamDataBidiLocal raw
  | 0x06 => numeric .initialMaxStreamDataBidiRemote raw
  | 0x07 => numeric .initialMaxStreamDataUni raw
  | 0x08 => numeric .initialMaxStreamsBidi raw
  | 0x09 => numeric .initialMaxStreamsUni raw
  | 0x0e => numeric .activeConnectionIdLimit raw
  | 0x0f =>
    match connectionIdFromRaw raw with
    | .ok v => .ok (.initialSource v)
    | .error e => .error e
  | id => .ok (.unknown id raw)

/-- `encode_raw` (`quic/parameters.rs` 97-101). -/
def encodeRaw (id : Nat) (value : Bytes) : WM Unit := do
  writeQuicVarint id
  writeQuicVarint value.length
  writeRaw value

/-- `encode_varint` (`quic/parameters.rs` 89-95). -/
def encodeVarint (id value : Nat) : WM Unit := encodeRaw id (quicVarintBytes value)

/-- `TransportParameter::encode` (`quic/parameters.rs` 70-87). -/
def Param.encode : Param → WM Unit
  | .originalDst v => encodeRaw 0x00 v
  | .maxIdleTimeout v => encodeVarint 0x01 v
  | .maxUdpPayloadSize v => encodeVarint 0x03 v
  | .initialMaxData v => encodeVarint 0x04 v
  | .initialMaxStreamDataBidiLocal v => encodeVarint 0x05 v
  | .initialMaxStreamDataBidiRemote v => encodeVarint 0x06 v
  | .initialMaxStreamDataUni v => encodeVarint 0x07 v
  | .initialMaxStreamsBidi v => encodeVarint 0x08 v
  | .initialMaxStreamsUni v => encodeVarint 0x09 v
  | .activeConnectionIdLimit v => encodeVarint 0x0e v
  | .initialSource v => encodeRaw 0x0f v
  | .invalid id v => encodeRaw id v
  | .unknown id v => encodeRaw id v

/-- One round of `decode_list` (`quic/parameters.rs` 108-114). -/
def Param.read : RM Param := do
  let id ← readQuicVarint
  let length ← readQuicVarint
  let value ← readFixed length
  match Param.decode id value with
  | .ok p => pure p
  | .error _ => pure (.invalid id value)

/-- The loop of `decode_list` (`quic/parameters.rs` 107-115). Every round reads at least two bytes, so as many rounds as there
are bytes are enough; `fuel` cannot occur. -/
def decodeLoop : Nat → RM (List Param)
  | 0 => throw .fuel
  | n + 1 => fun r =>
    if r.remaining > 0 then
      match Param.read r with
      | (.error e, r') => (.error e, r')
      | (.ok p, r') =>
        match decodeLoop n r' with
        | (.error e, r'') => (.error e, r'')
        | (.ok ps, r'') => (.ok (p :: ps), r'')
    else (.ok [], r)

/-- `decode_list` (`quic/parameters.rs` 103-117). -/
def decodeList (data : Bytes) : Except BinErr (List Param) := (decodeLoop (data.length + 1) (.new data)).1

/-- `encode_list` (`quic/parameters.rs` 119-125). -/
def encodeList (ps : List Param) : Bytes := (writeItems Param.encode ps []).2

/-! ### Frames and packets (`bin/quic_test.rs`) -/

/-- The frames `parse_frames` produces (`quic/spec.rs` 176-199). The reason of a close is kept as bytes. -/
inductive Frame where
  | ping
  | crypto (offset : Nat) (data : Bytes)
  | connectionClose (errorCode frameType : Nat) (reason : Bytes)
  deriving DecidableEq, Repr

/-- One round of `parse_frames` (`bin/quic_test.rs` 333-372); `none` is padding. -/
def Frame.read : RM (Option Frame) := do
  let frameType ← readU8
  if frameType = 0x00 then pure none
  else if frameType = 0x02 then pure (some .ping)
  else if frameType = 0x06 then do
    let offset ← readQuicVarint
    let length ← readQuicVarint
    let data ← readFixed length
    pure (some (.crypto offset data))
  else if frameType = 0x1c then do
    let errorCode ← readQuicVarint
    let ty ← readQuicVarint
    let reasonLen ← readQuicVarint
    let reason ← readFixed reasonLen
    pure (some (.connectionClose errorCode ty reason))
  else throw (.plain "Unknown frame type")

/-- The loop of `parse_frames` (`bin/quic_test.rs` 332-373). Every round reads a byte. -/
def framesLoop : Nat → RM (List Frame)
  | 0 => throw .fuel
  | n + 1 => fun r =>
    if r.remaining > 0 then
      match Frame.read r with
      | (.error e, r') => (.error e, r')
      | (.ok f, r') =>
        match framesLoop n r' with
        | (.error e, r'') => (.error e, r'')
        | (.ok fs, r'') => (.ok (f.toList ++ fs), r'')
    else (.ok [], r)

/-- `parse_frames` (`bin/quic_test.rs` 327-378). -/
def parseFrames (data : Bytes) : Except BinErr (List Frame) := (framesLoop (data.length + 1) (.new data)).1

/-- `encode_initial_packet` (`bin/quic_test.rs` 442-493). -/
def encodeInitialPacket (c : Crypto) (dcid scid : Bytes) (packetNo : Nat) (token payload : Bytes) (s : Secrets) :
    Except Err Bytes :=
  let header0 := [0xc3] ++ [0x00, 0x00, 0x00, 0x01] ++ [UInt8.ofNat dcid.length] ++ dcid ++ [UInt8.ofNat scid.length] ++ scid ++
    quicVarintBytes token.length ++ token
  let lengthOffset := header0.length
  let pnOffset := lengthOffset + 2
  let headerLen := pnOffset + 4
  let padding := 1200 - (headerLen + payload.length + tagLen)
  let length := 4 + payload.length + tagLen + padding
  let header := header0 ++ [UInt8.ofNat (length >>> 8) ||| 0x40, UInt8.ofNat length] ++ beBytes 4 packetNo
  encryptPayload c packetNo header pnOffset (payload ++ List.replicate padding 0) (length - 4) s

/-- `make_initial2` (`bin/quic_test.rs` 415-440), from the encoded handshake message on. -/
def makeInitial (c : Crypto) (dcid scid token handshake : Bytes) (s : Secrets) : Except Err Bytes :=
  encodeInitialPacket c dcid scid 0 token ([0x06] ++ quicVarintBytes 0 ++ quicVarintBytes handshake.length ++ handshake) s

/-- What `parse_initial` hands to `handle_packet` (`bin/quic_test.rs` 613-621, 641-649): a packet and the token. -/
structure Initial where
  dcid : Bytes
  scid : Bytes
  token : Bytes
  packetNo : Nat
  frames : List Frame
  deriving DecidableEq, Repr

/-- `parse_initial` (`bin/quic_test.rs` 579-655) up to `handle_packet`: `secretsFor` gives the secrets the packets to a connection
identifier are protected with: those of the connection of this identifier if there is one (606-611), else those derived
from the identifier (626-627). -/
def parseInitial (c : Crypto) (secretsFor : Bytes → Option Secrets) (dcid scid : Bytes) (offset : Nat) (packet : Bytes) :
    Except Err Initial :=
  match ((do
      let tokenLen ← readQuicVarint
      let token ← readFixed tokenLen
      let length ← readQuicVarint
      pure (token, length) : RM (Bytes × Nat)) ⟨packet, offset⟩) with
  | (.error e, _) => .error (.bin e)
  | (.ok (token, length), r) =>
    match secretsFor dcid with
    | none => .error .crypt
    | some s =>
      match decryptPayload c packet r.offset length s with
      | .error e => .error e
      | .ok (packetNo, payload) =>
        match parseFrames payload with
        | .error e => .error (.bin e)
        | .ok frames => .ok ⟨dcid, scid, token, packetNo, frames⟩

/-- The connection identifiers of a long header (`bin/quic_test.rs` 538-557). -/
def readLongHeader : RM (UInt8 × Bytes × Bytes) := do
  let byte0 ← readU8
  let version ← readU32
  if version ≠ 1 then throw (.plain "Unsupported version")
  else
    let dcidLen ← readU8
    if dcidLen.toNat > 20 then throw (.plain "Invalid dst_connection_id length")
    else
      let dcid ← readFixed dcidLen.toNat
      let scidLen ← readU8
      if scidLen.toNat > 20 then throw (.plain "Invalid src_connection_id length")
      else
        let scid ← readFixed scidLen.toNat
        pure (byte0, dcid, scid)

/-- `parse_long_header_packet` (`bin/quic_test.rs` 533-569). -/
def parseLongHeader (c : Crypto) (secretsFor : Bytes → Option Secrets) (packet : Bytes) : Except Err Initial :=
  match readLongHeader (.new packet) with
  | (.error e, _) => .error (.bin e)
  | (.ok (byte0, dcid, scid), r) =>
    if (byte0 &&& 0x30) >>> (4 : UInt8) = 0 then parseInitial c secretsFor dcid scid r.offset packet
    else .error .text

/-- `parse_packet` (`bin/quic_test.rs` 516-531). `parse_short_header_packet` is `todo!()` (571-577). -/
def parsePacket (c : Crypto) (secretsFor : Bytes → Option Secrets) (packet : Bytes) : Except Err Initial :=
  match packet with
  | [] => .error .text
  | byte0 :: _ =>
    if byte0 &&& 0x40 == 0 then .error .text
    else if byte0 &&& 0x80 == 0x80 then parseLongHeader c secretsFor packet
    else .error .panic

/-- What `handle_packet` collects from the frames of a packet (`bin/quic_test.rs` 242-261): the data of the CRYPTO
frames, in the order of the frames. -/
def cryptoReceived : List Frame → Bytes
  | [] => []
  | .crypto _ data :: fs => data ++ cryptoReceived fs
  | _ :: fs => cryptoReceived fs

/-! ### Stream identifiers -/

/-- `Initiator` (`quic/spec.rs` 128-131). -/
inductive Initiator where
  | client
  | server
  deriving DecidableEq, Repr

/-- `Directionality` (`quic/spec.rs` 133-136). -/
inductive Directionality where
  | bidirectional
  | unidirectional
  deriving DecidableEq, Repr

/-- `StreamType` (`quic/spec.rs` 138-143). -/
inductive StreamType where
  | clientBidirectional
  | serverBidirectional
  | clientUnidirectional
  | serverUnidirectional
  deriving DecidableEq, Repr

/-- `StreamId::initiator` (`quic/spec.rs` 72-84). -/
def initiator (id : Nat) : Initiator := if id &&& 0x01 = 0 then .client else .server

/-- `StreamId::directionality` (`quic/spec.rs` 86-96). -/
def directionality (id : Nat) : Directionality := if id &&& 0x02 = 0 then .bidirectional else .unidirectional

/-- `StreamId::stream_type` (`quic/spec.rs` 98-105). -/
def streamType (id : Nat) : StreamType :=
  match id &&& 0x03 with
  | 0x00 => .clientBidirectional
  | 0x01 => .serverBidirectional
  | 0x02 => .clientUnidirectional
  | _ => .serverUnidirectional

end Ngfs.Quic
