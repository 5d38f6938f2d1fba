import Verif.Model.Quic
import Verif.Model.TlsClient

/-!
Model of the Initial secrets (`quic/wire.rs`) and of the endpoint in `bin/quic_test.rs`: the table of connections, the handshake messages
taken from the CRYPTO frames of a packet, and the first packet of a client.

The hash functions and the parser of certificates are those of the TLS model (`Tls.Crypto`), the block cipher and the AEAD those of the
QUIC model (`Quic.Crypto`). Simplifications: of a connection only its secrets are kept (nothing else of it is ever read again); the table
is a list of pairs in which an insertion removes what was there under the same identifier; `println!` is dropped, but for the
handshake messages, which are the result.
-/
namespace Ngfs.Quic
open Binary

/-! ### Initial secrets -/

/-- `EndpointSecrets::from_initial` (`quic/wire.rs` 25-34). -/
def Secrets.fromInitial {X K : Type} (cr : Tls.Crypto X K) (alg : Tls.HashAlg) (initial : Bytes) : Except Tls.TlsErr Secrets := do
  let key ← Tls.hkdfExpandLabel cr alg initial (Tls.ascii "quic key") [] 16
  let iv ← Tls.hkdfExpandLabel cr alg initial (Tls.ascii "quic iv") [] 12
  let hp ← Tls.hkdfExpandLabel cr alg initial (Tls.ascii "quic hp") [] 16
  pure ⟨key, iv, hp⟩

/-- `ConnectionSecrets` (`quic/wire.rs` 47-50). -/
structure ConnectionSecrets where
  client : Secrets
  server : Secrets
  deriving DecidableEq, Repr

/-- `ConnectionSecrets::from_initial` (`quic/wire.rs` 53-76). -/
def ConnectionSecrets.fromInitial {X K : Type} (cr : Tls.Crypto X K) (alg : Tls.HashAlg) (initial : Bytes) :
    Except Tls.TlsErr ConnectionSecrets := do
  let clientInitial ← Tls.hkdfExpandLabel cr alg initial (Tls.ascii "client in") [] alg.byteLen
  let serverInitial ← Tls.hkdfExpandLabel cr alg initial (Tls.ascii "server in") [] alg.byteLen
  let client ← Secrets.fromInitial cr alg clientInitial
  let server ← Secrets.fromInitial cr alg serverInitial
  pure ⟨client, server⟩

/-- `ConnectionSecrets::from_connection_id` (`quic/wire.rs` 78-86). -/
def ConnectionSecrets.fromConnectionId {X K : Type} (cr : Tls.Crypto X K) (alg : Tls.HashAlg) (dcid : Bytes) :
    Except Tls.TlsErr ConnectionSecrets :=
  ConnectionSecrets.fromInitial cr alg
    (cr.hkdfExtract alg
      [0x38, 0x76, 0x2c, 0xf7, 0xf5, 0x59, 0x34, 0xb3, 0x4d, 0x17, 0x9a, 0xe6, 0xa4, 0xc8, 0x0c, 0xad, 0xcc, 0xbb, 0x7f, 0x0a] dcid)

/-! ### Handshake messages of a packet -/

/-- An error of a reader or writer as the result of the packet. -/
def Err.ofBin : BinErr → Err
  | .panic => .panic
  | e => .bin e

/-- The length in the header of a message (`bin/quic_test.rs` 878-880). -/
def readMessageLength : RM Nat := do
  let _ ← readU8
  readU24

/-- The part of `try_pop_handshake` that takes the message (`bin/quic_test.rs` 885-898): it is read, written again, and what is written
has to be all of the buffer (the `assert!` at 891). -/
def popMessage {X : Type} (x509 : Bytes → Option X) (buf : Bytes) : Except Err (Option (Tls.Handshake X × Bytes)) :=
  match Tls.Handshake.fromBinary x509 (.new buf) with
  | (.error e, _) => .error (.ofBin e)
  | (.ok h, r') =>
    match h.toBinary [] with
    | (.error e, _) => .error (.ofBin e)
    | (.ok (), data) => if buf = data then .ok (some (h, buf.drop r'.offset)) else .error .panic

/-- `EncryptionLevel::try_pop_handshake` (`bin/quic_test.rs` 874-901): a message and the data left, nothing if the message is not
complete, or a failure. -/
def tryPop {X : Type} (x509 : Bytes → Option X) (buf : Bytes) : Except Err (Option (Tls.Handshake X × Bytes)) :=
  if buf.length < 4 then .ok none
  else
    match readMessageLength (.new buf) with
    | (.error e, _) => .error (.ofBin e)
    | (.ok length, r) => if r.remaining < length then .ok none else popMessage x509 buf

/-- The loop over the extensions of a ClientHello (`bin/quic_test.rs` 280-285). -/
def checkParams : List Tls.Extension → Except Err Unit
  | [] => .ok ()
  | .transportParameters data :: es =>
    match decodeList data with
    | .error e => .error (.ofBin e)
    | .ok ps => if encodeList ps = data then checkParams es else .error .panic
  | _ :: es => checkParams es

/-- What is done with one message (`bin/quic_test.rs` 276-316). The secrets derived from the identifier for the first message (295-296)
are not used. -/
def checkHandshake {X K : Type} (cr : Tls.Crypto X K) (dcid : Bytes) (first : Bool) (h : Tls.Handshake X) : Except Err Unit :=
  match (match h with
    | .clientHello hello => checkParams hello.extensions
    | _ => .ok ()) with
  | .error e => .error e
  | .ok () =>
    if first then
      match ConnectionSecrets.fromConnectionId cr .sha256 dcid with
      | .error _ => .error .crypt
      | .ok _ => .ok ()
    else .ok ()

/-- The loop of `process_initial_handshakes` (`bin/quic_test.rs` 266-319): the messages shown, and how it ends. A message takes at least
the four bytes of its header, so the fuel is enough. A message is shown before its parameters are looked at (276-278). -/
def processLoop {X K : Type} (cr : Tls.Crypto X K) (dcid : Bytes) : Nat → Bool → Bytes → List (Tls.Handshake X) × Except Err Unit
  | 0, _, _ => ([], .error (.bin .fuel))
  | fuel + 1, first, buf =>
    match tryPop cr.x509 buf with
    | .error e => ([], .error e)
    | .ok none => ([], .ok ())
    | .ok (some (h, rest)) =>
      match checkHandshake cr dcid first h with
      | .error e => ([h], .error e)
      | .ok () =>
        match processLoop cr dcid fuel false rest with
        | (hs, r) => (h :: hs, r)

/-- `handle_packet` (`bin/quic_test.rs` 241-264). -/
def handlePacket {X K : Type} (cr : Tls.Crypto X K) (dcid : Bytes) (frames : List Frame) : List (Tls.Handshake X) × Except Err Unit :=
  processLoop cr dcid ((cryptoReceived frames).length + 1) true (cryptoReceived frames)

/-! ### The endpoint -/

/-- `Handler::connections` (`bin/quic_test.rs` 322-325). -/
structure Endpoint where
  connections : List (Bytes × ConnectionSecrets)
  deriving DecidableEq, Repr

/-- `Handler::new` (`bin/quic_test.rs` 496-502). -/
def Endpoint.new : Endpoint := ⟨[]⟩

/-- `BTreeMap::get`. -/
def Endpoint.get (e : Endpoint) (id : Bytes) : Option ConnectionSecrets := (e.connections.find? (·.1 = id)).map (·.2)

/-- `BTreeMap::insert`. -/
def Endpoint.insert (e : Endpoint) (id : Bytes) (s : ConnectionSecrets) : Endpoint :=
  ⟨(id, s) :: e.connections.filter (·.1 ≠ id)⟩

/-- The secrets `parse_initial` takes for a packet (`bin/quic_test.rs` 605-609, 624-627). -/
def Endpoint.secretsFor {X K : Type} (cr : Tls.Crypto X K) (e : Endpoint) (dcid : Bytes) : Option Secrets :=
  match e.get dcid with
  | some s => some s.server
  | none =>
    match ConnectionSecrets.fromConnectionId cr .sha256 dcid with
    | .ok s => some s.client
    | .error _ => none

/-- `Handler::on_recv_packet` (`bin/quic_test.rs` 507-531, 605-653): the messages shown, how it ends, and the endpoint. -/
def Endpoint.recv {X K : Type} (c : Crypto) (cr : Tls.Crypto X K) (e : Endpoint) (packet : Bytes) :
    List (Tls.Handshake X) × Except Err Unit × Endpoint :=
  match parsePacket c (e.secretsFor cr) packet with
  | .error err => ([], .error err, e)
  | .ok p =>
    match handlePacket cr p.dcid p.frames with
    | (hs, .error err) => (hs, .error err, e)
    | (hs, .ok ()) =>
      match e.get p.dcid with
      | some _ => (hs, .ok (), e)
      | none =>
        match ConnectionSecrets.fromConnectionId cr .sha256 p.dcid with
        | .ok s => (hs, .ok (), e.insert p.scid s)
        | .error _ => (hs, .error .crypt, e)

/-- Packets received one after the other (the receiving loop, `bin/quic_test.rs` 839-848, without the `return` at 844, which ends it after
the first packet). Nothing if a packet panics. -/
def Endpoint.recvAll {X K : Type} (c : Crypto) (cr : Tls.Crypto X K) : Endpoint → List Bytes → Option Endpoint
  | e, [] => some e
  | e, p :: ps =>
    match e.recv c cr p with
    | (_, .error .panic, _) => none
    | (_, _, e') => e'.recvAll c cr ps

/-- `make_client_hello` (`bin/quic_test.rs` 701-762). -/
def makeClientHello (protocolNames : List Bytes) (publicKey : Bytes) (params : List Param) (random : Bytes) : Tls.ClientHello where
  legacyVersion := 0x0303
  random := random
  legacySessionId := []
  cipherSuites := [.tlsAes128GcmSha256, .tlsAes256GcmSha384, .unknown 0x00ff]
  legacyCompressionMethods := [0]
  extensions :=
    [.ecPointFormats [.uncompressed, .ansiX962CompressedPrime, .ansiX962CompressedChar2],
     .supportedGroups [.x25519, .secp256r1, .x448, .secp521r1, .secp384r1],
     .nextProtocolNegotiation [],
     .applicationLayerProtocolNegotiation (protocolNames.map fun n => ⟨n⟩),
     .encryptThenMac,
     .extendedMasterSecret,
     .postHandshakeAuth,
     .signatureAlgorithms
       [.ecdsaSecp256r1Sha256, .ecdsaSecp384r1Sha384, .ecdsaSecp521r1Sha512, .ed25519, .ed448,
        .rsaPssPssSha256, .rsaPssPssSha384, .rsaPssPssSha512, .rsaPssRsaeSha256, .rsaPssRsaeSha384,
        .rsaPssRsaeSha512, .rsaPkcs1Sha256, .rsaPkcs1Sha384, .rsaPkcs1Sha512],
     .supportedVersions [2, 3, 4],
     .pskKeyExchangeModes [.pskDheKe],
     .keyShareClientHello [⟨.x25519, publicKey⟩],
     .transportParameters (encodeList params)]

/-- `make_initial2` (`bin/quic_test.rs` 415-440). -/
def makeInitialFor {X : Type} (c : Crypto) (dcid scid token : Bytes) (h : Tls.Handshake X) (s : Secrets) : Except Err Bytes :=
  match h.toBinary [] with
  | (.error e, _) => .error (.ofBin e)
  | (.ok (), data) => makeInitial c dcid scid token data s

/-- The client's part of `udp_receiver_inner` (`bin/quic_test.rs` 776-828), for any identifiers, key and random bytes: the datagram it sends
and its table. The token is empty, and the protocol is `hq-29`. -/
def Endpoint.connect {X K : Type} (c : Crypto) (cr : Tls.Crypto X K) (e : Endpoint) (dcid scid publicKey random : Bytes) :
    Except Err (Bytes × Endpoint) :=
  match ConnectionSecrets.fromConnectionId cr .sha256 dcid with
  | .error _ => .error .crypt
  | .ok s =>
    match makeInitialFor (X := X) c dcid scid []
        (.clientHello (makeClientHello [Tls.ascii "hq-29"] publicKey [.initialSource scid] random)) s.client with
    | .error err => .error err
    | .ok packet => .ok (packet, e.insert scid s)

end Ngfs.Quic
