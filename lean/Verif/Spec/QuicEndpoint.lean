import Verif.Model.QuicEndpoint
import Verif.Spec.Quic
import Verif.Spec.TlsHandshake

/-!
Vocabulary for the claims about the QUIC endpoint (C134-C136), after RFC 9001 section 5.
-/
namespace Ngfs.Spec.Quic
open Ngfs.Quic Ngfs.Tls

/-- The salt of version 1 (RFC 9001 section 5.2): 0x38762cf7f55934b34d179ae6a4c80cadccbb7f0a. -/
def initialSalt : Bytes :=
  [0x38, 0x76, 0x2c, 0xf7, 0xf5, 0x59, 0x34, 0xb3, 0x4d, 0x17, 0x9a, 0xe6, 0xa4, 0xc8, 0x0c, 0xad, 0xcc, 0xbb, 0x7f, 0x0a]

/-- RFC 9001 section 5.1: the key, initialisation vector and header protection key of one direction: labels `quic key`, `quic iv`,
`quic hp`, for AES-128-GCM. -/
def IsPacketKeys {X K : Type} (cr : Tls.Crypto X K) (secret : Bytes) (s : Secrets) : Prop :=
  expandLabel cr .sha256 secret [113, 117, 105, 99, 32, 107, 101, 121] [] 16 = some s.key ∧
  expandLabel cr .sha256 secret [113, 117, 105, 99, 32, 105, 118] [] 12 = some s.iv ∧
  expandLabel cr .sha256 secret [113, 117, 105, 99, 32, 104, 112] [] 16 = some s.hp

/-- RFC 9001 section 5.2: the Initial keys of both directions for the Destination Connection ID of the client's first packet: labels
`client in` and `server in`. -/
def IsInitialKeys {X K : Type} (cr : Tls.Crypto X K) (dcid : Bytes) (s : ConnectionSecrets) : Prop :=
  ∃ client server,
    expandLabel cr .sha256 (cr.hkdfExtract .sha256 initialSalt dcid) [99, 108, 105, 101, 110, 116, 32, 105, 110] [] 32 = some client ∧
    expandLabel cr .sha256 (cr.hkdfExtract .sha256 initialSalt dcid) [115, 101, 114, 118, 101, 114, 32, 105, 110] [] 32 = some server ∧
    IsPacketKeys cr client s.client ∧ IsPacketKeys cr server s.server

/-- What a client says first: its random bytes, its X25519 share, the protocol `hq-29` (104 113 45 50 57), and, as transport parameter, the
identifier it is to be answered under. -/
def Introduces (hello : ClientHello) (scid publicKey random : Bytes) : Prop :=
  hello.random = random ∧
  .keyShareClientHello [⟨.x25519, publicKey⟩] ∈ hello.extensions ∧
  .applicationLayerProtocolNegotiation [⟨[104, 113, 45, 50, 57]⟩] ∈ hello.extensions ∧
  ∃ data, .transportParameters data ∈ hello.extensions ∧ ParamsOf data [.initialSource scid]

/-- Some packet of these is an Initial packet sent under the identifier `id`. -/
def SentUnder (id : Bytes) (packets : List Bytes) : Prop :=
  ∃ p ∈ packets, ∃ dcid token length off, InitialHeader p dcid id token length off

end Ngfs.Spec.Quic
