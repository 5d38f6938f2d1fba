import Verif.Model.Dagpb
import Verif.Model.Multiaddr

/-! Model of `/repo/src/libp2p/peer_id.rs` and `/repo/src/libp2p/identify.rs`. -/
namespace Ngfs.Identify
open Protobuf

/-- `KeyType`, peer_id.rs 8-13. -/
inductive KeyType where
  | rsa | ed25519 | secp256k1 | ecdsa
deriving DecidableEq, Repr

/-- `key_type as u64`: the discriminants of peer_id.rs 9-12. -/
def KeyType.toNat : KeyType → Nat
  | .rsa => 0
  | .ed25519 => 1
  | .secp256k1 => 2
  | .ecdsa => 3

/-- `KeyType::from_u64`, peer_id.rs 16-24. -/
def KeyType.fromU64 (n : Nat) : Except FromPBError KeyType :=
  match n with
  | 0 => .ok .rsa
  | 1 => .ok .ed25519
  | 2 => .ok .secp256k1
  | 3 => .ok .ecdsa
  | _ => .error (.plain "Unknown key type")

/-- `PublicKey`, peer_id.rs 28-31. -/
structure PublicKey where
  keyType : KeyType
  data : Bytes
deriving DecidableEq, Repr

/-- The locals of `PublicKey::from_pb`, peer_id.rs 44-45. -/
structure KeyState where
  keyType : Option KeyType := none
  data : Option Bytes := none
deriving DecidableEq, Repr

/-- peer_id.rs 49-53. -/
def keyStep (s : KeyState) (f : FieldRef) : Except FromPBError KeyState :=
  match f.fieldNumber with
  | 1 => do
    let n ← ok? f.data.toUint64
    let t ← KeyType.fromU64 n
    .ok { s with keyType := some t }
  | 2 => do .ok { s with data := some (← ok? f.data.toBytes) }
  | _ => .ok s

/-- `FromPB for PublicKey`, peer_id.rs 42-61; `PrivateKey::from_pb`, 77-82, returns the same two parts. -/
def PublicKey.fromPb (rawData : Bytes) : Except FromPBError PublicKey := do
  let s ← forFields keyStep {} (Reader.new rawData)
  let keyType ← okOr s.keyType (.missingField "key_type")
  let data ← okOr s.data (.missingField "data")
  .ok ⟨keyType, data⟩

/-- `ToPB for PublicKey`, peer_id.rs 63-70. -/
def PublicKey.toPb (k : PublicKey) : Except Panic Bytes := do
  let w ← writeUint64 [] 1 k.keyType.toNat
  writeBytes w 2 k.data

/-- `Identify`, identify.rs 19-27; `SignedPeerRecord` wraps bytes, `MultiAddr` a list of parts. -/
structure Identify where
  protocolVersion : String
  agentVersion : String
  publicKey : PublicKey
  listenAddrs : List (List Multiaddr.Addr)
  observedAddr : List Multiaddr.Addr
  protocols : List String
  signedPeerRecord : Option Bytes
deriving DecidableEq, Repr

/-- The locals of `Identify::from_pb`, identify.rs 31-37. -/
structure IdState where
  protocolVersion : Option String := none
  agentVersion : Option String := none
  publicKey : Option PublicKey := none
  observedAddr : Option (List Multiaddr.Addr) := none
  listenAddrs : List (List Multiaddr.Addr) := []
  protocols : List String := []
  signedPeerRecord : Option Bytes := none
deriving DecidableEq, Repr

/-- identify.rs 41-65. -/
def idStep (s : IdState) (f : FieldRef) : Except FromPBError IdState :=
  match f.fieldNumber with
  | 5 => match s.protocolVersion with
    | some _ => .error (.duplicateField "protocol_version")
    | none => do .ok { s with protocolVersion := some (← ok? f.data.toStr) }
  | 6 => match s.agentVersion with
    | some _ => .error (.duplicateField "agent_version")
    | none => do .ok { s with agentVersion := some (← ok? f.data.toStr) }
  | 3 => do .ok { s with protocols := s.protocols ++ [← ok? f.data.toStr] }
  | 1 => match s.publicKey with
    | some _ => .error (.duplicateField "public_key")
    | none => do
      let b ← ok? f.data.toBytes
      let k ← PublicKey.fromPb b
      .ok { s with publicKey := some k }
  | 2 => do
    let b ← ok? f.data.toBytes
    .ok { s with listenAddrs := s.listenAddrs ++ [Multiaddr.fromBytes b] }
  | 4 => match s.observedAddr with
    | some _ => .error (.duplicateField "observed_addr")
    | none => do
      let b ← ok? f.data.toBytes
      .ok { s with observedAddr := some (Multiaddr.fromBytes b) }
  | 8 => match s.signedPeerRecord with
    | some _ => .error (.duplicateField "duplicate signed_peer_record")
    | none => do .ok { s with signedPeerRecord := some (← ok? f.data.toBytes) }
  | _ => .ok s

/-- `FromPB for Identify`, identify.rs 29-83. -/
def Identify.fromPb (rawData : Bytes) : Except FromPBError Identify := do
  let s ← forFields idStep {} (Reader.new rawData)
  let protocolVersion ← okOr s.protocolVersion (.missingField "protocol_version")
  let agentVersion ← okOr s.agentVersion (.missingField "agent_version")
  let publicKey ← okOr s.publicKey (.missingField "public_key")
  let observedAddr ← okOr s.observedAddr (.missingField "observed_addr")
  .ok ⟨protocolVersion, agentVersion, publicKey, s.listenAddrs, observedAddr, s.protocols, s.signedPeerRecord⟩

/-- identify.rs 89-91. -/
def writeAddrs (w : Bytes) : List (List Multiaddr.Addr) → Except Panic Bytes
  | [] => .ok w
  | a :: as => do
    let w ← writeBytes w 2 (Multiaddr.toBytes a)
    writeAddrs w as

/-- identify.rs 92-94. -/
def writeProtocols (w : Bytes) : List String → Except Panic Bytes
  | [] => .ok w
  | p :: ps => do
    let w ← writeString w 3 p
    writeProtocols w ps

/-- `ToPB for Identify`, identify.rs 85-103. -/
def Identify.toPb (m : Identify) : Except Panic Bytes := do
  let k ← m.publicKey.toPb
  let w ← writeBytes [] 1 k
  let w ← writeAddrs w m.listenAddrs
  let w ← writeProtocols w m.protocols
  let w ← writeBytes w 4 (Multiaddr.toBytes m.observedAddr)
  let w ← writeString w 5 m.protocolVersion
  let w ← writeString w 6 m.agentVersion
  match m.signedPeerRecord with
  | some r => writeBytes w 8 r
  | none => .ok w

end Ngfs.Identify
