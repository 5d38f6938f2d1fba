import Verif.Model.Multiaddr

/-! Which values are content identifiers and addresses. -/
namespace Ngfs.Spec
open Cid Multiaddr

/-- A codec value: a named one, or a 64-bit code that has no name. -/
def ValidCodec : Codec → Prop
  | .unknown n => n < 2 ^ 64 ∧ n ∉ [0x55, 0x70, 0x71, 0x72]
  | _ => True

/-- A hash type: a named one, or a 64-bit code that has no name. -/
def ValidHashType : HashType → Prop
  | .unknown n => n < 2 ^ 64 ∧ n ∉ [0x11, 0x12, 0xb220, 0x1e]
  | _ => True

/-- A content identifier: version 0 is only for DAG-PB with a 32-byte SHA2-256 digest; version 1 takes any codec, hash
type and digest. -/
def ValidCid (c : CID) : Prop :=
  match c.version with
  | .v0 => c.codec = .dagPB ∧ c.hashType = .sha2256 ∧ c.hash.length = 32
  | .v1 => ValidCodec c.codec ∧ ValidHashType c.hashType

/-- One of the address kinds the library understands, with in-range contents. -/
def KnownAddr : Addr → Prop
  | .ip4 octets => octets.length = 4
  | .ip6 octets => octets.length = 16
  | .tcp port => port < 2 ^ 16
  | .udp port => port < 2 ^ 16
  | .quic => True
  | .unknown _ _ => False
  | .invalid _ => False

end Ngfs.Spec
