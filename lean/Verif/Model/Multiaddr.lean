import Verif.Model.Cid

/-! Model of `/repo/src/libp2p/multiaddr.rs`. -/
namespace Ngfs.Multiaddr
open Varint Protobuf

/-- `Addr`, multiaddr.rs 34-42. An IPv4 address is its four octets, an IPv6 address its sixteen octets, a port a number
below 2^16. -/
inductive Addr where
  | ip4 (octets : Bytes)
  | ip6 (octets : Bytes)
  | tcp (port : Nat)
  | udp (port : Nat)
  | quic
  | unknown (proto : Nat) (data : Bytes)
  | invalid (data : Bytes)
deriving DecidableEq, Repr

/-- `decode_varint_u64`, multiaddr.rs 13-31: the value and the number of bytes consumed; both errors are `none`. -/
def decodeVarint (data : Bytes) : Option (Nat × Nat) :=
  match Cid.readFrom data 0 with
  | none => none
  | some (v, n) =>
    match VarInt.toU64 v with
    | .ok p => some (p, n)
    | .error _ => none

/-- `u16::from_be_bytes` of `bytes[o], bytes[o + 1]`. -/
def beU16 (bytes : Bytes) (o : Nat) : Nat := (bytes.getD o 0).toNat * 256 + (bytes.getD (o + 1) 0).toNat

/-- `Addr::read`, multiaddr.rs 51-121. -/
def Addr.read (bytes : Bytes) : Addr × Nat :=
  match decodeVarint bytes with
  | none => (.invalid bytes, bytes.length)
  | some (proto, o) =>
    if proto = 0x0004 then
      if o + 4 ≤ bytes.length then (.ip4 (slice bytes o (o + 4)), o + 4) else (.invalid bytes, bytes.length)
    else if proto = 0x0029 then
      if o + 16 ≤ bytes.length then (.ip6 (slice bytes o (o + 16)), o + 16) else (.invalid bytes, bytes.length)
    else if proto = 0x0006 then
      if o + 2 ≤ bytes.length then (.tcp (beU16 bytes o), o + 2) else (.invalid bytes, bytes.length)
    else if proto = 0x0111 then
      if o + 2 ≤ bytes.length then (.udp (beU16 bytes o), o + 2) else (.invalid bytes, bytes.length)
    else if proto = 0x01cc then (.quic, o)
    else (.invalid bytes, bytes.length)

/-- `u16::to_be_bytes`. -/
def beBytes16 (port : Nat) : Bytes := [UInt8.ofNat (port >>> 8), UInt8.ofNat port]

/-- `Addr::encode`, multiaddr.rs 123-152. -/
def Addr.encode : Addr → Bytes
  | .ip4 octets => encodeU64 0x0004 ++ octets
  | .ip6 octets => encodeU64 0x0029 ++ octets
  | .tcp port => encodeU64 0x0006 ++ beBytes16 port
  | .udp port => encodeU64 0x0111 ++ beBytes16 port
  | .quic => encodeU64 0x01cc
  | .unknown proto data => encodeU64 proto ++ data
  | .invalid data => data

theorem decodeVarint_bounds {data : Bytes} {p n : Nat} (h : decodeVarint data = some (p, n)) :
    0 < n ∧ n ≤ data.length := by
  simp only [decodeVarint, Cid.readFrom] at h
  cases hs : scanVarint data 0 with
  | none => simp [hs] at h
  | some e =>
    have := scanVarint_bounds hs
    simp only [hs] at h
    split at h
    · simp only [Option.some.injEq, Prod.mk.injEq] at h; omega
    · cases h

/-- Every read consumes at least one byte and stays within the buffer: the loop below makes progress. -/
theorem read_bounds (bytes : Bytes) (h : bytes ≠ []) :
    0 < (Addr.read bytes).2 ∧ (Addr.read bytes).2 ≤ bytes.length := by
  have hpos : 0 < bytes.length := List.length_pos_iff.mpr h
  simp only [Addr.read]
  split
  · exact ⟨hpos, Nat.le_refl _⟩
  · rename_i p o hd
    have := decodeVarint_bounds hd
    repeat' split
    all_goals simp only <;> omega

/-- `MultiAddr::from_bytes`, multiaddr.rs 174-183; the loop over `offset` is recursion on the remaining bytes. -/
def fromBytes (bytes : Bytes) : List Addr :=
  if h : bytes = [] then []
  else
    let r := Addr.read bytes
    r.1 :: fromBytes (bytes.drop r.2)
termination_by bytes.length
decreasing_by
  have := read_bounds bytes h
  simp only [List.length_drop]; omega

/-- `MultiAddr::to_bytes`, multiaddr.rs 185-195. -/
def toBytes (addrs : List Addr) : Bytes := addrs.flatMap Addr.encode

end Ngfs.Multiaddr
