import Verif.Model.Multibase
import Verif.Model.Protobuf

/-! Model of `/repo/src/ipfs/types/cid.rs` (content identifiers). -/
namespace Ngfs.Cid
open Varint Protobuf

/-- `VarInt::read_from`, src/formats/protobuf/protobuf.rs 52-69: the bytes up to the first with a clear top bit, and
the offset after them. -/
def readFrom (data : Bytes) (offset : Nat) : Option (Bytes × Nat) :=
  match scanVarint data offset with
  | some e => some (slice data offset e, e)
  | none => none

/-- `CIDVersion`, cid.rs 9-12. -/
inductive Version where
  | v0 | v1
deriving DecidableEq, Repr

/-- `MultiCodec`, cid.rs 16-22. -/
inductive Codec where
  | raw | dagPB | dagCBOR | libP2PKey
  | unknown (n : Nat)
deriving DecidableEq, Repr

/-- `MultiCodec::from_u64`, cid.rs 25-33. -/
def Codec.fromU64 (value : Nat) : Codec :=
  if value = 0x55 then .raw else if value = 0x70 then .dagPB else if value = 0x71 then .dagCBOR
  else if value = 0x72 then .libP2PKey else .unknown value

/-- `MultiCodec::to_u64`, cid.rs 35-43. -/
def Codec.toU64 : Codec → Nat
  | .raw => 0x55
  | .dagPB => 0x70
  | .dagCBOR => 0x71
  | .libP2PKey => 0x72
  | .unknown value => value

/-- `MultiHash`, cid.rs 47-53. -/
inductive HashType where
  | sha1 | sha2256 | blake2b256 | blake3
  | unknown (n : Nat)
deriving DecidableEq, Repr

/-- `MultiHash::from_u64`, cid.rs 56-64. -/
def HashType.fromU64 (value : Nat) : HashType :=
  if value = 0x11 then .sha1 else if value = 0x12 then .sha2256 else if value = 0xb220 then .blake2b256
  else if value = 0x1e then .blake3 else .unknown value

/-- `MultiHash::to_u64`, cid.rs 66-74. -/
def HashType.toU64 : HashType → Nat
  | .sha1 => 0x11
  | .sha2256 => 0x12
  | .blake2b256 => 0xb220
  | .blake3 => 0x1e
  | .unknown value => value

/-- `CIDParseError`, cid.rs 87-95. -/
inductive ParseError where
  | decode (e : Multibase.DecodeError)
  | empty
  | unsupportedVersion
  | invalidCodec
  | invalidHashType
  | invalidHashSize
  | hashSizeMismatch
deriving DecidableEq, Repr

/-- `CID`, cid.rs 131-136. -/
structure CID where
  version : Version
  codec : Codec
  hashType : HashType
  hash : Bytes
deriving DecidableEq, Repr

/-- `CID::is_cid_v0`, cid.rs 162-164. -/
def isCidV0 (bytes : Bytes) : Bool := bytes.length == 34 && bytes[0]? == some 0x12 && bytes[1]? == some 0x20

/-- `CID::to_bytes_v1`, cid.rs 207-215. -/
def CID.toBytesV1 (c : CID) : Bytes :=
  [1] ++ encodeU64 c.codec.toU64 ++ encodeU64 c.hashType.toU64 ++ encodeU64 c.hash.length ++ c.hash

/-- `CID::to_bytes`, cid.rs 192-205. -/
def CID.toBytes (c : CID) : Bytes :=
  if c.version = .v0 ∧ c.codec = .dagPB ∧ c.hashType = .sha2256 ∧ c.hash.length = 32 then
    [0x12, 0x20] ++ c.hash
  else c.toBytesV1

/-- One varint of `from_bytes_v1` with its error, e.g. cid.rs 229-232. -/
def readNum (bytes : Bytes) (offset : Nat) (err : ParseError) : Except ParseError (Nat × Nat) :=
  match readFrom bytes offset with
  | some (v, o) =>
    match VarInt.toU64 v with
    | .ok n => .ok (n, o)
    | .error _ => .error err
  | none => .error err

/-- `CID::from_bytes_v1`, cid.rs 217-264. -/
def fromBytesV1 (bytes : Bytes) : Except ParseError CID :=
  match bytes[0]? with
  | none => .error .empty
  | some version =>
    if version ≠ 1 then .error .unsupportedVersion
    else do
      let (codecNum, o) ← readNum bytes 1 .invalidCodec
      let (hashNum, o) ← readNum bytes o .invalidHashType
      let (hashSize, hashStart) ← readNum bytes o .invalidHashSize
      if hashStart + hashSize ≥ usizeLimit then .error .hashSizeMismatch
      else
        let hashEnd := hashStart + hashSize
        if hashEnd ≠ bytes.length then .error .hashSizeMismatch
        else .ok ⟨.v1, Codec.fromU64 codecNum, HashType.fromU64 hashNum, slice bytes hashStart hashEnd⟩

/-- `CID::from_bytes`, cid.rs 178-190. -/
def fromBytes (bytes : Bytes) : Except ParseError CID :=
  if isCidV0 bytes then .ok ⟨.v0, .dagPB, .sha2256, bytes.drop 2⟩ else fromBytesV1 bytes

/-- `Display for CID`, cid.rs 149-159. -/
def CID.toText (c : CID) : List Char :=
  let bytes := c.toBytes
  if isCidV0 bytes then Multibase.encodeNoprefix bytes .base58BTC else Multibase.encode bytes .base32

/-- `map_err(CIDParseError::DecodeError)`. -/
def liftDecode {α} : Except Multibase.DecodeError α → Except ParseError α
  | .ok a => .ok a
  | .error e => .error (.decode e)

/-- `CID::from_string`, cid.rs 166-176. `cid_str.len()` counts bytes. -/
def fromText (s : List Char) : Except ParseError CID :=
  if (Multibase.asBytes s).length = 46 ∧ ['Q', 'm'] <+: s then do
    let bytes ← liftDecode (Multibase.decodeNoprefix s .base58BTC)
    fromBytes bytes
  else do
    let bytes ← liftDecode (Multibase.decode s)
    fromBytesV1 bytes

/-- `CIDPrefix`, cid.rs 269-274. -/
structure Prefix where
  version : Version
  codec : Codec
  hashType : HashType
  hashSize : Nat
deriving DecidableEq, Repr

/-- `CIDPrefix::from_bytes`, cid.rs 277-308. -/
def Prefix.fromBytes (bytes : Bytes) : Except ParseError Prefix :=
  match bytes[0]? with
  | none => .error .empty
  | some b =>
    if b ≠ 0 ∧ b ≠ 1 then .error .unsupportedVersion
    else do
      let (codecNum, o) ← readNum bytes 1 .invalidCodec
      let (hashNum, o) ← readNum bytes o .invalidHashType
      let (hashSize, _) ← readNum bytes o .invalidHashSize
      .ok ⟨if b = 0 then .v0 else .v1, Codec.fromU64 codecNum, HashType.fromU64 hashNum, hashSize⟩

end Ngfs.Cid
