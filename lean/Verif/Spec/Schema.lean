import Verif.Spec.Protobuf
import Verif.Spec.Cid
import Verif.Model.Bitswap
import Verif.Model.Identify

/-!
Protobuf messages by their schemas: what a field says as a value of a type, how often a field may occur, and the schemas of
UnixFS, DAG-PB, Bitswap and Identify. Only the plain record types are shared with the model.
-/
namespace Ngfs.Spec.Schema
open Protobuf (FieldRef FieldData)

/-- The values of the fields with number `n`, in their order. -/
def values (n : Nat) (fs : List FieldRef) : List FieldData := (fs.filter (·.fieldNumber = n)).map (·.data)

/-! ### Types of fields -/

/-- `uint64`. -/
def Uint (d : FieldData) (n : Nat) : Prop := ∃ v, d = .varInt v ∧ Denotes v n

/-- `uint32`. -/
def Uint32 (d : FieldData) (n : Nat) : Prop := Uint d n ∧ n < 2 ^ 32

/-- `int64`: two's complement. -/
def Signed64 (d : FieldData) (x : Int) : Prop := ∃ n : Nat, Uint d n ∧ -2 ^ 63 ≤ x ∧ x < 2 ^ 63 ∧ (2 ^ 64 : Int) ∣ x - n

/-- `int32`: the lower half, in two's complement. -/
def Signed32 (d : FieldData) (x : Int) : Prop := ∃ n : Nat, Uint d n ∧ -2 ^ 31 ≤ x ∧ x < 2 ^ 31 ∧ (2 ^ 32 : Int) ∣ x - n

/-- `sint64`: 0, -1, 1, -2, … are written as 0, 1, 2, 3, …. -/
def Zigzag64 (d : FieldData) (x : Int) : Prop := ∃ n : Nat, Uint d n ∧ ((0 ≤ x ∧ n = 2 * x) ∨ (x < 0 ∧ n = -2 * x - 1))

/-- `sint32`: the same with 32 bits. -/
def Zigzag32 (d : FieldData) (x : Int) : Prop := ∃ n : Nat, Uint32 d n ∧ ((0 ≤ x ∧ n = 2 * x) ∨ (x < 0 ∧ n = -2 * x - 1))

/-- `bool`. -/
def Boolean (d : FieldData) (b : Bool) : Prop := ∃ n, Uint d n ∧ (b = true ↔ n ≠ 0)

/-- `fixed32`: four bytes, the least significant first. -/
def Fixed32 (d : FieldData) (n : Nat) : Prop :=
  ∃ b0 b1 b2 b3 : UInt8, d = .bits32 [b0, b1, b2, b3] ∧ n = b0.toNat + b1.toNat * 256 + b2.toNat * 256 ^ 2 + b3.toNat * 256 ^ 3

/-- `sfixed32`: the same in two's complement. -/
def Sfixed32 (d : FieldData) (x : Int) : Prop := ∃ n, Fixed32 d n ∧ -2 ^ 31 ≤ x ∧ x < 2 ^ 31 ∧ (2 ^ 32 : Int) ∣ x - n

/-- `bytes`. -/
def Raw (d : FieldData) (bs : Bytes) : Prop := d = .bytes bs

/-- `string`: UTF-8. -/
def Text (d : FieldData) (s : String) : Prop := d = .bytes (utf8Encode s)

/-- An enumeration, by its codes. -/
def Enum {α : Type} (code : α → Nat) (d : FieldData) (a : α) : Prop := Uint d (code a)

/-- A message inside a message, or anything else that is written as bytes. -/
def Nested {α : Type} (P : Bytes → α → Prop) (d : FieldData) (a : α) : Prop := ∃ bs, d = .bytes bs ∧ P bs a

/-! ### How often -/

/-- Exactly once. -/
def Once {α : Type} (P : FieldData → α → Prop) (l : List FieldData) (a : α) : Prop := ∃ d, l = [d] ∧ P d a

/-- At most once. -/
def AtMostOnce {α : Type} (P : FieldData → α → Prop) (l : List FieldData) (o : Option α) : Prop := List.Forall₂ P l o.toList

/-- Any number of times: all values, in order. -/
def Each {α : Type} (P : FieldData → α → Prop) (l : List FieldData) (as : List α) : Prop := List.Forall₂ P l as

/-- Any number of times, each time with a value of the type; the last one counts, `default` if there is none. -/
def Last {α : Type} (P : FieldData → α → Prop) (default : α) (l : List FieldData) (a : α) : Prop :=
  (∀ d ∈ l, ∃ x, P d x) ∧ match l.getLast? with | none => a = default | some d => P d a

/-! ### UnixFS (github.com/ipfs/specs, UNIXFS.md) -/

/-- `enum DataType`. -/
def dataTypeCode : Dagpb.DataType → Nat
  | .raw => 0
  | .directory => 1
  | .file => 2
  | .metadata => 3
  | .symlink => 4
  | .hamtShard => 5

/-- `message UnixTime`. -/
def IsUnixTime (bs : Bytes) (t : Dagpb.UnixTime) : Prop :=
  ∃ fs, IsMessage 0 bs fs ∧ Once Signed64 (values 1 fs) t.seconds ∧ AtMostOnce Fixed32 (values 2 fs) t.fractionalNanoseconds

/-- `message Data`. -/
def IsUnixFs (bs : Bytes) (d : Dagpb.Data) : Prop :=
  ∃ fs, IsMessage 0 bs fs ∧ Once (Enum dataTypeCode) (values 1 fs) d.type_ ∧ AtMostOnce Raw (values 2 fs) d.data ∧
    AtMostOnce Uint (values 3 fs) d.filesize ∧ Each Uint (values 4 fs) d.blocksizes ∧ AtMostOnce Uint (values 5 fs) d.hashType ∧
    AtMostOnce Uint (values 6 fs) d.fanout ∧ AtMostOnce Uint32 (values 7 fs) d.mode ∧
    AtMostOnce (Nested IsUnixTime) (values 8 fs) d.mtime

/-! ### DAG-PB -/

/-- The bytes of a content identifier: of version 0 a SHA-256 multihash, of version 1 version, content type and multihash. -/
def IsCid (bs : Bytes) (c : Cid.CID) : Prop :=
  ValidCid c ∧ ((c.version = .v0 ∧ bs = [0x12, 0x20] ++ c.hash) ∨
    (c.version = .v1 ∧ ∃ codec hash len, bs = [1] ++ codec ++ hash ++ len ++ c.hash ∧
      Denotes codec c.codec.toU64 ∧ Denotes hash c.hashType.toU64 ∧ Denotes len c.hash.length))

/-- `message PBLink`. -/
def IsLink (bs : Bytes) (l : Dagpb.PBLink) : Prop :=
  ∃ fs, IsMessage 0 bs fs ∧ Once (Nested IsCid) (values 1 fs) l.hash ∧ AtMostOnce Text (values 2 fs) l.name ∧
    AtMostOnce Uint (values 3 fs) l.tsize

/-- `message PBNode`. -/
def IsNode (bs : Bytes) (n : Dagpb.PBNode) : Prop :=
  ∃ fs, IsMessage 0 bs fs ∧ Each (Nested IsLink) (values 2 fs) n.links ∧ AtMostOnce Raw (values 1 fs) n.bytes

/-! ### Bitswap (github.com/ipfs/specs, BITSWAP.md, version 1.2.0) -/

/-- `enum WantType`. -/
def wantTypeCode : Bitswap.WantType → Nat
  | .block => 0
  | .have => 1

/-- `message Entry`: each part may be repeated, the last one counts. -/
def IsEntry (bs : Bytes) (e : Bitswap.Entry) : Prop :=
  ∃ fs, IsMessage 0 bs fs ∧ values 1 fs ≠ [] ∧ Last Raw e.block (values 1 fs) e.block ∧ Last Signed32 1 (values 2 fs) e.priority ∧
    Last Boolean false (values 3 fs) e.cancel ∧ Last (Enum wantTypeCode) .block (values 4 fs) e.wantType ∧
    Last Boolean false (values 5 fs) e.sendDontHave

/-- `message Wantlist`. -/
def IsWantList (bs : Bytes) (w : Bitswap.WantList) : Prop :=
  ∃ fs, IsMessage 0 bs fs ∧ Each (Nested IsEntry) (values 1 fs) w.entries ∧ Last Boolean false (values 2 fs) w.full

/-- `message Block`. -/
def IsBlock (bs : Bytes) (b : Bitswap.Block) : Prop :=
  ∃ fs, IsMessage 0 bs fs ∧ Once Raw (values 1 fs) b.pfx ∧ Once Raw (values 2 fs) b.data

/-- `message BlockPresence`: type 0 is `Have`, type 1 is `DontHave`. -/
def IsPresence (bs : Bytes) (p : Bitswap.BlockPresence) : Prop :=
  ∃ fs, IsMessage 0 bs fs ∧ Once Raw (values 1 fs) p.cid ∧ Once (Enum fun h => if h then 0 else 1) (values 2 fs) p.have_

/-- The parts of `message Message` that carry requests and blocks. -/
def SaysWantsAndBlocks (fs : List FieldRef) (m : Bitswap.Message) : Prop :=
  AtMostOnce (Nested IsWantList) (values 1 fs) m.wantlist ∧ Each (Nested IsBlock) (values 3 fs) m.blocks

/-- The parts of `message Message` that tell about blocks which are not sent. -/
def SaysPresences (fs : List FieldRef) (m : Bitswap.Message) : Prop :=
  Each (Nested IsPresence) (values 4 fs) m.blockPresence ∧ AtMostOnce Uint (values 5 fs) m.pendingBytes

/-! ### Identify (github.com/libp2p/specs, identify) -/

/-- The codes of the key types: RSA 0, Ed25519 1, Secp256k1 2, ECDSA 3. -/
def keyTypeCode : Identify.KeyType → Nat
  | .rsa => 0
  | .ed25519 => 1
  | .secp256k1 => 2
  | .ecdsa => 3

/-- `message PublicKey`: both parts at least once, the last one counts. -/
def IsKey (bs : Bytes) (k : Identify.PublicKey) : Prop :=
  ∃ fs, IsMessage 0 bs fs ∧ values 1 fs ≠ [] ∧ values 2 fs ≠ [] ∧ Last (Enum keyTypeCode) k.keyType (values 1 fs) k.keyType ∧
    Last Raw k.data (values 2 fs) k.data

/-- `message Identify`, with addresses read as C17 says. -/
def IsIdentify (bs : Bytes) (i : Identify.Identify) : Prop :=
  ∃ fs, IsMessage 0 bs fs ∧ Once (Nested IsKey) (values 1 fs) i.publicKey ∧
    Each (Nested fun b a => a = Multiaddr.fromBytes b) (values 2 fs) i.listenAddrs ∧ Each Text (values 3 fs) i.protocols ∧
    Once (Nested fun b a => a = Multiaddr.fromBytes b) (values 4 fs) i.observedAddr ∧ Once Text (values 5 fs) i.protocolVersion ∧
    Once Text (values 6 fs) i.agentVersion ∧ AtMostOnce Raw (values 8 fs) i.signedPeerRecord

end Ngfs.Spec.Schema
