import Verif.Model.Handler
import Verif.Spec.Io

/-!
What a user of the bitswap handler relies on, independently of its loops. From the model only the message and block
types, the decoders of their own (properties C10, C15, C42) and the events of the log are used.
-/
namespace Ngfs.Spec.Handler
open Ngfs.Handler Ngfs.Bitswap Ngfs.Cid Ngfs.Dagpb Ngfs.Spec.Io

/-- The two hash functions the protocol implementation supports. -/
def digestOf (sha256 blake2b256 : Bytes → Bytes) : HashType → Option (Bytes → Bytes)
  | .sha2256 => some sha256
  | .blake2b256 => some blake2b256
  | _ => none

/-- `c` is the identifier of the block: version, codec and hash function as in its prefix, and the digest of its
data. -/
def Identifies (sha256 blake2b256 : Bytes → Bytes) (b : Block) (c : CID) : Prop :=
  ∃ p hash, Prefix.fromBytes b.pfx = .ok p ∧ c.version = p.version ∧ c.codec = p.codec ∧ c.hashType = p.hashType ∧
    digestOf sha256 blake2b256 p.hashType = some hash ∧ c.hash = hash b.data

/-- The block is a directory with these entries. -/
def Lists (b : Block) (entries : List DirectoryEntry) : Prop := nodeFromDagpbData b.data = .ok entries

/-- The identifiers shown, in order. -/
def identifiers (log : List Event) : List CID :=
  log.filterMap fun | .identifier c => some c | _ => none

/-- The directories shown, in order. -/
def listings (log : List Event) : List (List DirectoryEntry) :=
  log.filterMap fun | .directory es => some es | _ => none

/-- The stream begins with messages that all decode, and these are the blocks in them. -/
def Blocks (bs : Bytes) (blocks : List Block) : Prop :=
  ∃ ms msgs, Messages bs ms ∧ List.Forall₂ (fun m msg => Message.fromPb m = .ok msg) ms msgs ∧
    blocks = msgs.flatMap (·.blocks)

/-- A message that asks for exactly one block, the one named by `c`. -/
def AsksFor (message : Bytes) (c : CID) : Prop :=
  ∃ name, fromBytes name = .ok c ∧ Message.fromPb message =
    .ok { wantlist := some ⟨[⟨name, 1, false, .block, true⟩], false⟩, blocks := [], payload := [], blockPresence := [],
          pendingBytes := none }

end Ngfs.Spec.Handler
