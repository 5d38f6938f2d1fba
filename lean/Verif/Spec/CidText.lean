import Verif.Spec.Cid
import Verif.Spec.Protobuf
import Verif.Spec.MultibaseRead

/-! Which texts are content identifiers, by the decoding algorithm of the CID specification. -/
namespace Ngfs.Spec
open Cid Multibase

/-- The bytes of an identifier of version 0: a SHA2-256 multihash. -/
def BytesV0 (data : Bytes) (c : CID) : Prop :=
  ∃ hash, hash.length = 32 ∧ data = [0x12, 0x20] ++ hash ∧ c = ⟨.v0, .dagPB, .sha2256, hash⟩

/-- The bytes of an identifier of version 1: the version, the codec, the code of the hash function, the length of the digest, the digest. -/
def BytesV1 (data : Bytes) (c : CID) : Prop :=
  c.version = .v1 ∧ ValidCodec c.codec ∧ ValidHashType c.hashType ∧
    ∃ codec hash len, data = [1] ++ codec ++ hash ++ len ++ c.hash ∧
      Denotes codec c.codec.toU64 ∧ Denotes hash c.hashType.toU64 ∧ Denotes len c.hash.length

/-- The text begins with the code of a base and stands for the data in it. -/
def MultibaseText (text : List Char) (data : Bytes) : Prop :=
  ∃ c base rest, text = c :: rest ∧ (c, base) ∈ baseCodes ∧ StandsFor base rest data

/-- The decoding algorithm of the specification: 46 characters that begin with `Qm` are version 0 in base 58; every other text is
multibase, and then not version 0. -/
def CidText (text : List Char) (c : CID) : Prop :=
  if text.length = 46 ∧ ['Q', 'm'] <+: text then ∃ data, StandsFor .base58BTC text data ∧ BytesV0 data c
  else ∃ data, MultibaseText text data ∧ BytesV1 data c

end Ngfs.Spec
