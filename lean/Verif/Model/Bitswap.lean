import Verif.Model.Dagpb

/-! Model of `/repo/src/ipfs/bitswap/message.rs` and `/repo/src/ipfs/bitswap/block.rs`. Debug printing is left out;
in `Entry::from_pb` it includes a parse of the identifier whose result is only printed. -/
namespace Ngfs.Bitswap
open Protobuf Cid

/-- `WantType`, message.rs 7-10. -/
inductive WantType where
  | block | have
deriving DecidableEq, Repr

/-- `Entry`, message.rs 13-19; `RawCID` wraps bytes. -/
structure Entry where
  block : Bytes
  priority : Int
  cancel : Bool
  wantType : WantType
  sendDontHave : Bool
deriving DecidableEq, Repr

/-- `ToPB for Entry`, message.rs 21-38. -/
def Entry.toPb (e : Entry) : Except Panic Bytes := do
  let w ← writeBytes [] 1 e.block
  let w ← writeInt32 w 2 e.priority
  let w ← if e.cancel then writeBool w 3 e.cancel else .ok w
  let w ← match e.wantType with
    | .block => writeInt32 w 4 0
    | .have => writeInt32 w 4 1
  if e.sendDontHave then writeBool w 5 e.sendDontHave else .ok w

/-- The locals of `Entry::from_pb`, message.rs 43-47. -/
structure EntryState where
  block : Option Bytes := none
  priority : Int := 1
  cancel : Bool := false
  wantType : WantType := .block
  sendDontHave : Bool := false
deriving DecidableEq, Repr

/-- message.rs 53-75. -/
def entryStep (s : EntryState) (f : FieldRef) : Except FromPBError EntryState :=
  match f.fieldNumber with
  | 1 => do .ok { s with block := some (← ok? f.data.toBytes) }
  | 2 => do .ok { s with priority := ← ok? f.data.toInt32 }
  | 3 => do .ok { s with cancel := ← ok? f.data.toBool }
  | 4 => do
    let v ← ok? f.data.toUint64
    match v with
    | 0 => .ok { s with wantType := .block }
    | 1 => .ok { s with wantType := .have }
    | _ => .error (.plain "Invalid want_type")
  | 5 => do .ok { s with sendDontHave := ← ok? f.data.toBool }
  | _ => .ok s

/-- `FromPB for Entry`, message.rs 40-98. -/
def Entry.fromPb (rawData : Bytes) : Except FromPBError Entry := do
  let s ← forFields entryStep {} (Reader.new rawData)
  let block ← okOr s.block (.missingField "block")
  .ok ⟨block, s.priority, s.cancel, s.wantType, s.sendDontHave⟩

/-- `WantList`, message.rs 101-104. -/
structure WantList where
  entries : List Entry
  full : Bool
deriving DecidableEq, Repr

/-- message.rs 109-111. -/
def writeEntries (w : Bytes) : List Entry → Except Panic Bytes
  | [] => .ok w
  | e :: es => do
    let b ← e.toPb
    let w ← writeBytes w 1 b
    writeEntries w es

/-- `ToPB for WantList`, message.rs 106-117. -/
def WantList.toPb (l : WantList) : Except Panic Bytes := do
  let w ← writeEntries [] l.entries
  if l.full then writeBool w 2 l.full else .ok w

/-- message.rs 129-137; the locals of 121-122 are a `WantList`. -/
def wantListStep (s : WantList) (f : FieldRef) : Except FromPBError WantList :=
  match f.fieldNumber with
  | 1 => do
    let b ← ok? f.data.toBytes
    let e ← Entry.fromPb b
    .ok { s with entries := s.entries ++ [e] }
  | 2 => do .ok { s with full := ← ok? f.data.toBool }
  | _ => .ok s

/-- `FromPB for WantList`, message.rs 119-145. -/
def WantList.fromPb (rawData : Bytes) : Except FromPBError WantList :=
  forFields wantListStep ⟨[], false⟩ (Reader.new rawData)

/-- `Block`, message.rs 148-151. -/
structure Block where
  pfx : Bytes
  data : Bytes
deriving DecidableEq, Repr

/-- `ToPB for Block`, message.rs 153-160. -/
def Block.toPb (b : Block) : Except Panic Bytes := do
  let w ← writeBytes [] 1 b.pfx
  writeBytes w 2 b.data

/-- The locals of `Block::from_pb`, message.rs 164-165. -/
structure BlockState where
  pfx : Option Bytes := none
  data : Option Bytes := none
deriving DecidableEq, Repr

/-- message.rs 170-180. -/
def blockStep (s : BlockState) (f : FieldRef) : Except FromPBError BlockState :=
  match f.fieldNumber with
  | 1 => match s.pfx with
    | some _ => .error (.duplicateField "prefix")
    | none => do .ok { s with pfx := some (← ok? f.data.toBytes) }
  | 2 => match s.data with
    | some _ => .error (.duplicateField "data")
    | none => do .ok { s with data := some (← ok? f.data.toBytes) }
  | _ => .ok s

/-- `FromPB for Block`, message.rs 162-191. -/
def Block.fromPb (rawData : Bytes) : Except FromPBError Block := do
  let s ← forFields blockStep {} (Reader.new rawData)
  let pfx ← okOr s.pfx (.missingField "prefix")
  let data ← okOr s.data (.missingField "data")
  .ok ⟨pfx, data⟩

/-- `BlockPresence`, message.rs 209-212 (`have_` for `Have`, otherwise `DontHave`). -/
structure BlockPresence where
  cid : Bytes
  have_ : Bool
deriving DecidableEq, Repr

/-- `Message`, message.rs 221-227. -/
structure Message where
  wantlist : Option WantList
  blocks : List Block
  payload : List Block
  blockPresence : List BlockPresence
  pendingBytes : Option Nat
deriving DecidableEq, Repr

/-- message.rs 235-237. -/
def writeBlocks (w : Bytes) : List Block → Except Panic Bytes
  | [] => .ok w
  | b :: bs => do
    let p ← b.toPb
    let w ← writeBytes w 3 p
    writeBlocks w bs

/-- `ToPB for Message`, message.rs 229-240. -/
def Message.toPb (m : Message) : Except Panic Bytes := do
  let w ← match m.wantlist with
    | some wantlist => do
      let b ← wantlist.toPb
      writeBytes [] 1 b
    | none => .ok []
  writeBlocks w m.blocks

/-- message.rs 253-260; the locals of 244-248 are a `Message`. -/
def messageStep (s : Message) (f : FieldRef) : Except FromPBError Message :=
  match f.fieldNumber with
  | 1 => match s.wantlist with
    | some _ => .error (.duplicateField "wantlist")
    | none => do
      let b ← ok? f.data.toBytes
      let w ← WantList.fromPb b
      .ok { s with wantlist := some w }
  | 3 => do
    let b ← ok? f.data.toBytes
    let blk ← Block.fromPb b
    .ok { s with blocks := s.blocks ++ [blk] }
  | _ => .ok s

/-- `FromPB for Message`, message.rs 242-271. -/
def Message.fromPb (rawData : Bytes) : Except FromPBError Message :=
  forFields messageStep ⟨none, [], [], [], none⟩ (Reader.new rawData)

/-- `GetBlockCIDError`, block.rs 7: the message. -/
structure GetBlockCIDError where
  text : String
deriving DecidableEq, Repr

/-- `get_block_cid`, block.rs 23-55. `sha256` and `blake2b256` stand for the functions of the `sha2` and `blake2`
crates. -/
def getBlockCid (sha256 blake2b256 : Bytes → Bytes) (pfx : Prefix) (data : Bytes) : Except GetBlockCIDError CID :=
  match pfx.hashType with
  | .sha1 => .error ⟨"Unsupported hash algorithm: Sha1"⟩
  | .sha2256 => .ok ⟨pfx.version, pfx.codec, .sha2256, sha256 data⟩
  | .blake2b256 => .ok ⟨pfx.version, pfx.codec, .blake2b256, blake2b256 data⟩
  | .blake3 => .error ⟨"Unsupported hash algorithm: Blake3"⟩
  | .unknown _ => .error ⟨"Unsupported hash algorithm: Unknown"⟩

/-- The identifier computed for a received block: src/ipfs/bitswap/handler.rs 90-92. The two error types are kept
apart; both end the handler. -/
def receivedBlockCid (sha256 blake2b256 : Bytes → Bytes) (b : Block) : Except (ParseError ⊕ GetBlockCIDError) CID :=
  match Prefix.fromBytes b.pfx with
  | .error e => .error (.inl e)
  | .ok p =>
    match getBlockCid sha256 blake2b256 p b.data with
    | .error e => .error (.inr e)
    | .ok c => .ok c

end Ngfs.Bitswap
