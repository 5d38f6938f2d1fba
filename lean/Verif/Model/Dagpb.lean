import Verif.Model.Cid

/-!
Model of `/repo/src/ipfs/dagpb.rs`, `/repo/src/ipfs/unixfs.rs` and `/repo/src/ipfs/fs.rs`.

The local variables of each `from_pb` are the state of `forFields`; its `match field.field_number` is the step. The
`HashSet<String>` of `Directory::from_dagpb` is a list used only for membership.
-/
namespace Ngfs.Protobuf

/-- `opt.ok_or(err)?`. -/
def okOr {α} (o : Option α) (e : FromPBError) : Except FromPBError α :=
  match o with
  | some a => .ok a
  | none => .error e

end Ngfs.Protobuf

namespace Ngfs.Dagpb
open Protobuf Cid

/-- `PBLink`, dagpb.rs 8-12. -/
structure PBLink where
  hash : CID
  name : Option String
  tsize : Option Nat
deriving DecidableEq, Repr

/-- `ToPB for PBLink`, dagpb.rs 24-36. -/
def PBLink.toPb (l : PBLink) : Except Panic Bytes := do
  let w ← writeBytes [] 1 l.hash.toBytes
  let w ← match l.name with
    | some name => writeString w 2 name
    | none => .ok w
  match l.tsize with
    | some tsize => writeUint64 w 3 tsize
    | none => .ok w

/-- The locals of `PBLink::from_pb`, dagpb.rs 41-43. -/
structure LinkState where
  hash : Option Bytes := none
  name : Option String := none
  tsize : Option Nat := none
deriving DecidableEq, Repr

/-- The `match field.field_number` of `PBLink::from_pb`, dagpb.rs 48-64. -/
def linkStep (s : LinkState) (f : FieldRef) : Except FromPBError LinkState :=
  match f.fieldNumber with
  | 1 => match s.hash with
    | some _ => .error (.duplicateField "hash")
    | none => do .ok { s with hash := some (← ok? f.data.toBytes) }
  | 2 => match s.name with
    | some _ => .error (.duplicateField "name")
    | none => do .ok { s with name := some (← ok? f.data.toStr) }
  | 3 => match s.tsize with
    | some _ => .error (.duplicateField "tsize")
    | none => do .ok { s with tsize := some (← ok? f.data.toUint64) }
  | _ => .ok s

/-- `FromPB for PBLink`, dagpb.rs 38-72. -/
def PBLink.fromPb (rawData : Bytes) : Except FromPBError PBLink := do
  let s ← forFields linkStep {} (Reader.new rawData)
  let hash ← okOr s.hash (.missingField "hash")
  match Cid.fromBytes hash with
  | .ok hash => .ok ⟨hash, s.name, s.tsize⟩
  | .error _ => .error (.plain "Invalid cid")

/-- `PBNode`, dagpb.rs 74-77. -/
structure PBNode where
  links : List PBLink
  bytes : Option Bytes
deriving DecidableEq, Repr

/-- The `for link in self.links.iter()` loop of `PBNode::to_pb`, dagpb.rs 91-93. -/
def writeLinks (w : Bytes) : List PBLink → Except Panic Bytes
  | [] => .ok w
  | l :: links => do
    let b ← l.toPb
    let w ← writeBytes w 2 b
    writeLinks w links

/-- `ToPB for PBNode`, dagpb.rs 88-99. -/
def PBNode.toPb (n : PBNode) : Except Panic Bytes := do
  let w ← writeLinks [] n.links
  match n.bytes with
  | some bytes => writeBytes w 1 bytes
  | none => .ok w

/-- The `match field.field_number` of `PBNode::from_pb`, dagpb.rs 115-124; the locals of 108-109 are a `PBNode`. -/
def nodeStep (s : PBNode) (f : FieldRef) : Except FromPBError PBNode :=
  match f.fieldNumber with
  | 2 => do
    let b ← ok? f.data.toBytes
    let l ← PBLink.fromPb b
    .ok { s with links := s.links ++ [l] }
  | 1 => match s.bytes with
    | some _ => .error (.duplicateField "bytes")
    | none => do .ok { s with bytes := some (← ok? f.data.toBytes) }
  | _ => .ok s

/-- `FromPB for PBNode`, dagpb.rs 101-129. -/
def PBNode.fromPb (rawData : Bytes) : Except FromPBError PBNode :=
  if rawData.isEmpty then .ok ⟨[], none⟩
  else forFields nodeStep ⟨[], none⟩ (Reader.new rawData)

/-! ### unixfs.rs -/

/-- `DataType`, unixfs.rs 7-14. -/
inductive DataType where
  | raw | directory | file | metadata | symlink | hamtShard
deriving DecidableEq, Repr

/-- `DataType::from_u64`, unixfs.rs 17-27. -/
def DataType.fromU64 (code : Nat) : Except FromPBError DataType :=
  match code with
  | 0 => .ok .raw
  | 1 => .ok .directory
  | 2 => .ok .file
  | 3 => .ok .metadata
  | 4 => .ok .symlink
  | 5 => .ok .hamtShard
  | _ => .error (.plain "unknown data type")

/-- `DataType::to_u8`, unixfs.rs 29-38. -/
def DataType.toU8 : DataType → UInt8
  | .raw => 0
  | .directory => 1
  | .file => 2
  | .metadata => 3
  | .symlink => 4
  | .hamtShard => 5

/-- `UnixTime`, unixfs.rs 137-140. -/
structure UnixTime where
  seconds : Int
  fractionalNanoseconds : Option Nat
deriving DecidableEq, Repr

/-- The locals of `UnixTime::from_pb`, unixfs.rs 144-145. -/
structure TimeState where
  seconds : Option Int := none
  fractionalNanoseconds : Option Nat := none
deriving DecidableEq, Repr

/-- unixfs.rs 149-159. -/
def timeStep (s : TimeState) (f : FieldRef) : Except FromPBError TimeState :=
  match f.fieldNumber with
  | 1 => match s.seconds with
    | some _ => .error (.duplicateField "seconds")
    | none => do .ok { s with seconds := some (← ok? f.data.toInt64) }
  | 2 => match s.fractionalNanoseconds with
    | some _ => .error (.duplicateField "fractional_nanoseconds")
    | none => do .ok { s with fractionalNanoseconds := some (← ok? f.data.toFixed32) }
  | _ => .ok s

/-- `FromPB for UnixTime`, unixfs.rs 142-165. -/
def UnixTime.fromPb (rawData : Bytes) : Except FromPBError UnixTime := do
  let s ← forFields timeStep {} (Reader.new rawData)
  let seconds ← okOr s.seconds (.missingField "seconds")
  .ok ⟨seconds, s.fractionalNanoseconds⟩

/-- `Data`, unixfs.rs 41-50. -/
structure Data where
  type_ : DataType
  data : Option Bytes
  filesize : Option Nat
  blocksizes : List Nat
  hashType : Option Nat
  fanout : Option Nat
  mode : Option Nat
  mtime : Option UnixTime
deriving DecidableEq, Repr

/-- The locals of `Data::from_pb`, unixfs.rs 72-79. -/
structure DataState where
  type_ : Option DataType := none
  data : Option Bytes := none
  filesize : Option Nat := none
  blocksizes : List Nat := []
  hashType : Option Nat := none
  fanout : Option Nat := none
  mode : Option Nat := none
  mtime : Option UnixTime := none
deriving DecidableEq, Repr

/-- unixfs.rs 83-114. -/
def dataStep (s : DataState) (f : FieldRef) : Except FromPBError DataState :=
  match f.fieldNumber with
  | 1 => match s.type_ with
    | some _ => .error (.duplicateField "type")
    | none => do
      let n ← ok? f.data.toUint64
      let t ← DataType.fromU64 n
      .ok { s with type_ := some t }
  | 2 => match s.data with
    | some _ => .error (.duplicateField "data")
    | none => do .ok { s with data := some (← ok? f.data.toBytes) }
  | 3 => match s.filesize with
    | some _ => .error (.duplicateField "filesize")
    | none => do .ok { s with filesize := some (← ok? f.data.toUint64) }
  | 4 => do .ok { s with blocksizes := s.blocksizes ++ [← ok? f.data.toUint64] }
  | 5 => match s.hashType with
    | some _ => .error (.duplicateField "hash_type")
    | none => do .ok { s with hashType := some (← ok? f.data.toUint64) }
  | 6 => match s.fanout with
    | some _ => .error (.duplicateField "fanout")
    | none => do .ok { s with fanout := some (← ok? f.data.toUint64) }
  | 7 => match s.mode with
    | some _ => .error (.duplicateField "mode")
    | none => do .ok { s with mode := some (← ok? f.data.toUint32) }
  | 8 => match s.mtime with
    | some _ => .error (.duplicateField "duplicate mtime")
    | none => do
      let b ← ok? f.data.toBytes
      let t ← UnixTime.fromPb b
      .ok { s with mtime := some t }
  | _ => .ok s

/-- `FromPB for Data`, unixfs.rs 70-129. -/
def Data.fromPb (rawData : Bytes) : Except FromPBError Data := do
  let s ← forFields dataStep {} (Reader.new rawData)
  let type_ ← okOr s.type_ (.missingField "type")
  .ok ⟨type_, s.data, s.filesize, s.blocksizes, s.hashType, s.fanout, s.mode, s.mtime⟩

/-! ### fs.rs -/

/-- `DirectoryEntry`, fs.rs 21-25. -/
structure DirectoryEntry where
  cid : CID
  name : String
  tsize : Nat
deriving DecidableEq, Repr

/-- `DecodeError`, fs.rs 44-52; `Other` keeps the underlying error in place of its text. -/
inductive FsError where
  | missingData
  | entryMissingFilename (index : Nat)
  | entryMissingSize (index : Nat)
  | entryDuplicateFilename (name : String)
  | other (e : FromPBError)
  | unimplemented (op : String)
deriving DecidableEq, Repr

/-- The loop of `Directory::from_dagpb`, fs.rs 111-136 (`usize` is 64 bits, so `size as usize` keeps the value). -/
def dirLoop (index : Nat) (entries : List DirectoryEntry) (names : List String) :
    List PBLink → Except FsError (List DirectoryEntry)
  | [] => .ok entries
  | link :: links =>
    match link.name with
    | none => .error (.entryMissingFilename index)
    | some name =>
      if name.isEmpty then .error (.entryMissingFilename index)
      else if names.contains name then .error (.entryDuplicateFilename name)
      else match link.tsize with
        | none => .error (.entryMissingSize index)
        | some size => dirLoop (index + 1) (entries ++ [⟨link.hash, name, size⟩]) (names ++ [name]) links

/-- `Directory::from_dagpb`, fs.rs 107-139; the result is `Directory.entries`. -/
def directoryFromDagpb (node : PBNode) : Except FsError (List DirectoryEntry) := dirLoop 0 [] [] node.links

/-- `Node::from_dagpb_data`, fs.rs 82-97. Only directories are implemented (fs.rs 100-104 and 142-164), so an `Ok`
result is always `Node::Directory` and is represented by its entries. -/
def nodeFromDagpbData (data : Bytes) : Except FsError (List DirectoryEntry) :=
  match PBNode.fromPb data with
  | .error e => .error (.other e)
  | .ok node =>
    match node.bytes with
    | none => .error .missingData
    | some bytes =>
      match Data.fromPb bytes with
      | .error e => .error (.other e)
      | .ok d =>
        match d.type_ with
        | .raw => .error (.unimplemented "Raw")
        | .directory => directoryFromDagpb node
        | .file => .error (.unimplemented "File")
        | .metadata => .error (.unimplemented "Metadata")
        | .symlink => .error (.unimplemented "Symlink")
        | .hamtShard => .error (.unimplemented "HAMTShard")

end Ngfs.Dagpb
