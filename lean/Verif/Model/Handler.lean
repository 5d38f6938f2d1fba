import Verif.Model.Io
import Verif.Model.Bitswap
import Verif.Model.Identify

/-!
Model of the two protocol handlers of an IPFS node, `/repo/src/ipfs/bitswap/handler.rs` and
`/repo/src/ipfs/identify.rs`, and of the identify client in `/repo/src/bin/ipfs.rs`.

What a handler prints is kept as a log of events. The lines "Before sending request" and "[bitswap] starting" and
the hex dumps are left out.
-/
namespace Ngfs.Handler
open Io Cid Bitswap Dagpb
open Protobuf hiding Reader

/-- `AsyncWriteExt::shutdown().await`. -/
def shutdown (t : Transport) : Poll (Except IoKind Unit) × Transport :=
  match flushLoop t.shutdowns with
  | (r, es) => (r, { t with shutdowns := es })

/-- The errors that end a handler: whatever `?` is applied to in handler.rs 20-127, identify.rs 14-57 and
ipfs.rs 328-343. `panic` stands for a panic. -/
inductive Error where
  | io (k : IoKind)
  | cid (e : ParseError)
  | block (e : ParseError ⊕ GetBlockCIDError)
  | pb (e : FromPBError)
  | fs (e : FsError)
  | panic
  deriving DecidableEq, Repr

/-- What a handler prints, and what it does to the stream besides reading. -/
inductive Event where
  /-- handler.rs 54: the request has been written and flushed. -/
  | requested
  /-- handler.rs 68. -/
  | received (length : Nat)
  /-- handler.rs 63. -/
  | closed
  /-- handler.rs 74. -/
  | undecodable (e : FromPBError)
  /-- handler.rs 82. -/
  | encodedMatches (b : Bool)
  /-- handler.rs 89. -/
  | block (index : Nat)
  /-- handler.rs 93-94. -/
  | identifier (c : CID)
  /-- handler.rs 98. -/
  | node (n : PBNode)
  /-- handler.rs 100 and 103. -/
  | data (d : Option Data)
  /-- handler.rs 110-113. -/
  | directory (entries : List DirectoryEntry)
  /-- handler.rs 124: `flush` has returned. -/
  | flushed
  /-- handler.rs 125: `shutdown` has returned. -/
  | shut
  deriving DecidableEq, Repr

/-- handler.rs 99-105. -/
def showData : Option Bytes → Except FromPBError (Option Data)
  | none => .ok none
  | some bytes =>
    match Data.fromPb bytes with
    | .error e => .error e
    | .ok d => .ok (some d)

/-- The body of the loop over the blocks of a message, handler.rs 89-118: how it ends, and the log. -/
def showBlock (sha256 blake2b256 : Bytes → Bytes) (index : Nat) (b : Block) (log : List Event) :
    Except Error Unit × List Event :=
  match receivedBlockCid sha256 blake2b256 b with
  | .error e => (.error (.block e), log ++ [.block index])
  | .ok c =>
    match PBNode.fromPb b.data with
    | .error e => (.error (.pb e), log ++ [.block index, .identifier c])
    | .ok n =>
      match showData n.bytes with
      | .error e => (.error (.pb e), log ++ [.block index, .identifier c, .node n])
      | .ok d =>
        match nodeFromDagpbData b.data with
        | .error e => (.error (.fs e), log ++ [.block index, .identifier c, .node n, .data d])
        | .ok entries => (.ok (), log ++ [.block index, .identifier c, .node n, .data d, .directory entries])

/-- The loop over the blocks of a message, handler.rs 88-119. -/
def showBlocks (sha256 blake2b256 : Bytes → Bytes) : Nat → List Block → List Event → Except Error Unit × List Event
  | _, [], log => (.ok (), log)
  | index, b :: bs, log =>
    match showBlock sha256 blake2b256 index b log with
    | (.error e, log') => (.error e, log')
    | (.ok (), log') => showBlocks sha256 blake2b256 (index + 1) bs log'

/-- The loop of `bitswap_handler_inner`, handler.rs 59-122. Every round but the last takes at least a byte. -/
def loop (sha256 blake2b256 : Bytes → Bytes) : Nat → Reader → List Event →
    Poll (Except Error Unit) × Reader × List Event
  | 0, r, log => (.pending, r, log)
  | fuel + 1, r, log =>
    match readOptLengthPrefixed r with
    | (.pending, r') => (.pending, r', log)
    | (.ready (.error k), r') => (.ready (.error (.io k)), r', log)
    | (.ready (.ok none), r') => (.ready (.ok ()), r', log ++ [.closed])
    | (.ready (.ok (some data)), r') =>
      match Message.fromPb data with
      | .error e => (.ready (.ok ()), r', log ++ [.received data.length, .undecodable e])
      | .ok message =>
        match message.toPb with
        | .error _ => (.ready (.error .panic), r', log ++ [.received data.length])
        | .ok encoded =>
          match showBlocks sha256 blake2b256 0 message.blocks
              (log ++ [.received data.length, .encodedMatches (encoded == data)]) with
          | (.error e, log') => (.ready (.error e), r', log')
          | (.ok (), log') => loop sha256 blake2b256 fuel r' log'

/-- Flushing and shutting down the stream, handler.rs 124-126. -/
def finish (r : Reader) (log : List Event) : Poll (Except Error Unit) × Reader × List Event :=
  match flush r.t with
  | (.pending, t) => (.pending, { r with t := t }, log)
  | (.ready (.error k), t) => (.ready (.error (.io k)), { r with t := t }, log)
  | (.ready (.ok ()), t) =>
    match shutdown t with
    | (.pending, t') => (.pending, { r with t := t' }, log ++ [.flushed])
    | (.ready (.error k), t') => (.ready (.error (.io k)), { r with t := t' }, log ++ [.flushed])
    | (.ready (.ok ()), t') => (.ready (.ok ()), { r with t := t' }, log ++ [.flushed, .shut])

/-- The request of handler.rs 33-50. -/
def requestMessage (c : CID) : Message where
  wantlist := some ⟨[⟨c.toBytes, 1, false, .block, true⟩], false⟩
  blocks := []
  payload := []
  blockPresence := []
  pendingBytes := none

/-- Sending the request, handler.rs 26-55. -/
def ask : Option (List Char) → Reader → Poll (Except Error Unit) × Reader × List Event
  | none, r => (.ready (.ok ()), r, [])
  | some text, r =>
    match fromText text with
    | .error e => (.ready (.error (.cid e)), r, [])
    | .ok c =>
      match (requestMessage c).toPb with
      | .error _ => (.ready (.error .panic), r, [])
      | .ok pb =>
        match request r pb with
        | (.pending, r') => (.pending, r', [])
        | (.ready (.error k), r') => (.ready (.error (.io k)), r', [])
        | (.ready (.ok ()), r') => (.ready (.ok ()), r', [.requested])

/-- `bitswap_handler_inner`, handler.rs 20-127, called with `show` by `bitswap_handler_show` (129-141) and without by
`bitswap_handler` (143-155). -/
def handle (sha256 blake2b256 : Bytes → Bytes) (want : Option (List Char)) (r : Reader) :
    Poll (Except Error Unit) × Reader × List Event :=
  match ask want r with
  | (.pending, r', log) => (.pending, r', log)
  | (.ready (.error e), r', log) => (.ready (.error e), r', log)
  | (.ready (.ok ()), r', log) =>
    match loop sha256 blake2b256 (scriptSize r'.t.reads + 1) r' log with
    | (.pending, r'', log') => (.pending, r'', log')
    | (.ready (.error e), r'', log') => (.ready (.error e), r'', log')
    | (.ready (.ok ()), r'', log') => finish r'' log'

/-! ### identify -/

/-- The message of identify.rs 18-50; `publicKey` is the public half of the node's key pair. -/
def identifyMessage (publicKey : Bytes) : Identify.Identify where
  protocolVersion := "ipfs/0.1.0"
  agentVersion := "test/0.0.0"
  publicKey := ⟨.ed25519, publicKey⟩
  listenAddrs := [[.ip4 [127, 0, 0, 1], .tcp 4001]]
  observedAddr := [.ip4 [127, 0, 0, 1], .tcp 4004]
  protocols := ["/ipfs/id/1.0.0", "/ipfs/bitswap/1.2.0"]
  signedPeerRecord := none

/-- `identify_handler_inner`, identify.rs 14-57. -/
def identify (publicKey : Bytes) (r : Reader) : Poll (Except Error Unit) × Reader × List Event :=
  match (identifyMessage publicKey).toPb with
  | .error _ => (.ready (.error .panic), r, [])
  | .ok pb =>
    match writeLengthPrefixed r.t pb with
    | (.pending, t) => (.pending, { r with t := t }, [])
    | (.ready (.error k), t) => (.ready (.error (.io k)), { r with t := t }, [])
    | (.ready (.ok ()), t) => finish { r with t := t } []

/-- `identify_client_inner`, ipfs.rs 328-343: the message that is printed, or `none` if the peer closes the stream. -/
def identifyClient (r : Reader) : Poll (Except Error (Option Identify.Identify)) × Reader :=
  match readOptLengthPrefixed r with
  | (.pending, r') => (.pending, r')
  | (.ready (.error k), r') => (.ready (.error (.io k)), r')
  | (.ready (.ok none), r') => (.ready (.ok none), r')
  | (.ready (.ok (some data)), r') =>
    match Identify.Identify.fromPb data with
    | .error e => (.ready (.error (.pb e)), r')
    | .ok m => (.ready (.ok (some m)), r')

/-! ### The service registry -/

/-- `ServiceRegistry`, `ipfs/node.rs` 22-30: the name a service is looked up by, and its handler (here a value of any
type). -/
abbrev Registry (H : Type) := List (Bytes × H)

/-- `ServiceRegistry::add`, `ipfs/node.rs` 40-46. -/
def Registry.add {H : Type} (r : Registry H) (name : String) (h : H) : Registry H := r ++ [(utf8Encode name ++ [10], h)]

/-- `ServiceRegistry::lookup`, `ipfs/node.rs` 48-55. -/
def Registry.lookup {H : Type} : Registry H → Bytes → Option H
  | [], _ => none
  | (bname, h) :: services, name => if bname = name then some h else Registry.lookup services name

/-- The two services of a node. -/
inductive Service where
  | identify
  | bitswap
  deriving DecidableEq, Repr

/-- `bin/ipfs.rs` 168-170. -/
def nodeRegistry : Registry Service :=
  (Registry.add [] "/ipfs/id/1.0.0" .identify).add "/ipfs/bitswap/1.2.0" .bitswap

end Ngfs.Handler
