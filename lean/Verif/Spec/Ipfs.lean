import Verif.Spec.Io
import Verif.Spec.TlsConn

/-! What a negotiation looks like on the wire, independently of the code. -/
namespace Ngfs.Spec.Ipfs
open Ngfs.Spec.Io Ngfs.Tls

/-- After a stream has ended or failed, nothing more comes from it (there may be further reports of the end). -/
def Orderly : List ReadEvent → Prop
  | [] => True
  | .pending :: es => Orderly es
  | .ready [] :: es => readData es = []
  | .ready (_ :: _) :: es => Orderly es
  | .error _ :: es => readData es = []

/-- After a stream has ended, nothing more comes from it (after other errors, something may). -/
def Settles : List ReadEvent → Prop
  | [] => True
  | .pending :: es => Settles es
  | .ready [] :: es => readData es = []
  | .ready (_ :: _) :: es => Settles es
  | .error k :: es => if k = .unexpectedEof then readData es = [] else Settles es

/-- A list of names as it is sent: the names as messages, possibly with a beginning of a message behind them that is cut off by the length
of the list. -/
def Listing (body : Bytes) (names : List Bytes) : Prop :=
  ∃ bs left, body = bs ++ left ∧ Messages bs names ∧ (left = [] ∨ Unfinished left)

/-- What the remote says in a negotiation: the header, the list of its protocols behind its length, the name of the protocol. -/
def Negotiation (header protocol : Bytes) (names : List Bytes) (bs : Bytes) : Prop :=
  ∃ m1 p body m3, bs = m1 ++ (p ++ (body ++ m3)) ∧ Prefixed m1 header ∧
    IsVarint p ∧ p.length ≤ 10 ∧ body.length = base128 p % 2 ^ 64 ∧ body.length ≤ 65536 ∧ Listing body names ∧
    Prefixed m3 protocol

end Ngfs.Spec.Ipfs
