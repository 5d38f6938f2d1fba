import Verif.Spec.Protobuf
import Verif.Model.Multiaddr

/-! What the bytes of a multiaddress say, by the binary format of the multiaddr specification. Only the type of addresses is shared with
the model. -/
namespace Ngfs.Spec
open Multiaddr (Addr)

/-- What follows the code of a protocol, for the protocols that are known: the octets of an IP address, a port with the high byte first,
nothing. -/
inductive AddrContents : Nat → Bytes → Addr → Prop
  | ip4 {octets : Bytes} (h : octets.length = 4) : AddrContents 4 octets (.ip4 octets)
  | ip6 {octets : Bytes} (h : octets.length = 16) : AddrContents 41 octets (.ip6 octets)
  | tcp (hi lo : UInt8) : AddrContents 6 [hi, lo] (.tcp (hi.toNat * 256 + lo.toNat))
  | udp (hi lo : UInt8) : AddrContents 273 [hi, lo] (.udp (hi.toNat * 256 + lo.toNat))
  | quic : AddrContents 460 [] .quic

/-- One component: the code of the protocol as a varint, then what follows it. -/
def IsComponent (bytes : Bytes) (a : Addr) : Prop :=
  ∃ code n contents, bytes = code ++ contents ∧ Denotes code n ∧ AddrContents n contents a

/-- The address that some bytes are: component after component; from the first place at which no known component stands, the bytes as
they are. -/
inductive IsMultiaddr : Bytes → List Addr → Prop
  | nil : IsMultiaddr [] []
  | cons {p rest : Bytes} {a : Addr} {as : List Addr} (h : IsComponent p a) (more : IsMultiaddr rest as) :
      IsMultiaddr (p ++ rest) (a :: as)
  | other {bytes : Bytes} (ne : bytes ≠ []) (h : ∀ p rest a, bytes = p ++ rest → ¬ IsComponent p a) : IsMultiaddr bytes [.invalid bytes]

/-- The code of some component, none before it being unknown, takes more bytes than it needs. -/
inductive PaddedCode : Bytes → Prop
  | here {code shorter contents rest : Bytes} {n : Nat} {a : Addr} (hc : Denotes code n) (ha : AddrContents n contents a)
      (hs : Denotes shorter n) (hl : shorter.length < code.length) : PaddedCode (code ++ contents ++ rest)
  | later {p rest : Bytes} {a : Addr} (h : IsComponent p a) (more : PaddedCode rest) : PaddedCode (p ++ rest)

end Ngfs.Spec
