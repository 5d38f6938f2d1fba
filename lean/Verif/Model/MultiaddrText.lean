import Verif.Model.Multiaddr
import Verif.Model.Asn1Print

/-!
Model of the text of addresses, `/repo/src/libp2p/multiaddr.rs` 156-213. The text that the standard library gives to an
IPv6 address is a parameter.
-/
namespace Ngfs.Multiaddr
open Ngfs.Asn1 (txt decimal)
open Ngfs.Util (toHex)

/-- The text that the standard library gives to an IPv4 address: the four numbers in decimal with dots between. -/
def ip4Text : Bytes → List Char
  | [] => []
  | [b] => decimal b.toNat
  | b :: bs => decimal b.toNat ++ ['.'] ++ ip4Text bs

/-- `fmt` of an address, multiaddr.rs 156-168. -/
def Addr.text (ip6Text : Bytes → List Char) : Addr → List Char
  | .ip4 octets => txt "/ipv4/" ++ ip4Text octets
  | .ip6 octets => txt "/ipv6/" ++ ip6Text octets
  | .tcp port => txt "/tcp/" ++ decimal port
  | .udp port => txt "/udp/" ++ decimal port
  | .quic => txt "/quic"
  | .unknown proto data => txt "/unknown/" ++ decimal proto ++ ['/'] ++ toHex data
  | .invalid data => txt "/invalid/" ++ toHex data

/-- `fmt` of a sequence of addresses, multiaddr.rs 198-205. -/
def text (ip6Text : Bytes → List Char) (addrs : List Addr) : List Char := addrs.flatMap (Addr.text ip6Text)

end Ngfs.Multiaddr
