import Verif.Model.Transport
import Verif.Model.Utf8

/-!
Model of the program `/repo/src/bin/udptest.rs`: what it prints and sends. The addresses (14-15) and where the output goes (standard
output or standard error, 25, 29) are left out; `lossy` is `String::from_utf8_lossy`.
-/
namespace Ngfs.UdpTest

/-- What the socket of the server brings: a datagram, or an error. -/
inductive Arrival where
  | datagram (data : Bytes)
  | fails (k : IoKind)

/-- `UdpSocket::recv` into a buffer: the operating system drops what does not fit in. -/
def recv (buffer : Nat) (data : Bytes) : Bytes := data.take buffer

/-- `println!`, udptest.rs 51. -/
def line (lossy : Bytes → String) (data : Bytes) : String := "Server: Received \"" ++ lossy data ++ "\"\n"

/-- `println!`, udptest.rs 45. -/
def created : String := "Server: Created socket\n"

/-- The loop of `server`, udptest.rs 47-52: what each `println!` prints, and the error the loop ends with; `none` if it waits. -/
def serverLoop (lossy : Bytes → String) : List Arrival → List String × Option IoKind
  | [] => ([], none)
  | .fails k :: _ => ([], some k)
  | .datagram data :: es => (line lossy (recv 1024 data) :: (serverLoop lossy es).1, (serverLoop lossy es).2)

/-- `server`, udptest.rs 43-53; `bound` is the result of `UdpSocket::bind`. -/
def server (lossy : Bytes → String) (bound : Except IoKind Unit) (es : List Arrival) : List String × Option IoKind :=
  match bound with
  | .error k => ([], some k)
  | .ok () => (created :: (serverLoop lossy es).1, (serverLoop lossy es).2)

/-- `client`, udptest.rs 35-41: what is printed, the datagrams sent, and the result; `sent` is the result of `send_to`. -/
def client (bound sent : Except IoKind Unit) : List String × List Bytes × Except IoKind Unit :=
  match bound with
  | .error k => ([], [], .error k)
  | .ok () =>
    match sent with
    | .error k => (["Client: Created socket\n"], [], .error k)
    | .ok () => (["Client: Created socket\n", "Client: Sent data\n"], [[104, 101, 108, 108, 111]], .ok ())

end Ngfs.UdpTest
