import Verif.Model.Basic

/-!
Model of `/repo/src/bin/select_test.rs`, the program that waits for datagrams on two sockets.

One round of the loop (42-94, 111-159) is one step; datagrams may arrive between any two rounds. A socket keeps what has arrived and was
not received yet, in order. Dropping a `recv_from` that was not ready takes nothing from the socket (tokio's `UdpSocket::recv_from`
is cancel safe). Binding, the address of the sender and the form of the printed lines are left out.
-/
namespace Ngfs.SelectTest

/-- One of the two sockets. -/
inductive Which where
  | first | second
deriving DecidableEq

/-- What `recv_from` finds: a datagram, or an error of the socket. -/
inductive Item where
  | data (d : Bytes)
  | error
deriving DecidableEq

/-- How the program waits: with `Receiver` (12-34), or with `select` of the futures crate (134), which may take either future if both are
ready. -/
inductive Mode where
  | heap
  | stack (pick : Which)
deriving DecidableEq

/-- What waits in the two sockets, and what was printed: for which socket, and what. -/
structure State where
  queue1 : List Item
  queue2 : List Item
  shown : List (Which × Item)
deriving DecidableEq

/-- Both sockets are bound, 39-40, 108-109. -/
def State.init : State := ⟨[], [], []⟩

/-- `recv_from` into `buf: [u8; 1024]`, 48-52, 56-60: what does not fit is dropped with the datagram. -/
def Item.received : Item → Item
  | .data d => .data (d.take 1024)
  | .error => .error

/-- `MyResult::First`, 71-80, and `Either::Left`, 135-144. -/
def State.showFirst (s : State) (i : Item) (rest : List Item) : State :=
  ⟨rest, s.queue2, s.shown ++ [(.first, i.received)]⟩

/-- `MyResult::Second`, 82-91, and `Either::Right`, 146-156. -/
def State.showSecond (s : State) (i : Item) (rest : List Item) : State :=
  ⟨s.queue1, rest, s.shown ++ [(.second, i.received)]⟩

/-- One round of the loop, 42-94 and 111-159. `Receiver::poll` (25-33) polls the first future first. If nothing is ready the program waits. -/
def State.round (mode : Mode) (s : State) : State :=
  match s.queue1, s.queue2 with
  | [], [] => s
  | i :: rest, [] => s.showFirst i rest
  | [], j :: rest => s.showSecond j rest
  | i :: rest, j :: rest' =>
    match mode with
    | .heap => s.showFirst i rest
    | .stack .first => s.showFirst i rest
    | .stack .second => s.showSecond j rest'

/-- What may happen. -/
inductive Action where
  | arrive (w : Which) (i : Item)
  | round (mode : Mode)
deriving DecidableEq

def State.step (s : State) : Action → State
  | .arrive .first i => { s with queue1 := s.queue1 ++ [i] }
  | .arrive .second i => { s with queue2 := s.queue2 ++ [i] }
  | .round mode => s.round mode

def run (as : List Action) : State := as.foldl State.step State.init

end Ngfs.SelectTest
