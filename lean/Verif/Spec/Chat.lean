import Verif.Model.Utf8

/-! What the chat server promises its clients, said without the server. -/
namespace Ngfs.Spec.Chat

/-- How a text is shown: between quotes, with quotes and line ends marked by a backslash. -/
def quoted (t : List Char) : List Char :=
  ['"'] ++ t.flatMap (fun c => match c with | '"' => ['\\', '"'] | '\r' => ['\\', 'r'] | '\n' => ['\\', 'n'] | c => [c]) ++ ['"']

/-- The line every client is sent when client number `sender` says `t`. -/
def line (sender : Nat) (t : String) : Bytes :=
  utf8Encode "Received from " ++ utf8Encode (toString sender) ++ utf8Encode ": " ++ utf8Encode (String.ofList (quoted t.toList)) ++ [10]

/-- A conversation: who said what, in order. -/
abbrev Talk := List (Nat × Bytes)

/-- What a client sees of a conversation; `text` reads bytes as text. -/
def seen (text : Bytes → String) (q : Talk) : Bytes := (q.map (fun x => line x.1 (text x.2))).flatten

/-- What `j` said in a conversation. -/
def saidBy (j : Nat) (q : Talk) : List Bytes := (q.filter (fun x => x.1 = j)).map (·.2)

/-- Cut a byte string after every line end: the complete lines, and what follows the last of them. -/
def cut : Bytes → List Bytes × Bytes
  | [] => ([], [])
  | b :: bs =>
    if b = 10 then ([10] :: (cut bs).1, (cut bs).2)
    else
      match cut bs with
      | ([], r) => ([], b :: r)
      | (l :: ls, r) => ((b :: l) :: ls, r)

/-- The number a line gives as its sender: the digits after `Received from `. -/
def senderOf (l : Bytes) : Nat :=
  ((l.drop 14).takeWhile (fun b => 48 ≤ b.toNat ∧ b.toNat ≤ 57)).foldl (fun n b => 10 * n + (b.toNat - 48)) 0

end Ngfs.Spec.Chat
