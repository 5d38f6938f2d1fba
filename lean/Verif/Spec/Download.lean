import Verif.Model.Download
import Verif.Spec.Peer

/-!
Vocabulary for the claims about the downloader (C113-C118). Of the model only the types of messages, sources, results, states and actions are used.
-/
namespace Ngfs.Spec.Download
open Ngfs.Download
open Ngfs.Spec.Torrent (Field HandshakeWire)

/-- Identifier and fields of a message, BEP 3; messages of all other kinds are left as they are. -/
inductive Means : Message → Bytes → Prop
  | keepAlive : Means .keepAlive []
  | choke : Means .choke [0]
  | unchoke : Means .unchoke [1]
  | interested : Means .interested [2]
  | notInterested : Means .notInterested [3]
  | have {i f} : Field 4 i f → Means (.have i) (4 :: f)
  | bitField {data} : Means (.bitField data) (5 :: data)
  | piece {i b block fi fb} : Field 4 i fi → Field 4 b fb → Means (.piece i b block) (7 :: (fi ++ fb ++ block))
  | unknown {id data} : (6 ≤ id.toNat ∧ id.toNat ≠ 7) → Means (.unknown id data) (id :: data)

/-- A message as it is sent: its length, then its body. -/
inductive Frame : Message → Bytes → Prop
  | mk {m len body} : Field 4 body.length len → Means m body → Frame m (len ++ body)

/-- A message that ends before its length says: not even the length is there, or it is and not as many bytes follow it. -/
inductive CutOff : Bytes → Prop
  | inLength {bs} : bs.length < 4 → CutOff bs
  | inBody {len n part} : Field 4 n len → part.length < n → CutOff (len ++ part)

/-- The bytes begin with a complete message, and its body does not have the length it should. -/
inductive Malformed : Bytes → Prop
  | mk {len body more} : Field 4 body.length len → (∀ m, ¬ Means m body) → Malformed (len ++ body ++ more)

/-- Why the reader stops at bytes it cannot turn into a message. -/
inductive Stops : Ending → Bytes → Got Unit → Prop
  | malformed {e bs} : Malformed bs → Stops e bs (.failed .badLength)
  | broken {bs} : CutOff bs → Stops .error bs (.failed .broken)
  | silent {bs} : CutOff bs → Stops .silent bs .waiting
  | eof {bs} : bs.length < 4 → Stops .eof bs (.failed .unexpectedEof)

/-- The messages the reader got: those that came while it was reading. -/
def heard : State → List Action → List Message
  | _, [] => []
  | s, .received m :: as => (if s.reader = .reading ∧ s.panicked = false then [m] else []) ++ heard (s.step (.received m)) as
  | s, a :: as => heard (s.step a) as

/-- The peer currently lets us ask for blocks: the last message about it was "unchoke". -/
def Unchoked (ms : List Message) : Prop := ∃ before after, ms = before ++ .unchoke :: after ∧ .choke ∉ after

/-- The bytes of the three messages: that we have no piece, that we are interested, and that we want the first 16 KiB. -/
structure Conversation (piecesLen : Nat) (bitField interested request : Bytes) : Prop where
  bitField : Torrent.Wire (.bitField (List.replicate ((piecesLen + 7) / 8) 0)) bitField
  interested : Torrent.Wire .interested interested
  request : Torrent.Wire (.request ⟨0, 0, 16384⟩) request

/-- Nothing happens any more unless something comes from the peer. -/
def Stuck (s : State) : Prop := ∀ a, (∀ m, a ≠ .received m) → a ≠ .receiveError → s.step a = s

/-- The program has come to its end. -/
def Finished (s : State) : Prop := s.reader = .returned ∧ s.writer = .returned ∧ s.panicked = false

/-- Nothing goes wrong with the connection, and the peer sends bit fields of the right length. -/
def Fine (piecesLen : Nat) : Action → Prop
  | .receiveError => False
  | .writeError _ => False
  | .received (.bitField b) => b.length = (piecesLen + 7) / 8
  | _ => True

end Ngfs.Spec.Download
