import Verif.Spec.TlsHandshake

/-!
Vocabulary for C157: which messages of a server make a TLS client crash.
-/
namespace Ngfs.Tls

/-- A handshake message whose type is 24, "KeyUpdate" (RFC 8446, 4). -/
def IsKeyUpdate (raw : Bytes) : Prop := raw.head? = some 24

/-- A handshake message whose type is 20, "Finished", but which does not contain as many bytes as the hash has (with
the four bytes for type and length). -/
def IsOddFinished (alg : HashAlg) (raw : Bytes) : Prop := raw.head? = some 20 ∧ raw.length ≠ 4 + hashLen alg

/-- The first record (apart from those of the type ChangeCipherSpec) is an unprotected handshake message. -/
def ArrivedFirst (raw total : Bytes) : Prop :=
  ∃ (w : WireRecord) (all : List WireRecord) (rest : Bytes), (∀ w ∈ all, w.Legal) ∧
    all.filter (fun w => w.typ != 20) = [w] ∧ total = wire all ++ rest ∧ w.typ = 22 ∧ w.fragment = raw

/-- What arrives during the handshake contains one of the two messages: a KeyUpdate instead of ServerHello, or, under
the key agreed on with ServerHello and as the last one of the messages so far, a KeyUpdate or an odd Finished. -/
def CrashingHandshake {X K : Type} (cr : Crypto X K) (privateKey : K) (ch total : Bytes) : Prop :=
  (∃ raw, ArrivedFirst raw total ∧ IsKeyUpdate raw) ∨
  ∃ shRaw sh ciphers hsSecret hsServer before raw rest, Parses cr shRaw (.serverHello sh) ∧
    Agreed cr sh shRaw privateKey ch ciphers hsSecret hsServer ∧
    Arrived cr shRaw (before ++ [raw]) hsServer total rest ∧ (IsKeyUpdate raw ∨ IsOddFinished ciphers.hashAlg raw)

/-- What is still to arrive on a connection contains a KeyUpdate protected with the key of the server, as the last one
of the messages that are accepted. -/
def CrashingData {X K : Type} (cr : Crypto X K) (c : Conn) : Prop :=
  ∃ (all taken : List WireRecord) (msgs : List (UInt8 × Bytes)) (raw rest : Bytes), (∀ w ∈ all, w.Legal) ∧
    c.plaintext.unread = wire all ++ rest ∧ taken.Sublist all ∧
    ProtectsAll cr c.seqenc.trafficSecrets.server c.seqenc.serverSequenceNo taken (msgs ++ [(22, raw)]) ∧ IsKeyUpdate raw

/-- The call crashed. -/
def ConnEvent.Crashed : ConnEvent → Prop
  | .read _ answer => answer = .ready (.error .panic)
  | .write _ answer => answer = .ready (.error .panic)
  | .flush answer => answer = .ready (.error .panic)
  | .shutdown answer => answer = .ready (.error .panic)

end Ngfs.Tls
