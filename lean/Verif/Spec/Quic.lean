import Verif.Model.Quic
import Verif.Spec.Binary

/-!
Vocabulary for the claims about QUIC (C44-C46, C77-C84), after RFC 9000 and RFC 9001.
-/
namespace Ngfs.Spec.Quic
open Ngfs.Quic Binary

/-- RFC 9001 section 5.4.1: what the byte at position `j` of a packet is XORed with. The first byte loses its low four (long
header) or five (short header) bits; its lowest two bits, taken from the unprotected byte `first`, tell how many bytes of packet
number, from `off` on, are masked with the following bytes of the mask. -/
def headerMask (mask : Bytes) (first : UInt8) (off j : Nat) : UInt8 :=
  if j = 0 then mask.getD 0 0 &&& (if first.toNat < 128 then 0x1f else 0x0f)
  else if off ≤ j ∧ j < off + (first.toNat % 4 + 1) then mask.getD (j - off + 1) 0
  else 0

/-- RFC 9001 sections 5.4.1 to 5.4.3: `p'` is the packet `p` with its header protected; `off` is where the packet number is. The mask
is the AES encryption of the 16 bytes that begin 4 bytes after the start of the packet number. -/
def Protected (aes : Bytes → Bytes → Bytes) (hp : Bytes) (off : Nat) (p p' : Bytes) : Prop :=
  ∃ first, p[0]? = some first ∧
    ∀ j, p'[j]? = p[j]?.map (fun b => b ^^^ headerMask (aes hp ((p.drop (off + 4)).take 16)) first off j)

/-- What is needed of the cipher: decryption undoes encryption, and the tag takes 16 bytes. -/
def Correct (c : Crypto) : Prop :=
  ∀ k n a p ct, c.encrypt k n a p = some ct → c.decrypt k n a ct = some p ∧ ct.length = p.length + 16

/-- An ideal cipher: nothing is accepted but what encryption makes. -/
def Authentic (c : Crypto) : Prop := ∀ k n a p ct, c.decrypt k n a ct = some p → c.encrypt k n a p = some ct

/-- RFC 9001 section 5.3: the packet number, padded on the left to twelve bytes, XORed with the initialisation vector. -/
def IsNonce (iv : Bytes) (packetNo : Nat) (nonce : Bytes) : Prop :=
  ∃ pad : Bytes, pad.length = 12 ∧ bigEndian pad = packetNo ∧ nonce = List.zipWith (· ^^^ ·) iv pad

/-- The frame carries bytes of the stream `S`, at their place. -/
def FrameOf (S : Bytes) (f : CryptoFrame) : Prop :=
  f.startOffset + f.data.length ≤ S.length ∧ f.data = (S.drop f.startOffset).take f.data.length

/-- The frame carries the byte at position `i`. -/
def Covers (f : CryptoFrame) (i : Nat) : Prop := f.startOffset ≤ i ∧ i < f.startOffset + f.data.length

/-- No byte is carried by both frames. -/
def Disjoint (f g : CryptoFrame) : Prop := ∀ i, ¬ (Covers f i ∧ Covers g i)

/-- RFC 9000 section 16: a variable-length integer. The top two bits of the first byte tell its length (1, 2, 4 or 8 bytes); the
rest is the number, most significant byte first. -/
def IsVarint (enc : Bytes) (v : Nat) : Prop :=
  ∃ b rest, enc = b :: rest ∧ rest.length + 1 = 2 ^ (b.toNat / 64) ∧ v = b.toNat % 64 * 256 ^ rest.length + bigEndian rest

/-- The transport parameters with a number (RFC 9000 section 18.2) that the library knows. -/
def numericParams : List (Nat × (Nat → Param)) :=
  [(0x01, .maxIdleTimeout), (0x03, .maxUdpPayloadSize), (0x04, .initialMaxData), (0x05, .initialMaxStreamDataBidiLocal),
   (0x06, .initialMaxStreamDataBidiRemote), (0x07, .initialMaxStreamDataUni), (0x08, .initialMaxStreamsBidi),
   (0x09, .initialMaxStreamsUni), (0x0e, .activeConnectionIdLimit)]

/-- What the parameter with identifier `id` and value `raw` is. -/
inductive ParamOf : Nat → Bytes → Param → Prop
  | numeric {id mk raw v} (h : (id, mk) ∈ numericParams) (hv : IsVarint raw v) : ParamOf id raw (mk v)
  | notNumeric {id mk raw} (h : (id, mk) ∈ numericParams) (hv : ¬ ∃ v, IsVarint raw v) : ParamOf id raw (.invalid id raw)
  | source {raw} (h : raw.length ≤ 20) : ParamOf 0x0f raw (.initialSource raw)
  | badSource {raw} (h : 20 < raw.length) : ParamOf 0x0f raw (.invalid 0x0f raw)
  | other {id raw} (h : id ∉ numericParams.map (·.1)) (hs : id ≠ 0x0f) : ParamOf id raw (.unknown id raw)

/-- The form of a list of transport parameters (RFC 9000 section 18): identifier, length of the value, value, and so on. -/
inductive ParamsOf : Bytes → List Param → Prop
  | nil : ParamsOf [] []
  | cons {ide le raw rest id p ps} (hid : IsVarint ide id) (hl : IsVarint le raw.length) (hp : ParamOf id raw p)
      (hr : ParamsOf rest ps) : ParamsOf (ide ++ le ++ raw ++ rest) (p :: ps)

/-- The same with every number in its shortest form. -/
inductive ShortParams : Bytes → Prop
  | nil : ShortParams []
  | cons {ide le raw rest id} (hid : IsVarint ide id) (sid : ∀ e, IsVarint e id → ide.length ≤ e.length)
      (hl : IsVarint le raw.length) (sl : ∀ e, IsVarint e raw.length → le.length ≤ e.length)
      (hv : id ∈ numericParams.map (·.1) → ∀ v, IsVarint raw v → ∀ e, IsVarint e v → raw.length ≤ e.length)
      (hr : ShortParams rest) : ShortParams (ide ++ le ++ raw ++ rest)

/-- The parameters that can be written: numbers below 2^62, connection identifiers of at most 20 bytes, and `unknown` and
`invalid` only for what is unknown and invalid. The original destination connection identifier is not among them. -/
def WellFormed : Param → Prop
  | .originalDst _ => False
  | .initialSource id => id.length ≤ 20
  | .unknown id raw => id < 2 ^ 62 ∧ raw.length < 2 ^ 62 ∧ ParamOf id raw (.unknown id raw)
  | .invalid id raw => id < 2 ^ 62 ∧ raw.length < 2 ^ 62 ∧ ParamOf id raw (.invalid id raw)
  | .maxIdleTimeout v | .maxUdpPayloadSize v | .initialMaxData v | .initialMaxStreamDataBidiLocal v
  | .initialMaxStreamDataBidiRemote v | .initialMaxStreamDataUni v | .initialMaxStreamsBidi v | .initialMaxStreamsUni v
  | .activeConnectionIdLimit v => v < 2 ^ 62

/-- The frames in a payload (RFC 9000 section 19), for the types PADDING, PING, CRYPTO and CONNECTION_CLOSE; `ping` is the type of PING
frames, which is 0x01 in the standard. Padding leaves no trace. -/
inductive FramesOf (ping : UInt8) : Bytes → List Frame → Prop
  | nil : FramesOf ping [] []
  | padding {rest fs} (hr : FramesOf ping rest fs) : FramesOf ping (0x00 :: rest) fs
  | ping {rest fs} (hr : FramesOf ping rest fs) : FramesOf ping (ping :: rest) (.ping :: fs)
  | crypto {oe le data rest fs offset} (ho : IsVarint oe offset) (hl : IsVarint le data.length) (hr : FramesOf ping rest fs) :
      FramesOf ping (0x06 :: (oe ++ le ++ data) ++ rest) (.crypto offset data :: fs)
  | close {ee te le reason rest fs code ty} (he : IsVarint ee code) (ht : IsVarint te ty) (hl : IsVarint le reason.length)
      (hr : FramesOf ping rest fs) :
      FramesOf ping (0x1c :: (ee ++ te ++ le ++ reason) ++ rest) (.connectionClose code ty reason :: fs)

/-- `packet` begins with the header of an Initial packet of version 1 (RFC 9000 section 17.2.2), up to the packet number at `off`, with
these connection identifiers, token and length. -/
def InitialHeader (packet dcid scid token : Bytes) (length off : Nat) : Prop :=
  ∃ (b0 : UInt8) (tle le rest : Bytes),
    packet = b0 :: ([0, 0, 0, 1] ++ (UInt8.ofNat dcid.length :: dcid) ++ (UInt8.ofNat scid.length :: scid)) ++ (tle ++ token ++ le) ++ rest ∧
    b0.toNat / 16 = 0xc ∧ dcid.length ≤ 20 ∧ scid.length ≤ 20 ∧ IsVarint tle token.length ∧ IsVarint le length ∧
    off + rest.length = packet.length

/-- The CRYPTO frames among the frames of a packet. -/
def cryptoFrames (fs : List Frame) : List CryptoFrame :=
  fs.filterMap fun
    | .crypto offset data => some ⟨offset, data⟩
    | _ => none

/-- The frames follow one another without gap from position `n` on. -/
def InOrder : Nat → List CryptoFrame → Prop
  | _, [] => True
  | n, f :: fs => f.startOffset = n ∧ InOrder (n + f.data.length) fs

end Ngfs.Spec.Quic
