import Verif.Model.Multibase
import Verif.Model.Utf8

/-! `src/crypto/pem.rs`. -/
namespace Ngfs.Pem
open Ngfs.Multibase

/-- `PEMError`, pem.rs 5-9. `loop` marks a loop that did not end within the given number of iterations. -/
inductive Err where
  | plain (msg : String)
  | expected (s : Bytes)
  | notBase64 (b : UInt8)
  | labelMismatch (b e : String)
  | loop
deriving DecidableEq, Repr

/-- A method of `Parser` (pem.rs 34-53). `data` never changes and `offset` only grows, so the state is the part of `data`
from `offset` on. After an error the parser is dropped. -/
abbrev P (α : Type) := Bytes → Except Err (α × Bytes)

/-- `expect_dashes`, pem.rs 55-67. -/
def expectDashes : P Nat := fun rest =>
  let dashCount := (rest.takeWhile (· == 0x2d)).length
  if dashCount = 0 then .error (.plain "Expected '") else .ok (dashCount, rest.dropWhile (· == 0x2d))

/-- `expect_space`, pem.rs 69-77. -/
def expectSpace : P Unit
  | 0x20 :: rest => .ok ((), rest)
  | _ => .error (.plain "Expected ' '")

/-- `expect_newline`, pem.rs 79-90. -/
def expectNewline : P Unit := fun rest =>
  let rest := if rest.head? = some 0x0d then rest.tail else rest
  match rest with
  | 0x0a :: rest => .ok ((), rest)
  | _ => .error (.plain "Expected newline")

/-- `expect_string`, pem.rs 92-107, run for `n` iterations. At the end of the input the code neither advances nor returns. -/
def expectString (s : Bytes) : Nat → Bytes → P Unit
  | 0, _ => fun _ => .error .loop
  | n + 1, expect => fun rest =>
    match expect with
    | [] => .ok ((), rest)
    | b :: expect' =>
      match rest with
      | b2 :: rest' => if b = b2 then expectString s n expect' rest' else .error (.expected s)
      | [] => expectString s n expect rest

/-- `b'A'..=b'Z' | b' '`, pem.rs 113. -/
def isLabelByte (b : UInt8) : Bool := (0x41 ≤ b && b ≤ 0x5a) || b == 0x20

/-- `read_label`, pem.rs 109-121. -/
def readLabel : P String := fun rest =>
  match utf8Decode (rest.takeWhile isLabelByte) with
  | none => .error (.plain "Invalid UTF-8 label")
  | some s => .ok (s, rest.dropWhile isLabelByte)

/-- `expect_end`, pem.rs 123-130. -/
def expectEnd : P Unit := fun rest => if rest = [] then .ok ((), rest) else .error (.plain "Expected EOF")

/-- The first arm of the `match` in `read_base64`, pem.rs 136-139. -/
def isBase64Byte (b : UInt8) : Bool :=
  (0x41 ≤ b && b ≤ 0x5a) || (0x61 ≤ b && b ≤ 0x7a) || (0x30 ≤ b && b ≤ 0x39) || b == 0x2b || b == 0x2f || b == 0x3d

/-- `read_base64`, pem.rs 132-155. -/
def readBase64 : P Bytes
  | [] => .ok ([], [])
  | b :: rest =>
    if isBase64Byte b then
      match readBase64 rest with
      | .error e => .error e
      | .ok (data, rest) => .ok (b :: data, rest)
    else if b = 0x0d ∨ b = 0x0a then readBase64 rest
    else if b = 0x2d then .ok ([], b :: rest)
    else .error (.notBase64 b)

/-- `String::from_utf8`, pem.rs 180-181. -/
def toText (bs : Bytes) : Except Err String :=
  match utf8Decode bs with
  | none => .error (.plain "Invalid UTF-8")
  | some s => .ok s

/-- `decode_noprefix`, pem.rs 182-183. -/
def decodeText (s : String) : Except Err Bytes :=
  match decodeNoprefix s.toList .base64Pad with
  | .error _ => .error (.plain "Invalid base64 data")
  | .ok d => .ok d

/-- The bytes of "BEGIN". -/
def BEGIN : Bytes := [0x42, 0x45, 0x47, 0x49, 0x4e]
/-- The bytes of "END". -/
def END : Bytes := [0x45, 0x4e, 0x44]

/-- `decode_pem`, pem.rs 158-193, with at most `n` iterations of the loops of `expect_string`. -/
def decodePem (n : Nat) (input : Bytes) : Except Err (String × Bytes) := do
  let (_, rest) ← expectDashes input
  let (_, rest) ← expectString BEGIN n BEGIN rest
  let (_, rest) ← expectSpace rest
  let (beginLabel, rest) ← readLabel rest
  let (_, rest) ← expectDashes rest
  let (_, rest) ← expectNewline rest
  let (base64Data, rest) ← readBase64 rest
  let (_, rest) ← expectDashes rest
  let (_, rest) ← expectString END n END rest
  let (_, rest) ← expectSpace rest
  let (endLabel, rest) ← readLabel rest
  let (_, rest) ← expectDashes rest
  let (_, rest) ← expectNewline rest
  let (_, _) ← expectEnd rest
  let base64Str ← toText base64Data
  let decoded ← decodeText base64Str
  if beginLabel ≠ endLabel then .error (.labelMismatch beginLabel endLabel) else .ok (beginLabel, decoded)

/-- `decode_pem_with_label`, pem.rs 195-203. -/
def decodePemWithLabel (n : Nat) (input : Bytes) (label : String) : Except Err Bytes := do
  let (actualLabel, data) ← decodePem n input
  if actualLabel ≠ label then .error (.plain "Expected another label") else .ok data

/-- The loop of `encode_pem`, pem.rs 213-218. -/
def wrap : Nat → Bytes → Bytes
  | 0, _ => []
  | n + 1, data => if data = [] then [] else data.take 64 ++ 0x0a :: wrap n (data.drop 64)

/-- `encode_pem`, pem.rs 205-223. The loop takes 64 bytes at a time, so the bound on its iterations is none. -/
def encodePem (data : Bytes) (label : String) : Bytes :=
  let base64Data := asBytes (encodeNoprefix data .base64Pad)
  List.replicate 5 0x2d ++ BEGIN ++ [0x20] ++ utf8Encode label ++ List.replicate 5 0x2d ++ [0x0a] ++
    wrap base64Data.length base64Data ++
    List.replicate 5 0x2d ++ END ++ [0x20] ++ utf8Encode label ++ List.replicate 5 0x2d ++ [0x0a]

end Ngfs.Pem
