import Verif.Model.Asn1Print

/-! Model of the hex dump in `/repo/src/util/util.rs` 102-173. A text is a list of characters. -/
namespace Ngfs.Util
open Ngfs.Asn1 (hexadecimal)

/-- `fmt` of `DebugHexDump` without `#`, util.rs 106-113, from index `i` on; the list is `self.0[i..]`. -/
def plainDump : Bytes → List Char
  | [] => []
  | b :: bs => toHex [b] ++ (if bs.length > 0 then [' '] else []) ++ plainDump bs

/-- `{:08x}`, util.rs 118. -/
def offsetText (n : Nat) : List Char := List.replicate (8 - (hexadecimal n).length) '0' ++ hexadecimal n

/-- One turn of the inner loop, util.rs 120-128. -/
def dumpCell (bytes : Bytes) (i : Nat) : List Char :=
  (if i % 8 = 0 then [' '] else []) ++
  match bytes[i]? with
  | some b => ' ' :: toHex [b]
  | none => [' ', ' ', ' ']

/-- One turn of the loop of `fmt_chars`, util.rs 146-152. -/
def dumpChar (b : UInt8) : Char := if 32 ≤ b ∧ b ≤ 126 then Char.ofNat b.toNat else '.'

/-- `fmt_chars`, util.rs 141-155: the bytes from `start` to `end`. -/
def fmtChars (bytes : Bytes) (start : Nat) : List Char :=
  [' ', ' ', '|'] ++ ((bytes.drop start).take (min (start + 16) bytes.length - start)).map dumpChar ++ ['|']

/-- One turn of the outer loop, util.rs 117-129, without the newline. -/
def dumpLine (bytes : Bytes) (lineno : Nat) : List Char :=
  offsetText (lineno * 16) ++ (List.range' (lineno * 16) 16).flatMap (dumpCell bytes) ++ fmtChars bytes (lineno * 16)

/-- The outer loop, util.rs 116-133, with `n` lines to go. -/
def dumpLoop (bytes : Bytes) (lineno : Nat) : Nat → List Char
  | 0 => []
  | n + 1 => dumpLine bytes lineno ++ (if n > 0 then ['\n'] else []) ++ dumpLoop bytes (lineno + 1) n

/-- `fmt` of `DebugHexDump` with `#`, util.rs 115-134. -/
def hexDump (bytes : Bytes) : List Char :=
  dumpLoop bytes 0 (if bytes.isEmpty then 1 else (bytes.length + 15) / 16)

/-- A line without the carriage return at its end, if there is one; the line is given reversed. -/
def dropCr : List Char → List Char
  | [] => []
  | c :: cs => if c = '\r' then cs.reverse else (c :: cs).reverse

/-- `str::lines`: the text split at the newlines, without the empty rest after the last one; one carriage return before
a newline is dropped. `cur` is what was read of the current line, reversed. -/
def linesLoop : (cur : List Char) → List Char → List (List Char)
  | cur, [] => if cur = [] then [] else [cur.reverse]
  | cur, c :: cs =>
    if c = '\n' then dropCr cur :: linesLoop [] cs
    else linesLoop (c :: cur) cs

/-- The loop of `Indent`, util.rs 166-171. -/
def indentLoop (i : Nat) : List (List Char) → List Char
  | [] => []
  | l :: ls => (if i > 0 then ['\n'] else []) ++ [' ', ' ', ' ', ' '] ++ l ++ indentLoop (i + 1) ls

/-- `Indent`, util.rs 161-173, of what `{:#?}` prints. -/
def indent (text : List Char) : List Char := indentLoop 0 (linesLoop [] text)

end Ngfs.Util
