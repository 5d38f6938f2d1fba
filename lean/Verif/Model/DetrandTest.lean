import Verif.Model.Detrand
import Verif.Model.HexDump

/-! Model of the program `bin/test_detrand.rs`, which prints numbers of the deterministic generator and counts their bits. -/
namespace Ngfs.Detrand
open Asn1

/-- The loop over the 32 positions of a number, `bin/test_detrand.rs` 13-21, from position `i`, with `k` positions to go: what is printed,
and the counts. `frequency` has 32 entries, so that indexing it does not fail. -/
def bitLoop (v : UInt32) : Nat → Nat → List Nat → List Char × List Nat
  | _, 0, frequency => ([], frequency)
  | i, k + 1, frequency =>
    if (v >>> (31 - UInt32.ofNat i)) &&& 1 = 1 then
      ('1' :: (bitLoop v (i + 1) k (frequency.modify i (· + 1))).1, (bitLoop v (i + 1) k (frequency.modify i (· + 1))).2)
    else ('0' :: (bitLoop v (i + 1) k frequency).1, (bitLoop v (i + 1) k frequency).2)

/-- `{:08x}` of a number. -/
def hex8 (v : UInt32) : List Char := List.replicate (8 - (hexadecimal v.toNat).length) '0' ++ hexadecimal v.toNat

/-- The loop over the numbers, `bin/test_detrand.rs` 9-23, with `n` numbers to go. -/
def numberLoop : Nat → Generator → List Nat → List Char × List Nat
  | 0, _, frequency => ([], frequency)
  | n + 1, g, frequency =>
    let bits := bitLoop g.next.1 0 32 frequency
    let rest := numberLoop n g.next.2 bits.2
    (hex8 g.next.1 ++ ' ' :: (bits.1 ++ '\n' :: rest.1), rest.2)

/-- `{:02}` of a number. -/
def decimal2 (n : Nat) : List Char := List.replicate (2 - (decimal n).length) '0' ++ decimal n

/-- A line with a count, `bin/test_detrand.rs` 25. -/
def frequencyLine (i f : Nat) : List Char := "frequency[".toList ++ (decimal2 i ++ ("] = ".toList ++ (decimal f ++ ['\n'])))

/-- The loop over the counts, `bin/test_detrand.rs` 24-26. -/
def frequencyLoop : Nat → List Nat → List Char
  | _, [] => []
  | i, f :: fs => frequencyLine i f ++ frequencyLoop (i + 1) fs

/-- `main`, `bin/test_detrand.rs` 5-27; the program is this for `n = 100000`. The counts are unbounded here; in the program they are
`usize`, and not larger than `n`. -/
def testMain (n : Nat) : List Char :=
  let r := numberLoop n (Generator.new 12345) (List.replicate 32 0)
  r.1 ++ frequencyLoop 0 r.2

end Ngfs.Detrand
