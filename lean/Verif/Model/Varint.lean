import Verif.Model.Basic

/-!
Model of `/repo/src/formats/protobuf/varint.rs`.
`u64` values are `Nat`; a left shift that would drop bits of a `u64` is written with `% 2^64`.
-/
namespace Ngfs.Varint

/-- `DecodeError`, varint.rs 65-70. -/
inductive DecodeError where
  | overflow
  | missingFinalByte
  | misplacedFinalByte
deriving DecidableEq, Repr

/-- `encode_u64`, varint.rs 51-63: the bytes the loop appends to `out`. -/
def encodeU64 (value : Nat) : Bytes :=
  let seven := value &&& 0x7f
  if _h : value >>> 7 ≠ 0 then
    UInt8.ofNat (seven ||| 0x80) :: encodeU64 (value >>> 7)
  else
    [UInt8.ofNat seven]
termination_by value
decreasing_by simp [Nat.shiftRight_eq_div_pow] at *; omega

/-- The loop of `decode_u64`, varint.rs 83-106, with `res` and `shift` as loop variables. The test
`i + 1 == data.len()` of line 98 is "no byte follows". -/
def decodeLoop (res shift : Nat) : Bytes → Except DecodeError Nat
  | [] => .error .missingFinalByte
  | b :: rest =>
    let sevenBits := b &&& 0x7f
    let last := (b &&& 0x80) == 0
    if shift ≥ 64 then .error .overflow
    else if shift = 63 ∧ b.toNat > 1 then .error .overflow
    else
      let res := res ||| ((sevenBits.toNat <<< shift) % 2 ^ 64)
      if last then
        if rest.isEmpty then .ok res else .error .misplacedFinalByte
      else decodeLoop res (shift + 7) rest

/-- `decode_u64`, varint.rs 80-107. -/
def decodeU64 (data : Bytes) : Except DecodeError Nat := decodeLoop 0 0 data

/-- `U64Decoder`, varint.rs 10-13. -/
structure Decoder where
  res : Nat
  shift : Nat
deriving DecidableEq, Repr

/-- `U64Decoder::new`, varint.rs 16-21. -/
def Decoder.new : Decoder := ⟨0, 0⟩

/-- `DecoderResult<u64>`, varint.rs 4-8. -/
inductive DecoderResult where
  | finished (v : Nat)
  | overflow
  | pending
deriving DecidableEq, Repr

/-- `U64Decoder::input`, varint.rs 23-37. `checked_shl` is `None` exactly for a shift of 64 or more, and
otherwise drops the bits above bit 63. -/
def Decoder.input (d : Decoder) (b : UInt8) : DecoderResult × Decoder :=
  if d.shift ≥ 64 then (.overflow, d)
  else
    let res := d.res ||| (((b &&& 0x7f).toNat <<< d.shift) % 2 ^ 64)
    let d := { res := res, shift := d.shift + 7 }
    if (b &&& 0x80) == 0 then (.finished res, d) else (.pending, d)

/-- Feeding a byte string to the incremental decoder one byte at a time, stopping at the first byte that
finishes or fails, as the callers do (`libp2p/io.rs` 44-75, `libp2p/mplex/frame.rs` 300-316).
Returns the outcome and the bytes not consumed. -/
def Decoder.feed (d : Decoder) : Bytes → DecoderResult × Bytes
  | [] => (.pending, [])
  | b :: rest =>
    match d.input b with
    | (.pending, d') => d'.feed rest
    | (r, _) => (r, rest)

end Ngfs.Varint
