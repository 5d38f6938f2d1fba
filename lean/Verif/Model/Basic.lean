/-
Shared vocabulary of the model.

A byte string (`&[u8]`, `Vec<u8>`) is a `List UInt8`; an unsigned machine integer is a `Nat`.
-/
namespace Ngfs

/-- A byte string: Rust's `&[u8]` / `Vec<u8>`. -/
abbrev Bytes := List UInt8

/-- The largest `usize`/`u64` plus one (64-bit target). -/
abbrev usizeLimit : Nat := 2 ^ 64

end Ngfs
