import Verif.Model.Basic

/-! Model of the deterministic random numbers (`util/detrand.rs`). -/
namespace Ngfs.Detrand

/-- `Generator` (`util/detrand.rs` 8-12). -/
structure Generator where
  seed : UInt32
  a : UInt32
  c : UInt32
  deriving DecidableEq, Repr

/-- `Generator::new` (`util/detrand.rs` 15-21). -/
def Generator.new (seed : UInt32) : Generator := ⟨seed, 214013, 2531011⟩

/-- `Generator::next_u32` (`util/detrand.rs` 23-26): the number, and the generator afterwards. Arithmetic on `u32` wraps around. -/
def Generator.next (g : Generator) : UInt32 × Generator :=
  let seed := g.a * g.seed + g.c
  (seed, { g with seed := seed })

/-- The numbers of `n` calls. -/
def Generator.take (g : Generator) : Nat → List UInt32
  | 0 => []
  | n + 1 => g.next.1 :: g.next.2.take n

end Ngfs.Detrand
