import Verif.Model.Basic

/-! Slicing of byte strings. -/
namespace Ngfs

/-- `data[a..b]` for `a ≤ b ≤ data.len()`. Callers check the range where the code does. -/
def slice (data : Bytes) (a b : Nat) : Bytes := (data.drop a).take (b - a)

end Ngfs
