/-!
# Specification: results pushed once, in order, under their own index
-/

namespace Litiv.CosegmPush

/-- The frames from `a` to `b` (left out), each pushed once, in order, under its own index. -/
def each (a b : Nat) : List (Nat × Nat) := (List.range' a (b - a)).map fun i => (i, i)

end Litiv.CosegmPush
