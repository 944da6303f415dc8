/-!
# Specification: the frames seen by the background models
-/

namespace Litiv.Pretrain

/-- The first `n` frames forwards, then backwards. -/
def backAndForth (n : Nat) : List Nat := List.range n ++ (List.range n).reverse

/-- The order of the frames: `loops` times back and forth over the first `n` frames, then the whole video. -/
def order (loops n total : Nat) : List Nat :=
  (List.replicate loops (backAndForth n)).flatten ++ List.range total

end Litiv.Pretrain
