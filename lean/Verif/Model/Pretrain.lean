/-!
# The back and forth pretraining of the cosegmentation application

`apps/cosegm/src/main.cpp` with `PROCESS_PREPROC_BGSEGM` above one: the background models first see the first frames of
the video several times, forwards then backwards, before the video is processed from its start.

Simplified: the models, masks, displays and the key that ends a batch are left out; indices are unbounded.
-/

namespace Litiv.Pretrain

/-- `nMaxInitLoops`, `nMaxInitLoopIdx`, `apps/cosegm/src/main.cpp:228`, and `nTotPacketCount`, line 204. -/
structure Cfg where
  loops : Nat
  top : Nat
  total : Nat

/-- `nCurrInitLoop`, `nCurrIdx` and `bIncreasingIdxs`, `apps/cosegm/src/main.cpp:185,230-231`. -/
structure St where
  loop : Nat
  idx : Nat
  up : Bool

/-- The values before the loop, `apps/cosegm/src/main.cpp:185,230-231`, with the start index of line 48. -/
def init : St := ⟨0, 0, true⟩

/-- `nCurrPretrainFrame`, as it is printed, `apps/cosegm/src/main.cpp:517`; `none` once the pretraining is over. -/
def progress (c : Cfg) (s : St) : Option Nat :=
  if s.loop < c.loops then
    some (s.loop * (c.top + 1) * 2 + (if s.up then s.idx + 1 else 2 * (c.top + 1) - s.idx))
  else none

/-- The next index, `apps/cosegm/src/main.cpp:515-531`. -/
def next (c : Cfg) (s : St) : St :=
  if s.loop < c.loops then
    if s.idx = c.top ∧ s.up = true then { s with up := false }
    else if s.up then { s with idx := s.idx + 1 }
    else if s.idx = 0 then
      { s with
        loop := s.loop + 1
        up := s.loop + 1 != 0 }
    else { s with idx := s.idx - 1 }
  else { s with idx := s.idx + 1 }

/-- The loop, `apps/cosegm/src/main.cpp:447-531`: the frames given to the models, each with the progress printed for it;
`none` when it does not end within `fuel` passes. -/
def run (c : Cfg) : Nat → St → Option (List (Nat × Option Nat))
  | 0, _ => none
  | fuel + 1, s =>
    if s.idx < c.total then (run c fuel (next c s)).map ((s.idx, progress c s) :: ·)
    else some []

end Litiv.Pretrain
