import Verif.Model.Subset

/-!
# The delayed results of the cosegmentation application

`apps/cosegm/src/main.cpp` with `DATASET_EVAL_FINAL_UPDATE`: the results of a frame are pushed once they can no longer
be improved by later frames, that is when they reach the last temporal layer of the algorithm, or when the next frame
starts a new temporal window.

Simplified: the results in a temporal layer are named by the index of the frame they belong to; images, displays and
files are left out, as is the key that ends a batch.
-/

namespace Litiv.CosegmPush

/-- The variables of the loop, `apps/cosegm/src/main.cpp:185`; `layers` stands for the temporal layers of the algorithm,
last frame first, `modules/imgproc/src/SegmMatcher.cpp:804-825`, and `out` for the calls of `push`: the index they are
given and the frame of the results. -/
structure St where
  last : Nat
  layers : List Nat
  out : List (Nat × Nat)

/-- `getOutput` of a temporal layer followed by `push`, `apps/cosegm/src/main.cpp:713-733,750-770`. Layers that no frame
has reached since the last reset count as a failure. -/
def pushLayer (cur k : Nat) (s : St) : Option St :=
  match s.layers[k]? with
  | none => none
  | some f => some { s with out := s.out ++ [(cur - k, f)] }

/-- The loop over `nPushOffsetIdx`, `apps/cosegm/src/main.cpp:711-745`. -/
def catchUp (cur : Nat) : Nat → St → Option St
  | 0, s => some s
  | n + 1, s => (pushLayer cur n s).bind (catchUp cur n)

/-- The reset at the start of a temporal window, `apps/cosegm/src/main.cpp:633-639`, and `resetTemporalModel`,
`modules/imgproc/src/SegmMatcher.cpp:827-832`. -/
def reset (brk : Nat → Bool) (cur : Nat) (s : St) : St :=
  if brk cur then
    { s with
      last := cur
      layers := [] }
  else s

/-- `apply`, `apps/cosegm/src/main.cpp:664`: the frame enters the first layer and the others move on. -/
def process (d cur : Nat) (s : St) : St := { s with layers := (cur :: s.layers).take (d + 1) }

/-- The pushes after a frame, `apps/cosegm/src/main.cpp:706-782`; `d` is `getTemporalDepth`. -/
def pushes (brk : Nat → Bool) (d cur : Nat) (s : St) : Option St :=
  if brk (cur + 1) then catchUp cur (min (cur - s.last) d + 1) s
  else if cur - s.last ≥ d then pushLayer cur d s
  else some s

/-- One pass of the loop, `apps/cosegm/src/main.cpp:633-782`. -/
def frame (brk : Nat → Bool) (d cur : Nat) (s : St) : Option St :=
  pushes brk d cur (process d cur (reset brk cur s))

/-- The loop over the remaining frames, `apps/cosegm/src/main.cpp:447`. -/
def loop (brk : Nat → Bool) (d : Nat) : Nat → Nat → St → Option St
  | 0, _, s => some s
  | n + 1, cur, s => (frame brk d cur s).bind (loop brk d n (cur + 1))

/-- A batch from `DATASET_BATCH_START_INDEX` to `nTotPacketCount`, `apps/cosegm/src/main.cpp:185,204,447-800`. -/
def batch (brk : Nat → Bool) (d start total : Nat) : Option St :=
  loop brk d (total - start) start ⟨start, [], []⟩

/-- The breaks reported by a LITIV 2018 batch, `litiv-stcharles2018.hpp:288-308`. -/
def breaks (m : Subset.Mode) (sub : List Nat) (k : Nat) : Bool := Subset.breakLitiv m sub k == some true

end Litiv.CosegmPush
