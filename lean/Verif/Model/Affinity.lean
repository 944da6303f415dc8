import Verif.Model.MI

/-!
# Model of the affinity maps

`modules/imgproc/src/imgproc.cpp:361-549` (`computeImageAffinity`, `computeDescriptorAffinity` without CUDA).

The loops are distributed over threads: the model runs the iterations one after the other in an arbitrary order, each on an arbitrary thread.
(Iterations write different cells and use buffers of their own thread, so finer interleavings give nothing new.) Distances are exact real
numbers; the code uses `float`.
-/

namespace Litiv.Affinity

open MI (In Data Kind calcMutualInfo)

/-- A map of three dimensions (row, column, offset), `imgproc.cpp:386-387,470-471`. -/
abbrev Map3 := Nat → Nat → Nat → ℝ

/-- Change of one cell, `imgproc.cpp:407,545`. -/
noncomputable def put (m : Map3) (r c o : Nat) (v : ℝ) : Map3 := fun r' c' o' => if r' = r ∧ c' = c ∧ o' = o then v else m r' c' o'

/-- Regions of interest, `imgproc.cpp:381-382`: an empty matrix is `none`. -/
def outside (roi : Option (Nat → Nat → Bool)) (r c : Nat) : Bool :=
  match roi with
  | none => false
  | some f => !f r c

/-! ## Images -/

/-- The arguments of `computeImageAffinity` (`imgproc.cpp:361-363`) after the checks: images of bytes of the same size. -/
structure Img where
  rows : Nat
  cols : Nat
  im1 : Nat → Nat → Int
  im2 : Nat → Nat → Int
  disp : List Int
  roi1 : Option (Nat → Nat → Bool)
  roi2 : Option (Nat → Nat → Bool)

/-- `AffinityDistType` of images, `imgproc.cpp:367`. -/
inductive Dist
  | mi
  | ssd
deriving DecidableEq

/-- A window of an image, `imgproc.cpp:403-404`: `cv::Mat::operator()(cv::Rect)`, which fails if the window is not inside; elements in
the order of `cv::Mat::at(int)`. -/
def window (rows cols : Nat) (im : Nat → Nat → Int) (y x : Int) (size : Nat) : Option (List Int) :=
  if 0 ≤ x ∧ 0 ≤ y ∧ x + size ≤ cols ∧ y + size ≤ rows then
    some ((List.range (size * size)).map fun (k : Nat) => im (y.toNat + k / size) (x.toNat + k % size))
  else none

/-- A matrix of bytes, `imgproc.cpp:371-376`. -/
def bytes (l : List Int) : In := ⟨0, 255, false, l⟩

/-- `cv::norm(…, cv::NORM_L2)`, `imgproc.cpp:410`. -/
noncomputable def norm2 (a b : List Int) : ℝ := Real.sqrt ((List.zipWith (fun (u v : Int) => ((u : ℝ) - (v : ℝ)) ^ 2) a b).sum)

/-- The state of the loop: the map, and for each thread its histograms, `imgproc.cpp:386-388`. -/
structure St where
  map : Map3
  buf : Nat → Data

/-- One iteration, `imgproc.cpp:399-411`: row, column, offset index and thread. -/
noncomputable def imgStep (g : Img) (dist : Dist) (size : Nat) (s : St) (it : Nat × Nat × Nat × Nat) : Option St :=
  let (r, c, o, t) := it
  let rad := size / 2
  let oc : Int := (c : Int) + g.disp.getD o 0
  if outside g.roi1 r c ∨ oc < rad ∨ (g.cols : Int) - rad ≤ oc ∨ outside g.roi2 r oc.toNat then some s
  else
    match window g.rows g.cols g.im1 ((r : Int) - rad) ((c : Int) - rad) size, window g.rows g.cols g.im2 ((r : Int) - rad) (oc - rad) size with
    | some w1, some w2 =>
      match dist with
      | .mi =>
        match calcMutualInfo 1 .sparse true false false (bytes w1) (bytes w2) (s.buf t), MI.calcJointProbHist 1 .sparse false false [bytes w1, bytes w2] (s.buf t) with
        | some score, some d => some ⟨put s.map (r - rad) (c - rad) o (max (1 - score) 0), fun t' => if t' = t then d else s.buf t'⟩
        | _, _ => none
      | .ssd => some ⟨put s.map (r - rad) (c - rad) o (norm2 w1 w2), s.buf⟩
    | _, _ => none

/-- The iterations of the loop, `imgproc.cpp:396-398`. -/
def imgIters (g : Img) (size : Nat) : List (Nat × Nat × Nat) :=
  let rad := size / 2
  (List.range (g.rows - rad - rad)).flatMap fun (i : Nat) => (List.range (g.cols - rad - rad)).flatMap fun (j : Nat) =>
    (List.range g.disp.length).map fun (o : Nat) => (rad + i, rad + j, o)

/-- `computeImageAffinity`, `imgproc.cpp:361-415`, for iterations in the given order and on the given threads. `buf` are the histograms left
by earlier calls. -/
noncomputable def computeImageAffinity (g : Img) (dist : Dist) (size : Nat) (buf : Nat → Data) (sched : List (Nat × Nat × Nat × Nat)) : Option Map3 :=
  if 0 < g.rows ∧ 0 < g.cols ∧ 1 ≤ size ∧ size % 2 = 1 ∧ size ≤ g.rows ∧ size ≤ g.cols ∧ g.disp ≠ [] then
    (sched.foldlM (imgStep g dist size) ⟨fun _ _ _ => -1, buf⟩).map fun (s : St) => s.map
  else none

/-! ## Descriptors -/

/-- The arguments of `computeDescriptorAffinity` (`imgproc.cpp:417-420`) after the checks. `D r c c'` is the distance (`NORM_L2` or earth
mover's) of the descriptor of the first map at `(r, c)` and that of the second map at `(r, c')`. -/
structure Desc where
  rows : Nat
  cols : Nat
  D : Nat → Nat → Nat → ℝ
  disp : List Int
  roi1 : Option (Nat → Nat → Bool)
  roi2 : Option (Nat → Nat → Bool)

/-- One offset of the first loop, `imgproc.cpp:491-517`. -/
noncomputable def rawOffset (g : Desc) (r c : Nat) (m : Map3) (o : Nat) : Map3 :=
  let oc : Int := (c : Int) + g.disp.getD o 0
  if oc < 0 ∨ (g.cols : Int) ≤ oc ∨ outside g.roi2 r oc.toNat then m else put m r c o (g.D r c oc.toNat)

/-- One pixel of the first loop, `imgproc.cpp:488-518`. -/
noncomputable def rawStep (g : Desc) (m : Map3) (p : Nat × Nat) : Map3 :=
  if outside g.roi1 p.1 p.2 then m else (List.range g.disp.length).foldl (rawOffset g p.1 p.2) m

/-- Sum and number of the valid values around a pixel, `imgproc.cpp:533-543`. -/
noncomputable def around (g : Desc) (rad : Nat) (raw : Map3) (r c o : Nat) : ℝ × Nat :=
  ((List.range (min (r + rad) (g.rows - 1) + 1 - (r - rad))).map fun (i : Nat) => (r - rad) + i).foldl (fun (acc : ℝ × Nat) (pr : Nat) =>
    ((List.range (min (c + rad) (g.cols - 1) + 1 - (c - rad))).map fun (j : Nat) => (c - rad) + j).foldl (fun (acc : ℝ × Nat) (pc : Nat) =>
      if raw pr pc o ≠ -1 then (acc.1 + raw pr pc o, acc.2 + 1) else acc) acc) (0, 0)

/-- One iteration of the second loop, `imgproc.cpp:530-546`. -/
noncomputable def meanStep (g : Desc) (rad : Nat) (raw : Map3) (m : Map3) (it : Nat × Nat × Nat) : Map3 :=
  let (r, c, o) := it
  let a := around g rad raw r c o
  if a.2 ≠ 0 then put m r c o (a.1 / a.2) else m

/-- The iterations of the first loop, `imgproc.cpp:486-487`. -/
def rawIters (g : Desc) : List (Nat × Nat) :=
  (List.range g.rows).flatMap fun (r : Nat) => (List.range g.cols).map fun (c : Nat) => (r, c)

/-- The iterations of the second loop, `imgproc.cpp:530-532`. -/
def meanIters (g : Desc) : List (Nat × Nat × Nat) :=
  (List.range g.rows).flatMap fun (r : Nat) => (List.range g.cols).flatMap fun (c : Nat) => (List.range g.disp.length).map fun (o : Nat) => (r, c, o)

/-- `computeDescriptorAffinity`, `imgproc.cpp:417-549`, for iterations in the given orders. -/
noncomputable def computeDescriptorAffinity (g : Desc) (size : Nat) (order1 : List (Nat × Nat)) (order2 : List (Nat × Nat × Nat)) : Option Map3 :=
  if 0 < g.rows ∧ 0 < g.cols ∧ 1 ≤ size ∧ size % 2 = 1 ∧ g.disp ≠ [] then
    let raw := order1.foldl (rawStep g) fun _ _ _ => -1
    if size = 1 then some raw
    else some (order2.foldl (meanStep g (size / 2) raw) fun _ _ _ => -1)
  else none

end Litiv.Affinity
