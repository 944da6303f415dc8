import Mathlib.Data.Int.Init

/-!
# Superpixels: orphan pixels

Model of `SLIC::enforceConnectivity`, `modules/imgproc/src/SLIC.cpp:192-245`.  Positions are pairs of
column and row; labels, which the code stores as `float`, are integers and do not overflow.
-/
namespace Litiv.SlicConn

/-- `dx4` and `dy4`, `SLIC.cpp:196-197`. -/
def dirs : List (ℤ × ℤ) := [(-1, 0), (0, -1), (1, 0), (0, 1)]

/-- The tested neighbour of a pixel in a direction, `SLIC.cpp:209-210,219-220`; `none` if it is not
in the frame. -/
def nbr (w h : Nat) (p : Nat × Nat) (d : ℤ × ℤ) : Option (Nat × Nat) :=
  let x := (p.1 : ℤ) + d.1
  let y := (p.2 : ℤ) + d.2
  if x ≥ 0 ∧ x < w ∧ y ≥ 0 ∧ y < h then some (x.toNat, y.toNat) else none

/-- The last label found among the neighbours of the first pixel, `SLIC.cpp:208-215`. -/
def adjacent (w h : Nat) (new : Nat × Nat → ℤ) (p : Nat × Nat) (adj : ℤ) : ℤ :=
  dirs.foldl (fun a d => match nbr w h p d with
    | some q => if new q ≥ 0 then new q else a
    | none => a) adj

/-- Writing one label. -/
def setAt (new : Nat × Nat → ℤ) (p : Nat × Nat) (v : ℤ) : Nat × Nat → ℤ := fun q => if q = p then v else new q

/-- One neighbour of a collected pixel, `SLIC.cpp:219-226`; the state is the list of collected pixels
(whose length is `count`) and the new labels. -/
def visit (w h : Nat) (lab : Nat × Nat → ℤ) (s : Nat × Nat) (label : ℤ) (p : Nat × Nat)
    (st : List (Nat × Nat) × (Nat × Nat → ℤ)) (d : ℤ × ℤ) : List (Nat × Nat) × (Nat × Nat → ℤ) :=
  match nbr w h p d with
  | some q => if st.2 q = -1 ∧ lab s = lab q then (st.1 ++ [q], setAt st.2 q label) else st
  | none => st

/-- The loop that collects pixels, `SLIC.cpp:216-229`; `none` means that the bound on the number of
iterations of the model is too small or `elements` is read out of bounds. -/
def flood (w h : Nat) (lab : Nat × Nat → ℤ) (s : Nat × Nat) (label : ℤ) :
    Nat → Nat → List (Nat × Nat) × (Nat × Nat → ℤ) → Option (List (Nat × Nat) × (Nat × Nat → ℤ))
  | 0, _, _ => none
  | fuel + 1, c, st =>
    if c < st.1.length then
      match st.1[c]? with
      | some p => flood w h lab s label fuel (c + 1) (dirs.foldl (visit w h lab s label p) st)
      | none => none
    else some st

/-- The variables of the outer loops: `newLabels`, `label` and `adjlabel`, `SLIC.cpp:193,198`. -/
structure St where
  new : Nat × Nat → ℤ
  label : ℤ
  adj : ℤ

/-- The body of the outer loops, `SLIC.cpp:205-238`. -/
def pixelStep (w h : Nat) (lims : ℤ) (lab : Nat × Nat → ℤ) (s : Nat × Nat) (st : St) : Option St :=
  if st.new s = -1 then
    let adj := adjacent w h st.new s st.adj
    (flood w h lab s st.label (w * h + 2) 0 ([s], st.new)).bind fun r =>
    if (r.1.length : ℤ) ≤ lims then
      some ⟨r.1.foldl (fun n p => setAt n p adj) r.2, st.label - 1 + 1, adj⟩
    else some ⟨r.2, st.label + 1, adj⟩
  else some st

/-- The pixels in the order of the outer loops, `SLIC.cpp:203-204`. -/
def raster (w h : Nat) : List (Nat × Nat) :=
  (List.range h).flatMap fun i => (List.range w).map fun j => (j, i)

/-- The outer loops, `SLIC.cpp:203-239`. -/
def loop (w h : Nat) (lims : ℤ) (lab : Nat × Nat → ℤ) : List (Nat × Nat) → St → Option St
  | [], st => some st
  | p :: ps, st => (pixelStep w h lims lab p st).bind (loop w h lims lab ps)

/-- `SLIC::enforceConnectivity`, `SLIC.cpp:192-245`: the new labels and the returned number;
`none` is a division by zero. -/
def enforce (w h nbSpx : Nat) (lab : Nat × Nat → ℤ) : Option ((Nat × Nat → ℤ) × ℤ) :=
  if nbSpx = 0 then none else
  let lims : ℤ := ((w * h / nbSpx / 4 : Nat) : ℤ)
  (loop w h lims lab (raster w h) ⟨fun _ => -1, 0, 0⟩).bind fun st => some (st.new, st.label)

end Litiv.SlicConn
