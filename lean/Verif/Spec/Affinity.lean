import Verif.Spec.MI
import Verif.Model.Affinity
import Mathlib.Data.Real.Sqrt

/-! # Specification of affinity maps -/

namespace Litiv.Affinity.Spec

/-- Element `k` of the square patch of the given size with its first corner at row `y` and column `x`. -/
def patch (im : Nat → Nat → Int) (size y x : Nat) (k : Nat) : Int := im (y + k / size) (x + k % size)

/-- Mutual information divided by the geometric mean of the entropies (unless one of them is zero). -/
noncomputable def normalized (n : Nat) (x y : Nat → Int) : ℝ :=
  if 0 < MI.Spec.entropy n x ∧ 0 < MI.Spec.entropy n y then
    MI.Spec.mutualInfo n x y / Real.sqrt (MI.Spec.entropy n x * MI.Spec.entropy n y)
  else MI.Spec.mutualInfo n x y

/-- Euclidean distance of the `n` first elements. -/
noncomputable def euclid (n : Nat) (x y : Nat → Int) : ℝ := Real.sqrt (∑ k ∈ Finset.range n, ((x k : ℝ) - (y k : ℝ)) ^ 2)

/-- Inside an optional region. -/
def inside (roi : Option (Nat → Nat → Bool)) (r c : Nat) : Prop := ∀ f, roi = some f → f r c = true

/-- The pixels of an image whose row and column differ by at most `rad` from the given ones. -/
def around (rows cols rad r c : Nat) : Finset (Nat × Nat) :=
  (Finset.range rows ×ˢ Finset.range cols).filter fun p => (p.1 ≤ r + rad ∧ r ≤ p.1 + rad) ∧ (p.2 ≤ c + rad ∧ c ≤ p.2 + rad)

end Litiv.Affinity.Spec

namespace Litiv.Affinity

/-- Where the map has a value: both pixels in their regions, and the second patch inside the image. -/
def Matched (g : Img) (size i j o : Nat) : Prop :=
  ∃ oc : Nat, ((oc : Int) = (j + size / 2 : Nat) + g.disp.getD o 0) ∧ size / 2 ≤ oc ∧ oc + size / 2 < g.cols ∧
    Spec.inside g.roi1 (i + size / 2) (j + size / 2) ∧ Spec.inside g.roi2 (i + size / 2) oc

/-- The value of a cell. -/
noncomputable def value (g : Img) (dist : Dist) (size i j o : Nat) : ℝ :=
  let x := Spec.patch g.im1 size i j
  let y := Spec.patch g.im2 size i ((j : Int) + g.disp.getD o 0).toNat
  match dist with
  | .mi => 1 - Spec.normalized (size * size) x y
  | .ssd => Spec.euclid (size * size) x y

/-- Images of bytes. -/
def Bytes (g : Img) : Prop := ∀ r c, (0 ≤ g.im1 r c ∧ g.im1 r c ≤ 255) ∧ (0 ≤ g.im2 r c ∧ g.im2 r c ≤ 255)

/-- Where two descriptors can be compared: both pixels in the image and in their regions. -/
def RawOk (g : Desc) (r c o : Nat) : Prop :=
  ∃ oc : Nat, (oc : Int) = (c : Int) + g.disp.getD o 0 ∧ oc < g.cols ∧ Spec.inside g.roi1 r c ∧ Spec.inside g.roi2 r oc

/-- Their distance. -/
noncomputable def rawVal (g : Desc) (r c o : Nat) : ℝ := g.D r c ((c : Int) + g.disp.getD o 0).toNat

end Litiv.Affinity
