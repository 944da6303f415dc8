import Verif.Model.Slic
import Mathlib.Algebra.BigOperators.Group.Finset.Sigma
import Mathlib.Analysis.SpecialFunctions.Pow.Real

/-!
# Specification of superpixels

Pixels and cluster centres are points with a colour and a position; the grid of the clusters has
cells of `diam` by `diam` pixels, numbered row by row.
-/
namespace Litiv.Slic

/-- A point of the joint colour and image space. -/
structure Point where
  l : ℝ
  a : ℝ
  b : ℝ
  x : ℝ
  y : ℝ

/-- The centre of cluster `k`. -/
def centre (g : Geo) (dev : Dev) (k : Nat) : Point :=
  ⟨dev.clusters k, dev.clusters (k + g.nbSpx), dev.clusters (k + 2 * g.nbSpx),
    dev.clusters (k + 3 * g.nbSpx), dev.clusters (k + 4 * g.nbSpx)⟩

/-- The pixel in column `x` of row `y`. -/
def pixel (dev : Dev) (x y : Nat) : Point :=
  ⟨(dev.lab x y).l, (dev.lab x y).a, (dev.lab x y).b, x, y⟩

/-- The squared distance between points: that of the colours, and that of the positions in units of
the diameter, weighted by the compactness `wc`. -/
noncomputable def sqDist (d : Nat) (wc : ℝ) (p q : Point) : ℝ :=
  (p.l - q.l) ^ 2 + (p.a - q.a) ^ 2 + (p.b - q.b) ^ 2
    + wc ^ 2 * ((p.x - q.x) ^ 2 + (p.y - q.y) ^ 2) / (d : ℝ) ^ 2

/-- The cell of cluster `k` is that of the pixel or one of its eight neighbours. -/
def Near (g : Geo) (x y k : Nat) : Prop :=
  k < g.nbSpx ∧ k % g.perRow ≤ x / g.diam + 1 ∧ x / g.diam ≤ k % g.perRow + 1 ∧
    k / g.perRow ≤ y / g.diam + 1 ∧ y / g.diam ≤ k / g.perRow + 1

/-- Cluster `k` is the first of the clusters near the pixel with the smallest distance to it. -/
def Nearest (g : Geo) (wc : ℝ) (dev : Dev) (x y k : Nat) : Prop :=
  Near g x y k ∧ ∀ k', Near g x y k' →
    sqDist g.diam wc (pixel dev x y) (centre g dev k) ≤ sqDist g.diam wc (pixel dev x y) (centre g dev k') ∧
    (k' < k → sqDist g.diam wc (pixel dev x y) (centre g dev k) <
      sqDist g.diam wc (pixel dev x y) (centre g dev k'))

/-- The pixels of the frame that have label `k`. -/
def members (g : Geo) (labels : Nat → Nat → ℤ) (k : Nat) : Finset (Nat × Nat) :=
  (Finset.range g.width ×ˢ Finset.range g.height).filter fun p => labels p.1 p.2 = k

/-- The mean of the points of a set of pixels. -/
noncomputable def mean (dev : Dev) (s : Finset (Nat × Nat)) : Point :=
  ⟨(∑ p ∈ s, (pixel dev p.1 p.2).l) / s.card, (∑ p ∈ s, (pixel dev p.1 p.2).a) / s.card,
    (∑ p ∈ s, (pixel dev p.1 p.2).b) / s.card, (∑ p ∈ s, (pixel dev p.1 p.2).x) / s.card,
    (∑ p ∈ s, (pixel dev p.1 p.2).y) / s.card⟩

/-- The sum, over the pixels of the frame, of the squared distance to the centre of the cluster of
the pixel. -/
noncomputable def energy (g : Geo) (wc : ℝ) (dev : Dev) : ℝ :=
  ∑ p ∈ Finset.range g.width ×ˢ Finset.range g.height,
    sqDist g.diam wc (pixel dev p.1 p.2) (centre g dev (dev.labels p.1 p.2).toNat)

/-- The accumulators are empty. -/
def Idle (g : Geo) (dev : Dev) : Prop := ∀ q < 6 * g.nbSpx, dev.acc q = 0

/-- The response of the CIE 1976 colour space. -/
noncomputable def cieF (t : ℝ) : ℝ :=
  if t > 8856 / 1000000 then t ^ (1 / 3 : ℝ) else 7787 / 1000 * t + 13793 / 100000

/-- CIE `X`, relative to the white point. -/
noncomputable def cieX (b g r : Nat) : ℝ :=
  (412453 / 1000000 * (r / 255) + 357580 / 1000000 * (g / 255) + 180423 / 1000000 * (b / 255)) / (950456 / 1000000)

/-- CIE `Y`. -/
noncomputable def cieY (b g r : Nat) : ℝ :=
  212671 / 1000000 * (r / 255) + 715160 / 1000000 * (g / 255) + 72169 / 1000000 * (b / 255)

/-- CIE `Z`, relative to the white point. -/
noncomputable def cieZ (b g r : Nat) : ℝ :=
  (19334 / 1000000 * (r / 255) + 119193 / 1000000 * (g / 255) + 950227 / 1000000 * (b / 255)) / (1088754 / 1000000)

/-- CIE lightness. -/
noncomputable def cieL (b g r : Nat) : ℝ :=
  if cieY b g r > 8856 / 1000000 then 116 * cieY b g r ^ (1 / 3 : ℝ) - 16 else 9033 / 10 * cieY b g r

/-- CIE `a`. -/
noncomputable def cieA (b g r : Nat) : ℝ := 500 * (cieF (cieX b g r) - cieF (cieY b g r))

/-- CIE `b`. -/
noncomputable def cieB (b g r : Nat) : ℝ := 200 * (cieF (cieY b g r) - cieF (cieZ b g r))

end Litiv.Slic
