import Verif.Model.LU
import Mathlib.Analysis.SpecialFunctions.Exp
import Mathlib.Analysis.SpecialFunctions.Trigonometric.Basic

/-!
# Model of the Gaussian mixture estimator of modules/utils/include/litiv/utils/math.hpp

`double` values are exact real numbers. The model parameters are one flat array (`m_aModelData`, `math.hpp:1198`), the pointers into it
(`math.hpp:1199-1204`) are offsets. The debug assertions are only
modelled in `densityDbg`.
-/

namespace Litiv.GMM

/-- State of a mixture with `C` components of dimension `D`, `math.hpp:1197-1209`. -/
structure Gmm where
  /-- `m_aModelData` -/
  data : Nat → ℝ
  /-- `m_aSampleSums` -/
  sums : Nat → Nat → ℝ
  /-- `m_aSampleProds` -/
  prods : Nat → Nat → Nat → ℝ
  /-- `m_nSampleCounts` -/
  counts : Nat → Nat
  /-- `m_nTotSampleCount` -/
  total : Nat
  /-- `m_bLearningModeOn` -/
  learning : Bool

/-- `getModelSize`, `math.hpp:1185`. -/
def modelSize (C D : Nat) : Nat := (D + D * D * 2 + 3) * C

/-- Offset of `m_aMeans`, `math.hpp:1218`. -/
def oMeans (C _D : Nat) : Nat := C

/-- Offset of `m_aCovMats`, `math.hpp:1219`. -/
def oCovs (C D : Nat) : Nat := oMeans C D + D * C

/-- Offset of `m_aInvCovMats`, `math.hpp:1220`. -/
def oInvs (C D : Nat) : Nat := oCovs C D + D * D * C

/-- Offset of `m_aCovMatDeterms`, `math.hpp:1221`. -/
def oDets (C D : Nat) : Nat := oInvs C D + D * D * C

/-- Offset of `m_aGaussPDFFactors`, `math.hpp:1222`. -/
def oFacs (C D : Nat) : Nat := oDets C D + C

/-- A store. -/
def put (m : Nat → ℝ) (k : Nat) (v : ℝ) : Nat → ℝ := fun j => if j = k then v else m j

/-- Constructor, `math.hpp:1214-1225`; `junk` is the previous content of the memory. -/
def construct (C D : Nat) (junk : Gmm) : Gmm :=
  { junk with data := fun k => if k < modelSize C D then 0 else junk.data k, learning := false }

/-- `getComponentMean(c)[d]`, `math.hpp:1189`. -/
def mean (C D : Nat) (g : Gmm) (c d : Nat) : ℝ := g.data (oMeans C D + D * c + d)

/-- `getComponentCovMat(c)[k]`, `math.hpp:1191`. -/
def covMat (C D : Nat) (g : Gmm) (c k : Nat) : ℝ := g.data (oCovs C D + D * D * c + k)

/-- `getComponentWeight(c)`, `math.hpp:1193`. -/
def weight (g : Gmm) (c : Nat) : ℝ := g.data c

/-- Density of one component, `math.hpp:1249-1276`. -/
noncomputable def density (C D : Nat) (g : Gmm) (c : Nat) (x : Nat → ℝ) : ℝ :=
  if 0 < g.data c then
    let diff := fun d => x d - g.data (oMeans C D + D * c + d)
    let inv := fun k => g.data (oInvs C D + c * D * D + k)
    let sum2 := fun i => (List.range (D - 1)).foldl (fun s j => s + diff j * inv (j * D + i)) (diff (D - 1) * inv ((D - 1) * D + i))
    let sum1 := (List.range D).foldl (fun s i => s + diff i * sum2 i) 0
    g.data (oFacs C D + c) * Real.exp (-(1 / 2) * sum1)
  else 0

/-- Density of one component in debug builds, `none` is a failed assertion, `math.hpp:1252,1257` (`std::exp` is not negative, so the one of
`math.hpp:1273` fails only with a negative factor, which is not a square root's reciprocal). -/
noncomputable def densityDbg (C D : Nat) (g : Gmm) (c : Nat) (x : Nat → ℝ) : Option ℝ :=
  if g.learning = true then none
  else if 0 < g.data c ∧ ¬ (1 / 2 ^ 52 < g.data (oDets C D + c)) then none
  else some (density C D g c x)

/-- Density of the mixture, `math.hpp:1233-1241`. -/
noncomputable def mixture (C D : Nat) (g : Gmm) (x : Nat → ℝ) : ℝ :=
  (List.range (C - 1)).foldl (fun s c => s + g.data c * density C D g c x) (g.data (C - 1) * density C D g (C - 1) x)

/-- `getBestComponent`, `math.hpp:1284-1297`. -/
noncomputable def best (C D : Nat) (g : Gmm) (x : Nat → ℝ) : Nat :=
  ((List.range (C - 1)).foldl (fun b c => if b.2 < density C D g c x then (c, density C D g c x) else b) (C - 1, density C D g (C - 1) x)).1

/-- `initLearning`, `math.hpp:1299-1306`. -/
def initLearning (C D : Nat) (g : Gmm) : Gmm :=
  { g with
    sums := fun c d => if c < C ∧ d < D then 0 else g.sums c d
    prods := fun c i j => if c < C ∧ i < D ∧ j < D then 0 else g.prods c i j
    counts := fun c => if c < C then 0 else g.counts c
    total := 0
    learning := true }

/-- `m[c][i] += v`. -/
def add2 (m : Nat → Nat → ℝ) (c i : Nat) (v : ℝ) : Nat → Nat → ℝ := fun c' i' => if c' = c ∧ i' = i then m c' i' + v else m c' i'

/-- `m[c][i][j] += v`. -/
def add3 (m : Nat → Nat → Nat → ℝ) (c i j : Nat) (v : ℝ) : Nat → Nat → Nat → ℝ := fun c' i' j' =>
  if c' = c ∧ i' = i ∧ j' = j then m c' i' j' + v else m c' i' j'

/-- `addSample`, `math.hpp:1314-1328`. -/
def addSample (D : Nat) (g : Gmm) (s : Nat × (Nat → ℝ)) : Gmm :=
  let c := s.1
  let x := s.2
  let acc := (List.range D).foldl (fun (a : (Nat → Nat → ℝ) × (Nat → Nat → Nat → ℝ)) i =>
    (add2 a.1 c i (x i), (List.range D).foldl (fun p j => add3 p c i j (x i * x j)) a.2)) (g.sums, g.prods)
  { g with sums := acc.1, prods := acc.2, counts := fun k => if k = c then g.counts k + 1 else g.counts k, total := g.total + 1 }

/-- The `n` cells from `a` on, as the array passed to `determinant` and `invert` (which read no other cell). -/
def cells (n a : Nat) (m : Nat → ℝ) : Nat → ℝ := fun k => if k < n then m (a + k) else 0

/-- Estimation of the parameters of one component, `math.hpp:1334-1362`; `none` is the failed assertion of `math.hpp:1360`. `eps` is the tolerance
of `LU`. -/
noncomputable def learnComp (eps : ℝ) (C D : Nat) (g : Gmm) (m : Nat → ℝ) (c : Nat) : Option (Nat → ℝ) :=
  if g.counts c = 0 then some (put m c 0)
  else
    let m := put m c (g.counts c / g.total)
    let aMean := oMeans C D + D * c
    let m := (List.range D).foldl (fun m d => put m (aMean + d) (g.sums c d / g.counts c)) m
    let aCov := oCovs C D + D * D * c
    let m := (List.range D).foldl (fun m i => (List.range D).foldl (fun m j =>
      put m (aCov + (i * D + j)) (g.prods c i j / g.counts c - m (aMean + i) * m (aMean + j))) m) m
    let det := LU.determinant eps D (cells (D * D) aCov m)
    let m :=
      if |det| < 1 / 10 ^ 6 then
        let m := (List.range D).foldl (fun m d => put m (aCov + (d * D + d)) (m (aCov + (d * D + d)) + 1 / 100)) m
        put m (oDets C D + c) (LU.determinant eps D (cells (D * D) aCov m))
      else put m (oDets C D + c) det
    (LU.invert eps D (cells (D * D) aCov m)).map fun out =>
      let m := (List.range (D * D)).foldl (fun m k => put m (oInvs C D + c * D * D + k) (out k)) m
      put m (oFacs C D + c) (1 / Real.sqrt ((2 * Real.pi) ^ D * m (oDets C D + c)))

/-- The tolerance of `LU` for `double`, `math.hpp:1005`. -/
noncomputable def luEps : ℝ := 100 / 2 ^ 52

/-- `endLearning`, `math.hpp:1330-1364`. -/
noncomputable def endLearning (eps : ℝ) (C D : Nat) (g : Gmm) : Option Gmm :=
  ((List.range C).foldlM (learnComp eps C D g) g.data).map fun m => { g with data := m, learning := false }

/-- A learning session: `initLearning`, one `addSample` per sample, `endLearning`. -/
noncomputable def learn (eps : ℝ) (C D : Nat) (g : Gmm) (samples : List (Nat × (Nat → ℝ))) : Option Gmm :=
  endLearning eps C D (samples.foldl (addSample D) (initLearning C D g))

end Litiv.GMM
