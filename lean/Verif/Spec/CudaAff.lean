import Verif.Model.CudaAff
import Verif.Spec.Affinity

/-! # Specification of the descriptor affinity on the GPU -/

namespace Litiv.CudaAff

/-- Euclidean distance of the descriptor of the first map at `(r, c)` and that of the second map at `(r, c')`. -/
noncomputable def dist (g : Args) (r c c' : Nat) : ℝ := Real.sqrt (∑ k ∈ Finset.range g.size, (g.d1 r c k - g.d2 r c' k) ^ 2)

/-- The same arguments for the function without CUDA. -/
noncomputable def cpu (g : Args) (disp : List Int) : Affinity.Desc := ⟨g.rows, g.cols, dist g, disp, g.roi1, g.roi2⟩

/-- Two maps agree on all pixels and disparities. -/
def Agree (g : Args) (disp : List Int) (m m' : Affinity.Map3) : Prop :=
  ∀ r c o, r < g.rows → c < g.cols → o < disp.length → m r c o = m' r c o

end Litiv.CudaAff
