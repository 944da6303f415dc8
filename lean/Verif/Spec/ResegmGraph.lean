import Verif.Model.ResegmGraph

/-!
# Specification of the segmentation graph: nodes, neighbours and function buffers
-/

namespace Litiv.ResegmGraph

/-- The place of a pixel in the node table: cameras, then layers, then rows, then columns. -/
def place (c : Cfg) (cam layer row col : Nat) : Nat := ((cam * c.layers + layer) * c.rows + row) * c.cols + col

/-- A pixel of one of both cameras and of one layer. -/
def Pixel (c : Cfg) (cam layer row col : Nat) : Prop := cam < 2 ∧ layer < c.layers ∧ row < c.rows ∧ col < c.cols

/-- The place `p` belongs to a pixel in the region of interest of its camera. -/
def NodeAt (c : Cfg) (p cam layer row col : Nat) : Prop :=
  Pixel c cam layer row col ∧ c.roi cam row col = true ∧ p = place c cam layer row col

instance (c : Cfg) (p cam layer row col : Nat) : Decidable (NodeAt c p cam layer row col) := by
  unfold NodeAt Pixel; infer_instance

/-- Two nodes of the same camera and layer, the second one below or on the right of the first one. -/
def Adjacent (c : Cfg) (p q : Nat) : Prop := ∃ cam layer row col, NodeAt c p cam layer row col ∧
  (NodeAt c q cam layer (row + 1) col ∨ NodeAt c q cam layer row (col + 1))

/-- The pixel carries a temporal clique: it lies on the stride's grid, in the region of interest. -/
def Sampled (c : Cfg) (cam row col : Nat) : Prop :=
  NodeAt c (place c cam (c.layers - 1) row col) cam (c.layers - 1) row col ∧ c.stride ∣ row ∧ c.stride ∣ col

/-- Buffers `[a, a + n)` and `[b, b + k)` have nothing in common. -/
def Apart (a n b k : Nat) : Prop := a + n ≤ b ∨ b + k ≤ a

end Litiv.ResegmGraph
