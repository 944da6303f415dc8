import Mathlib.Data.Rat.Defs
import Mathlib.Algebra.Order.Field.Rat

/-!
# The rectangle that shows a texture on the whole screen

`modules/utils/src/opengl-draw.cpp:362-387` (`GLScreenBillboard`: vertices, indices, `render`) and
`modules/utils/include/litiv/utils/opengl-draw.hpp:22` (the vertical flip is on). Coordinates are rational numbers;
the third and fourth coordinates (0 and 1 for all vertices, so that there is no perspective), normals and colours
(the same for all vertices) are left out. The rasteriser is that of the OpenGL standard: a triangle covers the
points with non-negative barycentric weights, attributes are weighted by them; which triangle owns a pixel on a
shared edge is left open.
-/

namespace Litiv.Billboard

/-- The part of `GLVertex` that varies: position on the screen (`-1` to `1`), texture coordinates (`0` to `1`). -/
structure Vertex where
  x : ℚ
  y : ℚ
  s : ℚ
  t : ℚ

/-- `s_aVertices`, lines 372-385; the flag is `GLScreenBillboard_FLIP_TEX_Y_COORDS`. -/
def vertices (flip : Bool) : List Vertex :=
  if flip then
    [⟨-1, -1, 0, 1⟩, ⟨1, -1, 1, 1⟩, ⟨1, 1, 1, 0⟩, ⟨-1, 1, 0, 0⟩]
  else
    [⟨-1, -1, 0, 0⟩, ⟨1, -1, 1, 0⟩, ⟨1, 1, 1, 1⟩, ⟨-1, 1, 0, 1⟩]

/-- `s_anIndices`, line 387. -/
def indices : List Nat := [0, 1, 3, 3, 1, 2]

/-- A triangle. -/
abbrev Tri := Vertex × Vertex × Vertex

/-- `glDrawElements(GL_TRIANGLES, ...)`, line 364: three indices make a triangle. An index outside the vertices
draws nothing. -/
def assemble (vs : List Vertex) : List Nat → List Tri
  | i :: j :: k :: t =>
    match vs[i]?, vs[j]?, vs[k]? with
    | some a, some b, some c => (a, b, c) :: assemble vs t
    | _, _, _ => assemble vs t
  | _ => []

/-- `render`, lines 362-366: the triangles sent to the rasteriser; the first `s_nIndexCount = 6` indices are used
(line 370). -/
def render (flip : Bool) : List Tri := assemble (vertices flip) (indices.take 6)

/-- Twice the signed area of a triangle: positive when its vertices turn counter-clockwise. -/
def area2 (q : Tri) : ℚ :=
  (q.2.1.x - q.1.x) * (q.2.2.y - q.1.y) - (q.2.2.x - q.1.x) * (q.2.1.y - q.1.y)

end Litiv.Billboard
