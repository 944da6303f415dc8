import Verif.Spec.MatType

/-!
# Lemmas on matrix element types
-/

namespace Litiv.MatType

theorem order_depth {i : Nat} {d : Data} (h : order[i]? = some d) : (i : Int) = d.depth := by
  unfold order at h
  match i, h with
  | 0, h | 1, h | 2, h | 3, h | 4, h | 5, h | 6, h => simp at h; subst h; rfl
  | n + 7, h => simp at h

theorem depth_order (d : Data) : order[d.depth.toNat]? = some d := by cases d <;> rfl

theorem depth_bounds (d : Data) : 0 ≤ d.depth ∧ d.depth ≤ 6 := by cases d <;> decide

theorem denotes_iff (code : Int) (d : Data) (n : Nat) : Denotes code d n ↔ cvDepth code = d.depth ∧ cvCn code = n := by
  have hb := depth_bounds d
  unfold cvDepth cvCn
  constructor
  · rintro ⟨i, hi, h1, h2, high, rfl⟩
    have := order_depth hi
    constructor <;> omega
  · rintro ⟨h1, h2⟩
    refine ⟨d.depth.toNat, depth_order d, by omega, by omega, code / 4096, ?_⟩
    omega

theorem depth_inj {d e : Data} (h : d.depth = e.depth) : d = e := by
  cases d <;> cases e <;> first | rfl | (simp [Data.depth] at h)

theorem depth_exists {z : Int} (h0 : 0 ≤ z) (h6 : z ≤ 6) : ∃ d : Data, z = d.depth := by
  have : z = 0 ∨ z = 1 ∨ z = 2 ∨ z = 3 ∨ z = 4 ∨ z = 5 ∨ z = 6 := by omega
  rcases this with h | h | h | h | h | h | h
  · exact ⟨.u8, h⟩
  · exact ⟨.s8, h⟩
  · exact ⟨.u16, h⟩
  · exact ⟨.s16, h⟩
  · exact ⟨.s32, h⟩
  · exact ⟨.f32, h⟩
  · exact ⟨.f64, h⟩

theorem depthIs_iff (d e : Data) : depthIs d.depth e = true ↔ e = d := by cases d <;> cases e <;> decide

theorem name_inj {d e : Data} (h : d.name = e.name) : d = e := by
  cases d <;> cases e <;> first | rfl | (exact absurd h (by decide))

end Litiv.MatType
