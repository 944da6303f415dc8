import Verif.Lemmas.Billboard
import Mathlib.Tactic.Linarith
import Mathlib.Tactic.FieldSimp
import Mathlib.Tactic.Ring
import Mathlib.Tactic.Push

/-! # Theorems about the rectangle that shows a texture -/

namespace Litiv.Billboard

open Spec

/-- Every point of the screen is covered, and no other point is. -/
theorem covers (flip : Bool) (x y : ℚ) : (∃ q ∈ render flip, ∃ s t, Shows q x y s t) ↔ OnScreen x y := by
  rw [render_two]
  constructor
  · rintro ⟨q, hq, s, t, a, b, c, ⟨ha, hb, hc⟩, h1, hx, hy, _, _⟩
    simp only [List.mem_cons, List.not_mem_nil, or_false] at hq
    rcases hq with rfl | rfl <;> (simp only at hx hy; refine ⟨⟨?_, ?_⟩, ?_, ?_⟩ <;> linarith)
  · rintro ⟨⟨h1, h2⟩, h3, h4⟩
    by_cases h : x + y ≤ 0
    · refine ⟨_, List.mem_cons_self, _, _, -(x + y) / 2, (x + 1) / 2, (y + 1) / 2,
        ⟨by linarith, by linarith, by linarith⟩, by ring, by ring, by ring, rfl, rfl⟩
    · push Not at h
      refine ⟨_, List.mem_cons_of_mem _ List.mem_cons_self, _, _, (1 - x) / 2, (1 - y) / 2, (x + y) / 2,
        ⟨by linarith, by linarith, by linarith⟩, by ring, by ring, by ring, rfl, rfl⟩

/-- The two triangles share only the points of a diagonal. -/
theorem covers_once (flip : Bool) (x y s t s' t' : ℚ) (i j : Nat) (p q : Tri) (hij : i ≠ j)
    (hp : (render flip)[i]? = some p) (hq : (render flip)[j]? = some q)
    (h1 : Shows p x y s t) (h2 : Shows q x y s' t') : x + y = 0 := by
  have key : ∀ s t s' t', Shows (⟨-1, -1, 0, if flip then 1 else 0⟩, ⟨1, -1, 1, if flip then 1 else 0⟩, ⟨-1, 1, 0, if flip then 0 else 1⟩) x y s t →
      Shows (⟨-1, 1, 0, if flip then 0 else 1⟩, ⟨1, -1, 1, if flip then 1 else 0⟩, ⟨1, 1, 1, if flip then 0 else 1⟩) x y s' t' →
      x + y = 0 := by
    rintro s t s' t' ⟨a, b, c, ⟨ha, hb, hc⟩, h1, hx, hy, _, _⟩ ⟨a', b', c', ⟨ha', hb', hc'⟩, h1', hx', hy', _, _⟩
    simp only at hx hy hx' hy'
    linarith
  rw [render_two] at hp hq
  match i, j, hij, hp, hq with
  | 0, 0, hij, _, _ => exact absurd rfl hij
  | 0, 1, _, hp, hq =>
    simp only [List.getElem?_cons_zero, List.getElem?_cons_succ, Option.some.injEq] at hp hq
    subst hp; subst hq
    exact key _ _ _ _ h1 h2
  | 1, 0, _, hp, hq =>
    simp only [List.getElem?_cons_zero, List.getElem?_cons_succ, Option.some.injEq] at hp hq
    subst hp; subst hq
    exact key _ _ _ _ h2 h1
  | 1, 1, hij, _, _ => exact absurd rfl hij
  | (n + 2), _, _, hp, _ => simp at hp
  | 0, (n + 2), _, _, hq => simp at hq
  | 1, (n + 2), _, _, hq => simp at hq

/-- Both triangles show the same picture: the texture stretched over the screen, its first row at the top when
flipped and at the bottom otherwise. -/
theorem shows (flip : Bool) (q : Tri) (x y s t : ℚ) (hq : q ∈ render flip) (h : Shows q x y s t) :
    s = (x + 1) / 2 ∧ t = if flip then (1 - y) / 2 else (1 + y) / 2 := by
  rw [render_two] at hq
  simp only [List.mem_cons, List.not_mem_nil, or_false] at hq
  obtain ⟨a, b, c, _, h1, hx, hy, hs, ht⟩ := h
  have ha : a = 1 - b - c := by linarith
  cases flip
  · rcases hq with rfl | rfl <;>
      (simp only [Bool.false_eq_true, if_false] at hx hy hs ht ⊢
       subst ha; constructor <;> linarith)
  · rcases hq with rfl | rfl <;>
      (simp only [if_true] at hx hy hs ht ⊢
       subst ha; constructor <;> linarith)

/-- Shown in a window of its own size, the texture is upright and each of its texels fills its own pixel: the
pixel in column `i` and row `j` from the top shows the middle of the texel in column `i` and row `j`. -/
theorem pixel_exact (w h i j : Nat) (hi : i < w) (hj : j < h) (q : Tri) (s t : ℚ) (hq : q ∈ render true)
    (hs : Shows q (centre w i) (centre h (h - 1 - j)) s t) : s = texel w i ∧ t = texel h j := by
  obtain ⟨h1, h2⟩ := shows true q _ _ s t hq hs
  have hw : (w : ℚ) ≠ 0 := by
    have : w ≠ 0 := by omega
    exact_mod_cast this
  have hh : (h : ℚ) ≠ 0 := by
    have : h ≠ 0 := by omega
    exact_mod_cast this
  have hc : ((h - 1 - j : Nat) : ℚ) = (h : ℚ) - 1 - j := by
    rw [Nat.cast_sub (by omega), Nat.cast_sub (by omega)]
    simp
  constructor
  · rw [h1]
    unfold centre texel
    field_simp
    ring
  · rw [h2]
    simp only [if_true]
    unfold centre texel
    rw [hc]
    field_simp
    ring

/-- All the pixel centres are on the screen, so each pixel of the window is drawn. -/
theorem pixel_drawn (flip : Bool) (w h i j : Nat) (hi : i < w) (hj : j < h) :
    ∃ q ∈ render flip, ∃ s t, Shows q (centre w i) (centre h j) s t := by
  rw [covers]
  have key : ∀ n k : Nat, k < n → -1 ≤ centre n k ∧ centre n k ≤ 1 := by
    intro n k hk
    have hn : (0 : ℚ) < n := by
      have : 0 < n := by omega
      exact_mod_cast this
    have hk' : (k : ℚ) + 1 ≤ n := by exact_mod_cast hk
    have hk0 : (0 : ℚ) ≤ k := Nat.cast_nonneg k
    unfold centre
    constructor
    · have : (0 : ℚ) ≤ (2 * k + 1) / n := div_nonneg (by linarith) hn.le
      linarith
    · have : (2 * (k : ℚ) + 1) / n ≤ 2 := by
        rw [div_le_iff₀ hn]
        linarith
      linarith
  exact ⟨key w i hi, key h j hj⟩

/-- Both triangles face the viewer (counter-clockwise, the default front of OpenGL). -/
theorem front_facing (flip : Bool) : ∀ q ∈ render flip, 0 < area2 q := by
  rw [render_two]
  intro q hq
  simp only [List.mem_cons, List.not_mem_nil, or_false] at hq
  rcases hq with rfl | rfl <;> (unfold area2; norm_num)

/-! Concrete cases. -/

example : (render true).length = 2 := rfl

example : ∃ q ∈ render true, ∃ s t, Shows q (centre 640 3) (centre 480 7) s t :=
  pixel_drawn true 640 480 3 7 (by decide) (by decide)

example : OnScreen (1 / 2) (-1 / 3) := by unfold OnScreen; norm_num

end Litiv.Billboard
