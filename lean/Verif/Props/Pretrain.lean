import Verif.Lemmas.Pretrain

/-!
# Properties of the pretraining
-/

namespace Litiv.Pretrain

/-- Full statement: for every video, the frames are seen in the order of `order`, and the printed progress counts the
frames of the pretraining one by one up to its maximum. Missing: videos that do not reach past the last index of the
pretraining. -/
theorem order_partial (c : Cfg) (ht : c.top < c.total) :
    ∃ n v, (∀ fuel, n ≤ fuel → run c fuel init = some v) ∧ v.map Prod.fst = order c.loops (c.top + 1) c.total ∧
      v.map Prod.snd = (List.range' 1 (c.loops * (c.top + 1) * 2)).map some ++ List.replicate c.total none := by
  obtain ⟨n, v, hv, h1, h2⟩ := ends_passes c ht c.loops 0 (by omega)
  refine ⟨n, v, fun fuel hf => ?_, h1, ?_⟩
  · have := hv (fuel - n)
    have e : n + (fuel - n) = fuel := by omega
    rwa [e] at this
  · rw [h2]
    have e : c.loops * (c.top + 1) * 2 = c.loops * (2 * (c.top + 1)) := by rw [Nat.mul_assoc, Nat.mul_comm 2]
    rw [e, Nat.zero_mul]

/-- A video that ends before the last index of the pretraining is seen once, all of it as pretraining. -/
theorem short_video (c : Cfg) (hl : 0 < c.loops) (ht : c.total ≤ c.top) (fuel : Nat) (hf : c.total < fuel) :
    run c fuel init = some ((List.range c.total).map fun j => (j, some (j + 1))) := by
  have := ends_short c hl ht c.total 0 (by omega) (fuel - (c.total + 1))
  have e : c.total + 1 + (fuel - (c.total + 1)) = fuel := by omega
  rw [e, ← List.range_eq_range'] at this
  exact this

/-- The order is not kept for a video of six frames, with the constants of the application. -/
theorem order_refuted : ∃ c : Cfg, c.loops = 50 ∧ c.top = 6 ∧ c.total = 6 ∧ ∀ fuel v, run c fuel init = some v →
    v.map Prod.fst ≠ order c.loops (c.top + 1) c.total := by
  refine ⟨⟨50, 6, 6⟩, rfl, rfl, rfl, fun fuel v hv he => ?_⟩
  by_cases hf : 6 < fuel
  · rw [short_video ⟨50, 6, 6⟩ (by decide) (by decide) fuel hf] at hv
    obtain rfl := Option.some.inj hv
    have := congrArg List.length he
    revert this
    decide +kernel
  · have : fuel = 0 ∨ fuel = 1 ∨ fuel = 2 ∨ fuel = 3 ∨ fuel = 4 ∨ fuel = 5 ∨ fuel = 6 := by omega
    rcases this with rfl | rfl | rfl | rfl | rfl | rfl | rfl <;> simp [run, next, init] at hv

/-- Two passes over two frames of a video of three. -/
example : (run ⟨2, 1, 3⟩ 20 init).map (·.map Prod.fst) = some [0, 1, 1, 0, 0, 1, 1, 0, 0, 1, 2] := by decide +kernel

example : order 2 2 3 = [0, 1, 1, 0, 0, 1, 1, 0, 0, 1, 2] := by decide +kernel

end Litiv.Pretrain
