import Verif.Lemmas.VidReg

/-! # Theorems about the evaluation loop of the video registration application -/

namespace Litiv.VidReg

open Spec

/-- The rows written are the frames with a transformation among those processed, in order, each with its index and
its errors; the first index is that of the first row, or the number of frames when there is none. -/
theorem rows_written (n : Nat) (fs : List Frame) :
    (run n fs).rows = registered 0 (processed (fs.take n)) ∧
    (run n fs).first = (((run n fs).rows.head?.map fun p => p.1).getD n) := by
  have h := run_form n fs _ rfl
  refine ⟨h.1, ?_⟩
  rw [h.1]
  exact h.2.1

/-- The average is the mean of the rows when all the frames are read, the user does not quit, and a transformation
once found is kept. Missing: the other cases, in which it is false (`average_refuted`). -/
theorem average_partial (n : Nat) (fs : List Frame) (hn : n ≤ fs.length) (hq : ∀ f ∈ fs, f.quit = false)
    (hk : fs.Pairwise (fun f g => f.reg.isSome = true → g.reg.isSome = true)) (hr : (run n fs).rows ≠ []) :
    (run n fs).avg = some (mean (run n fs).rows) := by
  have h := run_form n fs _ rfl
  have hp : processed (fs.take n) = fs.take n := processed_full _ fun f hf => hq f (List.mem_of_mem_take hf)
  rw [h.1] at hr ⊢
  cases hl : registered 0 (processed (fs.take n)) with
  | nil => exact absurd hl hr
  | cons p r =>
    have h1 := (h.2.2.1 p r hl).2.1
    rw [hl] at h1
    have h2 := registered_kept 0 (fs.take n) p r (hk.sublist (List.take_sublist n fs)) (hp ▸ hl)
    have h3 : (fs.take n).length = n := by simp [hn]
    have h4 : n - p.1 = (p :: r).length := by simp; omega
    rw [h1, h4]
    rfl

/-- In all cases the average is at most the mean of the rows, when the errors are not negative: it can only look
better than it is. -/
theorem average_below (n : Nat) (fs : List Frame) (hr : (run n fs).rows ≠ [])
    (hpos : ∀ p ∈ (run n fs).rows, 0 ≤ p.2.x ∧ 0 ≤ p.2.y ∧ 0 ≤ p.2.o) :
    ∃ a, (run n fs).avg = some a ∧ a.x ≤ (mean (run n fs).rows).x ∧ a.y ≤ (mean (run n fs).rows).y ∧
      a.o ≤ (mean (run n fs).rows).o ∧ 0 ≤ a.x ∧ 0 ≤ a.y ∧ 0 ≤ a.o := by
  have h := run_form n fs _ rfl
  rw [h.1] at hr hpos ⊢
  cases hl : registered 0 (processed (fs.take n)) with
  | nil => exact absurd hl hr
  | cons p r =>
    obtain ⟨h0, h1, _⟩ := h.2.2.1 p r hl
    rw [hl] at h1 hpos
    have hlen : (((p :: r).length : Nat) : ℚ) ≤ ((n - p.1 : Nat) : ℚ) := by
      have : (p :: r).length ≤ n - p.1 := by simp; omega
      exact_mod_cast this
    have hl0 : (0 : ℚ) < (((p :: r).length : Nat) : ℚ) := by
      have : 0 < (p :: r).length := by simp
      exact_mod_cast this
    have key : ∀ g : Nat × Err → ℚ, (∀ q ∈ p :: r, 0 ≤ g q) →
        ((p :: r).map g).sum / ((n - p.1 : Nat) : ℚ) ≤ ((p :: r).map g).sum / (((p :: r).length : Nat) : ℚ) ∧
        0 ≤ ((p :: r).map g).sum / ((n - p.1 : Nat) : ℚ) := by
      intro g hg
      have hs : 0 ≤ ((p :: r).map g).sum := sum_map_nonneg g _ hg
      exact ⟨div_le_div_of_nonneg_left hs hl0 hlen, div_nonneg hs (by linarith)⟩
    refine ⟨_, h1, (key (fun q => q.2.x) fun q hq => (hpos q hq).1).1, (key (fun q => q.2.y) fun q hq => (hpos q hq).2.1).1,
      (key (fun q => q.2.o) fun q hq => (hpos q hq).2.2).1, (key (fun q => q.2.x) fun q hq => (hpos q hq).1).2,
      (key (fun q => q.2.y) fun q hq => (hpos q hq).2.1).2, (key (fun q => q.2.o) fun q hq => (hpos q hq).2.2).2⟩

/-- Without any transformation the averages divide zero by zero; otherwise there is an average. -/
theorem average_defined (n : Nat) (fs : List Frame) : (run n fs).avg = none ↔ (run n fs).rows = [] := by
  have h := run_form n fs _ rfl
  rw [h.1]
  constructor
  · intro hn
    cases hl : registered 0 (processed (fs.take n)) with
    | nil => rfl
    | cons p r =>
      rw [(h.2.2.1 p r hl).2.1] at hn
      simp at hn
  · exact fun hl => (h.2.2.2 hl).1

/-- The average overlap error of the blobs does not depend on the videos: it is zero whenever it is defined. -/
theorem blob_constant (n : Nat) (fs : List Frame) (v : ℚ) (hv : (run n fs).blobAvg = some v) : v = 0 := by
  have h := run_form n fs _ rfl
  cases hl : registered 0 (processed (fs.take n)) with
  | nil => rw [(h.2.2.2 hl).2] at hv; simp at hv
  | cons p r =>
    rw [(h.2.2.1 p r hl).2.2] at hv
    exact (Option.some.inj hv).symm

/-- A frame with error 6. -/
def six : Frame := ⟨some ⟨6, 6, 6⟩, false⟩

/-- When the streams end one frame early (as after the read of line 60, which is not undone), when the user quits, or
when a transformation is lost, the average is not the mean of the rows. -/
theorem average_refuted :
    (∃ (n : Nat) (fs : List Frame), fs.length + 1 = n ∧ (∀ f ∈ fs, f = six) ∧
      (run n fs).avg = some ⟨4, 4, 4⟩ ∧ mean (run n fs).rows = ⟨6, 6, 6⟩) ∧
    (∃ (n : Nat) (fs : List Frame), fs.length = n ∧ (∀ f ∈ fs, f.reg = six.reg) ∧
      (run n fs).avg = some ⟨4, 4, 4⟩ ∧ mean (run n fs).rows = ⟨6, 6, 6⟩) ∧
    (∃ (n : Nat) (fs : List Frame), fs.length = n ∧ (∀ f ∈ fs, f.quit = false) ∧
      (run n fs).avg = some ⟨4, 4, 4⟩ ∧ mean (run n fs).rows = ⟨6, 6, 6⟩) :=
  ⟨⟨3, [six, six], rfl, by decide +kernel, by decide +kernel, by decide +kernel⟩,
    ⟨3, [six, { six with quit := true }, six], rfl, by decide +kernel, by decide +kernel, by decide +kernel⟩,
    ⟨3, [six, ⟨none, false⟩, six], rfl, by decide +kernel, by decide +kernel, by decide +kernel⟩⟩

/-! Concrete cases. -/

example : run 4 [⟨none, false⟩, ⟨some ⟨1, 2, 3⟩, false⟩, ⟨some ⟨2, 2, 3⟩, false⟩, ⟨some ⟨3, 8, 3⟩, false⟩] =
    ⟨[(1, ⟨1, 2, 3⟩), (2, ⟨2, 2, 3⟩), (3, ⟨3, 8, 3⟩)], 1, some ⟨2, 4, 3⟩, some 0⟩ := by decide +kernel

example : run 2 [⟨none, false⟩, ⟨none, false⟩] = ⟨[], 2, none, none⟩ := by decide +kernel

end Litiv.VidReg
