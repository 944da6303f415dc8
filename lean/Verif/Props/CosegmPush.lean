import Verif.Lemmas.CosegmPush

/-!
# Properties of the delayed results of the cosegmentation application
-/

namespace Litiv.CosegmPush

/-- Full statement: the results of all the frames of a batch are pushed. Missing: the batch must end where a temporal
window ends. -/
theorem all_pushed_partial (brk : Nat → Bool) (d start total : Nat) (h : start ≤ total) (he : brk total = true) :
    ∃ s, batch brk d start total = some s ∧ s.out = each start total := by
  obtain ⟨s, hs, _, hg, _⟩ := batch_good brk d start total h
  exact ⟨s, hs, hg he⟩

/-- Whatever the breaks, results are pushed in order, once, under the index of their own frame, and at most the last
`d` frames are missing. -/
theorem pushed_in_order (brk : Nat → Bool) (d start total : Nat) (h : start ≤ total) :
    ∃ s m, batch brk d start total = some s ∧ s.out = each start m ∧ start ≤ m ∧ m ≤ total ∧ total ≤ m + d := by
  obtain ⟨s, hs, _, hg, hp⟩ := batch_good brk d start total h
  cases hb : brk total with
  | true => exact ⟨s, total, hs, hg hb, h, Nat.le_refl _, by omega⟩
  | false =>
    have p := hp hb
    have := p.lo
    have := p.hi
    exact ⟨s, _, hs, p.out, by omega, by omega, by omega⟩

/-- A batch loaded as a subset of its frames pushes the results of all of them. -/
theorem subset_complete (m : Subset.Mode) (hm : m.load = true) (sub : List Nat) (hs : sub ≠ []) (d : Nat) :
    ∃ s, batch (breaks m sub) d 0 sub.length = some s ∧ s.out = each 0 sub.length := by
  apply all_pushed_partial _ _ _ _ (Nat.zero_le _)
  have hl : sub.length ≠ 0 := by simpa using hs
  unfold breaks Subset.breakLitiv
  simp [hl, hm, hs]

/-- A batch loaded in full never pushes the results of its last `d` frames. -/
theorem full_video_lost (m : Subset.Mode) (hm : m.load = false) (sub : List Nat) (d total : Nat) (ht : 0 < total) :
    ∃ s, batch (breaks m sub) d 0 total = some s ∧ s.out = each 0 (total - d) := by
  have hb : ∀ i, 0 < i → breaks m sub i = false := by
    intro i hi
    have : i ≠ 0 := by omega
    unfold breaks Subset.breakLitiv
    simp [this, hm]
  obtain ⟨s, hs, _, _, hp⟩ := batch_good (breaks m sub) d 0 total (Nat.zero_le _)
  have p := hp (hb total ht)
  refine ⟨s, hs, ?_⟩
  have hlast : s.last = 0 := by
    obtain ⟨n, rfl⟩ : ∃ n, total = n + 1 := ⟨total - 1, by omega⟩
    unfold batch at hs
    rw [Nat.sub_zero] at hs
    unfold loop at hs
    obtain ⟨t, ht1, ht2⟩ := Option.bind_eq_some_iff.mp hs
    rw [loop_last _ d n 1 t s (fun i h1 _ => hb i h1) ht2]
    rw [frame_last _ d 0 _ t (hb 1 (by omega)) ht1]
    unfold reset
    split <;> rfl
  rw [p.out, hlast, Nat.max_eq_right (Nat.zero_le _)]

/-- The results of all the frames of a batch are not always pushed: a video of five frames with a depth of one. -/
theorem all_pushed_refuted : ∃ (m : Subset.Mode) (s : St), batch (breaks m []) 1 0 5 = some s ∧
    s.out = [(0, 0), (1, 1), (2, 2), (3, 3)] :=
  ⟨⟨false, false, 0⟩, _, rfl, by decide +kernel⟩

/-- Two windows, of frames 0 to 3 and 4 to 5, with a depth of two. -/
example : ((batch (fun k => k == 0 || k == 4 || k == 6) 2 0 6).map St.out) =
    some [(0, 0), (1, 1), (2, 2), (3, 3), (4, 4), (5, 5)] := by decide +kernel

example : each 2 5 = [(2, 2), (3, 3), (4, 4)] := by decide +kernel

end Litiv.CosegmPush
