import Verif.Lemmas.GLEval

/-!
# Properties of the GPU evaluation (C152, C153)

`compared gt ops` (Spec) lists the pairs (classification, ground truth) which the frames of a session compare, `onCpu` is
the evaluation of the same pairs by `BinClassif::accumulate`, and `rowSpec` counts pixels.
-/

namespace Litiv.GLEval

open Litiv.Metrics

/-- What a session assumes: a region of interest, a first ground truth of its size, frames of that size, no more frames
than announced, counters which fit 32 bits, and a counter buffer limit of at least two frames (or of the whole session). -/
structure Session (nTot maxSize : Nat) (gt roi : Mat8) (ops : List Op) : Prop where
  limit : 48 ≤ maxSize ∨ (24 < maxSize ∧ nTot * 24 < maxSize)
  some_frames : 0 < nTot
  not_more : (compared gt ops).length ≤ nTot
  roi_valid : roi.Valid
  roi_present : ¬ Absent roi
  gt_valid : gt.Valid
  gt_size : SameSize gt roi
  small : roi.area + surplus roi < 2 ^ 32
  legal : ∀ o ∈ ops, Legal roi o

theorem session_inv {nTot maxSize : Nat} {gt roi : Mat8} {ops : List Op} (h : Session nTot maxSize gt roi ops) :
    ∃ P s₀ s gt', initGL nTot maxSize gt roi = some s₀ ∧ run s₀ ops = some s ∧
      Inv P nTot roi gt' (compared gt ops) s := by
  have hl := h.limit
  obtain ⟨P, s₀, e₀, h₀⟩ := init_inv nTot maxSize gt roi h.some_frames (by omega) (by omega) h.roi_present h.gt_size
  obtain ⟨s, gt', e, h'⟩ := run_inv h.roi_present ops h₀ h.gt_size h.legal (by have := h.not_more; simpa using this)
  exact ⟨P, s₀, s, gt', e₀, e, by simpa using h'⟩

/-- C153: however many frames fit in the counter buffer, and whenever the metrics are read, at the end the row of each
frame holds the pixel counts of that frame (the last one includes the invocations outside of the frame), the rows of
frames to come are zero, and no transfer leaves the buffers. -/
theorem rows_kept {nTot maxSize : Nat} {gt roi : Mat8} {ops : List Op} (h : Session nTot maxSize gt roi ops) :
    ∃ s₀ s s' m, initGL nTot maxSize gt roi = some s₀ ∧ run s₀ ops = some s ∧ metricsGL s = some (s', m) ∧
      (∀ k f, (compared gt ops)[k]? = some f → ∀ c < 6, (s'.query (k * 6 + c)).toNat = rowSpec roi f c) ∧
      (∀ k ≥ (compared gt ops).length, ∀ c < 6, s'.query (k * 6 + c) = 0) := by
  obtain ⟨P, s₀, s, gt', e₀, e, hi⟩ := session_inv h
  obtain ⟨s', em, hq, -⟩ := metrics_inv hi h.small
  refine ⟨s₀, s, s', _, e₀, e, em, ?_, ?_⟩
  · intro k f hk c hc
    rw [hq, want_row _ _ _ _ f hk hc, toNat_small _ (rowSpec_lt roi f c hc h.small)]
  · intro k hk c _
    rw [hq, want_ge _ _ _ (by omega)]

theorem evaluate_eq {nTot maxSize : Nat} {gt roi : Mat8} {ops : List Op} (h : Session nTot maxSize gt roi ops) :
    evaluate nTot maxSize gt roi ops =
      some ((compared gt ops).foldl (fun (m : BinClassif) f => m.acc (gpuRow roi f)) {}) := by
  obtain ⟨P, s₀, s, gt', e₀, e, hi⟩ := session_inv h
  obtain ⟨s', em, -, -⟩ := metrics_inv hi h.small
  unfold evaluate
  rw [e₀, Option.bind_eq_bind, Option.bind_some, e, Option.bind_eq_bind, Option.bind_some, em]
  rfl

/-- C152: for every session and every order of the atomic increments, the GPU evaluation gives the true positives, true
negatives, false positives, false negatives and shadow errors of the CPU evaluation of the same images; its "don't care"
count exceeds that of the CPU by the invocations outside of the frames. -/
theorem gpu_counts {nTot maxSize : Nat} {gt roi : Mat8} {ops : List Op} (h : Session nTot maxSize gt roi ops) :
    ∃ m c, evaluate nTot maxSize gt roi ops = some m ∧ onCpu roi (compared gt ops) = some c ∧
      m.tp = c.tp ∧ m.tn = c.tn ∧ m.fp = c.fp ∧ m.fn = c.fn ∧ m.se = c.se ∧
      m.dc = c.dc + UInt64.ofNat ((compared gt ops).length * surplus roi) := by
  obtain ⟨c, ec, hc⟩ := cpu_fold roi h.roi_present h.roi_valid _ (compared_sizes roi ops gt h.gt_valid h.gt_size h.legal)
  refine ⟨_, c, evaluate_eq h, ec, ?_⟩
  rw [hc]
  exact ⟨rfl, rfl, rfl, rfl, rfl, rfl⟩

/-- C152, the missing part being frames whose size is not a multiple of the 12×8 work groups: the GPU evaluation returns
exactly the counters of the CPU evaluation. -/
theorem gpu_is_cpu_partial {nTot maxSize : Nat} {gt roi : Mat8} {ops : List Op} (h : Session nTot maxSize gt roi ops)
    (hw : 12 ∣ roi.cols) (hh : 8 ∣ roi.rows) :
    ∃ m, evaluate nTot maxSize gt roi ops = some m ∧ onCpu roi (compared gt ops) = some m := by
  obtain ⟨m, c, e, ec, h1, h2, h3, h4, h5, h6⟩ := gpu_counts h
  have : surplus roi = 0 := by
    rw [surplus, roundUp_of_dvd 8 _ hh, roundUp_of_dvd 12 _ hw]; omega
  rw [this] at h6
  have : m = c := by
    cases m; cases c
    simp only [Nat.mul_zero] at h1 h2 h3 h4 h5 h6
    subst h1 h2 h3 h4 h5 h6
    simp
  exact ⟨m, e, this ▸ ec⟩

/-- C152: reading the metrics during a session, any number of times, and the orders of the atomic increments do not change
the result: it depends on the compared images only. -/
theorem result_depends_on_images {nTot nTot' maxSize maxSize' : Nat} {gt roi : Mat8} {ops ops' : List Op}
    (h : Session nTot maxSize gt roi ops) (h' : Session nTot' maxSize' gt roi ops')
    (hsame : compared gt ops' = compared gt ops) :
    evaluate nTot maxSize gt roi ops = evaluate nTot' maxSize' gt roi ops' := by
  rw [evaluate_eq h, evaluate_eq h', hsame]

/-- A session of two frames of 12×8 pixels whose counter buffer holds one frame at a time; the metrics are also read in
between, and the increments of the first frame happen in reverse. -/
example : Session 2 48 ⟨8, 12, List.replicate 96 50⟩ ⟨8, 12, List.replicate 96 255⟩
    [.frame ⟨8, 12, List.replicate 96 255⟩ ⟨8, 12, List.replicate 96 0⟩ List.reverse, .metrics,
     .frame ⟨8, 12, List.replicate 96 0⟩ ⟨8, 12, List.replicate 96 0⟩ id] := by
  refine ⟨by decide, by decide, by decide, by simp [Mat8.Valid], by simp [Absent], by simp [Mat8.Valid], ⟨rfl, rfl⟩, ?_, ?_⟩
  · rw [surplus, roundUp_of_dvd 8 _ (by norm_num), roundUp_of_dvd 12 _ (by norm_num)]; decide
  · intro o ho
    simp only [List.mem_cons, List.not_mem_nil, or_false] at ho
    rcases ho with rfl | rfl | rfl
    · exact ⟨by simp [Mat8.Valid], by simp [Mat8.Valid], ⟨rfl, rfl⟩, ⟨rfl, rfl⟩, fun l => List.reverse_perm l⟩
    · trivial
    · exact ⟨by simp [Mat8.Valid], by simp [Mat8.Valid], ⟨rfl, rfl⟩, ⟨rfl, rfl⟩, fun l => List.Perm.refl l⟩

example : evaluate 2 48 ⟨8, 12, List.replicate 96 50⟩ ⟨8, 12, List.replicate 96 255⟩
    [.frame ⟨8, 12, List.replicate 96 255⟩ ⟨8, 12, List.replicate 96 0⟩ List.reverse, .metrics,
     .frame ⟨8, 12, List.replicate 96 0⟩ ⟨8, 12, List.replicate 96 0⟩ id] =
    some { tn := 96, fp := 96, se := 96 } := by decide +kernel

/-- C153: frames beyond the announced number are refused. -/
theorem too_many_frames {nTot maxSize : Nat} {gt roi : Mat8} {ops : List Op} {s₀ : Ev}
    (hi : initGL nTot maxSize gt roi = some s₀) (hn : nTot < (compared gt ops).length) : run s₀ ops = none := by
  have step : ∀ (s s1 : Ev) out g order, applyGL s out g order = some s1 →
      s.frame < s.nTot ∧ s1.frame = s.frame + 1 ∧ s1.nTot = s.nTot := by
    intro s s1 out g order e
    unfold applyGL at e
    split at e
    · exact absurd e (by simp)
    · rename_i hc
      have hlt : s.frame < s.nTot := by
        by_contra hx
        exact hc (by simp [hx])
      dsimp only at e
      by_cases hf : s.offPtr + frameSize > s.curSize
      · rw [if_pos hf] at e
        unfold flush at e
        split at e
        · change (if _ then none else _) = some s1 at e
          split at e
          · exact absurd e (by simp)
          · cases Option.some.inj e; exact ⟨hlt, rfl, rfl⟩
        · exact absurd e (by simp)
      · rw [if_neg hf] at e
        change (if _ then none else _) = some s1 at e
        rw [if_neg hf] at e
        cases Option.some.inj e
        exact ⟨hlt, rfl, rfl⟩
  have all : ∀ (ops : List Op) (gt : Mat8) (s s' : Ev), run s ops = some s' → s.frame ≤ s.nTot →
      s.frame + (compared gt ops).length ≤ s.nTot := by
    intro ops
    induction ops with
    | nil => intro gt s s' _ h; simpa [compared] using h
    | cons o ops ih =>
      intro gt s s' e h
      cases o with
      | frame out g order =>
        unfold run at e
        cases e1 : applyGL s out g order with
        | none => rw [e1] at e; exact absurd e (by simp)
        | some s1 =>
          rw [e1] at e
          obtain ⟨h1, h2, h3⟩ := step s s1 out g order e1
          have := ih g s1 s' e (by omega)
          simp only [compared, List.length_cons]
          omega
      | metrics =>
        unfold run metricsGL at e
        cases e1 : queryGL s with
        | none => rw [e1] at e; exact absurd e (by simp)
        | some s1 =>
          rw [e1] at e
          have hs : s1.frame = s.frame ∧ s1.nTot = s.nTot := by
            unfold queryGL at e1
            split at e1
            · split at e1
              · cases Option.some.inj e1; exact ⟨rfl, rfl⟩
              · exact absurd e1 (by simp)
            · cases Option.some.inj e1; exact ⟨rfl, rfl⟩
          have := ih gt s1 s' e (by omega)
          simp only [compared]
          omega
  cases e : run s₀ ops with
  | none => rfl
  | some s =>
    exfalso
    have h0 : s₀.frame = 0 ∧ s₀.nTot = nTot := by
      unfold initGL at hi
      cases e1 : pageSize nTot maxSize with
      | none => rw [e1] at hi; exact absurd hi (by simp)
      | some c =>
        rw [e1] at hi
        change (if _ then none else _) = some s₀ at hi
        split at hi
        · exact absurd hi (by simp)
        · cases Option.some.inj hi; exact ⟨rfl, rfl⟩
    have := all ops gt s₀ s e (by omega)
    omega

/-- C153: the counter buffer holds a whole number of frames, is smaller than the limit of the driver and not larger than
needed. -/
theorem page_fits (nTot maxSize : Nat) (hn : 0 < nTot) (hm : 24 < maxSize) :
    ∃ P, pageSize nTot maxSize = some (P * 24) ∧ P ≤ nTot ∧ P * 24 < maxSize := by
  obtain ⟨P, h1, -, h2, h3⟩ := pageSize_spec nTot maxSize hn hm
  exact ⟨P, h1, h2, h3⟩

/-! ### What fails -/

/-- A 1×1 image. -/
def dot (v : UInt8) : Mat8 := ⟨1, 1, [v]⟩

/-- C152 is false for frames whose size is not a multiple of the work group size: for a single pixel, correctly
classified, the CPU counts one true positive, and the GPU 95 further "don't care" pixels. -/
theorem gpu_is_cpu_refuted :
    evaluate 1 1024 (dot 255) (dot 255) [.frame (dot 255) (dot 255) id] = some { tp := 1, dc := 95 } ∧
      onCpu (dot 255) (compared (dot 255) [.frame (dot 255) (dot 255) id]) = some { tp := 1 } := by
  constructor <;> decide +kernel

/-- The statement "a frame without ground truth counts as don't care", which holds on the CPU (`accImage_no_gt`), is false
on the GPU: the frame is compared with an earlier ground truth. -/
theorem missing_gt_refuted :
    evaluate 2 1024 (dot 255) (dot 255) [.frame (dot 255) ⟨0, 0, []⟩ id, .frame (dot 255) (dot 0) id] =
        some { tp := 2, dc := 190 } ∧
      onCpu (dot 255) (compared (dot 255) [.frame (dot 255) ⟨0, 0, []⟩ id, .frame (dot 255) (dot 0) id]) =
        some { tp := 1, dc := 1 } := by
  constructor <;> decide +kernel

/-- C153 is false when the limit of the driver lies between one and two frames (OpenGL only guarantees 32 bytes): three
frames make the buffer size zero, and the first frame already fails. -/
theorem rows_kept_refuted : pageSize 3 32 = some 0 ∧
    evaluate 3 32 (dot 255) (dot 255) [.frame (dot 255) (dot 255) id] = none := by
  constructor <;> decide +kernel

end Litiv.GLEval
