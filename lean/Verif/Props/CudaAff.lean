import Verif.Lemmas.CudaAff
import Verif.Spec.CudaAff
import Verif.Props.Affinity

/-!
# Theorems about the descriptor affinity on the GPU (C187)

Every theorem ranges over all schedules of all thread blocks and all initial contents of the memory (`Exec`).
-/

namespace Litiv.CudaAff

open Affinity (RawOk rawVal computeDescriptorAffinity rawIters meanIters)

open Classical in
/-- What the first kernel leaves, if the device holds the disparities. -/
theorem raw_kernel {w : Nat → ℝ} (dbg : Bool) (g : Args) (disp : List Int) (rng : Nat → Int) (e : Exec)
    (hw : Weights (threads disp.length) w) (hn : 0 < threads disp.length) (hsz : 0 < g.size)
    (hd : dbg = false ∨ isPow2 (threads disp.length) = true) (hrng : ∀ i < disp.length, rng i = disp.getD i 0) :
    ∃ m, (table2 g.rows g.cols fun r c =>
        rawBlock dbg g rng (threads disp.length) disp.length r c (e.sched1 r c) (e.mem1 r c)) = some m ∧
      ∀ r < g.rows, ∀ c < g.cols, ∀ o < disp.length,
        m r c o = if RawOk (cpu g disp) r c o then wdist w g.size (g.d1 r c) (g.d2 r ((c : Int) + disp.getD o 0).toNat) else -1 := by
  refine table2_some (fun r c v => ∀ o < disp.length, v o = if RawOk (cpu g disp) r c o then
    wdist w g.size (g.d1 r c) (g.d2 r ((c : Int) + disp.getD o 0).toNat) else -1) fun r hr c hc => ?_
  obtain ⟨f, hf, hv⟩ := rawBlock_spec hn hw dbg g hsz hd rng disp.length r c (e.sched1 r c) (e.mem1 r c)
  refine ⟨f, hf, fun o ho => ?_⟩
  rw [hv o ho]
  have hcol : column rng c o = (c : Int) + disp.getD o 0 := by rw [column, hrng o ho]
  rw [hcol]
  congr 1
  simp only [valid, hcol, RawOk, cpu, eq_iff_iff, Affinity.Spec.inside, Affinity.outside]
  constructor
  · rintro ⟨h1, h2⟩
    simp only [Bool.and_eq_true, decide_eq_true_eq] at h2
    refine ⟨((c : Int) + disp.getD o 0).toNat, by omega, by omega, ?_, ?_⟩
    · intro f hf
      rw [hf] at h1
      simpa using h1
    · intro f hf
      have h3 := h2.2
      rw [hf] at h3
      exact h3
  · rintro ⟨oc, h1, h2, h3, h4⟩
    constructor
    · cases hr1 : g.roi1 with
      | none => rfl
      | some f => simpa using h3 f hr1
    · have e1 : ((c : Int) + disp.getD o 0).toNat = oc := by omega
      simp only [Bool.and_eq_true, decide_eq_true_eq, e1]
      refine ⟨⟨by omega, by omega⟩, ?_⟩
      cases hr2 : g.roi2 with
      | none => rfl
      | some f => exact h4 f hr2

theorem wdist_one (g : Args) (r c c' : Nat) : wdist (fun _ => 1) g.size (g.d1 r c) (g.d2 r c') = dist g r c c' := by
  simp [wdist, dist]

/-- Numbers of disparities for which the first kernel is right. -/
theorem threads_ok (d : Nat) (h : d ≤ 128 ∨ (192 < d ∧ d ≤ 254)) :
    Weights (threads d) (fun _ => 1) ∧ isPow2 (threads d) = true ∧ 0 < threads d := by
  have h3 : threads d = 64 ∨ threads d = 128 ∨ threads d = 256 := by
    unfold threads ceilDiv
    split <;> omega
  rcases h3 with e | e | e <;> rw [e]
  · exact ⟨weights_pow 5, by decide, by decide⟩
  · exact ⟨weights_pow 6, by decide, by decide⟩
  · exact ⟨weights_pow 7, by decide, by decide⟩

theorem patchThreads_ok (p : Nat) (h : p ∈ [3, 5, 7, 11, 15]) :
    Weights (patchThreads p) (fun _ => 1) ∧ isPow2 (patchThreads p) = true ∧ p * p ≤ patchThreads p ∧ patchThreads p ≤ 1024 := by
  simp only [List.mem_cons, List.not_mem_nil, or_false] at h
  rcases h with rfl | rfl | rfl | rfl | rfl
  · exact ⟨weights_pow 4, by decide, by decide, by decide⟩
  · exact ⟨weights_pow 4, by decide, by decide, by decide⟩
  · exact ⟨weights_pow 5, by decide, by decide, by decide⟩
  · exact ⟨weights_pow 6, by decide, by decide, by decide⟩
  · exact ⟨weights_pow 7, by decide, by decide, by decide⟩

open Classical in
/-- The kernels with a given set of counted cells, for patches of more than one pixel. -/
theorem patch_kernel {w : Nat → ℝ} (dbg : Bool) (g : Args) (p : Nat) (disp : List Int) (e : Exec) (raw : Affinity.Map3)
    (hw : Weights (patchThreads p) w) (hodd : p % 2 = 1) (hfit : p * p ≤ patchThreads p)
    (hd : dbg = false ∨ isPow2 (patchThreads p) = true) :
    ∃ m, (table3 g.rows g.cols disp.length fun r c o =>
        patchBlock dbg g.rows g.cols p raw (patchThreads p) r c o (e.sched2 r c o) (e.mem2 r c o)) = some m ∧
      ∀ r < g.rows, ∀ c < g.cols, ∀ o < disp.length,
        let S := (Affinity.Spec.around g.rows g.cols (p / 2) r c).filter fun q => raw q.1 q.2 o ≠ -1
        let u := fun q : Nat × Nat => w ((q.1 + p / 2 - r) * p + (q.2 + p / 2 - c))
        m r c o = if ∑ q ∈ S, u q ≠ 0 then (∑ q ∈ S, u q * raw q.1 q.2 o) / ∑ q ∈ S, u q else -1 := by
  obtain ⟨m, hm, hv⟩ := table3_some (rows := g.rows) (cols := g.cols) (nOff := disp.length) _
    fun r _ c _ o _ => patchBlock_spec hw dbg hd g.rows g.cols p raw r c o (e.sched2 r c o) (e.mem2 r c o)
  refine ⟨m, hm, fun r hr c hc o ho => ?_⟩
  rw [hv r hr c hc o ho]
  dsimp only
  rw [looked_sum g.rows g.cols p r c o hodd raw _ hfit w (fun _ => 1), looked_sum g.rows g.cols p r c o hodd raw _ hfit w id]
  simp only [mul_one, id]

open Classical in
/-- **C187.** For at most 128 or for 193 to 254 disparities and patches of 1, 3, 5, 7, 11 or 15 pixels, both or no regions, and after any
calls of the same host thread, the map of the GPU is the one of the CPU: the mean distance to the descriptors around. The other
sizes are refuted below. -/
theorem gpu_affinity_partial (dbg : Bool) (calls : List Req) (q : Req) (e : Exec) (order1 : List (Nat × Nat))
    (order2 : List (Nat × Nat × Nat)) (hr : 0 < q.g.rows) (hc : 0 < q.g.cols) (hsz : 0 < q.g.size) (hroi : q.g.roi1 = none ↔ q.g.roi2 = none)
    (hdisp : 0 < q.disp.length) (hcount : q.disp.length ≤ 128 ∨ (192 < q.disp.length ∧ q.disp.length ≤ 254))
    (hp : q.p ∈ [1, 3, 5, 7, 11, 15]) (hth : ∀ q' ∈ calls, q'.th = q.th)
    (h1 : order1.Perm (rawIters (cpu q.g q.disp))) (h2 : order2.Perm (meanIters (cpu q.g q.disp))) :
    ∃ m, call dbg (after calls) q e = some m ∧
      (∃ m', computeDescriptorAffinity (cpu q.g q.disp) q.p order1 order2 = some m' ∧ Agree q.g q.disp m m') ∧
      ∀ r c o, r < q.g.rows → c < q.g.cols → o < q.disp.length →
        let S := (Affinity.Spec.around q.g.rows q.g.cols (q.p / 2) r c).filter fun a => RawOk (cpu q.g q.disp) a.1 a.2 o
        m r c o = if S = ∅ then -1 else (∑ a ∈ S, dist q.g a.1 a.2 ((a.2 : Int) + q.disp.getD o 0).toNat) / S.card := by
  have hodd : q.p % 2 = 1 ∧ 1 ≤ q.p := by
    simp only [List.mem_cons, List.not_mem_nil, or_false] at hp
    omega
  have hne : q.disp ≠ [] := fun h => by rw [h] at hdisp; simp at hdisp
  have hcheck : checks q.g q.p q.disp.length := by
    refine ⟨hsz, Nat.mul_pos hr hc, ?_, hodd.2, hodd.1, hdisp, by omega⟩
    by_cases h : q.g.roi1 = none
    · exact Or.inl ⟨h, hroi.1 h⟩
    · exact Or.inr ⟨h, h⟩
  have hspec : ∃ m, call dbg (after calls) q e = some m ∧ ∀ r c o, r < q.g.rows → c < q.g.cols → o < q.disp.length →
        let S := (Affinity.Spec.around q.g.rows q.g.cols (q.p / 2) r c).filter fun a => RawOk (cpu q.g q.disp) a.1 a.2 o
        m r c o = if S = ∅ then -1 else (∑ a ∈ S, dist q.g a.1 a.2 ((a.2 : Int) + q.disp.getD o 0).toNat) / S.card := by
    have hdev := fun i hi => next_dev (after calls) q (after_same calls q.th hth) hcheck i hi
    obtain ⟨hw, hpow, hpos⟩ := threads_ok _ hcount
    obtain ⟨raw, hraw, hval⟩ := raw_kernel dbg q.g q.disp (next (after calls) q).dev e hw hpos hsz (Or.inr hpow) hdev
    simp only [wdist_one] at hval
    rw [call, if_pos hcheck, kernels, if_neg (by intro h; exact h.1 (hroi.2 h.2)), hraw, Option.bind_some]
    have hdist : ∀ a b c', dist q.g a b c' ≠ -1 := fun a b c' h => by
      have : 0 ≤ dist q.g a b c' := Real.sqrt_nonneg _
      linarith
    by_cases hp1 : q.p > 1
    · obtain ⟨hw2, hpow2, hfit, hmax⟩ := patchThreads_ok q.p (by
        simp only [List.mem_cons, List.not_mem_nil, or_false] at hp ⊢
        omega)
      obtain ⟨m, hm, hv⟩ := patch_kernel dbg q.g q.p q.disp e raw hw2 hodd.1 hfit (Or.inr hpow2)
      rw [if_pos hp1, if_pos hmax, hm]
      refine ⟨m, rfl, fun r c o hr hc ho => ?_⟩
      have hv := hv r hr c hc o ho
      dsimp only at hv ⊢
      have hS : ((Affinity.Spec.around q.g.rows q.g.cols (q.p / 2) r c).filter fun a => raw a.1 a.2 o ≠ -1) =
          (Affinity.Spec.around q.g.rows q.g.cols (q.p / 2) r c).filter fun a => RawOk (cpu q.g q.disp) a.1 a.2 o := by
        apply Finset.filter_congr
        intro a ha
        simp only [Affinity.Spec.around, Finset.mem_filter, Finset.mem_product, Finset.mem_range] at ha
        rw [hval a.1 ha.1.1 a.2 ha.1.2 o ho]
        by_cases hok : RawOk (cpu q.g q.disp) a.1 a.2 o
        · simp [hok, hdist]
        · simp [hok]
      rw [hv, hS]
      simp only [Finset.sum_const, nsmul_eq_mul, mul_one, one_mul]
      by_cases he : ((Affinity.Spec.around q.g.rows q.g.cols (q.p / 2) r c).filter fun a => RawOk (cpu q.g q.disp) a.1 a.2 o) = ∅
      · simp [he]
      · rw [if_neg he, if_pos (by exact_mod_cast fun h => he (Finset.card_eq_zero.1 h))]
        congr 1
        refine Finset.sum_congr rfl fun a ha => ?_
        simp only [Affinity.Spec.around, Finset.mem_filter, Finset.mem_product, Finset.mem_range] at ha
        rw [hval a.1 ha.1.1.1 a.2 ha.1.1.2 o ho, if_pos ha.2]
    · have hp1 : q.p = 1 := by omega
      rw [if_neg (by omega)]
      refine ⟨raw, rfl, fun r c o hr hc ho => ?_⟩
      have hset : Affinity.Spec.around q.g.rows q.g.cols (q.p / 2) r c = {(r, c)} := by
        rw [hp1]
        ext ⟨a, b⟩
        simp only [Affinity.Spec.around, Finset.mem_filter, Finset.mem_product, Finset.mem_range, Finset.mem_singleton, Prod.mk.injEq]
        omega
      dsimp only
      rw [hval r hr c hc o ho, hset, Finset.filter_singleton]
      by_cases hok : RawOk (cpu q.g q.disp) r c o
      · simp [hok]
      · simp [hok]
  obtain ⟨m, hm, hv⟩ := hspec
  refine ⟨m, hm, ?_, hv⟩
  obtain ⟨m', hm', hv'⟩ := Affinity.desc_affinity (cpu q.g q.disp) q.p order1 order2 hr hc hodd.1 hne (fun _ _ _ => Real.sqrt_nonneg _) h1 h2
  refine ⟨m', hm', fun r c o hr hc ho => ?_⟩
  have := hv r c o hr hc ho
  dsimp only at this
  rw [this, hv' r c o hr hc ho]
  rfl

/-- Two pixels with one bin each, both regions given. -/
noncomputable def demo : Args := ⟨1, 2, 1, fun _ c _ => c, fun _ _ _ => 3, some fun _ _ => true, some fun _ _ => true⟩

example (dbg : Bool) (e : Exec) : ∃ m, call dbg (after [⟨0, demo, 5, [4, 0]⟩]) ⟨0, demo, 3, [0, 1]⟩ e = some m ∧ m 0 0 0 = (3 + 2) / 2 := by
  obtain ⟨m, hm, -, hv⟩ := gpu_affinity_partial dbg [⟨0, demo, 5, [4, 0]⟩] ⟨0, demo, 3, [0, 1]⟩ e _ _ (by decide) (by decide) (by decide)
    (by simp [demo]) (by simp) (by simp) (by simp) (by simp) (List.Perm.refl _) (List.Perm.refl _)
  refine ⟨m, hm, ?_⟩
  have h := hv 0 0 0 (by decide) (by decide) (by decide)
  dsimp only at h
  have hS : ((Affinity.Spec.around demo.rows demo.cols (3 / 2) 0 0).filter fun p => RawOk (cpu demo [0, 1]) p.1 p.2 0) = {(0, 0), (0, 1)} := by
    ext ⟨a, b⟩
    rw [Finset.mem_filter]
    simp only [Affinity.Spec.around, Finset.mem_filter, Finset.mem_product, Finset.mem_range, Finset.mem_insert, Finset.mem_singleton,
      Prod.mk.injEq, RawOk, Affinity.Spec.inside, demo, cpu]
    constructor
    · rintro ⟨⟨⟨ha, hb⟩, _⟩, _⟩
      omega
    · rintro (⟨rfl, rfl⟩ | ⟨rfl, rfl⟩)
      · exact ⟨⟨⟨by decide, by decide⟩, by decide⟩, 0, by simp, by simp, by simp, by simp⟩
      · exact ⟨⟨⟨by decide, by decide⟩, by decide⟩, 1, by simp, by simp, by simp, by simp⟩
  rw [h, hS, if_neg (Finset.insert_ne_empty _ _), Finset.sum_pair (by decide), Finset.card_pair (by decide)]
  simp only [dist, demo, Finset.sum_range_one]
  norm_num

/-! ## Other sizes -/

open Classical in
/-- **C187 (129 to 192 disparities).** With 192 threads the tree of additions skips every third cell: without assertions the third, sixth,
... bins of the descriptors do not count. -/
theorem disparities_dropped (calls : List Req) (q : Req) (e : Exec) (hr : 0 < q.g.rows) (hc : 0 < q.g.cols) (hsz : 0 < q.g.size)
    (hroi : q.g.roi1 = none ↔ q.g.roi2 = none) (hcount : 128 < q.disp.length ∧ q.disp.length ≤ 192)
    (hp : q.p = 1) (hth : ∀ q' ∈ calls, q'.th = q.th) :
    ∃ m, call false (after calls) q e = some m ∧ ∀ r c o, r < q.g.rows → c < q.g.cols → o < q.disp.length →
      m r c o = if RawOk (cpu q.g q.disp) r c o then
        Real.sqrt (∑ k ∈ (Finset.range q.g.size).filter (fun k => k % 3 ≠ 2),
          (q.g.d1 r c k - q.g.d2 r ((c : Int) + q.disp.getD o 0).toNat k) ^ 2) else -1 := by
  have hcheck : checks q.g q.p q.disp.length := by
    refine ⟨hsz, Nat.mul_pos hr hc, ?_, by omega, by omega, by omega, by omega⟩
    by_cases h : q.g.roi1 = none
    · exact Or.inl ⟨h, hroi.1 h⟩
    · exact Or.inr ⟨h, h⟩
  have hdev := fun i hi => next_dev (after calls) q (after_same calls q.th hth) hcheck i hi
  have hthr : threads q.disp.length = 192 := by
    unfold threads ceilDiv
    split <;> omega
  have hw : Weights (threads q.disp.length) fun i => if i % 3 = 2 then 0 else 1 := by
    rw [hthr]
    exact weights_three 5
  obtain ⟨raw, hraw, hval⟩ := raw_kernel false q.g q.disp (next (after calls) q).dev e hw (by rw [hthr]; decide) hsz (Or.inl rfl) hdev
  rw [call, if_pos hcheck, kernels, if_neg (by intro h; exact h.1 (hroi.2 h.2)), hraw, Option.bind_some, if_neg (by omega)]
  refine ⟨raw, rfl, fun r c o hr hc ho => ?_⟩
  rw [hval r hr c hc o ho, wdist, Finset.sum_filter]
  congr 2
  refine Finset.sum_congr rfl fun k _ => ?_
  by_cases h : k % 3 = 2 <;> simp [h]

/-- One pixel with descriptors that differ in their third bin. -/
noncomputable def demo3 : Args := ⟨1, 1, 3, fun _ _ k => if k = 2 then 1 else 0, fun _ _ _ => 0, none, none⟩

theorem demo3_ok (o : Nat) (disp : List Int) (h : disp.getD o 0 = 0) : RawOk (cpu demo3 disp) 0 0 o :=
  ⟨0, by simp only [cpu, h]; rfl, Nat.one_pos, by simp [Affinity.Spec.inside, cpu, demo3], by simp [Affinity.Spec.inside, cpu, demo3]⟩

theorem getD_rep (n : Nat) : (List.replicate n (0 : Int)).getD 0 0 = 0 := by cases n <;> rfl

/-- **C187 (number of disparities, refuted).** For every number of disparities from 129 to 192: two descriptors at distance 1 (which
the CPU returns) are at distance 0 for the GPU. With assertions there is no result. -/
theorem disparities_refuted (n : Nat) (h : 128 < n ∧ n ≤ 192) (e : Exec) :
    (∃ m, call false Host.start ⟨0, demo3, 1, List.replicate n 0⟩ e = some m ∧ m 0 0 0 = 0) ∧
    call true Host.start ⟨0, demo3, 1, List.replicate n 0⟩ e = none ∧
    ∃ m', computeDescriptorAffinity (cpu demo3 (List.replicate n 0)) 1 (rawIters (cpu demo3 (List.replicate n 0)))
      (meanIters (cpu demo3 (List.replicate n 0))) = some m' ∧ m' 0 0 0 = 1 := by
  have hlen : (List.replicate n (0 : Int)).length = n := List.length_replicate
  have hok := demo3_ok 0 _ (getD_rep n)
  refine ⟨?_, ?_, ?_⟩
  · obtain ⟨m, hm, hv⟩ := disparities_dropped [] ⟨0, demo3, 1, List.replicate n 0⟩ e Nat.one_pos Nat.one_pos (by simp [demo3]) (by simp [demo3])
      (by rw [hlen]; exact h) rfl (by simp)
    refine ⟨m, hm, ?_⟩
    rw [hv 0 0 0 Nat.one_pos Nat.one_pos (by rw [hlen]; omega), if_pos hok, Finset.sum_eq_zero, Real.sqrt_zero]
    intro k hk
    simp only [Finset.mem_filter, Finset.mem_range, demo3] at hk ⊢
    rw [if_neg (by omega)]
    norm_num
  · have hcheck : checks demo3 1 (List.replicate n (0 : Int)).length := by
      rw [hlen]
      exact ⟨by decide, by decide, Or.inl ⟨rfl, rfl⟩, by decide, by decide, by omega, by omega⟩
    rw [call, if_pos hcheck, kernels, if_neg (by simp [demo3])]
    have hnone : table2 demo3.rows demo3.cols (fun r c => rawBlock true demo3 (next Host.start ⟨0, demo3, 1, List.replicate n 0⟩).dev
        (threads (List.replicate n (0 : Int)).length) (List.replicate n (0 : Int)).length r c (e.sched1 r c) (e.mem1 r c)) = none := by
      unfold table2
      rw [if_neg]
      simp only [List.all_eq_true, List.mem_range, not_forall]
      refine ⟨0, by decide, 0, by decide, ?_⟩
      rw [rawBlock, if_neg (by simp [Affinity.outside, demo3]), if_pos]
      · simp
      · have hthr : threads (List.replicate n (0 : Int)).length = 192 := by
          rw [hlen]
          unfold threads ceilDiv
          split <;> omega
        rw [hthr]
        simp only [Bool.true_and, Bool.and_eq_true, List.any_eq_true, List.mem_range]
        refine ⟨by decide, 0, by rw [hlen]; omega, ?_⟩
        have hz := next_dev Host.start ⟨0, demo3, 1, List.replicate n 0⟩ rfl hcheck 0 (by rw [hlen]; omega)
        rw [show (⟨0, demo3, 1, List.replicate n 0⟩ : Req).disp.getD 0 0 = 0 from getD_rep n] at hz
        generalize (next Host.start ⟨0, demo3, 1, List.replicate n 0⟩).dev = dv at hz
        simp [valid, column, hz, demo3]
    rw [hnone]
    rfl
  · obtain ⟨m', hm', hv⟩ := Affinity.desc_affinity_roi_partial (cpu demo3 (List.replicate n 0)) _ _ Nat.one_pos Nat.one_pos
      (by simp only [cpu]; intro h; rw [h] at hlen; simp at hlen; omega) (fun _ _ _ => Real.sqrt_nonneg _) (List.Perm.refl _) (List.Perm.refl _)
    refine ⟨m', hm', ?_⟩
    rw [(hv 0 0 0 Nat.one_pos Nat.one_pos (by simp only [cpu, hlen]; omega)).1 hok]
    simp [rawVal, cpu, dist, demo3, Finset.sum_range_succ]

open Classical in
/-- **C187 (patches of nine pixels).** With 96 threads the tree of additions skips every third cell: without assertions the third, sixth and
ninth columns of the patch do not count. -/
theorem patch_nine_dropped (calls : List Req) (q : Req) (e : Exec) (hr : 0 < q.g.rows) (hc : 0 < q.g.cols) (hsz : 0 < q.g.size)
    (hroi : q.g.roi1 = none ↔ q.g.roi2 = none) (hdisp : 0 < q.disp.length)
    (hcount : q.disp.length ≤ 128 ∨ (192 < q.disp.length ∧ q.disp.length ≤ 254))
    (hp : q.p = 9) (hth : ∀ q' ∈ calls, q'.th = q.th) :
    ∃ m, call false (after calls) q e = some m ∧ ∀ r c o, r < q.g.rows → c < q.g.cols → o < q.disp.length →
      let S := (Affinity.Spec.around q.g.rows q.g.cols 4 r c).filter fun a => RawOk (cpu q.g q.disp) a.1 a.2 o ∧ (a.2 + 4 - c) % 3 ≠ 2
      m r c o = if S = ∅ then -1 else (∑ a ∈ S, dist q.g a.1 a.2 ((a.2 : Int) + q.disp.getD o 0).toNat) / S.card := by
  have hcheck : checks q.g q.p q.disp.length := by
    refine ⟨hsz, Nat.mul_pos hr hc, ?_, by omega, by omega, by omega, by omega⟩
    by_cases h : q.g.roi1 = none
    · exact Or.inl ⟨h, hroi.1 h⟩
    · exact Or.inr ⟨h, h⟩
  have hdev := fun i hi => next_dev (after calls) q (after_same calls q.th hth) hcheck i hi
  obtain ⟨hw, hpow, hpos⟩ := threads_ok _ hcount
  obtain ⟨raw, hraw, hval⟩ := raw_kernel false q.g q.disp (next (after calls) q).dev e hw hpos hsz (Or.inr hpow) hdev
  simp only [wdist_one] at hval
  have hdist : ∀ a b c', dist q.g a b c' ≠ -1 := fun a b c' h => by
    have : 0 ≤ dist q.g a b c' := Real.sqrt_nonneg _
    linarith
  have hw2 : Weights (patchThreads q.p) fun i => if i % 3 = 2 then 0 else 1 := by
    rw [hp]
    exact weights_three 4
  obtain ⟨m, hm, hv⟩ := patch_kernel false q.g q.p q.disp e raw hw2 (by omega) (by rw [hp]; decide) (Or.inl rfl)
  rw [call, if_pos hcheck, kernels, if_neg (by intro h; exact h.1 (hroi.2 h.2)), hraw, Option.bind_some, if_pos (by omega),
    if_pos (by rw [hp]; decide), hm]
  refine ⟨m, rfl, fun r c o hr hc ho => ?_⟩
  have hv := hv r hr c hc o ho
  dsimp only at hv ⊢
  rw [hp, show 9 / 2 = 4 from rfl] at hv
  have hmod : ∀ a : Nat × Nat, ((a.1 + 4 - r) * 9 + (a.2 + 4 - c)) % 3 = (a.2 + 4 - c) % 3 := fun a => by omega
  simp only [hmod] at hv
  have hsum : ∀ f : Nat × Nat → ℝ, ∑ a ∈ (Affinity.Spec.around q.g.rows q.g.cols 4 r c).filter (fun a => raw a.1 a.2 o ≠ -1),
      (if (a.2 + 4 - c) % 3 = 2 then 0 else 1) * f a =
      ∑ a ∈ (Affinity.Spec.around q.g.rows q.g.cols 4 r c).filter (fun a => RawOk (cpu q.g q.disp) a.1 a.2 o ∧ (a.2 + 4 - c) % 3 ≠ 2), f a := by
    intro f
    rw [Finset.sum_filter, Finset.sum_filter]
    refine Finset.sum_congr rfl fun a ha => ?_
    simp only [Affinity.Spec.around, Finset.mem_filter, Finset.mem_product, Finset.mem_range] at ha
    rw [hval a.1 ha.1.1 a.2 ha.1.2 o ho]
    by_cases hok : RawOk (cpu q.g q.disp) a.1 a.2 o
    · by_cases h3 : (a.2 + 4 - c) % 3 = 2 <;> simp [hok, hdist, h3]
    · simp [hok]
  have h1 := hsum fun _ => 1
  simp only [mul_one, Finset.sum_const, nsmul_eq_mul] at h1
  rw [hv, h1, hsum fun a => raw a.1 a.2 o]
  by_cases he : ((Affinity.Spec.around q.g.rows q.g.cols 4 r c).filter fun a => RawOk (cpu q.g q.disp) a.1 a.2 o ∧ (a.2 + 4 - c) % 3 ≠ 2) = ∅
  · simp [he]
  · rw [if_neg he, if_pos (by exact_mod_cast fun h => he (Finset.card_eq_zero.1 h))]
    congr 1
    refine Finset.sum_congr rfl fun a ha => ?_
    simp only [Affinity.Spec.around, Finset.mem_filter, Finset.mem_product, Finset.mem_range] at ha
    rw [hval a.1 ha.1.1.1 a.2 ha.1.1.2 o ho, if_pos ha.2.1]

/-- Two pixels; the descriptors of the second one differ. -/
noncomputable def demo9 : Args := ⟨1, 2, 1, fun _ c _ => if c = 1 then 1 else 0, fun _ _ _ => 0, none, none⟩

theorem demo9_ok (c : Nat) (h : c < 2) : RawOk (cpu demo9 [0]) 0 c 0 :=
  ⟨c, by simp [cpu], h, by simp [Affinity.Spec.inside, cpu, demo9], by simp [Affinity.Spec.inside, cpu, demo9]⟩

/-- **C187 (patch size, refuted).** Patches of nine pixels: the mean of 0 and 1 (which the CPU returns) is 0 for the GPU. -/
theorem patch_refuted (e : Exec) :
    (∃ m, call false Host.start ⟨0, demo9, 9, [0]⟩ e = some m ∧ m 0 0 0 = 0) ∧
    ∃ m', computeDescriptorAffinity (cpu demo9 [0]) 9 (rawIters (cpu demo9 [0])) (meanIters (cpu demo9 [0])) = some m' ∧ m' 0 0 0 = 1 / 2 := by
  constructor
  · obtain ⟨m, hm, hv⟩ := patch_nine_dropped [] ⟨0, demo9, 9, [0]⟩ e (by decide) (by decide) (by decide) (by simp [demo9]) (by simp) (by simp) rfl (by simp)
    refine ⟨m, hm, ?_⟩
    have hv := hv 0 0 0 (by decide) (by decide) (by decide)
    dsimp only at hv
    have hS : ((Affinity.Spec.around demo9.rows demo9.cols 4 0 0).filter fun a => RawOk (cpu demo9 [0]) a.1 a.2 0 ∧ (a.2 + 4 - 0) % 3 ≠ 2) = {(0, 0)} := by
      ext ⟨a, b⟩
      rw [Finset.mem_filter]
      simp only [Affinity.Spec.around, Finset.mem_filter, Finset.mem_product, Finset.mem_range, Finset.mem_singleton, Prod.mk.injEq]
      constructor
      · rintro ⟨⟨⟨ha, hb⟩, _⟩, _, h3⟩
        simp only [demo9] at ha hb
        omega
      · rintro ⟨rfl, rfl⟩
        exact ⟨⟨⟨by decide, by decide⟩, by decide⟩, demo9_ok 0 (by decide), by decide⟩
    rw [hv, hS, if_neg (Finset.singleton_ne_empty _), Finset.sum_singleton, Finset.card_singleton]
    simp [dist, demo9]
  · obtain ⟨m', hm', hv⟩ := Affinity.desc_affinity (cpu demo9 [0]) 9 (rawIters (cpu demo9 [0])) (meanIters (cpu demo9 [0])) (by decide) (by decide)
      (by decide) (by simp [cpu]) (fun _ _ _ => Real.sqrt_nonneg _) (List.Perm.refl _) (List.Perm.refl _)
    refine ⟨m', hm', ?_⟩
    have hv := hv 0 0 0 (by decide) (by decide) (by simp [cpu])
    dsimp only at hv
    have hS : ((Affinity.Spec.around (cpu demo9 [0]).rows (cpu demo9 [0]).cols (9 / 2) 0 0).filter fun a => RawOk (cpu demo9 [0]) a.1 a.2 0) = {(0, 0), (0, 1)} := by
      ext ⟨a, b⟩
      rw [Finset.mem_filter]
      simp only [Affinity.Spec.around, Finset.mem_filter, Finset.mem_product, Finset.mem_range, Finset.mem_insert, Finset.mem_singleton, Prod.mk.injEq]
      constructor
      · rintro ⟨⟨⟨ha, hb⟩, _⟩, _⟩
        simp only [cpu, demo9] at ha hb
        omega
      · rintro (⟨rfl, rfl⟩ | ⟨rfl, rfl⟩)
        · exact ⟨⟨⟨by decide, by decide⟩, by decide⟩, demo9_ok 0 (by decide)⟩
        · exact ⟨⟨⟨by decide, by decide⟩, by decide⟩, demo9_ok 1 (by decide)⟩
    rw [hv, hS, if_neg (Finset.insert_ne_empty _ _), Finset.sum_pair (by decide), Finset.card_pair (by decide)]
    simp [rawVal, cpu, dist, demo9]

/-! ## Calls without a result -/

/-- **C187 (refusals, refuted).** Unlike the CPU, the GPU has no result if only one of the regions is given, for patches of more than
31 pixels, and for more than 254 disparities. -/
theorem refused_refuted (dbg : Bool) (h : Host) (q : Req) (e : Exec)
    (hq : (q.g.roi1 = none ∧ q.g.roi2 ≠ none) ∨ (q.g.roi1 ≠ none ∧ q.g.roi2 = none) ∨ 32 ≤ q.p ∨ 254 < q.disp.length) :
    call dbg h q e = none := by
  unfold call
  split
  · rename_i hc
    unfold kernels
    by_cases h0 : q.g.roi1 ≠ none ∧ q.g.roi2 = none
    · rw [if_pos h0]
    · rw [if_neg h0]
      rcases hq with ⟨h1, h2⟩ | h1 | h1 | h1
      · rcases hc.2.2.1 with h3 | h3
        · exact absurd h3.2 h2
        · exact absurd h1 h3.1
      · exact absurd h1 h0
      · have h4 : ¬ patchThreads q.p ≤ 1024 := by
          have : 32 * 32 ≤ q.p * q.p := Nat.mul_le_mul h1 h1
          have h5 := hc.2.2.2.2.1
          have : 33 * 33 ≤ q.p * q.p := Nat.mul_le_mul (by omega) (by omega)
          unfold patchThreads ceilDiv
          generalize q.p * q.p = z at *
          omega
        simp only [if_neg h4, if_pos (show q.p > 1 by omega)]
        cases table2 q.g.rows q.g.cols _ <;> rfl
      · exact absurd hc.2.2.2.2.2.2 (by omega)
  · rfl

/-- Descriptors which are the column numbers of three pixels. -/
noncomputable def demoT : Args := ⟨1, 3, 1, fun _ _ _ => 0, fun _ c _ => c, none, none⟩

/-- **C187 (host threads, refuted).** Each host thread remembers the disparities it sent, but the device has one copy: after a call of
another thread with other disparities, the map of the first thread is computed with those (2 instead of 1). -/
theorem range_cache_refuted (e : Exec) :
    ∃ m, call false (after [⟨0, demoT, 1, [1]⟩, ⟨1, demoT, 1, [2]⟩]) ⟨0, demoT, 1, [1]⟩ e = some m ∧ m 0 0 0 = 2 ∧ dist demoT 0 0 1 = 1 := by
  have hcheck : ∀ d : Int, checks demoT 1 ([d] : List Int).length := fun d =>
    ⟨by decide, by decide, Or.inl ⟨rfl, rfl⟩, by decide, by decide, by simp, by simp⟩
  have hdev : (next (after [⟨0, demoT, 1, [1]⟩, ⟨1, demoT, 1, [2]⟩]) ⟨0, demoT, 1, [1]⟩).dev 0 = 2 := by
    simp only [after, List.foldl_cons, List.foldl_nil, next, if_pos (hcheck _)]
    simp [upload, Host.start]
  obtain ⟨hw, hpow, hpos⟩ := threads_ok 1 (by omega)
  obtain ⟨raw, hraw, hval⟩ := raw_kernel false demoT [2] (next (after [⟨0, demoT, 1, [1]⟩, ⟨1, demoT, 1, [2]⟩]) ⟨0, demoT, 1, [1]⟩).dev e hw hpos
    (by decide) (Or.inl rfl) (by
      intro i hi
      have : i = 0 := by simpa using hi
      subst this
      rw [hdev]
      rfl)
  refine ⟨raw, ?_, ?_, by simp [dist, demoT]⟩
  · rw [call, if_pos (hcheck 1), kernels, if_neg (by simp [demoT])]
    rw [show ([2] : List Int).length = ([1] : List Int).length from rfl] at hraw
    rw [hraw]
    rfl
  · rw [hval 0 (by decide) 0 (by decide) 0 (by decide), if_pos ⟨2, by simp [cpu], by decide, by simp [Affinity.Spec.inside, cpu, demoT],
      by simp [Affinity.Spec.inside, cpu, demoT]⟩]
    simp [wdist, demoT]

end Litiv.CudaAff
