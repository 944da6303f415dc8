import Verif.Model.CudaSC
import Verif.Lemmas.Cuda
import Verif.Lemmas.CudaAff
import Verif.Lemmas.SC
import Verif.Props.LSS

/-! # Lemmas for the shape context kernel -/

namespace Litiv.CudaSC

open Cuda Cell
open CudaAff (ceilDiv isPow2 ceilDiv_gt ceilDiv_mul ceilDiv_pos sum_blocks)

/-! ## Initial values -/

/-- The cells of `aTmpDesc` and the outputs of a thread. -/
def Own (n t : Nat) (c : Cell) : Prop := ∃ i, (c = desc i ∨ c = lut i ∨ c = out i) ∧ i % n = t

theorem own_dis (n t t' : Nat) (c : Cell) (h : Own n t c) (h' : Own n t' c) : t = t' := by
  obtain ⟨i, hi, rfl⟩ := h
  obtain ⟨j, hj, rfl⟩ := h'
  rcases hi with rfl | rfl | rfl <;> simp at hj <;> rw [hj]

def initCell (D : Nat) (v : ℝ) : Cell → ℝ
  | desc i => if i < D then v else 0
  | _ => 0

theorem own_stride {n t : Nat} (ht : t < n) (s : Nat) : (n * s + t) % n = t := by rw [Nat.mul_add_mod, Nat.mod_eq_of_lt ht]

theorem init_spec {n : Nat} (hn : 0 < n) (D : Nat) (v : ℝ) (sched) (s : S) :
    (∀ i < n * ceilDiv D n, (sec n sched (initActs n D v) s).2.mem (desc i) = if i < D then v else 0) ∧
    ∀ i, (sec n sched (initActs n D v) s).2.mem (lut i) = s.2.mem (lut i) := by
  have e : ∀ t, initActs n D v t =
      ((List.range (ceilDiv D n)).map fun s : Nat => desc (n * s + t)).map fun c => st c (initCell D v c) := by
    intro t
    rw [List.map_map]
    rfl
  have hs := sec_spec n (initActs n D v) (Own n) (fun t c => ∃ i, c = desc i ∧ i % n = t) s sched
    (by
      intro t ht a ha
      rw [e t] at ha
      simp only [List.mem_map, List.mem_range] at ha
      obtain ⟨c, ⟨j, -, rfl⟩, rfl⟩ := ha
      exact local_st (W := fun c => ∃ i, c = desc i ∧ i % n = t) (c := desc (n * j + t)) ⟨_, rfl, own_stride ht j⟩ _)
    (by
      rintro t _ t' _ c ⟨i, rfl, h⟩ h'
      exact own_dis n t t' _ ⟨i, Or.inl rfl, h⟩ h')
  refine ⟨fun i hi => ?_, fun i => hs.2.2 _ fun t _ => ?_⟩
  · rw [hs.2.1 (i % n) (Nat.mod_lt _ hn) (desc i) ⟨i, Or.inl rfl, rfl⟩, e, alone_stores]
    dsimp only
    rw [if_pos]
    · rfl
    · rw [List.mem_map]
      refine ⟨i / n, List.mem_range.2 ?_, ?_⟩
      · rw [Nat.div_lt_iff_lt_mul hn, Nat.mul_comm]
        exact hi
      · rw [Nat.div_add_mod]
  · rintro ⟨j, hj, -⟩
    cases hj

/-! ## Atomic additions -/

/-- Atomic additions by any threads, in any order. -/
theorem bumps_spec (n : Nat) (cells : Nat → List Cell) (sched) (s : S) :
    (∀ c, (sec n sched (fun t => (cells t).map bump) s).2.mem c = s.2.mem c + ∑ t ∈ Finset.range n, ((cells t).count c : ℝ)) := by
  intro c
  set cells' : Nat → List Cell := fun t => if t < n then cells t else [] with hcells
  set acts' : Nat → List (Act Cell ℝ) := fun t => if t < n then (cells t).map bump else [] with hacts
  have hmap : ∀ t, acts' t = (cells' t).map bump := by
    intro t
    rw [hacts, hcells]
    by_cases h : t < n <;> simp [h]
  have hinv : ∀ (l : List Nat) (g : Run Cell ℝ),
      (∀ c, g.mem c = s.2.mem c + ∑ t ∈ Finset.range n, (((cells' t).take (g.pc t)).count c : ℝ)) →
      ∀ c, (l.foldl (stepT acts') g).mem c =
        s.2.mem c + ∑ t ∈ Finset.range n, (((cells' t).take ((l.foldl (stepT acts') g).pc t)).count c : ℝ) := by
    intro l
    induction l with
    | nil => exact fun g h => h
    | cons a l ih =>
      intro g h
      refine ih _ fun c => ?_
      unfold stepT
      cases ha : (acts' a)[g.pc a]? with
      | none => exact h c
      | some x =>
        rw [hmap, List.getElem?_map] at ha
        cases hc : (cells' a)[g.pc a]? with
        | none => rw [hc] at ha; cases ha
        | some cell =>
          rw [hc] at ha
          simp only [Option.map_some, Option.some.injEq] at ha
          subst ha
          have han : a < n := by
            by_contra hno
            rw [hcells] at hc
            simp [hno] at hc
          simp only [Option.elim_some, bump]
          have e1 : ∀ t ∈ Finset.range n, (((cells' t).take (Function.update g.pc a (g.pc a + 1) t)).count c : ℝ) =
              (((cells' t).take (g.pc t)).count c : ℝ) + if t = a then (if c = cell then 1 else 0) else 0 := by
            intro t _
            by_cases hta : t = a
            · subst hta
              rw [Function.update_self, List.take_add_one, hc, if_pos rfl, List.count_append]
              simp only [Option.toList_some, List.count_cons, List.count_nil, beq_iff_eq]
              push_cast
              by_cases hcc : c = cell
              · subst hcc; simp
              · simp [hcc, Ne.symm hcc]
            · rw [Function.update_of_ne hta, if_neg hta, add_zero]
          rw [Finset.sum_congr rfl e1, Finset.sum_add_distrib, Finset.sum_ite_eq' (Finset.range n) a, if_pos (Finset.mem_range.2 han), ← add_assoc, ← h c]
          by_cases hcc : c = cell
          · subst hcc; simp
          · simp [hcc]
  have h0 := hinv (sched s.1 ++ (List.range n).flatMap fun t => List.replicate ((cells t).map bump).length t)
    ⟨s.2.mem, s.2.regs, fun _ => 0⟩ (fun c => by simp) c
  refine h0.trans ?_
  congr 1
  refine Finset.sum_congr rfl fun t ht => ?_
  have ht := Finset.mem_range.1 ht
  rw [foldl_pc _ _ _ _ (Nat.zero_le _), List.take_of_length_le, hcells]
  · simp only [if_pos ht]
  · have hsub : (List.replicate ((cells t).map bump).length t).Sublist
        ((List.range n).flatMap fun t => List.replicate ((cells t).map bump).length t) := by
      rw [List.flatMap]
      exact List.sublist_flatten_of_mem (List.mem_map.2 ⟨t, List.mem_range.2 ht, rfl⟩)
    have h1 := hsub.count_le t
    rw [List.count_replicate_self] at h1
    rw [List.count_append, hmap]
    have h2 : ((cells' t).map bump).length = (cells' t).length := List.length_map _
    have h3 : ((cells t).map bump).length = (cells t).length := List.length_map _
    have h4 : cells' t = cells t := by rw [hcells]; exact if_pos ht
    rw [h2, h4]
    rw [h3] at h1
    simp only [List.length_map] at h1 ⊢
    omega

/-- Every element of a list is visited by one thread. -/
theorem sum_strided (n : Nat) (hn : 0 < n) (p : Nat → Bool) : ∀ l : List Nat,
    ∑ t ∈ Finset.range n, (((l.filter fun i => i % n == t).countP p : Nat) : ℝ) = (l.countP p : ℝ)
  | [] => by simp
  | a :: l => by
    have ih := sum_strided n hn p l
    have e : ∀ t ∈ Finset.range n, ((((a :: l).filter fun i => i % n == t).countP p : Nat) : ℝ) =
        (((l.filter fun i => i % n == t).countP p : Nat) : ℝ) + if t = a % n then (if p a then 1 else 0) else 0 := by
      intro t _
      rw [List.filter_cons]
      by_cases h : t = a % n
      · subst h
        rw [if_pos (by simp), List.countP_cons]
        push_cast
        simp
      · rw [if_neg (by simpa using Ne.symm h), if_neg h, add_zero]
    rw [Finset.sum_congr rfl e, Finset.sum_add_distrib, ih, Finset.sum_ite_eq' (Finset.range n) (a % n),
      if_pos (Finset.mem_range.2 (Nat.mod_lt _ hn)), List.countP_cons]
    push_cast
    rfl

/-- The number of contour points in a bin. -/
noncomputable def votes (N : Nat) (bin : Nat → Option Nat) (b : Nat) : ℝ := ((List.range N).countP fun i => decide (bin i = some b) : Nat)

theorem count_cells (bin : Nat → Option Nat) (c : Cell) : ∀ l : List Nat,
    (l.filterMap fun i => (bin i).map desc).count c = l.countP fun i => decide ((bin i).map desc = some c)
  | [] => rfl
  | a :: l => by
    have ih := count_cells bin c l
    rw [List.countP_cons, ← ih]
    cases h : (bin a).map desc with
    | none => rw [List.filterMap_cons, h]; simp
    | some x =>
      rw [List.filterMap_cons, h]
      simp [List.count_cons]

theorem hist_spec {n : Nat} (hn : 0 < n) (N : Nat) (bin : Nat → Option Nat) (sched) (s : S) :
    (∀ b, (sec n sched (histActs n N bin) s).2.mem (desc b) = s.2.mem (desc b) + votes N bin b) ∧
    (∀ b, (sec n sched (histActs n N bin) s).2.mem (lut b) = s.2.mem (lut b)) := by
  have e : histActs n N bin = fun t => ((((List.range N).filter fun i => i % n == t).filterMap fun i => (bin i).map desc)).map bump := by
    funext t
    rw [histActs, List.map_filterMap]
    simp only [Option.map_map]
    rfl
  rw [e]
  refine ⟨fun b => ?_, fun b => ?_⟩
  · rw [bumps_spec]
    simp only [count_cells]
    rw [sum_strided n hn]
    unfold votes
    congr 2
    refine List.countP_congr fun i _ => ?_
    cases bin i <;> simp
  · rw [bumps_spec]
    simp only [count_cells]
    rw [sum_strided n hn, List.countP_eq_zero.2]
    · simp
    · intro i _
      cases bin i <;> simp

/-! ## The output -/

theorem out_alone (norm : Bool) (l : List Nat) (s : (ℝ × ℝ) × (Cell → ℝ)) (i : Nat) :
    (alone (l.map fun i => (fun r m => (r, Function.update m (out i) (if norm then m (desc i) * (1 / Real.sqrt r.1) else m (desc i))) : Act Cell ℝ)) s).2
      (out i) = if i ∈ l then (if norm then s.2 (desc i) * (1 / Real.sqrt s.1.1) else s.2 (desc i)) else s.2 (out i) := by
  induction l generalizing s with
  | nil => simp [alone]
  | cons a l ih =>
    rw [List.map_cons]
    refine (ih _).trans ?_
    by_cases h : i ∈ l
    · rw [if_pos h, if_pos (List.mem_cons_of_mem _ h)]
      simp
    · rw [if_neg h]
      by_cases h2 : i = a
      · subst h2
        rw [if_pos (List.mem_cons_self ..)]
        simp
      · rw [if_neg (by simp [h, h2])]
        simp [h2]

theorem out_spec {n : Nat} (hn : 0 < n) (norm : Bool) (D : Nat) (sched) (s : S) (i : Nat) (hi : i < D) :
    (sec n sched (outActs norm n D) s).2.mem (out i) =
      if norm then s.2.mem (desc i) * (1 / Real.sqrt (s.2.regs (i % n)).1) else s.2.mem (desc i) := by
  have hs := sec_spec n (outActs norm n D) (fun t c => (∃ i, c = out i ∧ i % n = t) ∨ ∃ i, c = desc i) (fun t c => ∃ i, c = out i ∧ i % n = t) s sched
    (by
      intro t ht a ha
      simp only [outActs, List.mem_map, List.mem_filter, List.mem_range, beq_iff_eq] at ha
      obtain ⟨i, ⟨-, hi⟩, rfl⟩ := ha
      refine ⟨fun r m m' hm => ⟨rfl, fun c hc => ?_⟩, fun r m c hc => ?_⟩
      · dsimp only
        rw [hm (desc i) (Or.inr ⟨i, rfl⟩)]
        by_cases e : c = out i
        · subst e; simp
        · rw [Function.update_of_ne e, Function.update_of_ne e, hm c hc]
      · exact Function.update_of_ne (fun e : c = out i => hc ⟨i, e, hi⟩) _ _)
    (by
      rintro t _ t' _ c ⟨i, rfl, h⟩ (⟨j, hj, h'⟩ | ⟨j, hj⟩)
      · cases hj; omega
      · cases hj)
  rw [hs.2.1 (i % n) (Nat.mod_lt _ hn) (out i) (Or.inl ⟨i, rfl, rfl⟩), outActs, out_alone, if_pos]
  simp [hi]

/-! ## The sum of the squares of one warp -/

theorem shfl_sum (f : Nat → ℝ) : [16, 8, 4, 2, 1].foldl shfl f 0 = ∑ i ∈ Finset.range 32, f i := by
  simp only [List.foldl_cons, List.foldl_nil, shfl, Finset.sum_range_succ, Finset.sum_range_zero]
  norm_num
  ring

theorem square_alone (n t : Nat) : ∀ (l : List Nat) (s : (ℝ × ℝ) × (Cell → ℝ)),
    let s' := alone (l.flatMap fun j : Nat =>
      [ld1 (desc (n * j + t)), fun r m => (r, Function.update m (lut (n * j + t)) (r.1 * r.1))]) s
    (∀ i, s'.2 (desc i) = s.2 (desc i)) ∧
    ∀ i, s'.2 (lut i) = if ∃ j ∈ l, i = n * j + t then s.2 (desc i) * s.2 (desc i) else s.2 (lut i)
  | [], s => by simp [alone]
  | a :: l, s => by
    have ih := square_alone n t l ((s.2 (desc (n * a + t)), s.1.2), Function.update s.2 (lut (n * a + t)) (s.2 (desc (n * a + t)) * s.2 (desc (n * a + t))))
    have e : alone ((a :: l).flatMap fun j : Nat =>
        [ld1 (desc (n * j + t)), fun r m => (r, Function.update m (lut (n * j + t)) (r.1 * r.1))]) s =
        alone (l.flatMap fun j : Nat =>
          [ld1 (desc (n * j + t)), fun r m => (r, Function.update m (lut (n * j + t)) (r.1 * r.1))])
          ((s.2 (desc (n * a + t)), s.1.2), Function.update s.2 (lut (n * a + t)) (s.2 (desc (n * a + t)) * s.2 (desc (n * a + t)))) := rfl
    dsimp only at ih ⊢
    rw [e]
    refine ⟨fun i => ?_, fun i => ?_⟩
    · rw [ih.1]
      simp
    · rw [ih.2]
      by_cases h : ∃ j ∈ l, i = n * j + t
      · rw [if_pos h, if_pos (by obtain ⟨j, h1, h2⟩ := h; exact ⟨j, List.mem_cons_of_mem _ h1, h2⟩)]
        simp
      · rw [if_neg h]
        by_cases h2 : i = n * a + t
        · rw [if_pos ⟨a, List.mem_cons_self .., h2⟩]
          subst h2
          simp
        · rw [if_neg]
          · simp [h2]
          · rintro ⟨j, h3, h4⟩
            rcases List.mem_cons.1 h3 with rfl | h3
            · exact h2 h4
            · exact h ⟨j, h3, h4⟩

theorem square_spec {n : Nat} (hn : 0 < n) (D : Nat) (sched) (s : S) :
    (∀ i, (sec n sched (squareActs n D) s).2.mem (desc i) = s.2.mem (desc i)) ∧
    ∀ i < n * ceilDiv D n, (sec n sched (squareActs n D) s).2.mem (lut i) = s.2.mem (desc i) * s.2.mem (desc i) := by
  have hs := sec_spec n (squareActs n D) (Own n) (Own n) s sched
    (by
      intro t ht a ha
      simp only [squareActs, List.mem_flatMap, List.mem_cons, List.not_mem_nil, or_false] at ha
      obtain ⟨j, -, rfl | rfl⟩ := ha
      · exact local_ld1 ⟨_, Or.inl rfl, own_stride ht j⟩
      · exact local_update (W := Own n t) (c := lut (n * j + t)) ⟨_, Or.inr (Or.inl rfl), own_stride ht j⟩ fun r => r.1 * r.1)
    (fun t _ t' _ c h h' => own_dis n t t' c h h')
  refine ⟨fun i => ?_, fun i hi => ?_⟩
  · rw [hs.2.1 (i % n) (Nat.mod_lt _ hn) (desc i) ⟨i, Or.inl rfl, rfl⟩]
    exact (square_alone n (i % n) _ _).1 i
  · rw [hs.2.1 (i % n) (Nat.mod_lt _ hn) (lut i) ⟨i, Or.inr (Or.inl rfl), rfl⟩]
    refine ((square_alone n (i % n) _ _).2 i).trans (if_pos ⟨i / n, List.mem_range.2 ?_, (Nat.div_add_mod ..).symm⟩)
    rw [Nat.div_lt_iff_lt_mul hn, Nat.mul_comm]
    exact hi

/-- One addition by all the threads of a warp in lockstep. -/
theorem add_spec (n a b : Nat) (sched) (s : S) :
    let s' := (addInstrs a b).foldl (fun s i => sec n sched i s) s
    (∀ t < n, s'.2.mem (lut (t + a)) = s.2.mem (lut (t + a)) + s.2.mem (lut (t + b))) ∧
    ∀ c, (∀ t < n, c ≠ lut (t + a)) → s'.2.mem c = s.2.mem c := by
  have h1 := sec_spec n (fun t => [ld1 (lut (t + b))]) (fun _ _ => True) (fun _ _ => False) s sched
    (by intro t _ x hx; rw [List.mem_singleton.1 hx]; exact local_ld1 trivial) (fun _ _ _ _ _ h => h.elim)
  have h2 := sec_spec n (fun t => [ld2 (lut (t + a))]) (fun _ _ => True) (fun _ _ => False) (sec n sched (fun t => [ld1 (lut (t + b))]) s) sched
    (by intro t _ x hx; rw [List.mem_singleton.1 hx]; exact local_ld2 trivial) (fun _ _ _ _ _ h => h.elim)
  have h3 := sec_spec n (fun t => [addSt (lut (t + a))]) (fun t c => c = lut (t + a)) (fun t c => c = lut (t + a))
    (sec n sched (fun t => [ld2 (lut (t + a))]) (sec n sched (fun t => [ld1 (lut (t + b))]) s)) sched
    (by intro t _ x hx; rw [List.mem_singleton.1 hx]; exact local_addSt rfl)
    (by rintro t _ t' _ c rfl h; have : t + a = t' + a := by simpa using h
        omega)
  have m1 : ∀ c, (sec n sched (fun t => [ld1 (lut (t + b))]) s).2.mem c = s.2.mem c := fun c => h1.2.2 c fun _ _ h => h
  have m2 : ∀ c, (sec n sched (fun t => [ld2 (lut (t + a))]) (sec n sched (fun t => [ld1 (lut (t + b))]) s)).2.mem c = s.2.mem c :=
    fun c => (h2.2.2 c fun _ _ h => h).trans (m1 c)
  refine ⟨fun t ht => ?_, fun c hc => ?_⟩
  · refine (h3.2.1 t ht _ rfl).trans ?_
    rw [h2.1 t ht]
    simp only [alone, List.foldl_cons, List.foldl_nil, addSt, ld2, Function.update_self]
    rw [m1, h1.1 t ht]
    simp [alone, ld1]
  · exact (h3.2.2 c fun t ht h => hc t ht h).trans (m2 c)

/-- The additions of the rows of 32 cells from the last one. -/
theorem down_spec (m : Nat) (sched) (s : S) : ∀ J ≤ m,
    let s' := ((List.range J).flatMap fun j : Nat => addInstrs ((m - j) * 32 - 32) ((m - j) * 32)).foldl (fun s i => sec 32 sched i s) s
    (∀ t < 32, s'.2.mem (lut (t + (m - J) * 32)) = ∑ i ∈ Finset.range (J + 1), s.2.mem (lut (t + 32 * (m - J + i)))) ∧
    (∀ i < (m - J) * 32, s'.2.mem (lut i) = s.2.mem (lut i)) ∧ ∀ i, s'.2.mem (desc i) = s.2.mem (desc i) := by
  intro J
  induction J with
  | zero => intro _; simp [Nat.mul_comm]
  | succ J ih =>
    intro hJ
    have ih := ih (by omega)
    dsimp only at ih ⊢
    rw [List.range_succ, List.flatMap_append, List.foldl_append]
    simp only [List.flatMap_cons, List.flatMap_nil, List.append_nil]
    generalize ((List.range J).flatMap fun j : Nat => addInstrs ((m - j) * 32 - 32) ((m - j) * 32)).foldl (fun s i => sec 32 sched i s) s = s1 at ih ⊢
    have h := add_spec 32 ((m - J) * 32 - 32) ((m - J) * 32) sched s1
    dsimp only at h
    have e : (m - J) * 32 - 32 = (m - (J + 1)) * 32 := by omega
    rw [e] at h
    rw [e]
    refine ⟨fun t ht => ?_, fun i hi => ?_, fun i => ?_⟩
    · rw [h.1 t ht, ih.1 t ht, ih.2.1 _ (by omega), Finset.sum_range_succ' _ (J + 1), add_comm]
      congr 1
      · refine Finset.sum_congr rfl fun i _ => ?_
        congr 3
        omega
      · congr 2
        omega
    · rw [h.2 _ (fun t ht hc => by have : i = t + (m - (J + 1)) * 32 := by simpa using hc
                                   omega), ih.2.1 _ (by omega)]
    · rw [h.2 _ (fun t ht hc => by cases hc), ih.2.2]

theorem tree_spec (sched) : ∀ (ks : List Nat) (s : S), (∀ k ∈ ks, k ≤ 32) →
    Chain ks (fun i => s.2.mem (lut i)) (fun i => ((ks.flatMap fun k => addInstrs 0 k).foldl (fun s i => sec 32 sched i s) s).2.mem (lut i)) ∧
    ∀ i, ((ks.flatMap fun k => addInstrs 0 k).foldl (fun s i => sec 32 sched i s) s).2.mem (desc i) = s.2.mem (desc i)
  | [], s, _ => ⟨rfl, fun _ => rfl⟩
  | k :: ks, s, h => by
    have h1 := add_spec 32 0 k sched s
    dsimp only at h1
    rw [List.flatMap_cons, List.foldl_append]
    have ih := tree_spec sched ks ((addInstrs 0 k).foldl (fun s i => sec 32 sched i s) s) fun k' hk' => h k' (List.mem_cons_of_mem _ hk')
    refine ⟨⟨_, fun i hi => ?_, ih.1⟩, fun i => ?_⟩
    · have := h k (List.mem_cons_self ..)
      exact h1.1 i (by omega)
    · rw [ih.2, h1.2 _ fun t _ hc => by cases hc]

theorem warp_instrs (D : Nat) (hD : 32 < D) :
    warpInstrs D = ((List.range (ceilDiv D 32 - 1)).flatMap fun j : Nat => addInstrs ((ceilDiv D 32 - 1 - j) * 32 - 32) ((ceilDiv D 32 - 1 - j) * 32)) ++
      [16, 8, 4, 2, 1].flatMap fun k => addInstrs 0 k := by
  have h2 : 2 ≤ ceilDiv D 32 := by
    unfold ceilDiv
    omega
  obtain ⟨m, hm⟩ : ∃ m, ceilDiv D 32 = m + 2 := ⟨ceilDiv D 32 - 2, by omega⟩
  rw [warpInstrs, hm, show m + 2 - 1 = m + 1 by omega, show m + 2 - 2 = m by omega, List.range_succ, List.flatMap_append, List.flatMap_map,
    List.append_assoc]
  congr 1
  simp only [List.flatMap_cons, List.flatMap_nil, List.append_nil]
  rw [show (m + 1 - m) * 32 = 32 by omega]

theorem foldl_append' {α β : Type} (f : α → β → α) (a : α) (l l' : List β) : (l ++ l').foldl f a = l'.foldl f (l.foldl f a) := List.foldl_append

/-- The register that holds the sum of the squares, for one warp. -/
theorem norm_spec (lock : Bool) (D : Nat) (hD : D ≤ 32 ∨ lock = true) (sched) (s : S) (hpos : 0 < D) :
    (∀ t < 32, ((normSum lock 32 D sched s).2.regs t).1 = ∑ i ∈ Finset.range (32 * ceilDiv D 32), s.2.mem (desc i) * s.2.mem (desc i)) ∧
    ∀ i, (normSum lock 32 D sched s).2.mem (desc i) = s.2.mem (desc i) := by
  unfold normSum
  rw [if_pos rfl]
  by_cases h1 : ceilDiv D 32 * 32 = 32
  · rw [if_pos h1]
    dsimp only
    refine ⟨fun t _ => ?_, fun _ => rfl⟩
    rw [shfl_sum, Nat.mul_comm 32, h1]
  · have hgt : 32 < D := by
      by_contra hle
      apply h1
      unfold ceilDiv
      omega
    have hl : lock = true := hD.resolve_left (by omega)
    subst hl
    rw [if_neg h1, instrs, if_pos rfl, List.cons_append, List.foldl_cons, warp_instrs D hgt, List.foldl_append, List.foldl_append, List.foldl_cons,
      List.foldl_nil]
    have hsq := square_spec (n := 32) (by omega) D sched s
    generalize sec 32 sched (squareActs 32 D) s = s1 at hsq ⊢
    have hd := down_spec (ceilDiv D 32 - 1) sched s1 (ceilDiv D 32 - 1) (le_refl _)
    dsimp only at hd
    generalize ((List.range (ceilDiv D 32 - 1)).flatMap fun j : Nat =>
      addInstrs ((ceilDiv D 32 - 1 - j) * 32 - 32) ((ceilDiv D 32 - 1 - j) * 32)).foldl (fun s i => sec 32 sched i s) s1 = s2 at hd ⊢
    have ht := tree_spec sched [16, 8, 4, 2, 1] s2 (by decide)
    generalize ([16, 8, 4, 2, 1].flatMap fun k => addInstrs 0 k).foldl (fun s i => sec 32 sched i s) s2 = s3 at ht ⊢
    have hlast := sec_spec 32 (fun _ : Nat => [ld1 (lut 0)]) (fun _ _ => True) (fun _ _ => False) s3 sched
      (by intro t _ x hx; rw [List.mem_singleton.1 hx]; exact local_ld1 trivial) (fun _ _ _ _ _ h => h.elim)
    refine ⟨fun t ht32 => ?_, fun i => ?_⟩
    · rw [hlast.1 t ht32]
      have hc := chain_pow 4 32 _ _ (by omega) ht.1
      have hm : ceilDiv D 32 - 1 + 1 = ceilDiv D 32 := by
        have := ceilDiv_pos (n := 32) (by omega) hpos
        omega
      show s3.2.mem (lut 0) = _
      refine hc.trans ?_
      rw [show 2 ^ (4 + 1) = 32 from rfl]
      have e : ∀ i ∈ Finset.range 32, s2.2.mem (lut i) = ∑ j ∈ Finset.range (ceilDiv D 32), s.2.mem (desc (i + 32 * j)) * s.2.mem (desc (i + 32 * j)) := by
        intro i hi
        have hi := Finset.mem_range.1 hi
        have := hd.1 i hi
        rw [Nat.sub_self, Nat.zero_mul, Nat.add_zero, hm] at this
        rw [this]
        refine Finset.sum_congr rfl fun j hj => ?_
        have hj := Finset.mem_range.1 hj
        rw [Nat.zero_add, hsq.2 _ (by omega)]
      rw [Finset.sum_congr rfl e]
      exact sum_blocks 32 (ceilDiv D 32) fun k => s.2.mem (desc k) * s.2.mem (desc k)
    · rw [hlast.2.2 _ (fun _ _ h => h), ht.2, hd.2.2, hsq.1]

/-! ## Blocks -/

/-- The bins before normalization. -/
noncomputable def raw (near : Bool) (N : Nat) (v : ℝ) (bin : Nat → Option Nat) (i : Nat) : ℝ := v + if near then votes N bin i else 0

theorem votes_out (D N : Nat) (bin : Nat → Option Nat) (hb : ∀ i b, bin i = some b → b < D) (i : Nat) (hi : D ≤ i) : votes N bin i = 0 := by
  unfold votes
  rw [List.countP_eq_zero.2]
  · exact Nat.cast_zero
  · intro j _ h
    have := hb j i (by simpa using h)
    omega

theorem hist_raw (near : Bool) {n : Nat} (hn : 0 < n) (D N : Nat) (v : ℝ) (bin : Nat → Option Nat) (hb : ∀ i b, bin i = some b → b < D) (sched) (b : Block Cell ℝ)
    (i : Nat) (hi : i < n * ceilDiv D n) :
    (if near then sec n sched (histActs n N bin) (sec n sched (initActs n D v) (0, b)) else sec n sched (initActs n D v) (0, b)).2.mem (desc i) =
      if i < D then raw near N v bin i else 0 := by
  have h1 := (init_spec hn D v sched (0, b)).1 i hi
  unfold raw
  cases near with
  | false =>
    simp only [Bool.false_eq_true, if_false, add_zero]
    exact h1
  | true =>
    simp only [if_true]
    rw [(hist_spec hn N bin sched _).1, h1]
    by_cases hd : i < D
    · rw [if_pos hd, if_pos hd]
    · rw [if_neg hd, if_neg hd, votes_out D N bin hb i (by omega), add_zero]

theorem block_raw (lock near : Bool) {n : Nat} (hn : 0 < n) (D N : Nat) (v : ℝ) (bin : Nat → Option Nat) (hb : ∀ i b, bin i = some b → b < D) (sched)
    (b : Block Cell ℝ) (i : Nat) (hi : i < D) : block lock false near n D N v bin sched b i = some (raw near N v bin i) := by
  unfold block
  rw [if_neg (by simp), out_spec hn false D _ _ i hi]
  simp only [Bool.false_eq_true, if_false]
  have h := ceilDiv_mul (a := D) hn
  rw [hist_raw near hn D N v bin hb sched b i (by omega), if_pos hi]

theorem block_norm (lock near : Bool) (D N : Nat) (hD : D ≤ 32 ∨ lock = true) (v : ℝ) (bin : Nat → Option Nat) (hb : ∀ i b, bin i = some b → b < D) (sched)
    (b : Block Cell ℝ) (i : Nat) (hi : i < D) : block lock true near 32 D N v bin sched b i =
      if ∑ j ∈ Finset.range D, raw near N v bin j ^ 2 = 0 then none
      else some (raw near N v bin i / Real.sqrt (∑ j ∈ Finset.range D, raw near N v bin j ^ 2)) := by
  unfold block
  simp only [if_true, true_and]
  have hraw := hist_raw near (n := 32) (by omega) D N v bin hb sched b
  generalize (if near then sec 32 sched (histActs 32 N bin) (sec 32 sched (initActs 32 D v) (0, b)) else sec 32 sched (initActs 32 D v) (0, b)) = s at hraw ⊢
  have hs := norm_spec lock D hD sched s (by omega)
  have hle := ceilDiv_mul (a := D) (n := 32) (by omega)
  have hsum : ∑ j ∈ Finset.range (32 * ceilDiv D 32), s.2.mem (desc j) * s.2.mem (desc j) = ∑ j ∈ Finset.range D, raw near N v bin j ^ 2 := by
    rw [← Finset.sum_subset (s₁ := Finset.range D)]
    · refine Finset.sum_congr rfl fun j hj => ?_
      have hj := Finset.mem_range.1 hj
      rw [hraw j (by omega), if_pos hj, pow_two]
    · intro j hj
      rw [Finset.mem_range] at *
      omega
    · intro j hj hj'
      rw [Finset.mem_range] at *
      rw [hraw j hj, if_neg hj', mul_zero]
  rw [hs.1 _ (Nat.mod_lt _ (by omega)), hsum]
  congr 1
  rw [out_spec (by omega) true D _ _ i hi, if_pos rfl, hs.1 _ (Nat.mod_lt _ (by omega)), hs.2, hsum, hraw i (by omega), if_pos hi]
  rw [mul_one_div]

/-! ## Threads one after the other -/

/-- The work of one thread, alone. -/
def thread (acts : Nat → List (Act Cell ℝ)) (b : Block Cell ℝ) (t : Nat) : Block Cell ℝ :=
  ⟨(alone (acts t) (b.regs t, b.mem)).2, Function.update b.regs t (alone (acts t) (b.regs t, b.mem)).1⟩

theorem run_thread (acts : Nat → List (Act Cell ℝ)) (g : Run Cell ℝ) (t : Nat) (h0 : g.pc t = 0) : ∀ k ≤ (acts t).length,
    (List.replicate k t).foldl (stepT acts) g =
      ⟨(alone ((acts t).take k) (g.regs t, g.mem)).2, Function.update g.regs t (alone ((acts t).take k) (g.regs t, g.mem)).1,
        Function.update g.pc t k⟩
  | 0, _ => by
    simp only [List.replicate_zero, List.foldl_nil, List.take_zero, alone, Function.update_eq_self]
    rw [← h0, Function.update_eq_self]
  | k + 1, hk => by
    rw [List.replicate_succ', List.foldl_append, run_thread acts g t h0 k (by omega)]
    have hlt : k < (acts t).length := by omega
    have hget : (acts t)[k]? = some (acts t)[k] := List.getElem?_eq_getElem hlt
    simp only [List.foldl_cons, List.foldl_nil, stepT, Function.update_self, hget, Option.elim_some, Function.update_idem]
    rw [alone_take_succ _ _ _ _ hget]

theorem run_threads (n : Nat) (acts : Nat → List (Act Cell ℝ)) (b : Block Cell ℝ) : ∀ T ≤ n, ∃ pc : Nat → Nat,
    ((List.range T).flatMap fun t => List.replicate (acts t).length t).foldl (stepT fun t => if t < n then acts t else []) ⟨b.mem, b.regs, fun _ => 0⟩ =
      ⟨((List.range T).foldl (thread acts) b).mem, ((List.range T).foldl (thread acts) b).regs, pc⟩ ∧ ∀ t, T ≤ t → pc t = 0
  | 0, _ => ⟨_, rfl, fun _ _ => rfl⟩
  | T + 1, hT => by
    obtain ⟨pc, h1, h2⟩ := run_threads n acts b T (by omega)
    have e : (if T < n then acts T else []) = acts T := if_pos (by omega)
    refine ⟨Function.update pc T (acts T).length, ?_, fun t ht => ?_⟩
    · rw [List.range_succ, List.flatMap_append, List.foldl_append, h1]
      simp only [List.flatMap_cons, List.flatMap_nil, List.append_nil, List.foldl_append, List.foldl_cons, List.foldl_nil]
      rw [run_thread (fun t => if t < n then acts t else []) _ T (h2 T (le_refl _)) (acts T).length (by rw [e])]
      simp only [e, List.take_length]
      rfl
    · rw [Function.update_of_ne (by omega)]
      exact h2 t (by omega)

/-- What holds after each thread holds at the next barrier, if they run one after the other. -/
theorem seq_inv (n : Nat) (acts : Nat → List (Act Cell ℝ)) (s : S) (P : Nat → Block Cell ℝ → Prop) (h0 : P 0 s.2)
    (hstep : ∀ t < n, ∀ b, P t b → P (t + 1) (thread acts b t)) : P n (sec n (fun _ => []) acts s).2 := by
  obtain ⟨pc, h, -⟩ := run_threads n acts s.2 n (le_refl _)
  have e : (sec n (fun _ => []) acts s).2 = (List.range n).foldl (thread acts) s.2 := by
    show Block.mk _ _ = _
    rw [List.nil_append, h]
  rw [e]
  have : ∀ T ≤ n, P T ((List.range T).foldl (thread acts) s.2) := by
    intro T
    induction T with
    | zero => exact fun _ => h0
    | succ T ih =>
      intro hT
      rw [List.range_succ, List.foldl_append]
      exact hstep T (by omega) _ (ih (by omega))
  exact this n (le_refl _)

/-- Cells that are zero stay so when they are added to each other. -/
theorem add_zero_cells (t : Nat) : ∀ (ks : List Nat) (r : ℝ × ℝ) (m : Cell → ℝ), (∀ i, m (lut i) = 0) →
    ∀ i, (alone (ks.flatMap fun k => [ld1 (lut (t + k)), ld2 (lut (t + 0)), addSt (lut (t + 0))]) (r, m)).2 (lut i) = 0
  | [], _, _, h => h
  | k :: ks, r, m, h => by
    rw [List.flatMap_cons, alone_append]
    refine add_zero_cells t ks _ _ fun i => ?_
    simp only [alone, List.foldl_cons, List.foldl_nil, ld1, ld2, addSt, h, add_zero]
    by_cases e : i = t
    · subst e; simp
    · simp [e, h]

/-! ## The mask -/

theorem votes_list (contour : List ℂ) (f : ℂ → Option Nat) (b : Nat) :
    votes contour.length (fun i => f (contour.getD i 0)) b = ((contour.filter fun p => decide (f p = some b)).length : ℝ) := by
  unfold votes
  rw [← List.countP_eq_length_filter]
  have e : (List.range contour.length).map (fun i => contour.getD i 0) = contour := by
    refine List.ext_getElem (by simp) fun i h1 h2 => ?_
    simp [h2]
  conv_rhs => rw [← e]
  rw [List.countP_map]
  rfl

theorem rint_int (z : Int) : rint (z : ℝ) = z := by
  unfold rint
  rw [Int.floor_intCast, sub_self, if_pos (by norm_num)]

theorem lookBin_lt {D outer : Nat} {m : LSS.Mask} (hm : LSS.Proper (outer * 2 + 1) D m) (k p : ℂ) (b : Nat) (h : lookBin m outer k p = some b) : b < D := by
  unfold lookBin at h
  dsimp only at h
  generalize rint (p.im - k.im) + (outer : Int) = row at h
  generalize rint (p.re - k.re) + (outer : Int) = col at h
  by_cases h1 : 0 ≤ row ∧ row < 2 * (outer : Int) + 1 ∧ 0 ≤ col ∧ col < 2 * (outer : Int) + 1
  · rw [if_pos h1] at h
    by_cases h2 : 0 ≤ m.cell (row * (2 * (outer : Int) + 1) + col).toNat
    · rw [if_pos h2, Option.some.injEq] at h
      have hlt : (row * (2 * (outer : Int) + 1) + col).toNat < (outer * 2 + 1) * (outer * 2 + 1) := by
        obtain ⟨h3, h4, h5, h6⟩ := h1
        have : row * (2 * (outer : Int) + 1) ≤ (2 * outer) * (2 * (outer : Int) + 1) := Int.mul_le_mul_of_nonneg_right (by omega) (by omega)
        have e : ((outer * 2 + 1 : Nat) : Int) * ((outer * 2 + 1 : Nat) : Int) = (2 * outer) * (2 * (outer : Int) + 1) + (2 * outer + 1) := by
          push_cast; ring
        have h7 : 0 ≤ row * (2 * (outer : Int) + 1) := Int.mul_nonneg h3 (by omega)
        zify
        rw [Int.toNat_of_nonneg (by omega)]
        push_cast at e ⊢
        omega
      rcases hm.bins _ hlt with h3 | h3
      · omega
      · omega
    · rw [if_neg h2] at h; cases h
  · rw [if_neg h1] at h; cases h

/-- A point of the grid of pixels. -/
def Pixel (p : ℂ) : Prop := ∃ x y : Int, p = ⟨(x : ℝ), (y : ℝ)⟩

theorem lookBin_cpu {D outer : Nat} {m : LSS.Mask} (hm : LSS.Proper (outer * 2 + 1) D m) {k p : ℂ} (hk : Pixel k) (hp : Pixel p) :
    lookBin m outer k p = SC.lookBin m outer k p := by
  obtain ⟨kx, ky, rfl⟩ := hk
  obtain ⟨px, py, rfl⟩ := hp
  unfold lookBin SC.lookBin
  dsimp only
  rw [show ((py : ℝ) - (ky : ℝ)) = ((py - ky : Int) : ℝ) by push_cast; ring, show ((px : ℝ) - (kx : ℝ)) = ((px - kx : Int) : ℝ) by push_cast; ring,
    rint_int, rint_int, SC.cround_int, SC.cround_int]
  generalize py - ky + (outer : Int) = row
  generalize px - kx + (outer : Int) = col
  by_cases h1 : 0 ≤ row ∧ row < 2 * (outer : Int) + 1 ∧ 0 ≤ col ∧ col < 2 * (outer : Int) + 1
  · rw [if_pos h1]
    have hlt : (row * (2 * (outer : Int) + 1) + col).toNat < (outer * 2 + 1) * (outer * 2 + 1) := by
      obtain ⟨h3, h4, h5, h6⟩ := h1
      have : row * (2 * (outer : Int) + 1) ≤ (2 * outer) * (2 * (outer : Int) + 1) := Int.mul_le_mul_of_nonneg_right (by omega) (by omega)
      have e : ((outer * 2 + 1 : Nat) : Int) * ((outer * 2 + 1 : Nat) : Int) = (2 * outer) * (2 * (outer : Int) + 1) + (2 * outer + 1) := by
        push_cast; ring
      have h7 : 0 ≤ row * (2 * (outer : Int) + 1) := Int.mul_nonneg h3 (by omega)
      zify
      rw [Int.toNat_of_nonneg (by omega)]
      push_cast at e ⊢
      omega
    rcases hm.bins _ hlt with h3 | h3
    · rw [if_neg (by omega), if_pos (by omega)]
    · rw [if_pos h3.1, if_neg (by omega)]
  · rw [if_neg h1, if_pos (by omega)]

end Litiv.CudaSC
