import Verif.Model.CudaAff
import Verif.Lemmas.Cuda
import Verif.Spec.Affinity
import Mathlib.Algebra.BigOperators.Ring.Finset

/-! # Lemmas for the descriptor affinity on the GPU -/

namespace Litiv.CudaAff

open Cuda Cell PCell

theorem ceilDiv_gt {a n o : Nat} (hn : 0 < n) (h : o < a) : o / n < ceilDiv a n := by
  unfold ceilDiv
  rw [Nat.div_lt_iff_lt_mul hn]
  have h1 := Nat.div_add_mod (a + n - 1) n
  have h2 := Nat.mod_lt (a + n - 1) hn
  have h3 : (a + n - 1) / n * n = n * ((a + n - 1) / n) := Nat.mul_comm _ _
  omega

theorem ceilDiv_mul {a n : Nat} (hn : 0 < n) : a ≤ n * ceilDiv a n := by
  unfold ceilDiv
  have h1 := Nat.div_add_mod (a + n - 1) n
  have h2 := Nat.mod_lt (a + n - 1) hn
  omega

theorem ceilDiv_pos {a n : Nat} (hn : 0 < n) (h : 0 < a) : 0 < ceilDiv a n := by
  exact lt_of_le_of_lt (Nat.zero_le _) (ceilDiv_gt (n := n) hn h)

theorem init_spec {n : Nat} (hn : 0 < n) (sched) (nOff : Nat) (v : Nat → Bool) (s : S) (o : Nat) :
    (sec n sched (initActs n nOff v) s).2.mem (out o) = if o < nOff ∧ v o = false then -1 else s.2.mem (out o) := by
  have hF : ∀ t < n, ∀ a ∈ initActs n nOff v t, LocalTo (fun c => ∃ o, c = out o ∧ o % n = t) (fun c => ∃ o, c = out o ∧ o % n = t) a := by
    intro t ht a ha
    simp only [initActs, List.mem_map, List.mem_filterMap, List.mem_range] at ha
    obtain ⟨c, ⟨s, -, hc⟩, rfl⟩ := ha
    by_cases h : n * s + t < nOff ∧ v (n * s + t) = false
    · rw [if_pos h, Option.some.injEq] at hc
      subst hc
      exact local_st ⟨_, rfl, by rw [Nat.mul_add_mod, Nat.mod_eq_of_lt ht]⟩ _
    · rw [if_neg h] at hc
      cases hc
  have := (sec_spec n (initActs n nOff v) _ _ s sched hF (by
    rintro t _ t' _ c ⟨o, rfl, h⟩ ⟨o', h', h2⟩
    cases h'
    omega)).2.1 (o % n) (Nat.mod_lt _ hn) (out o) ⟨o, rfl, rfl⟩
  rw [this]
  unfold initActs
  rw [alone_stores _ (fun _ => (-1 : ℝ))]
  dsimp only
  congr 1
  simp only [List.mem_filterMap, List.mem_range, eq_iff_iff]
  constructor
  · rintro ⟨s, -, hc⟩
    by_cases h : n * s + o % n < nOff ∧ v (n * s + o % n) = false
    · rw [if_pos h, Option.some.injEq, out.injEq] at hc
      rwa [hc] at h
    · rw [if_neg h] at hc
      cases hc
  · intro h
    refine ⟨o / n, ceilDiv_gt hn h.1, ?_⟩
    rw [Nat.div_add_mod, if_pos h]

/-- The actions pending at the next barrier. -/
noncomputable def pendOf : Option Nat → Nat → List (Act Cell ℝ)
  | none, _ => []
  | some o, t => outActs o t

/-- Their effect on the output. -/
noncomputable def eff (q : Option Nat) (b : Block Cell ℝ) (o : Nat) : ℝ := if q = some o then Real.sqrt (b.mem (sh 0)) else b.mem (out o)

/-- Cells of a thread while it fills the shared array. -/
def Own (n t : Nat) (c : Cell) : Prop := (∃ i, c = sh i ∧ i % n = t) ∨ (t = 0 ∧ ∃ o, c = out o)

theorem own_dis (n t t' : Nat) (c : Cell) (h : Own n t c) (h' : Own n t' c) : t = t' := by
  rcases h with ⟨i, rfl, h⟩ | ⟨h, o, rfl⟩ <;> rcases h' with ⟨i', h1, h'⟩ | ⟨h', o', h1⟩ <;> cases h1 <;> omega

theorem pend_local (n t : Nat) (q : Option Nat) : ∀ a ∈ pendOf q t, LocalTo (Own n t) (Own n t) a := by
  intro a ha
  cases q with
  | none => simp [pendOf] at ha
  | some o =>
    simp only [pendOf, outActs] at ha
    split at ha
    · rename_i h
      subst h
      simp only [List.mem_cons, List.not_mem_nil, or_false] at ha
      rcases ha with rfl | rfl
      · exact local_ld1 (Or.inl ⟨0, rfl, Nat.zero_mod _⟩)
      · exact local_update (W := Own n 0) (c := out o) (Or.inr ⟨rfl, o, rfl⟩) _
    · simp at ha

theorem pend_alone (n t : Nat) (q : Option Nat) (b : Block Cell ℝ) (r) :
    (∀ i, (alone (pendOf q t) (r, b.mem)).2 (sh i) = b.mem (sh i)) ∧
    (t = 0 → ∀ o, (alone (pendOf q t) (r, b.mem)).2 (out o) = eff q b o) := by
  cases q with
  | none => simp [pendOf, alone, eff]
  | some o' =>
    simp only [pendOf, outActs]
    split
    · rename_i h
      refine ⟨fun i => by simp [alone, ld1], fun _ o => ?_⟩
      simp only [alone, ld1, List.foldl_cons, List.foldl_nil, eff, Option.some.injEq]
      by_cases h : o' = o
      · subst h; simp
      · rw [Function.update_of_ne (by simpa using Ne.symm h), if_neg h]
    · rename_i h
      exact ⟨fun i => rfl, fun h' => absurd h' h⟩

/-- The squared difference, zero beyond the end. -/
noncomputable def sq (size : Nat) (x y : Nat → ℝ) (i : Nat) : ℝ := if i < size then (x i - y i) * (x i - y i) else 0

noncomputable def cellSq (size : Nat) (x y : Nat → ℝ) : Cell → ℝ
  | sh i => sq size x y i
  | out _ => 0

theorem fill_alone (n size t : Nat) (x y : Nat → ℝ) (ht : t < n) (s) :
    (∀ i, i % n = t → i < n * ceilDiv size n → (alone (fillActs n size x y t) s).2 (sh i) = sq size x y i) ∧
    (∀ o, (alone (fillActs n size x y t) s).2 (out o) = s.2 (out o)) := by
  have e : fillActs n size x y t = (((List.range (ceilDiv size n)).map fun s : Nat => sh (n * s + t))).map
      fun c => st c (cellSq size x y c) := by
    simp only [fillActs, List.map_map]
    rfl
  rw [e, alone_stores _ (cellSq size x y)]
  constructor
  · intro i hi hlt
    have hn : 0 < n := by omega
    dsimp only
    rw [if_pos]
    · rfl
    simp only [List.mem_map, List.mem_range, sh.injEq]
    refine ⟨i / n, ?_, ?_⟩
    · rw [Nat.div_lt_iff_lt_mul hn, Nat.mul_comm]; exact hlt
    · rw [← hi]; exact Nat.div_add_mod i n
  · intro o
    dsimp only
    rw [if_neg]
    simp

theorem fill_local (n size t : Nat) (x y : Nat → ℝ) (ht : t < n) : ∀ a ∈ fillActs n size x y t, LocalTo (Own n t) (Own n t) a := by
  intro a ha
  simp only [fillActs, List.mem_map, List.mem_range] at ha
  obtain ⟨s, -, rfl⟩ := ha
  exact local_st (W := Own n t) (c := sh (n * s + t)) (Or.inl ⟨_, rfl, by rw [Nat.mul_add_mod, Nat.mod_eq_of_lt ht]⟩) _

theorem fill_spec {n : Nat} (hn : 0 < n) (size : Nat) (x y : Nat → ℝ) (q : Option Nat) (sched) (s : S) :
    (∀ i < n * ceilDiv size n, (sec n sched (fun t => pendOf q t ++ fillActs n size x y t) s).2.mem (sh i) = sq size x y i) ∧
    ∀ o, (sec n sched (fun t => pendOf q t ++ fillActs n size x y t) s).2.mem (out o) = eff q s.2 o := by
  have hs := (sec_spec n (fun t => pendOf q t ++ fillActs n size x y t) (Own n) (Own n) s sched (by
    intro t ht a ha
    rcases List.mem_append.1 ha with h | h
    · exact pend_local n t q a h
    · exact fill_local n size t x y ht a h) (fun t _ t' _ c h h' => own_dis n t t' c h h')).2.1
  constructor
  · intro i hi
    rw [hs (i % n) (Nat.mod_lt _ hn) (sh i) (Or.inl ⟨i, rfl, rfl⟩), alone_append]
    exact (fill_alone n size _ x y (Nat.mod_lt _ hn) _).1 i rfl hi
  · intro o
    rw [hs 0 hn (out o) (Or.inr ⟨rfl, o, rfl⟩), alone_append, (fill_alone n size _ x y hn _).2]
    exact (pend_alone n 0 q s.2 _).2 rfl o

theorem last_spec {n : Nat} (hn : 0 < n) (q : Option Nat) (sched) (s : S) (o : Nat) :
    (sec n sched (pendOf q) s).2.mem (out o) = eff q s.2 o := by
  have hs := (sec_spec n (pendOf q) (Own n) (Own n) s sched (fun t _ a ha => pend_local n t q a ha)
    (fun t _ t' _ c h h' => own_dis n t t' c h h')).2.1
  rw [hs 0 hn (out o) (Or.inr ⟨rfl, o, rfl⟩)]
  exact (pend_alone n 0 q s.2 _).2 rfl o

theorem acc_alone (n t : Nat) (hn : 0 < n) (J : Nat) (r : ℝ × ℝ) (m : Cell → ℝ) :
    let a := alone ((List.range J).flatMap fun j : Nat => [ld1 (sh (t + n * (j + 1))), ld2 (sh t), addSt (sh t)]) (r, m)
    a.2 (sh t) = m (sh t) + ∑ j ∈ Finset.range J, m (sh (t + n * (j + 1))) ∧ ∀ c, c ≠ sh t → a.2 c = m c := by
  induction J with
  | zero => simp [alone]
  | succ J ih =>
    dsimp only at ih ⊢
    rw [List.range_succ, List.flatMap_append, alone_append]
    set a := alone ((List.range J).flatMap fun j : Nat => [ld1 (sh (t + n * (j + 1))), ld2 (sh t), addSt (sh t)]) (r, m) with ha
    have e : (alone (([J] : List Nat).flatMap fun j : Nat => [ld1 (sh (t + n * (j + 1))), ld2 (sh t), addSt (sh t)]) a).2 =
        Function.update a.2 (sh t) (a.2 (sh t) + a.2 (sh (t + n * (J + 1)))) := rfl
    rw [e]
    constructor
    · rw [Function.update_self, ih.1, ih.2 (sh (t + n * (J + 1))) (by
        intro h
        rw [sh.injEq] at h
        have : 0 < n * (J + 1) := Nat.mul_pos hn (by omega)
        omega), Finset.sum_range_succ]
      ring
    · intro c hc
      rw [Function.update_of_ne hc]
      exact ih.2 c hc

theorem acc_spec {n : Nat} (hn : 0 < n) (size : Nat) (hsz : 0 < size) (sched) (s : S) :
    (∀ t < n, (sec n sched (accActs n size) s).2.mem (sh t) = ∑ j ∈ Finset.range (ceilDiv size n), s.2.mem (sh (t + n * j))) ∧
    ∀ o, (sec n sched (accActs n size) s).2.mem (out o) = s.2.mem (out o) := by
  have hs := (sec_spec n (accActs n size) (fun t c => ∃ i, c = sh i ∧ i % n = t) (fun t c => c = sh t) s sched (by
    intro t ht a ha
    simp only [accActs, List.mem_flatMap, List.mem_range, List.mem_cons, List.not_mem_nil, or_false] at ha
    obtain ⟨j, -, rfl | rfl | rfl⟩ := ha
    · exact local_ld1 ⟨_, rfl, by rw [Nat.add_mul_mod_self_left, Nat.mod_eq_of_lt ht]⟩
    · exact local_ld2 ⟨_, rfl, Nat.mod_eq_of_lt ht⟩
    · exact local_addSt rfl) (by
    rintro t ht t' _ c rfl ⟨i, h, h'⟩
    cases h
    rwa [Nat.mod_eq_of_lt ht] at h')).2
  constructor
  · intro t ht
    rw [hs.1 t ht (sh t) ⟨t, rfl, Nat.mod_eq_of_lt ht⟩]
    have := (acc_alone n t hn (ceilDiv size n - 1) (s.2.regs t) s.2.mem).1
    rw [accActs, this]
    obtain ⟨J, hJ⟩ : ∃ J, ceilDiv size n = J + 1 := ⟨ceilDiv size n - 1, by have := ceilDiv_pos hn hsz; omega⟩
    rw [hJ, Finset.sum_range_succ']
    simp only [Nat.add_sub_cancel, Nat.mul_zero, Nat.add_zero]
    ring
  · intro o
    exact hs.2 (out o) (fun t _ h => by cases h)

theorem stepA_spec {n : Nat} (k : Nat) (hk : k ≤ n) (sched) (s : S) :
    (∀ t < k, (sec n sched (fun t => [ld2 (sh t), addSt (sh t)]) (sec n sched (fun t => [ld1 (sh (t + k))]) s)).2.mem (sh t) =
      s.2.mem (sh t) + s.2.mem (sh (t + k))) ∧
    ∀ o, (sec n sched (fun t => [ld2 (sh t), addSt (sh t)]) (sec n sched (fun t => [ld1 (sh (t + k))]) s)).2.mem (out o) = s.2.mem (out o) := by
  have h1 := sec_spec n (fun t => [ld1 (α := ℝ) (sh (t + k))]) (fun t c => c = sh (t + k)) (fun _ _ => False) s sched (by
    intro t ht a ha
    simp only [List.mem_cons, List.not_mem_nil, or_false] at ha
    subst ha
    exact local_ld1 rfl) (fun _ _ _ _ _ h => h.elim)
  set s1 := sec n sched (fun t => [ld1 (sh (t + k))]) s with hs1
  have h2 := sec_spec n (fun t => [ld2 (α := ℝ) (sh t), addSt (sh t)]) (fun t c => c = sh t) (fun t c => c = sh t) s1 sched (by
    intro t ht a ha
    simp only [List.mem_cons, List.not_mem_nil, or_false] at ha
    rcases ha with rfl | rfl
    · exact local_ld2 rfl
    · exact local_addSt rfl) (by rintro t _ t' _ c rfl h; rwa [sh.injEq] at h)
  constructor
  · intro t ht
    rw [h2.2.1 t (by omega) (sh t) rfl]
    have e : (alone [ld2 (sh t), addSt (sh t)] (s1.2.regs t, s1.2.mem)).2 (sh t) = s1.2.mem (sh t) + (s1.2.regs t).1 := by
      simp [alone, ld2, addSt]
    rw [e, h1.1 t (by omega), h1.2.2 (sh t) (fun _ _ h => h)]
    rfl
  · intro o
    rw [h2.2.2 (out o) (fun t _ h => by cases h), h1.2.2 (out o) (fun _ _ h => h)]

theorem stepB_spec {n : Nat} (k : Nat) (hk : k ≤ n) (sched) (s : S) :
    (∀ t < k, (sec n sched (fun t => if t < k then [ld1 (sh (t + k)), ld2 (sh t), addSt (sh t)] else []) s).2.mem (sh t) =
      s.2.mem (sh t) + s.2.mem (sh (t + k))) ∧
    ∀ o, (sec n sched (fun t => if t < k then [ld1 (sh (t + k)), ld2 (sh t), addSt (sh t)] else []) s).2.mem (out o) = s.2.mem (out o) := by
  have h := sec_spec n (fun t => if t < k then [ld1 (α := ℝ) (sh (t + k)), ld2 (sh t), addSt (sh t)] else [])
    (fun t c => c = sh t ∨ c = sh (t + k)) (fun t c => t < k ∧ c = sh t) s sched (by
    intro t ht a ha
    by_cases h : t < k
    · rw [if_pos h] at ha
      simp only [List.mem_cons, List.not_mem_nil, or_false] at ha
      rcases ha with rfl | rfl | rfl
      · exact local_ld1 (Or.inr rfl)
      · exact local_ld2 (Or.inl rfl)
      · exact local_addSt ⟨h, rfl⟩
    · rw [if_neg h] at ha
      cases ha) (by
    rintro t _ t' _ c ⟨hlt, rfl⟩ (h | h)
    · rwa [sh.injEq] at h
    · rw [sh.injEq] at h; omega)
  constructor
  · intro t ht
    rw [h.2.1 t (by omega) (sh t) (Or.inl rfl), if_pos ht]
    simp [alone, ld1, ld2, addSt]
  · intro o
    exact h.2.2 (out o) (fun t _ h => by cases h.2)

theorem halves_le : ∀ (f s k : Nat), k ∈ halves f s → k ≤ s
  | 0, _, _, h => by simp [halves] at h
  | f + 1, s, k, h => by
    rw [halves] at h
    split at h
    · simp at h
    · rcases List.mem_cons.1 h with rfl | h
      · exact le_rfl
      · have := halves_le f (s / 2) k h
        omega

theorem chain_fold (n : Nat) (step : S → Nat → S)
    (hstep : ∀ k, 2 * k ≤ n → ∀ s, (∀ t < k, (step s k).2.mem (sh t) = s.2.mem (sh t) + s.2.mem (sh (t + k))) ∧
      ∀ o, (step s k).2.mem (out o) = s.2.mem (out o)) (l : List Nat) (hl : ∀ k ∈ l, 2 * k ≤ n) (s : S) :
    Chain l (fun i => s.2.mem (sh i)) (fun i => (l.foldl step s).2.mem (sh i)) ∧
      ∀ o, (l.foldl step s).2.mem (out o) = s.2.mem (out o) := by
  induction l generalizing s with
  | nil => exact ⟨rfl, fun o => rfl⟩
  | cons k l ih =>
    have h := ih (fun k hk => hl k (List.mem_cons_of_mem _ hk)) (step s k)
    have hk := hstep k (hl k List.mem_cons_self) s
    exact ⟨⟨_, hk.1, h.1⟩, fun o => (h.2 o).trans (hk.2 o)⟩

theorem reduce_spec {n : Nat} (hn : 0 < n) (size : Nat) (hsz : 0 < size) (sched) (s : S) (f : Nat → ℝ)
    (hf : ∀ i < n * ceilDiv size n, s.2.mem (sh i) = f i) :
    ∃ m m' : Nat → ℝ, (∀ i < n, m i = ∑ j ∈ Finset.range (ceilDiv size n), f (i + n * j)) ∧ Chain (halves n (n / 2)) m m' ∧
      (reduce sched n size s).2.mem (sh 0) = m' 0 ∧ ∀ o, (reduce sched n size s).2.mem (out o) = s.2.mem (out o) := by
  have hl : ∀ k ∈ halves n (n / 2), 2 * k ≤ n := fun k hk => by
    have := halves_le _ _ _ hk
    omega
  have hC := ceilDiv_pos hn hsz
  unfold reduce
  by_cases hgt : ceilDiv size n * n > n
  · rw [if_pos hgt]
    have ha := acc_spec hn size hsz sched s
    have ht := chain_fold n (fun s k => sec n sched (fun t => [ld2 (sh t), addSt (sh t)]) (sec n sched (fun t => [ld1 (sh (t + k))]) s))
      (fun k hk s => stepA_spec k (by omega) sched s) _ hl (sec n sched (accActs n size) s)
    refine ⟨_, _, ?_, ht.1, rfl, fun o => (ht.2 o).trans (ha.2 o)⟩
    intro i hi
    rw [ha.1 i hi]
    refine Finset.sum_congr rfl fun j hj => hf _ ?_
    have hj := Finset.mem_range.1 hj
    have : n * (j + 1) ≤ n * ceilDiv size n := Nat.mul_le_mul_left _ hj
    rw [Nat.mul_succ] at this
    omega
  · rw [if_neg hgt]
    have hone : ceilDiv size n = 1 := by
      by_contra h
      have : 2 * n ≤ ceilDiv size n * n := Nat.mul_le_mul_right _ (by omega)
      omega
    have ht := chain_fold n (fun s k => sec n sched (fun t => if t < k then [ld1 (sh (t + k)), ld2 (sh t), addSt (sh t)] else []) s)
      (fun k hk s => stepB_spec k (by omega) sched s) _ hl s
    refine ⟨_, _, ?_, ht.1, rfl, ht.2⟩
    intro i hi
    rw [hone, Finset.sum_range_one, Nat.mul_zero, Nat.add_zero]
    exact hf i (by rw [hone]; omega)

/-- Which cells the tree of additions counts. -/
structure Weights (n : Nat) (w : Nat → ℝ) : Prop where
  tree : ∀ m m' : Nat → ℝ, Chain (halves n (n / 2)) m m' → m' 0 = ∑ i ∈ Finset.range n, w i * m i
  period : ∀ i j, w (i + n * j) = w i

theorem weights_pow (k : Nat) : Weights (2 ^ (k + 1)) fun _ => 1 := by
  refine ⟨fun m m' h => ?_, fun _ _ => rfl⟩
  rw [show 2 ^ (k + 1) / 2 = 2 ^ k by rw [pow_succ]; omega] at h
  rw [chain_pow k _ m m' (lt_trans (Nat.lt_two_pow_self) (Nat.pow_lt_pow_right (by omega) (by omega))) h]
  simp

theorem sum_three (f : Nat → ℝ) (n : Nat) :
    ∑ i ∈ Finset.range n, (f (3 * i) + f (3 * i + 1)) = ∑ i ∈ Finset.range (3 * n), (if i % 3 = 2 then 0 else 1) * f i := by
  induction n with
  | zero => simp
  | succ n ih =>
    rw [Finset.sum_range_succ, ih, show 3 * (n + 1) = 3 * n + 1 + 1 + 1 by ring, Finset.sum_range_succ, Finset.sum_range_succ,
      Finset.sum_range_succ, show (3 * n) % 3 = 0 by omega, show (3 * n + 1) % 3 = 1 by omega, show (3 * n + 1 + 1) % 3 = 2 by omega]
    norm_num
    ring

theorem weights_three (k : Nat) : Weights (3 * 2 ^ (k + 1)) fun i => if i % 3 = 2 then 0 else 1 := by
  refine ⟨fun m m' h => ?_, fun i j => ?_⟩
  · rw [show 3 * 2 ^ (k + 1) / 2 = 3 * 2 ^ k by rw [pow_succ]; omega] at h
    have : k + 1 < 2 ^ (k + 1) := Nat.lt_two_pow_self
    rw [chain_three k _ m m' (by omega) h]
    exact sum_three m _
  · rw [Nat.mul_assoc, Nat.add_mul_mod_self_left]

theorem sum_blocks (n C : Nat) (f : Nat → ℝ) :
    ∑ i ∈ Finset.range n, ∑ j ∈ Finset.range C, f (i + n * j) = ∑ k ∈ Finset.range (n * C), f k := by
  induction C with
  | zero => simp
  | succ C ih =>
    rw [Nat.mul_succ, Finset.sum_range_add, ← ih, ← Finset.sum_add_distrib]
    refine Finset.sum_congr rfl fun i _ => ?_
    rw [Finset.sum_range_succ, Nat.add_comm (n * C) i]

/-- The distance the kernel computes. -/
noncomputable def wdist (w : Nat → ℝ) (size : Nat) (x y : Nat → ℝ) : ℝ := Real.sqrt (∑ k ∈ Finset.range size, w k * (x k - y k) ^ 2)

theorem reduce_dist {n : Nat} (hn : 0 < n) {w : Nat → ℝ} (hw : Weights n w) (size : Nat) (hsz : 0 < size) (sched) (s : S) (x y : Nat → ℝ)
    (hf : ∀ i < n * ceilDiv size n, s.2.mem (sh i) = sq size x y i) :
    Real.sqrt ((reduce sched n size s).2.mem (sh 0)) = wdist w size x y ∧
      ∀ o, (reduce sched n size s).2.mem (out o) = s.2.mem (out o) := by
  obtain ⟨m, m', h1, h2, h3, h4⟩ := reduce_spec hn size hsz sched s _ hf
  refine ⟨?_, h4⟩
  rw [h3, hw.tree m m' h2, wdist]
  congr 1
  have e1 : ∑ i ∈ Finset.range n, w i * m i = ∑ i ∈ Finset.range n, ∑ j ∈ Finset.range (ceilDiv size n), w (i + n * j) * sq size x y (i + n * j) := by
    refine Finset.sum_congr rfl fun i hi => ?_
    rw [h1 i (Finset.mem_range.1 hi), Finset.mul_sum]
    refine Finset.sum_congr rfl fun j _ => ?_
    rw [hw.period]
  rw [e1, sum_blocks n _ fun k => w k * sq size x y k]
  have hle : Finset.range size ⊆ Finset.range (n * ceilDiv size n) := by
    intro k hk
    rw [Finset.mem_range] at *
    have := ceilDiv_mul (a := size) hn
    omega
  rw [← Finset.sum_subset hle]
  · refine Finset.sum_congr rfl fun k hk => ?_
    rw [sq, if_pos (Finset.mem_range.1 hk), pow_two]
  · intro k _ hk
    rw [sq, if_neg (fun h => hk (Finset.mem_range.2 h)), mul_zero]

theorem offsets_spec {n : Nat} (hn : 0 < n) {w : Nat → ℝ} (hw : Weights n w) (size : Nat) (hsz : 0 < size) (sched) (v : Nat → Bool)
    (x : Nat → ℝ) (y : Nat → Nat → ℝ) (os : List Nat) (q : Option Nat) (s : S) (o : Nat) :
    (offsets sched n size v x y os (pendOf q) s).2.mem (out o) =
      if o ∈ os ∧ v o = true then wdist w size x (y o) else eff q s.2 o := by
  induction os generalizing q s with
  | nil =>
    rw [offsets, last_spec hn]
    simp
  | cons o1 os ih =>
    rw [offsets]
    by_cases hv : v o1 = true
    · rw [if_pos hv]
      have hfill := fill_spec hn size x (y o1) q sched s
      have hred := reduce_dist hn hw size hsz sched _ x (y o1) hfill.1
      rw [show outActs o1 = pendOf (some o1) from rfl, ih (some o1)]
      by_cases ho : o ∈ os ∧ v o = true
      · rw [if_pos ho, if_pos ⟨List.mem_cons_of_mem _ ho.1, ho.2⟩]
      · rw [if_neg ho, eff]
        by_cases he : o1 = o
        · subst he
          rw [if_pos rfl, hred.1, if_pos ⟨List.mem_cons_self, hv⟩]
        · rw [if_neg (by simpa using he), hred.2, hfill.2, if_neg]
          rintro ⟨h1, h2⟩
          rcases List.mem_cons.1 h1 with h | h
          · exact he h.symm
          · exact ho ⟨h, h2⟩
    · rw [if_neg hv, ih]
      congr 1
      simp only [List.mem_cons, eq_iff_iff]
      constructor
      · exact fun h => ⟨Or.inr h.1, h.2⟩
      · rintro ⟨rfl | h, h2⟩
        · exact absurd h2 hv
        · exact ⟨h, h2⟩

theorem rawBlock_spec {n : Nat} (hn : 0 < n) {w : Nat → ℝ} (hw : Weights n w) (dbg : Bool) (g : Args) (hsz : 0 < g.size)
    (hd : dbg = false ∨ isPow2 n = true) (rng : Nat → Int) (nOff r c : Nat) (sched) (b : Block Cell ℝ) :
    ∃ f, rawBlock dbg g rng n nOff r c sched b = some f ∧ ∀ o < nOff,
      f o = if Affinity.outside g.roi1 r c = false ∧ valid g rng r c o = true then
        wdist w g.size (g.d1 r c) (g.d2 r (column rng c o).toNat) else -1 := by
  unfold rawBlock
  by_cases h1 : Affinity.outside g.roi1 r c = true
  · rw [if_pos h1]
    refine ⟨_, rfl, fun o ho => ?_⟩
    rw [init_spec hn, if_pos ⟨ho, rfl⟩, if_neg (by simp [h1])]
  · rw [if_neg h1, if_neg (by rcases hd with h | h <;> simp [h])]
    refine ⟨_, rfl, fun o ho => ?_⟩
    rw [show (fun _ : Nat => ([] : List (Act Cell ℝ))) = pendOf none from rfl, offsets_spec hn hw g.size hsz]
    simp only [List.mem_range, ho, true_and, eff, init_spec hn]
    by_cases hv : valid g rng r c o = true
    · simp [hv, h1]
    · simp [hv]

/-! ## The patch kernel -/

theorem local_upd {F W : PCell → Prop} {c : PCell} (hw : W c) (hf : F c) (v : ℝ × ℝ → ℝ) :
    LocalTo F W (fun r m => (r, Function.update m c (m c + v r)) : Act PCell ℝ) := by
  refine ⟨fun r m m' hm => ⟨rfl, fun c' hc => ?_⟩, fun r m c' hc => ?_⟩
  · by_cases e : c' = c
    · subst e; simp [hm c' hf]
    · simp [Function.update_of_ne e, hm c' hc]
  · exact Function.update_of_ne (fun e : c' = c => hc (by rw [e]; exact hw)) _ _

theorem pinit_spec {n : Nat} (l : Nat → Option ℝ) (sched) (s : Nat × Block PCell ℝ) (t : Nat) (ht : t < n) :
    (sec n sched (pinitActs l) s).2.mem (cnt t) = (l t).elim 0 (fun _ => 1) ∧
    (sec n sched (pinitActs l) s).2.mem (aff t) = (l t).elim 0 id := by
  have h := (sec_spec n (pinitActs l) (fun t c => c = cnt t ∨ c = aff t) (fun t c => c = cnt t ∨ c = aff t) s sched (by
    intro t ht a ha
    unfold pinitActs at ha
    split at ha <;> simp only [List.mem_cons, List.not_mem_nil, or_false] at ha <;> rcases ha with rfl | rfl
    · exact local_st (W := fun c => c = cnt t ∨ c = aff t) (c := cnt t) (Or.inl rfl) _
    · exact local_st (W := fun c => c = cnt t ∨ c = aff t) (c := aff t) (Or.inr rfl) _
    · exact local_st (W := fun c => c = cnt t ∨ c = aff t) (c := cnt t) (Or.inl rfl) _
    · exact local_st (W := fun c => c = cnt t ∨ c = aff t) (c := aff t) (Or.inr rfl) _) (by
    rintro t _ t' _ c (rfl | rfl) (h | h) <;> cases h <;> rfl)).2.1 t ht
  rw [h _ (Or.inl rfl), h _ (Or.inr rfl)]
  unfold pinitActs
  cases l t <;> simp [alone, st]

theorem pstep_spec {n : Nat} (k : Nat) (hk : 2 * k ≤ n) (sched) (s : Nat × Block PCell ℝ) (t : Nat) (ht : t < k) :
    (sec n sched paddActs (sec n sched (ploadActs n k) s)).2.mem (cnt t) = s.2.mem (cnt t) + s.2.mem (cnt (t + k)) ∧
    (sec n sched paddActs (sec n sched (ploadActs n k) s)).2.mem (aff t) = s.2.mem (aff t) + s.2.mem (aff (t + k)) := by
  have h1 := sec_spec n (ploadActs n k) (fun t c => c = cnt (t + k) ∨ c = aff (t + k)) (fun _ _ => False) s sched (by
    intro t ht a ha
    unfold ploadActs at ha
    split at ha <;> simp only [List.mem_cons, List.not_mem_nil, or_false] at ha
    · rcases ha with rfl | rfl
      · exact local_ld1 (Or.inl rfl)
      · exact local_ld2 (Or.inr rfl)
    · subst ha
      exact ⟨fun r m m' h => ⟨rfl, h⟩, fun _ _ _ _ => rfl⟩) (fun _ _ _ _ _ h => h.elim)
  set s1 := sec n sched (ploadActs n k) s with hs1
  have h2 := (sec_spec n paddActs (fun t c => c = cnt t ∨ c = aff t) (fun t c => c = cnt t ∨ c = aff t) s1 sched (by
    intro t ht a ha
    simp only [paddActs, List.mem_cons, List.not_mem_nil, or_false] at ha
    rcases ha with rfl | rfl
    · exact local_upd (Or.inl rfl) (Or.inl rfl) _
    · exact local_upd (Or.inr rfl) (Or.inr rfl) _) (by
    rintro t _ t' _ c (rfl | rfl) (h | h) <;> cases h <;> rfl)).2.1 t (by omega)
  have hr := h1.1 t (by omega)
  rw [ploadActs, if_pos (by omega)] at hr
  rw [h2 _ (Or.inl rfl), h2 _ (Or.inr rfl), hr]
  have hm : ∀ c, s1.2.mem c = s.2.mem c := fun c => h1.2.2 c (fun _ _ h => h)
  simp [alone, paddActs, ld1, ld2, hm]

theorem pchain_fold (n : Nat) (cell : Nat → PCell) (step : Nat × Block PCell ℝ → Nat → Nat × Block PCell ℝ)
    (hstep : ∀ k, 2 * k ≤ n → ∀ s, ∀ t < k, (step s k).2.mem (cell t) = s.2.mem (cell t) + s.2.mem (cell (t + k)))
    (l : List Nat) (hl : ∀ k ∈ l, 2 * k ≤ n) (s) :
    Chain l (fun i => s.2.mem (cell i)) (fun i => (l.foldl step s).2.mem (cell i)) := by
  induction l generalizing s with
  | nil => exact rfl
  | cons k l ih =>
    exact ⟨_, hstep k (hl k List.mem_cons_self) s, ih (fun k hk => hl k (List.mem_cons_of_mem _ hk)) (step s k)⟩

theorem patchBlock_spec {n : Nat} {w : Nat → ℝ} (hw : Weights n w) (dbg : Bool) (hd : dbg = false ∨ isPow2 n = true)
    (rows cols p : Nat) (raw : Affinity.Map3) (r c o : Nat) (sched) (b : Block PCell ℝ) :
    patchBlock dbg rows cols p raw n r c o sched b = some (
      let l := looked rows cols p r c o raw
      if ∑ t ∈ Finset.range n, w t * (l t).elim 0 (fun _ => 1) ≠ 0 then
        (∑ t ∈ Finset.range n, w t * (l t).elim 0 id) / ∑ t ∈ Finset.range n, w t * (l t).elim 0 (fun _ => 1) else -1) := by
  unfold patchBlock
  rw [if_neg (by rcases hd with h | h <;> simp [h])]
  have hl : ∀ k ∈ halves n (n / 2), 2 * k ≤ n := fun k hk => by
    have := halves_le _ _ _ hk
    omega
  have hi := pinit_spec (n := n) (looked rows cols p r c o raw) sched (0, b)
  have h1 := hw.tree _ _ (pchain_fold n cnt (fun s k => sec n sched paddActs (sec n sched (ploadActs n k) s))
    (fun k hk s t ht => (pstep_spec k hk sched s t ht).1) _ hl (sec n sched (pinitActs (looked rows cols p r c o raw)) (0, b)))
  have h2 := hw.tree _ _ (pchain_fold n aff (fun s k => sec n sched paddActs (sec n sched (ploadActs n k) s))
    (fun k hk s t ht => (pstep_spec k hk sched s t ht).2) _ hl (sec n sched (pinitActs (looked rows cols p r c o raw)) (0, b)))
  rw [Finset.sum_congr rfl fun t ht => by rw [(hi t (Finset.mem_range.1 ht)).1]] at h1
  rw [Finset.sum_congr rfl fun t ht => by rw [(hi t (Finset.mem_range.1 ht)).2]] at h2
  dsimp only
  rw [← h1, ← h2]
  rfl

/-- The threads and the pixels around one. -/
theorem looked_sum (rows cols p r c o : Nat) (hp : p % 2 = 1) (raw : Affinity.Map3) (n : Nat) (hn : p * p ≤ n) (w : Nat → ℝ) (f : ℝ → ℝ) :
    ∑ t ∈ Finset.range n, w t * (looked rows cols p r c o raw t).elim 0 f =
      ∑ q ∈ (Affinity.Spec.around rows cols (p / 2) r c).filter (fun q => raw q.1 q.2 o ≠ -1),
        w ((q.1 + p / 2 - r) * p + (q.2 + p / 2 - c)) * f (raw q.1 q.2 o) := by
  classical
  have hp0 : 0 < p := by omega
  rw [← Finset.sum_filter_add_sum_filter_not (Finset.range n) (fun t => (looked rows cols p r c o raw t).isSome)]
  rw [Finset.sum_eq_zero (s := (Finset.range n).filter fun t => ¬ (looked rows cols p r c o raw t).isSome) (by
    intro t ht
    rw [Finset.mem_filter] at ht
    cases h : looked rows cols p r c o raw t with
    | none => simp
    | some v => rw [h] at ht; simp at ht), add_zero]
  have hlook : ∀ t, (looked rows cols p r c o raw t).isSome → 
      t / p < p ∧ r ≤ (r + t / p - p / 2) + p / 2 ∧ p / 2 ≤ r + t / p ∧ p / 2 ≤ c + t % p ∧ r + t / p - p / 2 < rows ∧ c + t % p - p / 2 < cols ∧
      raw (r + t / p - p / 2) (c + t % p - p / 2) o ≠ -1 ∧
      looked rows cols p r c o raw t = some (raw (r + t / p - p / 2) (c + t % p - p / 2) o) := by
    intro t h
    unfold looked at h ⊢
    dsimp only at h ⊢
    split at h
    · rename_i hc
      have e1 : ((r : Int) + (t / p : Nat) - (p / 2 : Nat)).toNat = r + t / p - p / 2 := by omega
      have e2 : ((c : Int) + (t % p : Nat) - (p / 2 : Nat)).toNat = c + t % p - p / 2 := by omega
      rw [e1, e2] at h
      split at h
      · rename_i hne
        rw [if_pos hc, e1, e2, if_pos hne]
        have hne' := hne
        obtain ⟨a1, a2, a3, a4, a5⟩ := hc
        clear h hne e1 e2
        generalize t / p = u at *
        generalize t % p = v at *
        refine ⟨a1, ?_, ?_, ?_, ?_, ?_, hne', rfl⟩ <;> omega
      · cases h
    · cases h
  refine Finset.sum_bij' (fun t _ => (r + t / p - p / 2, c + t % p - p / 2)) (fun q _ => (q.1 + p / 2 - r) * p + (q.2 + p / 2 - c)) ?_ ?_ ?_ ?_ ?_
  · intro t ht
    rw [Finset.mem_filter] at ht
    obtain ⟨a1, a2, a3, a4, a5, a6, a7, -⟩ := hlook t ht.2
    have := Nat.mod_lt t hp0
    simp only [Affinity.Spec.around, Finset.mem_filter, Finset.mem_product, Finset.mem_range]
    refine ⟨⟨⟨a5, a6⟩, ⟨?_, ?_⟩, ?_, ?_⟩, a7⟩ <;> omega
  · rintro ⟨a, b⟩ hq
    simp only [Affinity.Spec.around, Finset.mem_filter, Finset.mem_product, Finset.mem_range] at hq
    obtain ⟨⟨⟨h1, h2⟩, ⟨h3, h4⟩, h5, h6⟩, h7⟩ := hq
    dsimp only
    have hcol : b + p / 2 - c < p := by omega
    have hrow : a + p / 2 - r < p := by omega
    have hdiv : ((a + p / 2 - r) * p + (b + p / 2 - c)) / p = a + p / 2 - r := by
      rw [Nat.mul_comm, Nat.mul_add_div hp0, Nat.div_eq_of_lt hcol, Nat.add_zero]
    have hmod : ((a + p / 2 - r) * p + (b + p / 2 - c)) % p = b + p / 2 - c := by
      rw [Nat.mul_comm, Nat.mul_add_mod, Nat.mod_eq_of_lt hcol]
    rw [Finset.mem_filter, Finset.mem_range]
    constructor
    · have : (a + p / 2 - r + 1) * p ≤ p * p := Nat.mul_le_mul_right _ hrow
      rw [Nat.succ_mul] at this
      omega
    · unfold looked
      dsimp only
      rw [hdiv, hmod]
      have e1 : ((r : Int) + (a + p / 2 - r : Nat) - (p / 2 : Nat)).toNat = a := by omega
      have e2 : ((c : Int) + (b + p / 2 - c : Nat) - (p / 2 : Nat)).toNat = b := by omega
      rw [if_pos (by refine ⟨hrow, ?_, ?_, ?_, ?_⟩ <;> omega), e1, e2, if_pos h7]
      rfl
  · intro t ht
    rw [Finset.mem_filter] at ht
    obtain ⟨a1, a2, a3, a4, a5, a6, a7, -⟩ := hlook t ht.2
    dsimp only
    rw [show r + t / p - p / 2 + p / 2 - r = t / p by omega, show c + t % p - p / 2 + p / 2 - c = t % p by omega, Nat.mul_comm]
    exact Nat.div_add_mod t p
  · rintro ⟨a, b⟩ hq
    simp only [Affinity.Spec.around, Finset.mem_filter, Finset.mem_product, Finset.mem_range] at hq
    obtain ⟨⟨⟨h1, h2⟩, ⟨h3, h4⟩, h5, h6⟩, h7⟩ := hq
    dsimp only
    have hcol : b + p / 2 - c < p := by omega
    have hdiv : ((a + p / 2 - r) * p + (b + p / 2 - c)) / p = a + p / 2 - r := by
      rw [Nat.mul_comm, Nat.mul_add_div hp0, Nat.div_eq_of_lt hcol, Nat.add_zero]
    have hmod : ((a + p / 2 - r) * p + (b + p / 2 - c)) % p = b + p / 2 - c := by
      rw [Nat.mul_comm, Nat.mul_add_mod, Nat.mod_eq_of_lt hcol]
    rw [hdiv, hmod, Prod.mk.injEq]
    omega
  · intro t ht
    rw [Finset.mem_filter] at ht
    obtain ⟨a1, a2, a3, a4, a5, a6, a7, a8⟩ := hlook t ht.2
    dsimp only
    rw [a8, show r + t / p - p / 2 + p / 2 - r = t / p by omega, show c + t % p - p / 2 + p / 2 - c = t % p by omega, Nat.mul_comm (t / p) p,
      Nat.div_add_mod t p]
    rfl

/-! ## Host -/

theorem table2_some {rows cols : Nat} {f : Nat → Nat → Option (Nat → ℝ)} (P : Nat → Nat → (Nat → ℝ) → Prop)
    (h : ∀ r < rows, ∀ c < cols, ∃ v, f r c = some v ∧ P r c v) :
    ∃ m, table2 rows cols f = some m ∧ ∀ r < rows, ∀ c < cols, P r c (m r c) := by
  unfold table2
  rw [if_pos (by
    simp only [List.all_eq_true, List.mem_range]
    intro r hr c hc
    obtain ⟨v, hv, -⟩ := h r hr c hc
    rw [hv]
    rfl)]
  refine ⟨_, rfl, fun r hr c hc => ?_⟩
  obtain ⟨v, hv, hP⟩ := h r hr c hc
  simp only [hv, Option.elim_some]
  exact hP

theorem table3_some {rows cols nOff : Nat} {f : Nat → Nat → Nat → Option ℝ} (v : Nat → Nat → Nat → ℝ)
    (h : ∀ r < rows, ∀ c < cols, ∀ o < nOff, f r c o = some (v r c o)) :
    ∃ m, table3 rows cols nOff f = some m ∧ ∀ r < rows, ∀ c < cols, ∀ o < nOff, m r c o = v r c o := by
  unfold table3
  rw [if_pos (by
    simp only [List.all_eq_true, List.mem_range]
    intro r hr c hc o ho
    rw [h r hr c hc o ho]
    rfl)]
  refine ⟨_, rfl, fun r hr c hc o ho => ?_⟩
  simp only [h r hr c hc o ho, Option.getD_some]

theorem next_same (h : Host) (th : Nat) (hs : h.dev = h.cache th) (q : Req) (hq : q.th = th) : (next h q).dev = (next h q).cache th := by
  unfold next
  split
  · unfold upload
    split
    · exact hs
    · dsimp only
      rw [hq, Function.update_self]
  · exact hs

theorem after_same (calls : List Req) (th : Nat) (h : ∀ q ∈ calls, q.th = th) : (after calls).dev = (after calls).cache th := by
  unfold after
  have : ∀ (l : List Req) (s : Host), (∀ q ∈ l, q.th = th) → s.dev = s.cache th → (l.foldl next s).dev = (l.foldl next s).cache th := by
    intro l
    induction l with
    | nil => exact fun s _ hs => hs
    | cons a l ih =>
      intro s hl hs
      exact ih _ (fun q hq => hl q (List.mem_cons_of_mem _ hq)) (next_same s th hs a (hl a List.mem_cons_self))
  exact this calls Host.start h rfl

theorem next_dev (h : Host) (q : Req) (hs : h.dev = h.cache q.th) (hc : checks q.g q.p q.disp.length) (i : Nat) (hi : i < q.disp.length) :
    (next h q).dev i = q.disp.getD i 0 := by
  unfold next
  rw [if_pos hc]
  unfold upload
  split
  · rename_i he
    rw [hs, he i hi]
  · simp [hi]

end Litiv.CudaAff
