import Verif.Model.GLPreload
import Verif.Spec.GLPreload
import Mathlib.Tactic.Ring
import Mathlib.Tactic.Linarith
import Mathlib.Tactic.IntervalCases
import Mathlib.Tactic.FinCases
import Mathlib.Algebra.BigOperators.Group.Finset.Basic

/-!
# Lemmas for the shared memory preloading
-/

namespace Litiv.GLPreload

variable {α : Type}

/-! ### Geometry -/

theorem border_cell (g : Shape) (x y : Int) (hx : -g.b ≤ x) (hx' : x < g.w + g.b) (hy : -g.b ≤ y) (hy' : y < g.h + g.b)
    (hout : ¬ (0 ≤ x ∧ x < g.w ∧ 0 ≤ y ∧ y < g.h)) : ∃ q k, k < rowLen g q * g.b ∧ cell g q k = (x, y) := by
  have main : ∀ q : Fin 4, ∀ r c : Nat, c < rowLen g q → r < g.b →
      (start g q).1 + (across q).1 * r + (along q).1 * c = x →
      (start g q).2 + (across q).2 * r + (along q).2 * c = y → ∃ q k, k < rowLen g q * g.b ∧ cell g q k = (x, y) := by
    intro q r c hc hr h1 h2
    have hpos : 0 < rowLen g q := by omega
    refine ⟨q, rowLen g q * r + c, ?_, ?_⟩
    · have : rowLen g q * (r + 1) ≤ rowLen g q * g.b := Nat.mul_le_mul_left _ (by omega)
      rw [Nat.mul_add, Nat.mul_one] at this
      omega
    · unfold cell
      rw [Nat.mul_add_div hpos, Nat.div_eq_of_lt hc, Nat.mul_add_mod, Nat.mod_eq_of_lt hc, Nat.add_zero, h1, h2]
  by_cases h0 : y < 0 ∧ x < g.w
  · refine main 0 (y + g.b).toNat (x + g.b).toNat ?_ ?_ ?_ ?_ <;> (try simp [rowLen, start, across, along]) <;> omega
  · by_cases h1 : x ≥ g.w ∧ y < g.h
    · refine main 1 (g.w + g.b - 1 - x).toNat (y + g.b).toNat ?_ ?_ ?_ ?_ <;> (try simp [rowLen, start, across, along]) <;> omega
    · by_cases h2 : x < 0 ∧ 0 ≤ y
      · refine main 2 (x + g.b).toNat (g.h + g.b - 1 - y).toNat ?_ ?_ ?_ ?_ <;> (try simp [rowLen, start, across, along]) <;> omega
      · refine main 3 (g.h + g.b - 1 - y).toNat (g.w + g.b - 1 - x).toNat ?_ ?_ ?_ ?_ <;>
          (try simp [rowLen, start, across, along]) <;> omega

theorem cell_in_window (g : Shape) (q : Fin 4) (k : Nat) (hk : k < rowLen g q * g.b) :
    -g.b ≤ (cell g q k).1 ∧ (cell g q k).1 < g.w + g.b ∧ -g.b ≤ (cell g q k).2 ∧ (cell g q k).2 < g.h + g.b := by
  have hpos : 0 < rowLen g q := Nat.pos_of_ne_zero (fun h => by simp [h] at hk)
  have hr : k / rowLen g q < g.b := (Nat.div_lt_iff_lt_mul hpos).mpr (by rwa [Nat.mul_comm])
  have hc : k % rowLen g q < rowLen g q := Nat.mod_lt _ hpos
  unfold cell
  generalize k / rowLen g q = r at *
  generalize k % rowLen g q = c at *
  fin_cases q <;> simp [rowLen, start, across, along] at hc ⊢ <;> omega

theorem quads_nonempty (g : Shape) (hw : 3 < g.w) (hh : 3 < g.h) (ht : Truncated g.w g.h g.t) (q : Fin 4) :
    ∃ x < g.w, ∃ y < g.h, quad g (x, y) = q := by
  have hT := ht.last
  set T := g.t (g.w - 1) with hTd
  have hTlt : T < g.h := by
    rw [hT, Nat.div_lt_iff_lt_mul (by omega), Nat.mul_comm]
    exact Nat.mul_lt_mul_of_pos_left (by omega) (by omega)
  have hT2 : g.h + 1 ≤ 2 * T := by
    -- `T ≥ 3h/4`
    have h34 : 3 * g.h / 4 ≤ T := by
      rw [hT, Nat.le_div_iff_mul_le (by omega)]
      have h1 : 3 * g.h / 4 * 4 ≤ 3 * g.h := Nat.div_mul_le_self _ _
      have h2 : 3 * g.h / 4 * g.w * 4 ≤ (g.w - 1) * g.h * 4 := by
        calc 3 * g.h / 4 * g.w * 4 = 3 * g.h / 4 * 4 * g.w := by ring
          _ ≤ 3 * g.h * g.w := Nat.mul_le_mul_right _ h1
          _ ≤ (g.w - 1) * g.h * 4 := by
            obtain ⟨v, hv⟩ : ∃ v, g.w = v + 1 := ⟨g.w - 1, by omega⟩
            rw [hv, Nat.add_sub_cancel]
            have : 3 * g.h * (v + 1) ≤ 4 * g.h * v := by
              have : g.h * 3 ≤ g.h * v := Nat.mul_le_mul_left _ (by omega)
              nlinarith
            nlinarith
      omega
    omega
  have h0 := ht.first
  match q with
  | 0 => exact ⟨0, by omega, 0, by omega, by simp only [quad, h0]; simp; omega⟩
  | 1 =>
    refine ⟨g.w - 1, by omega, T - 1, by omega, ?_⟩
    simp only [quad, ← hTd]
    rw [if_pos (by omega)]
  | 2 =>
    refine ⟨0, by omega, 1, by omega, ?_⟩
    simp only [quad, h0]
    rw [if_neg (by omega), if_pos (by omega)]
  | 3 =>
    refine ⟨g.w - 1, by omega, g.h - 1, by omega, ?_⟩
    simp only [quad, ← hTd]
    rw [if_neg (by omega), if_neg (by omega), if_neg (by omega)]

/-! ### Tickets -/

/-- The invocations of a work group. -/
def member (g : Shape) (i : Nat × Nat) : Prop := i.1 < g.w ∧ i.2 < g.h

structure Inv (g : Shape) (img : Int → Int → α) (o : Cell) (s : St α) : Prop where
  centre : ∀ p : Cell, 0 ≤ p.1 ∧ p.1 < g.w ∧ 0 ≤ p.2 ∧ p.2 < g.h → s.data p = img (o.1 + p.1) (o.2 + p.2)
  ticket : ∀ q k, k < s.count q → k < rowLen g q * g.b →
    s.data (cell g q k) = img (o.1 + (cell g q k).1) (o.2 + (cell g q k).2) ∨
      ∃ i, member g i ∧ quad g i = q ∧ s.pc i = .copy k
  done : ∀ i, s.pc i = .done → rowLen g (quad g i) * g.b ≤ s.count (quad g i)

theorem enter_inv (g : Shape) (img : Int → Int → α) (o : Cell) (d₀ : Cell → α) (c₀ : Fin 4 → Nat)
    (hq : ∀ q, ∃ x < g.w, ∃ y < g.h, quad g (x, y) = q) : Inv g img o (enter g img o d₀ c₀) := by
  refine ⟨fun p hp => ?_, fun q k hk => ?_, fun i hi => ?_⟩
  · simp only [enter]
    rw [if_pos hp]
  · simp only [enter] at hk
    rw [if_pos (hq q)] at hk
    omega
  · simp [enter] at hi

theorem step_inv (g : Shape) (img : Int → Int → α) (o : Cell) (s : St α) (i : Nat × Nat) (hi : member g i)
    (h : Inv g img o s) : Inv g img o (step g img o s i) := by
  unfold step
  dsimp only
  cases hpc : s.pc i with
  | done => exact h
  | fetch =>
    refine ⟨h.centre, fun q k hk hl => ?_, fun j hj => ?_⟩
    · dsimp only at hk ⊢
      by_cases hq : q = quad g i
      · subst hq
        rw [Function.update_self] at hk
        by_cases hkc : k = s.count (quad g i)
        · right
          refine ⟨i, hi, rfl, ?_⟩
          rw [Function.update_self, ← hkc, if_pos hl]
        · rcases h.ticket _ k (by omega) hl with h1 | ⟨j, hj1, hj2, hj3⟩
          · exact Or.inl h1
          · right
            refine ⟨j, hj1, hj2, ?_⟩
            rw [Function.update_of_ne, hj3]
            rintro rfl
            rw [hpc] at hj3
            cases hj3
      · rw [Function.update_of_ne hq] at hk
        rcases h.ticket _ k hk hl with h1 | ⟨j, hj1, hj2, hj3⟩
        · exact Or.inl h1
        · right
          refine ⟨j, hj1, hj2, ?_⟩
          rw [Function.update_of_ne, hj3]
          rintro rfl
          exact hq hj2.symm
    · dsimp only at hj ⊢
      by_cases hji : j = i
      · subst hji
        rw [Function.update_self] at hj ⊢
        by_cases hc : s.count (quad g j) < rowLen g (quad g j) * g.b
        · rw [if_pos hc] at hj
          cases hj
        · omega
      · rw [Function.update_of_ne hji] at hj
        have := h.done j hj
        by_cases hq : quad g j = quad g i
        · rw [hq, Function.update_self]
          rw [hq] at this
          omega
        · rw [Function.update_of_ne hq]
          exact this
  | copy k₀ =>
    refine ⟨fun p hp => ?_, fun q k hk hl => ?_, fun j hj => ?_⟩
    · dsimp only
      rw [Function.update_apply]
      split
      · rename_i he
        rw [he]
      · exact h.centre p hp
    · dsimp only at hk ⊢
      rw [Function.update_apply]
      by_cases he : cell g q k = cell g (quad g i) k₀
      · left
        rw [if_pos he, he]
      · rw [if_neg he]
        rcases h.ticket _ k hk hl with h1 | ⟨j, hj1, hj2, hj3⟩
        · exact Or.inl h1
        · right
          refine ⟨j, hj1, hj2, ?_⟩
          rw [Function.update_of_ne, hj3]
          rintro rfl
          rw [hpc] at hj3
          cases hj3
          exact he (by rw [hj2])
    · dsimp only at hj ⊢
      by_cases hji : j = i
      · subst hji
        rw [Function.update_self] at hj
        cases hj
      · rw [Function.update_of_ne hji] at hj
        exact h.done j hj

theorem preload_inv (g : Shape) (img : Int → Int → α) (o : Cell) (d₀ : Cell → α) (c₀ : Fin 4 → Nat)
    (hq : ∀ q, ∃ x < g.w, ∃ y < g.h, quad g (x, y) = q) (sched : List (Nat × Nat)) (hs : ∀ i ∈ sched, member g i) :
    Inv g img o (preload g img o d₀ c₀ sched) := by
  unfold preload
  have : ∀ (l : List (Nat × Nat)) (s : St α), (∀ i ∈ l, member g i) → Inv g img o s →
      Inv g img o (l.foldl (step g img o) s) := by
    intro l
    induction l with
    | nil => exact fun s _ h => h
    | cons i l ih =>
      intro s hl h
      exact ih _ (fun j hj => hl j (List.mem_cons_of_mem _ hj)) (step_inv g img o s i (hl i List.mem_cons_self) h)
  exact this sched _ hs (enter_inv g img o d₀ c₀ hq)

theorem window_loaded (g : Shape) (img : Int → Int → α) (o : Cell) (s : St α) (h : Inv g img o s)
    (hq : ∀ q, ∃ x < g.w, ∃ y < g.h, quad g (x, y) = q) (hd : ∀ i, member g i → s.pc i = .done)
    (x y : Int) (hx : -g.b ≤ x) (hx' : x < g.w + g.b) (hy : -g.b ≤ y) (hy' : y < g.h + g.b) :
    s.data (x, y) = img (o.1 + x) (o.2 + y) := by
  by_cases hin : 0 ≤ x ∧ x < g.w ∧ 0 ≤ y ∧ y < g.h
  · exact h.centre (x, y) hin
  · obtain ⟨q, k, hk, hc⟩ := border_cell g x y hx hx' hy hy' hin
    obtain ⟨a, ha, b, hb, hab⟩ := hq q
    have hdn := h.done (a, b) (hd (a, b) ⟨ha, hb⟩)
    rw [hab] at hdn
    rcases h.ticket q k (by omega) hk with h1 | ⟨i, hi, _, hi3⟩
    · rw [hc] at h1
      exact h1
    · rw [hd i hi] at hi3
      cases hi3

/-! ### Termination -/

/-- Progress of one invocation after `m` of its steps. -/
def Progress (g : Shape) (i : Nat × Nat) (s : St α) (m : Nat) : Prop :=
  let lim := rowLen g (quad g i) * g.b
  match s.pc i with
  | .done => True
  | .fetch => ∃ j, m = 2 * j ∧ j ≤ lim ∧ j ≤ s.count (quad g i)
  | .copy _ => ∃ j, m = 2 * j + 1 ∧ j < lim ∧ j + 1 ≤ s.count (quad g i)

theorem step_progress (g : Shape) (img : Int → Int → α) (o : Cell) (s : St α) (i j : Nat × Nat) (m : Nat)
    (h : Progress g i s m) : Progress g i (step g img o s j) (m + if j = i then 1 else 0) := by
  by_cases hji : j = i
  · subst hji
    rw [if_pos rfl]
    unfold Progress at h
    unfold step Progress
    cases hpc : s.pc j with
    | done => simp [hpc]
    | fetch =>
      simp only [hpc] at h
      obtain ⟨n, hm, hn, hc⟩ := h
      simp only [Function.update_self]
      by_cases hlt : s.count (quad g j) < rowLen g (quad g j) * g.b
      · rw [if_pos hlt]
        exact ⟨n, by omega, by omega, by omega⟩
      · rw [if_neg hlt]
        trivial
    | copy k =>
      simp only [hpc] at h
      obtain ⟨n, hm, hn, hc⟩ := h
      simp only [Function.update_self]
      exact ⟨n + 1, by omega, by omega, by omega⟩
  · rw [if_neg hji, Nat.add_zero]
    have hpc : (step g img o s j).pc i = s.pc i := by
      unfold step
      dsimp only
      cases s.pc j <;> simp [Function.update_of_ne (Ne.symm hji)]
    have hcnt : s.count (quad g i) ≤ (step g img o s j).count (quad g i) := by
      unfold step
      dsimp only
      cases s.pc j with
      | fetch =>
        dsimp only
        rw [Function.update_apply]
        split
        · rename_i he
          rw [he]
          omega
        · exact le_rfl
      | copy k => exact le_rfl
      | done => exact le_rfl
    unfold Progress at h ⊢
    rw [hpc]
    cases hp : s.pc i with
    | done => trivial
    | fetch =>
      simp only [hp] at h ⊢
      obtain ⟨n, hm, hn, hc⟩ := h
      exact ⟨n, hm, hn, by omega⟩
    | copy k =>
      simp only [hp] at h ⊢
      obtain ⟨n, hm, hn, hc⟩ := h
      exact ⟨n, hm, hn, by omega⟩

theorem preload_progress (g : Shape) (img : Int → Int → α) (o : Cell) (sched : List (Nat × Nat)) (i : Nat × Nat)
    (s : St α) (m : Nat) (h : Progress g i s m) : Progress g i (sched.foldl (step g img o) s) (m + sched.count i) := by
  induction sched generalizing s m with
  | nil => exact h
  | cons j l ih =>
    rw [List.foldl_cons, List.count_cons]
    have := ih _ _ (step_progress g img o s i j m h)
    by_cases hji : j = i
    · simp only [hji, if_true, beq_self_eq_true] at this ⊢
      rw [show m + (List.count i l + 1) = m + 1 + List.count i l by omega]
      exact this
    · have hb : (j == i) = false := by simpa using hji
      simp only [hji, hb, if_false, Bool.false_eq_true, Nat.add_zero] at this ⊢
      exact this

theorem preload_done (g : Shape) (img : Int → Int → α) (o : Cell) (d₀ : Cell → α) (c₀ : Fin 4 → Nat)
    (sched : List (Nat × Nat)) (i : Nat × Nat) (hc : 2 * (rowLen g (quad g i) * g.b) < sched.count i) :
    (preload g img o d₀ c₀ sched).pc i = .done := by
  have h := preload_progress g img o sched i (enter g img o d₀ c₀) 0 ⟨0, rfl, Nat.zero_le _, Nat.zero_le _⟩
  unfold preload
  unfold Progress at h
  cases hp : (sched.foldl (step g img o) (enter g img o d₀ c₀)).pc i with
  | done => rfl
  | fetch =>
    simp only [hp] at h
    obtain ⟨n, hm, hn, _⟩ := h
    omega
  | copy k =>
    simp only [hp] at h
    obtain ⟨n, hm, hn, _⟩ := h
    omega

/-! ### Median -/

theorem foldl_count {β : Type} (l : List β) (p : β → Prop) [DecidablePred p] (c : Nat) :
    l.foldl (fun c d => c + if p d then 1 else 0) c = c + (l.filter (fun d => decide (p d))).length := by
  induction l generalizing c with
  | nil => rfl
  | cons a l ih =>
    rw [List.foldl_cons, ih]
    by_cases h : p a
    · simp [h]; omega
    · simp [h]

theorem mem_kernelOffsets (n : Nat) (d : Int × Int) :
    d ∈ kernelOffsets n ↔ (-((n / 2 : Nat) : Int) ≤ d.1 ∧ d.1 ≤ ((n / 2 : Nat) : Int)) ∧
      -((n / 2 : Nat) : Int) ≤ d.2 ∧ d.2 ≤ ((n / 2 : Nat) : Int) := by
  obtain ⟨a, b⟩ := d
  simp only [kernelOffsets, List.mem_flatten, List.mem_map, List.mem_range, exists_exists_and_eq_and, Prod.mk.injEq]
  constructor
  · rintro ⟨y, hy, x, hx, rfl, rfl⟩
    omega
  · rintro ⟨⟨h1, h2⟩, h3, h4⟩
    exact ⟨(b + ((n / 2 : Nat) : Int)).toNat, by omega, (a + ((n / 2 : Nat) : Int)).toNat, by omega, by omega, by omega⟩

theorem kernelOffsets_nodup (n : Nat) : (kernelOffsets n).Nodup := by
  unfold kernelOffsets
  dsimp only
  rw [List.nodup_flatten]
  constructor
  · intro l hl
    obtain ⟨y, _, rfl⟩ := List.mem_map.mp hl
    refine List.Nodup.map ?_ List.nodup_range
    intro a b h
    simp at h
    omega
  · rw [List.pairwise_map]
    refine List.Pairwise.imp ?_ (List.nodup_range (n := 2 * (n / 2) + 1))
    intro a b hab
    intro p hp hp'
    obtain ⟨x, _, rfl⟩ := List.mem_map.mp hp
    obtain ⟨x', _, he⟩ := List.mem_map.mp hp'
    simp at he
    omega

theorem blur_count (n : Nat) (img : Int → Int → Nat) (v : Cell) :
    (kernelOffsets n).foldl (fun c d => c + if img (v.1 + d.1) (v.2 + d.2) > 128 then 1 else 0) 0 =
      foreground img (n / 2) v.1 v.2 := by
  rw [foldl_count (kernelOffsets n) (fun d => img (v.1 + d.1) (v.2 + d.2) > 128) 0, Nat.zero_add]
  unfold foreground
  rw [← List.toFinset_card_of_nodup ((kernelOffsets_nodup n).filter _)]
  refine Finset.card_bij' (fun d _ => (v.1 + d.1, v.2 + d.2)) (fun p _ => (p.1 - v.1, p.2 - v.2)) ?_ ?_ ?_ ?_
  · intro d hd
    rw [List.mem_toFinset, List.mem_filter, mem_kernelOffsets] at hd
    simp only [Finset.mem_filter, Finset.mem_product, Finset.mem_Icc]
    obtain ⟨h1, h2⟩ := hd
    have := of_decide_eq_true h2
    refine ⟨⟨⟨?_, ?_⟩, ?_, ?_⟩, this⟩ <;> omega
  · intro p hp
    simp only [Finset.mem_filter, Finset.mem_product, Finset.mem_Icc] at hp
    rw [List.mem_toFinset, List.mem_filter, mem_kernelOffsets]
    refine ⟨⟨⟨?_, ?_⟩, ?_, ?_⟩, ?_⟩ <;> try omega
    simp only [decide_eq_true_eq]
    rw [show v.1 + (p.1 - v.1) = p.1 by omega, show v.2 + (p.2 - v.2) = p.2 by omega]
    exact hp.2
  · intro d _
    ext <;> simp
  · intro p _
    ext <;> simp

theorem directBlur_count (n : Nat) (img : Int → Int → Nat) (v : Cell) :
    directBlur n img v = if n * n / 2 < foreground img (n / 2) v.1 v.2 then 255 else 0 := by
  unfold directBlur blurOf
  dsimp only
  rw [blur_count n img v]

theorem foldl_congr_mem {β γ : Type} (l : List β) (f f' : γ → β → γ) (c : γ) (h : ∀ c, ∀ d ∈ l, f c d = f' c d) :
    l.foldl f c = l.foldl f' c := by
  induction l generalizing c with
  | nil => rfl
  | cons a l ih =>
    rw [List.foldl_cons, List.foldl_cons, h c a List.mem_cons_self]
    exact ih _ (fun c d hd => h c d (List.mem_cons_of_mem _ hd))

theorem blurOf_congr (n : Nat) (f f' : Int → Int → Nat) (h : ∀ d ∈ kernelOffsets n, f d.1 d.2 = f' d.1 d.2) :
    blurOf n f = blurOf n f' := by
  unfold blurOf
  dsimp only
  rw [foldl_congr_mem (kernelOffsets n) _ (fun c d => c + if f' d.1 d.2 > 128 then 1 else 0) 0
    (fun c d hd => by rw [h d hd])]

/-! ### Post-processing -/

theorem post_loads (n w h fw fh : Nat) (s : Post) (evs : List Ev) (hl : ∀ e ∈ evs, ∃ gx gy, e = .load gx gy) :
    (evs.foldl (postStep n w h fw fh) s).img = s.img ∧
    ∀ gx gy, .load gx gy ∈ evs → (evs.foldl (postStep n w h fw fh) s).win (gx, gy) = s.img := by
  induction evs generalizing s with
  | nil => exact ⟨rfl, fun _ _ h => by cases h⟩
  | cons e l ih =>
    obtain ⟨gx, gy, rfl⟩ := hl e List.mem_cons_self
    obtain ⟨h1, h2⟩ := ih (postStep n w h fw fh s (.load gx gy)) (fun e he => hl e (List.mem_cons_of_mem _ he))
    rw [List.foldl_cons]
    refine ⟨h1, fun a b hab => ?_⟩
    by_cases hm : .load a b ∈ l
    · exact h2 a b hm
    · have hab' : a = gx ∧ b = gy := by
        rcases List.mem_cons.mp hab with h | h
        · cases h
          exact ⟨rfl, rfl⟩
        · exact absurd h hm
      obtain ⟨rfl, rfl⟩ := hab'
      have keep : ∀ (l : List Ev) (s : Post), (∀ e ∈ l, ∃ gx gy, e = .load gx gy) → .load a b ∉ l →
          (l.foldl (postStep n w h fw fh) s).win (a, b) = s.win (a, b) := by
        intro l
        induction l with
        | nil => exact fun _ _ _ => rfl
        | cons e l ih =>
          intro s hl hm
          obtain ⟨gx, gy, rfl⟩ := hl e List.mem_cons_self
          rw [List.foldl_cons, ih _ (fun e he => hl e (List.mem_cons_of_mem _ he)) (fun h => hm (List.mem_cons_of_mem _ h))]
          simp only [postStep]
          rw [Function.update_of_ne]
          intro he
          apply hm
          cases he
          exact List.mem_cons_self
      rw [keep l _ (fun e he => hl e (List.mem_cons_of_mem _ he)) hm]
      simp [postStep]

open Classical in
theorem post_stores (n w h fw fh : Nat) (raw : Int → Int → Nat) (s : Post) (evs : List Ev)
    (hl : ∀ e ∈ evs, ∃ gx gy, e = .store gx gy ∧ s.win (gx, gy) = raw) (x y : Int) :
    (evs.foldl (postStep n w h fw fh) s).img x y =
      if ∃ gx gy : Nat, .store gx gy ∈ evs ∧ gx * w ≤ x ∧ x < gx * w + w ∧ gy * h ≤ y ∧ y < gy * h + h ∧ x < fw ∧ y < fh then
        directBlur n raw (x, y) else s.img x y := by
  induction evs generalizing s with
  | nil => simp
  | cons e l ih =>
    obtain ⟨gx, gy, rfl, hw⟩ := hl _ List.mem_cons_self
    rw [List.foldl_cons, ih _ (fun e he => by
      obtain ⟨a, b, h1, h2⟩ := hl e (List.mem_cons_of_mem _ he)
      exact ⟨a, b, h1, h2⟩)]
    by_cases h1 : ∃ gx gy : Nat, .store gx gy ∈ l ∧ gx * w ≤ x ∧ x < gx * w + w ∧ gy * h ≤ y ∧ y < gy * h + h ∧ x < fw ∧ y < fh
    · rw [if_pos h1, if_pos]
      obtain ⟨a, b, hm, hr⟩ := h1
      exact ⟨a, b, List.mem_cons_of_mem _ hm, hr⟩
    · rw [if_neg h1]
      simp only [postStep, hw]
      by_cases h2 : gx * w ≤ x ∧ x < gx * w + w ∧ gy * h ≤ y ∧ y < gy * h + h ∧ x < fw ∧ y < fh
      · rw [if_pos h2, if_pos ⟨gx, gy, List.mem_cons_self, h2⟩]
      · rw [if_neg h2, if_neg]
        rintro ⟨a, b, hm, hr⟩
        rcases List.mem_cons.mp hm with he | hm
        · cases he
          exact h2 hr
        · exact h1 ⟨a, b, hm, hr⟩

end Litiv.GLPreload
