import Verif.Model.Affinity
import Verif.Spec.Affinity
import Verif.Props.MI

/-! # Lemmas about affinity maps -/

namespace Litiv.Affinity

open MI (In Data Kind calcMutualInfo)

theorem put_eq (m : Map3) (r c o : Nat) (v : ℝ) : put m r c o v r c o = v := by simp [put]

theorem put_ne (m : Map3) (r c o : Nat) (v : ℝ) (r' c' o' : Nat) (h : ¬ (r' = r ∧ c' = c ∧ o' = o)) : put m r c o v r' c' o' = m r' c' o' := by
  simp [put, h]

theorem not_outside (roi : Option (Nat → Nat → Bool)) (r c : Nat) : outside roi r c = false ↔ Spec.inside roi r c := by
  cases roi <;> simp [outside, Spec.inside]

/-! ## Windows -/

theorem window_spec (rows cols : Nat) (im : Nat → Nat → Int) (y x size : Nat) (h1 : x + size ≤ cols) (h2 : y + size ≤ rows) :
    window rows cols im (y : Int) (x : Int) size = some ((List.range (size * size)).map (Spec.patch im size y x)) := by
  unfold window
  rw [if_pos (by omega)]
  rfl

theorem norm2_patch (n : Nat) (f g : Nat → Int) : norm2 ((List.range n).map f) ((List.range n).map g) = Spec.euclid n f g := by
  unfold norm2 Spec.euclid
  congr 1
  rw [List.zipWith_map, List.zipWith_self]
  induction n with
  | zero => simp
  | succ n ih => rw [List.range_succ, List.map_append, List.sum_append, Finset.sum_range_succ, ih]; simp

theorem valid_patch (n : Nat) (hn : 0 < n) (f g : Nat → Int) (hf : ∀ k < n, 0 ≤ f k ∧ f k ≤ 255) (hg : ∀ k < n, 0 ≤ g k ∧ g k ≤ 255) :
    MI.Valid 1 false [bytes ((List.range n).map f), bytes ((List.range n).map g)] n := by
  have hb : ∀ i ∈ [bytes ((List.range n).map f), bytes ((List.range n).map g)], ∀ v ∈ i.vals, 0 ≤ v ∧ v ≤ 255 := by
    intro i hi v hv
    simp only [List.mem_cons, List.not_mem_nil, or_false] at hi
    rcases hi with rfl | rfl <;>
    · simp only [bytes, List.mem_map, List.mem_range] at hv
      obtain ⟨k, hk, rfl⟩ := hv
      first | exact hf k hk | exact hg k hk
  refine ⟨by decide, by simp, hn, ?_, ?_, ?_, ?_⟩
  · intro i hi
    simp only [List.mem_cons, List.not_mem_nil, or_false] at hi
    rcases hi with rfl | rfl <;> simp [bytes]
  · intro i hi v hv
    have := hb i hi v hv
    simp only [List.mem_cons, List.not_mem_nil, or_false] at hi
    rcases hi with rfl | rfl <;> simpa [bytes] using this
  · intro i hi _
    simp only [List.mem_cons, List.not_mem_nil, or_false] at hi
    rcases hi with rfl | rfl <;> simp [bytes]
  · intro i hi u hu v hv
    have h1 := hb i hi u hu
    have h2 := hb i hi v hv
    omega

theorem score_patch (n : Nat) (f g : Nat → Int) :
    MI.score 1 true false (bytes ((List.range n).map f)) (bytes ((List.range n).map g)) n = Spec.normalized n f g := by
  have hl : ∀ h : Nat → Int, ∀ e < n, ∀ k < n, (MI.levelOf 1 false (bytes ((List.range n).map h)) e = MI.levelOf 1 false (bytes ((List.range n).map h)) k ↔ h e = h k) := by
    intro h e he k hk
    unfold MI.levelOf MI.Spec.level
    simp [bytes, List.getD_eq_getElem?_getD, List.getElem?_range he, List.getElem?_range hk]
  unfold MI.score Spec.normalized
  rw [MI.Spec.mutualInfo_relabel (hl f) (hl g), MI.Spec.entropy_relabel (hl f), MI.Spec.entropy_relabel (hl g)]
  simp

theorem normalized_bounds (n : Nat) (x y : Nat → Int) : 0 ≤ Spec.normalized n x y ∧ Spec.normalized n x y ≤ 1 := by
  have h0 := MI.Spec.mutualInfo_nonneg n x y
  have h1 := MI.Spec.mutualInfo_le n x y
  have h2 := MI.Spec.mutualInfo_le n y x
  rw [MI.Spec.mutualInfo_symm] at h2
  unfold Spec.normalized
  split
  · rename_i hc
    have hs : 0 < Real.sqrt (MI.Spec.entropy n x * MI.Spec.entropy n y) := Real.sqrt_pos.2 (mul_pos hc.1 hc.2)
    refine ⟨div_nonneg h0 hs.le, ?_⟩
    rw [div_le_one hs]
    apply Real.le_sqrt_of_sq_le
    rw [sq]
    exact mul_le_mul h1 h2 h0 hc.1.le
  · rename_i hc
    refine ⟨h0, ?_⟩
    rw [not_and_or] at hc
    rcases hc with e | e <;> linarith

/-! ## The loop over images -/

theorem entropy_pos (n : Nat) (x : Nat → Int) (hn0 : 0 < n) : 0 < MI.Spec.entropy n x ↔ ∃ k < n, ∃ k' < n, x k ≠ x k' := by
  constructor
  · intro he
    by_contra hc
    push Not at hc
    have hn := hn0
    have : MI.Spec.entropy n x = 0 := by
      rw [MI.Spec.entropy_pixels]
      apply mul_eq_zero_of_right
      apply Finset.sum_eq_zero
      intro k hk
      have : MI.Spec.cx n x k = n := by
        unfold MI.Spec.cx MI.Spec.cnt
        rw [Finset.filter_true_of_mem, Finset.card_range]
        intro e he
        exact hc e (Finset.mem_range.1 he) k (Finset.mem_range.1 hk)
      rw [this, div_self (by positivity), Real.logb_one]
    linarith
  · rintro ⟨k, hk, k', hk', hne⟩
    have hn : (0 : ℝ) < n := by exact_mod_cast hn0
    rw [MI.Spec.entropy_pixels]
    apply mul_pos (by positivity)
    apply Finset.sum_pos'
    · intro e he
      have h1 := MI.Spec.cx_pos x (Finset.mem_range.1 he)
      have h2 := MI.Spec.cx_le n x e
      apply Real.logb_nonneg (by norm_num)
      rw [le_div_iff₀ (by exact_mod_cast h1), one_mul]
      exact_mod_cast h2
    · refine ⟨k, Finset.mem_range.2 hk, ?_⟩
      have h1 := MI.Spec.cx_pos x hk
      have h2 : MI.Spec.cx n x k < n := by
        unfold MI.Spec.cx MI.Spec.cnt
        have := Finset.card_lt_card (s := (Finset.range n).filter fun e => x e = x k) (t := Finset.range n)
          (Finset.filter_ssubset.2 ⟨k', Finset.mem_range.2 hk', fun e => hne e.symm⟩)
        rwa [Finset.card_range] at this
      apply Real.logb_pos (by norm_num)
      rw [lt_div_iff₀ (by exact_mod_cast h1), one_mul]
      exact_mod_cast h2

theorem imgStep_spec (g : Img) (dist : Dist) (size : Nat) (hb : Bytes g) (hs : 1 ≤ size) (hodd : size % 2 = 1) (s : St) (i j o t : Nat)
    (hi : i + size ≤ g.rows) (hj : j + size ≤ g.cols) :
    ∃ s', imgStep g dist size s (i + size / 2, j + size / 2, o, t) = some s' ∧
      (Matched g size i j o → s'.map = put s.map i j o (value g dist size i j o)) ∧ (¬ Matched g size i j o → s'.map = s.map) := by
  unfold imgStep
  dsimp only
  by_cases hm : Matched g size i j o
  · obtain ⟨oc, hoc, h1, h2, h3, h4⟩ := id hm
    rw [← not_outside] at h3 h4
    have ex : (((i + size / 2 : Nat) : Int) - ((size / 2 : Nat) : Int)) = (i : Int) := by push_cast; omega
    have ey : (((j + size / 2 : Nat) : Int) - ((size / 2 : Nat) : Int)) = (j : Int) := by push_cast; omega
    have ez : ((j + size / 2 : Nat) : Int) + g.disp.getD o 0 - ((size / 2 : Nat) : Int) = ((oc - size / 2 : Nat) : Int) := by omega
    have et : (((j + size / 2 : Nat) : Int) + g.disp.getD o 0).toNat = oc := by omega
    rw [if_neg (by rw [et]; simp only [h3, h4, Bool.false_eq_true, false_or, or_false]; omega)]
    rw [ez, ex, ey, window_spec _ _ _ _ _ _ hj hi, window_spec _ _ _ _ _ _ (by omega) hi]
    dsimp only
    have ev : ((j : Int) + g.disp.getD o 0).toNat = oc - size / 2 := by omega
    have e1 : i + size / 2 - size / 2 = i := by omega
    have e2 : j + size / 2 - size / 2 = j := by omega
    cases dist with
    | ssd =>
      refine ⟨_, rfl, fun _ => ?_, fun h => absurd hm h⟩
      rw [norm2_patch, e1, e2]
      simp only [value, ev]
    | mi =>
      have hv := valid_patch (size * size) (by positivity) (Spec.patch g.im1 size i j) (Spec.patch g.im2 size i (oc - size / 2))
        (fun k _ => (hb _ _).1) (fun k _ => (hb _ _).2)
      obtain ⟨d, hd, _⟩ := MI.hist_frequencies 1 .sparse false false _ _ (s.buf t) hv
      rw [MI.mi_formula 1 .sparse true false _ _ _ (s.buf t) hv, hd]
      refine ⟨_, rfl, fun _ => ?_, fun h => absurd hm h⟩
      dsimp only
      rw [score_patch, e1, e2, max_eq_left (by linarith [(normalized_bounds (size * size) (Spec.patch g.im1 size i j) (Spec.patch g.im2 size i (oc - size / 2))).2])]
      simp only [value, ev]
  · rw [if_pos]
    · exact ⟨s, rfl, fun h => absurd h hm, fun _ => rfl⟩
    · by_contra hc
      push Not at hc
      simp only [Bool.not_eq_true] at hc
      obtain ⟨c1, c2, c3, c4⟩ := hc
      apply hm
      rw [not_outside] at c1 c4
      refine ⟨(((j + size / 2 : Nat) : Int) + g.disp.getD o 0).toNat, by omega, by omega, by omega, c1, c4⟩

theorem imgFold (g : Img) (dist : Dist) (size : Nat) (hb : Bytes g) (hs : 1 ≤ size) (hodd : size % 2 = 1) :
    ∀ (sched : List (Nat × Nat × Nat × Nat)) (s : St),
      (∀ it ∈ sched, ∃ i j, it.1 = i + size / 2 ∧ it.2.1 = j + size / 2 ∧ i + size ≤ g.rows ∧ j + size ≤ g.cols) →
      ∃ s', sched.foldlM (imgStep g dist size) s = some s' ∧ ∀ i j o,
        ((Matched g size i j o ∧ ∃ it ∈ sched, it.1 = i + size / 2 ∧ it.2.1 = j + size / 2 ∧ it.2.2.1 = o) → s'.map i j o = value g dist size i j o) ∧
        (¬ (Matched g size i j o ∧ ∃ it ∈ sched, it.1 = i + size / 2 ∧ it.2.1 = j + size / 2 ∧ it.2.2.1 = o) → s'.map i j o = s.map i j o)
  | [], s, _ => ⟨s, rfl, fun i j o => ⟨fun h => by simp at h, fun _ => rfl⟩⟩
  | (r, c, o, t) :: sched, s, hall => by
    obtain ⟨i, j, e1, e2, hi, hj⟩ := hall (r, c, o, t) (by simp)
    dsimp only at e1 e2
    subst e1 e2
    obtain ⟨s1, hs1, hm1, hn1⟩ := imgStep_spec g dist size hb hs hodd s i j o t hi hj
    obtain ⟨s2, hs2, h2⟩ := imgFold g dist size hb hs hodd sched s1 fun it hit => hall it (by simp [hit])
    refine ⟨s2, by rw [List.foldlM_cons, hs1]; exact hs2, ?_⟩
    intro i' j' o'
    obtain ⟨hA, hB⟩ := h2 i' j' o'
    by_cases hin : Matched g size i' j' o' ∧ ∃ it ∈ sched, it.1 = i' + size / 2 ∧ it.2.1 = j' + size / 2 ∧ it.2.2.1 = o'
    · refine ⟨fun _ => hA hin, fun h => absurd ⟨hin.1, ?_⟩ h⟩
      obtain ⟨it, h1, h2⟩ := hin.2
      exact ⟨it, by simp [h1], h2⟩
    · rw [hB hin]
      by_cases hcell : i' = i ∧ j' = j ∧ o' = o
      · obtain ⟨rfl, rfl, rfl⟩ := hcell
        constructor
        · intro h
          rw [hm1 h.1, put_eq]
        · intro h
          have : ¬ Matched g size i' j' o' := fun hm => h ⟨hm, _, List.mem_cons_self, rfl, rfl, rfl⟩
          rw [hn1 this]
      · have hsame : s1.map i' j' o' = s.map i' j' o' := by
          by_cases hm : Matched g size i j o
          · rw [hm1 hm, put_ne _ _ _ _ _ _ _ _ hcell]
          · rw [hn1 hm]
        refine ⟨fun h => ?_, fun _ => hsame⟩
        exfalso
        obtain ⟨hm, it, hit, h1, h2, h3⟩ := h
        rcases List.mem_cons.1 hit with rfl | hit
        · dsimp only at h1 h2 h3; exact hcell (by omega)
        · exact hin ⟨hm, it, hit, h1, h2, h3⟩

/-! ## Descriptors -/

noncomputable instance (g : Desc) (r c o : Nat) : Decidable (RawOk g r c o) := Classical.propDecidable _

theorem rawOffsets (g : Desc) (r c : Nat) (h1 : Spec.inside g.roi1 r c) : ∀ (os : List Nat) (m : Map3) (r' c' o' : Nat),
    os.foldl (rawOffset g r c) m r' c' o' = if r' = r ∧ c' = c ∧ o' ∈ os ∧ RawOk g r c o' then rawVal g r c o' else m r' c' o'
  | [], m, r', c', o' => by simp
  | o :: os, m, r', c', o' => by
    rw [List.foldl_cons, rawOffsets g r c h1 os]
    have hstep : rawOffset g r c m o = if RawOk g r c o then put m r c o (rawVal g r c o) else m := by
      unfold rawOffset
      dsimp only
      by_cases hm : RawOk g r c o
      · obtain ⟨oc, hoc, h2, h3, h4⟩ := id hm
        rw [← not_outside] at h4
        have et : ((c : Int) + g.disp.getD o 0).toNat = oc := by omega
        rw [if_neg (by rw [et, h4]; simp only [Bool.false_eq_true, or_false]; omega), if_pos hm]
        rfl
      · rw [if_neg hm, if_pos]
        by_contra hc
        push Not at hc
        simp only [Bool.not_eq_true] at hc
        obtain ⟨c1, c2, c3⟩ := hc
        rw [not_outside] at c3
        exact hm ⟨((c : Int) + g.disp.getD o 0).toNat, by omega, by omega, h1, c3⟩
    rw [hstep]
    by_cases hcell : r' = r ∧ c' = c ∧ o' = o
    · obtain ⟨rfl, rfl, rfl⟩ := hcell
      by_cases hm : RawOk g r' c' o'
      · simp [hm, put_eq]
      · simp [hm]
    · by_cases hin : r' = r ∧ c' = c ∧ o' ∈ os ∧ RawOk g r c o'
      · rw [if_pos hin, if_pos ⟨hin.1, hin.2.1, by simp [hin.2.2.1], hin.2.2.2⟩]
      · have hn : ¬ (r' = r ∧ c' = c ∧ o' ∈ o :: os ∧ RawOk g r c o') := by
          rintro ⟨a1, a2, a3, a4⟩
          rcases List.mem_cons.1 a3 with a3 | a3
          · exact hcell ⟨a1, a2, a3⟩
          · exact hin ⟨a1, a2, a3, a4⟩
        rw [if_neg hin, if_neg hn]
        split
        · exact put_ne _ _ _ _ _ _ _ _ hcell
        · rfl

theorem rawFold (g : Desc) : ∀ (order : List (Nat × Nat)) (m : Map3) (r c o : Nat),
    order.foldl (rawStep g) m r c o = if (r, c) ∈ order ∧ o < g.disp.length ∧ RawOk g r c o then rawVal g r c o else m r c o
  | [], m, r, c, o => by simp
  | (pr, pc) :: order, m, r, c, o => by
    rw [List.foldl_cons, rawFold g order]
    by_cases hin : (r, c) ∈ order ∧ o < g.disp.length ∧ RawOk g r c o
    · rw [if_pos hin, if_pos ⟨by simp [hin.1], hin.2⟩]
    · rw [if_neg hin]
      unfold rawStep
      dsimp only
      by_cases h1 : outside g.roi1 pr pc = true
      · rw [if_pos h1, if_neg]
        rintro ⟨a1, a2, a3⟩
        rcases List.mem_cons.1 a1 with a1 | a1
        · cases a1
          obtain ⟨_, _, _, h3, _⟩ := a3
          rw [← not_outside, h1] at h3
          cases h3
        · exact hin ⟨a1, a2, a3⟩
      · rw [if_neg h1, rawOffsets g pr pc ((not_outside _ _ _).1 (by simpa using h1))]
        simp only [List.mem_range]
        by_cases hcell : r = pr ∧ c = pc
        · obtain ⟨rfl, rfl⟩ := hcell
          simp
        · rw [if_neg (fun h => hcell ⟨h.1, h.2.1⟩), if_neg]
          rintro ⟨a1, a2, a3⟩
          rcases List.mem_cons.1 a1 with a1 | a1
          · cases a1; exact hcell ⟨rfl, rfl⟩
          · exact hin ⟨a1, a2, a3⟩

/-! ### Means -/

theorem sum_near {M : Type} [AddCommMonoid M] (n rad r : Nat) (hr : r < n) (F : Nat → M) :
    (((List.range (min (r + rad) (n - 1) + 1 - (r - rad))).map fun (i : Nat) => (r - rad) + i).map F).sum =
      ∑ k ∈ (Finset.range n).filter (fun k => k ≤ r + rad ∧ r ≤ k + rad), F k := by
  rw [← List.sum_toFinset F]
  · apply Finset.sum_congr _ fun _ _ => rfl
    ext k
    simp only [List.mem_toFinset, List.mem_map, List.mem_range, Finset.mem_filter, Finset.mem_range]
    constructor
    · rintro ⟨i, hi, rfl⟩; omega
    · intro h; exact ⟨k - (r - rad), by omega, by omega⟩
  · exact List.nodup_range.map fun a b h => by simpa using h

theorem foldl_pair {κ : Type} (l : List κ) (f : κ → ℝ) (g : κ → Nat) (step : ℝ × Nat → κ → ℝ × Nat)
    (h : ∀ acc k, step acc k = (acc.1 + f k, acc.2 + g k)) (acc : ℝ × Nat) :
    l.foldl step acc = (acc.1 + (l.map f).sum, acc.2 + (l.map g).sum) := by
  induction l generalizing acc with
  | nil => simp
  | cons k l ih => rw [List.foldl_cons, ih, h]; simp [add_assoc]

theorem around_spec (g : Desc) (rad : Nat) (raw : Map3) (r c o : Nat) (hr : r < g.rows) (hc : c < g.cols) :
    around g rad raw r c o =
      (∑ p ∈ (Spec.around g.rows g.cols rad r c).filter (fun p => raw p.1 p.2 o ≠ -1), raw p.1 p.2 o,
        ((Spec.around g.rows g.cols rad r c).filter fun p => raw p.1 p.2 o ≠ -1).card) := by
  unfold around
  rw [foldl_pair _ (fun pr => ∑ pc ∈ (Finset.range g.cols).filter (fun k => k ≤ c + rad ∧ c ≤ k + rad), if raw pr pc o ≠ -1 then raw pr pc o else 0)
    (fun pr => ∑ pc ∈ (Finset.range g.cols).filter (fun k => k ≤ c + rad ∧ c ≤ k + rad), if raw pr pc o ≠ -1 then 1 else 0)]
  · rw [sum_near g.rows rad r hr, sum_near g.rows rad r hr, zero_add, zero_add, ← Finset.sum_product', ← Finset.sum_product']
    have hset : ((Finset.range g.rows).filter fun k => k ≤ r + rad ∧ r ≤ k + rad) ×ˢ ((Finset.range g.cols).filter fun k => k ≤ c + rad ∧ c ≤ k + rad) =
        Spec.around g.rows g.cols rad r c := by
      ext p
      simp only [Spec.around, Finset.mem_product, Finset.mem_filter, Finset.mem_range]
      tauto
    rw [hset, Finset.sum_filter, Finset.card_filter]
  · intro acc pr
    rw [foldl_pair _ (fun pc => if raw pr pc o ≠ -1 then raw pr pc o else 0) (fun pc => if raw pr pc o ≠ -1 then 1 else 0)]
    · rw [sum_near g.cols rad c hc, sum_near g.cols rad c hc]
    · intro acc pc
      split <;> simp

theorem meanFold (g : Desc) (rad : Nat) (raw : Map3) : ∀ (order : List (Nat × Nat × Nat)) (m : Map3) (r c o : Nat),
    order.foldl (meanStep g rad raw) m r c o =
      if (r, c, o) ∈ order ∧ (around g rad raw r c o).2 ≠ 0 then (around g rad raw r c o).1 / (around g rad raw r c o).2 else m r c o
  | [], m, r, c, o => by simp
  | (pr, pc, po) :: order, m, r, c, o => by
    rw [List.foldl_cons, meanFold g rad raw order]
    by_cases hin : (r, c, o) ∈ order ∧ (around g rad raw r c o).2 ≠ 0
    · rw [if_pos hin, if_pos ⟨by simp [hin.1], hin.2⟩]
    · rw [if_neg hin]
      by_cases hcell : r = pr ∧ c = pc ∧ o = po
      · obtain ⟨rfl, rfl, rfl⟩ := hcell
        unfold meanStep
        dsimp only
        by_cases h0 : (around g rad raw r c o).2 ≠ 0
        · rw [if_pos h0, if_pos ⟨by simp, h0⟩, put_eq]
        · rw [if_neg h0, if_neg fun h => h0 h.2]
      · have hn : ¬ ((r, c, o) ∈ (pr, pc, po) :: order ∧ (around g rad raw r c o).2 ≠ 0) := by
          rintro ⟨a1, a2⟩
          rcases List.mem_cons.1 a1 with a1 | a1
          · cases a1; exact hcell ⟨rfl, rfl, rfl⟩
          · exact hin ⟨a1, a2⟩
        rw [if_neg hn]
        unfold meanStep
        dsimp only
        split
        · exact put_ne _ _ _ _ _ _ _ _ hcell
        · rfl

end Litiv.Affinity
