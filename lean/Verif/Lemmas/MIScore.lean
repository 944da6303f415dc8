import Verif.Lemmas.MICalc
import Verif.Lemmas.MIInfo

/-! # The score computed by the code is the textbook one -/

namespace Litiv.MI

open Spec (freq level)

theorem freq_pos {n : Nat} {P : Nat → Prop} [DecidablePred P] : 0 < freq n P ↔ ∃ k < n, P k := by
  unfold freq
  constructor
  · intro h
    by_contra hc
    push Not at hc
    have : ((Finset.range n).filter P).card = 0 := by
      rw [Finset.card_eq_zero, Finset.filter_eq_empty_iff]
      intro k hk
      exact hc k (Finset.mem_range.1 hk)
    rw [this] at h
    simp at h
  · rintro ⟨k, hk, hP⟩
    have h1 : 0 < ((Finset.range n).filter P).card := Finset.card_pos.2 ⟨k, Finset.mem_filter.2 ⟨Finset.mem_range.2 hk, hP⟩⟩
    have h2 : 0 < n := by omega
    positivity

theorem foldl_if {κ : Type} (ks : List κ) (P : κ → Prop) [DecidablePred P] (t : κ → ℝ) (a : ℝ) :
    ks.foldl (fun (acc : ℝ) k => if P k then acc + t k else acc) a = a + (ks.map fun k => if P k then t k else 0).sum := by
  induction ks generalizing a with
  | nil => simp
  | cons k ks ih =>
    rw [List.foldl_cons, ih, List.map_cons, List.sum_cons]
    by_cases h : P k <;> simp [h, add_assoc]

/-- A sum over the keys of a histogram is a sum over the observed levels. -/
theorem sum_keys {κ : Type} [DecidableEq κ] {n : Nat} {f : Nat → κ} (ks : List κ) (hn : ks.Nodup) (hm : ∀ e < n, f e ∈ ks) (t : κ → ℝ) :
    (ks.map fun k => if 0 < freq n (fun e => f e = k) then t k else 0).sum = ∑ k ∈ (Finset.range n).image f, t k := by
  rw [← List.sum_toFinset _ hn]
  symm
  rw [← Finset.sum_subset (s₁ := (Finset.range n).image f) (s₂ := ks.toFinset)]
  · apply Finset.sum_congr rfl
    intro k hk
    obtain ⟨e, he, rfl⟩ := Finset.mem_image.1 hk
    have hp : 0 < freq n (fun e' => f e' = f e) := freq_pos.2 ⟨e, Finset.mem_range.1 he, rfl⟩
    rw [if_pos hp]
  · intro k hk
    obtain ⟨e, he, rfl⟩ := Finset.mem_image.1 hk
    exact List.mem_toFinset.2 (hm e (Finset.mem_range.1 he))
  · intro k _ hk
    rw [if_neg]
    intro h
    obtain ⟨e, he, rfl⟩ := freq_pos.1 h
    exact hk (Finset.mem_image_of_mem _ (Finset.mem_range.2 he))

theorem entropy_is {kind : Kind} {n : Nat} {f : Nat → Int} {all : List Int} {h : Hist Int ℚ} (g : Is kind n f all h)
    (hall : kind = .dense → ∀ e < n, f e ∈ all) : entropy h = Spec.entropy n f := by
  unfold entropy Spec.entropy
  rw [foldl_if h.keys (fun k => 0 < h.val k) (fun k => -(h.val k : ℝ) * Real.logb 2 (h.val k : ℝ)), zero_add]
  simp only [g.val]
  rw [sum_keys h.keys g.nodup (fun e he => g.mem hall he) fun k => -(freq n (fun e => f e = k) : ℝ) * Real.logb 2 (freq n (fun e => f e = k) : ℝ)]
  rw [← Finset.sum_neg_distrib]
  apply Finset.sum_congr rfl
  intro k _
  ring

theorem foldlM_terms {κ : Type} (F : ℝ → κ → Option ℝ) (t : κ → ℝ) (ks : List κ) (h : ∀ k ∈ ks, ∀ a, F a k = some (a + t k)) (a : ℝ) :
    ks.foldlM F a = some (a + (ks.map t).sum) := by
  induction ks generalizing a with
  | nil => simp
  | cons k ks ih =>
    rw [List.foldlM_cons, h k (by simp), List.map_cons, List.sum_cons]
    show ks.foldlM F (a + t k) = _
    rw [ih (fun k' hk' => h k' (by simp [hk'])), add_assoc]

theorem score_sum {kind : Kind} {n : Nat} {x y : Nat → Int} {all1 all2 : List Int} {all : List (List Int)} {m1 m2 : Hist Int ℚ} {d : Data}
    (g1 : Is kind n x all1 m1) (g2 : Is kind n y all2 m2) (gj : Is kind n (fun k => [x k, y k]) all d.jointHist)
    (h1 : kind = .dense → ∀ e < n, x e ∈ all1) (h2 : kind = .dense → ∀ e < n, y e ∈ all2) (hj : kind = .dense → ∀ e < n, [x e, y e] ∈ all)
    (hc : ∀ k, k ∈ d.jointCount.keys ↔ k ∈ d.jointHist.keys) (hcn : d.jointCount.keys.Nodup) :
    d.jointCount.keys.foldlM (miTerm kind d m1 m2) 0 = some (Spec.mutualInfo n x y) := by
  let F : Int → Int → ℝ := fun i j => (freq n (fun k => x k = i ∧ y k = j) : ℝ) *
      Real.logb 2 ((freq n (fun k => x k = i ∧ y k = j) : ℝ) / ((freq n (fun k => x k = i) : ℝ) * (freq n (fun k => y k = j) : ℝ)))
  let t : List Int → ℝ := fun p => F (p.getD 0 0) (p.getD 1 0)
  rw [foldlM_terms (miTerm kind d m1 m2) (fun p => if 0 < freq n (fun e => [x e, y e] = p) then t p else 0)]
  · rw [zero_add, sum_keys (f := fun e => [x e, y e]) d.jointCount.keys hcn (fun e he => (hc _).2 (gj.mem hj he)) t]
    unfold Spec.mutualInfo
    congr 1
    rw [Spec.sum_pairs n x y F (by intro i j h; simp only [F, Spec.freq_real, h]; simp)]
    have : (Finset.range n).image (fun e => [x e, y e]) = ((Finset.range n).image fun k => (x k, y k)).image fun p => [p.1, p.2] := by
      rw [Finset.image_image]; rfl
    rw [this, Finset.sum_image]
    · rfl
    · rintro ⟨a, b⟩ _ ⟨c, e⟩ _ h
      simp at h
      simp [h]
  · intro p hp a
    unfold miTerm
    have hget : d.jointHist.get kind p = some (freq n (fun e => [x e, y e] = p)) := by
      unfold Hist.get
      rw [if_pos ((hc p).1 hp), gj.val]
    rw [hget]
    dsimp only
    by_cases hpos : 0 < freq n (fun e => [x e, y e] = p)
    · rw [if_pos hpos, if_pos hpos]
      obtain ⟨e, he, rfl⟩ := freq_pos.1 hpos
      have e1 : m1.get kind (([x e, y e] : List Int).getD 0 0) = some (freq n (fun k => x k = x e)) := by
        unfold Hist.get
        rw [if_pos (by exact g1.mem h1 he), g1.val]
        rfl
      have e2 : m2.get kind (([x e, y e] : List Int).getD 1 0) = some (freq n (fun k => y k = y e)) := by
        unfold Hist.get
        rw [if_pos (by exact g2.mem h2 he), g2.val]
        rfl
      rw [e1, e2]
      dsimp only
      rw [if_pos ⟨freq_pos.2 ⟨e, he, rfl⟩, freq_pos.2 ⟨e, he, rfl⟩⟩]
      have e3 : freq n (fun k => [x k, y k] = [x e, y e]) = freq n (fun k => x k = x e ∧ y k = y e) := by
        unfold freq
        congr 3
        apply Finset.filter_congr
        intro k _
        simp
      simp only [t, F, e3, div_div]
      rfl
    · rw [if_neg hpos, if_neg hpos, add_zero]

/-- The whole score, in terms of the levels. -/
theorem mutual_ok (q : Nat) (kind : Kind) (normalize skip : Bool) (a b : In) (n : Nat) (old : Data) (h : Ok q skip [a, b] n) :
    calcMutualInfo q kind normalize false skip a b old =
      some (if normalize = true ∧ 0 < Spec.entropy n (lev q skip a) ∧ 0 < Spec.entropy n (lev q skip b) then
          Spec.mutualInfo n (lev q skip a) (lev q skip b) / Real.sqrt (Spec.entropy n (lev q skip a) * Spec.entropy n (lev q skip b))
        else Spec.mutualInfo n (lev q skip a) (lev q skip b)) := by
  obtain ⟨d, hd, r⟩ := calc_ok q kind false skip [a, b] n old h
  obtain ⟨m1, hm1, g1⟩ := r.marg 0 a rfl
  obtain ⟨m2, hm2, g2⟩ := r.marg 1 b rfl
  have hl := r.len
  have hm : d.margHists = [m1, m2] := by
    match hmm : d.margHists with
    | [] => rw [hmm] at hl; simp at hl
    | [_] => rw [hmm] at hl; simp at hl
    | [u, v] => rw [hmm] at hm1 hm2; simp at hm1 hm2; simp [hm1, hm2]
    | _ :: _ :: _ :: _ => rw [hmm] at hl; simp at hl
  have ha1 := fun (_ : kind = .dense) => h.inMarg a (by simp)
  have hb1 := fun (_ : kind = .dense) => h.inMarg b (by simp)
  have hs := score_sum g1 g2 r.joint ha1 hb1 (fun _ => h.inPos) (r.slow rfl).1 (r.slow rfl).2
  unfold calcMutualInfo
  rw [hd]
  dsimp only
  rw [hm]
  dsimp only
  rw [hs]
  dsimp only
  rw [entropy_is g1 ha1, entropy_is g2 hb1]
  cases normalize <;> simp
  split <;> rfl

end Litiv.MI
