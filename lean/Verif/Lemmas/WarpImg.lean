import Verif.Lemmas.Warp
import Mathlib.Algebra.BigOperators.Ring.Finset
import Mathlib.Data.List.Range

namespace Litiv.Warp
open Spec

theorem nodeLoop_end (g W fuel pos : Nat) (h : W + g - 1 ≤ pos) (hW : W ≤ pos) : nodeLoop g W (fuel + 1) pos = some [] := by
  unfold nodeLoop
  rw [if_neg (by omega), if_pos hW]

theorem nodeLoop_spec (g W : Nat) (hg : 0 < g) (fuel pos : Nat) (hp : pos < W) (hd : g ∣ pos) (hf : W - pos + 1 ≤ fuel) :
    ∃ l, nodeLoop g W fuel pos = some l ∧ ∀ n, n ∈ l ↔ pos ≤ n ∧ n < W ∧ (g ∣ n ∨ n = W - 1) := by
  induction fuel generalizing pos with
  | zero => omega
  | succ fuel ih =>
    unfold nodeLoop
    rw [if_neg (by omega), if_neg (by omega)]
    by_cases h1 : pos + g < W
    · obtain ⟨l, hl, hm⟩ := ih (pos + g) h1 (by simp [hd]) (by omega)
      refine ⟨pos :: l, by rw [hl]; rfl, fun n => ?_⟩
      rw [List.mem_cons, hm]
      constructor
      · rintro (rfl | ⟨a, b, c⟩)
        · exact ⟨le_refl _, hp, .inl hd⟩
        · exact ⟨by omega, b, c⟩
      · rintro ⟨a, b, c⟩
        by_cases he : n = pos
        · exact .inl he
        · right
          refine ⟨?_, b, c⟩
          rcases c with c | c
          · obtain ⟨i, rfl⟩ := hd
            obtain ⟨j, rfl⟩ := c
            have : i < j := by
              by_contra hn
              have := Nat.mul_le_mul_left g (Nat.le_of_not_lt hn)
              omega
            have := Nat.mul_le_mul_left g this
            rw [Nat.mul_succ] at this
            exact this
          · omega
    · have hnodiv : ∀ n, pos ≤ n → n < W → g ∣ n → n = pos := by
        rintro n a b ⟨j, rfl⟩
        obtain ⟨i, rfl⟩ := hd
        by_contra hne
        have : i < j := by
          by_contra hn
          have := Nat.mul_le_mul_left g (Nat.le_of_not_lt hn)
          omega
        have := Nat.mul_le_mul_left g this
        rw [Nat.mul_succ] at this
        omega
      by_cases h2 : pos + 1 < W
      · obtain ⟨f, rfl⟩ : ∃ f, fuel = f + 2 := ⟨fuel - 2, by omega⟩
        unfold nodeLoop
        rw [if_pos (by omega), nodeLoop_end g W f _ (by omega) (by omega)]
        refine ⟨[pos, W - 1], rfl, fun n => ?_⟩
        simp only [List.mem_cons, List.not_mem_nil, or_false]
        constructor
        · rintro (rfl | rfl)
          · exact ⟨le_refl _, hp, .inl hd⟩
          · exact ⟨by omega, by omega, .inr rfl⟩
        · rintro ⟨a, b, c | c⟩
          · exact .inl (hnodiv n a b c)
          · exact .inr c
      · obtain ⟨f, rfl⟩ : ∃ f, fuel = f + 1 := ⟨fuel - 1, by omega⟩
        rw [nodeLoop_end g W f _ (by omega) (by omega)]
        refine ⟨[pos], rfl, fun n => ?_⟩
        simp only [List.mem_cons, List.not_mem_nil, or_false]
        constructor
        · rintro rfl
          exact ⟨le_refl _, hp, .inl hd⟩
        · rintro ⟨a, b, c⟩
          omega

section fold
variable {β α V : Type} (rd : β → V) (F : β → α → β) (P : α → Prop) [DecidablePred P] (val : α → V)

theorem fold_none (h : ∀ b x, rd (F b x) = if P x then val x else rd b) (l : List α) (b : β) (hn : ∀ x ∈ l, ¬P x) :
    rd (l.foldl F b) = rd b := by
  induction l generalizing b with
  | nil => rfl
  | cons x l ih =>
    rw [List.foldl_cons, ih _ (fun y hy => hn y (by simp [hy])), h, if_neg (hn x (by simp))]

theorem fold_one (h : ∀ b x, rd (F b x) = if P x then val x else rd b) (l : List α) (b : β) (v0 : V) (he : ∃ x ∈ l, P x)
    (hv : ∀ x ∈ l, P x → val x = v0) : rd (l.foldl F b) = v0 := by
  induction l generalizing b with
  | nil => obtain ⟨x, hx, _⟩ := he; cases hx
  | cons x l ih =>
    rw [List.foldl_cons]
    by_cases hl : ∃ y ∈ l, P y
    · exact ih _ hl (fun y hy => hv y (by simp [hy]))
    · push Not at hl
      rw [fold_none rd F P val h l _ hl, h]
      have hx : P x := by
        obtain ⟨y, hy, hP⟩ := he
        rcases List.mem_cons.1 hy with rfl | hy
        · exact hP
        · exact absurd hP (hl y hy)
      rw [if_pos hx, hv x (by simp) hx]

theorem fold_ite (h : ∀ b x, rd (F b x) = if P x then val x else rd b) (l : List α) (b : β) (v0 : V) (Q : Prop) [Decidable Q]
    (hQ : Q → (∃ x ∈ l, P x) ∧ ∀ x ∈ l, P x → val x = v0) (hQ' : ¬Q → ∀ x ∈ l, ¬P x) : rd (l.foldl F b) = if Q then v0 else rd b := by
  by_cases hq : Q
  · rw [if_pos hq]; exact fold_one rd F P val h l b v0 (hQ hq).1 (hQ hq).2
  · rw [if_neg hq]; exact fold_none rd F P val h l b (hQ' hq)

end fold

theorem setDelta_fold (mode : Mode) (pts : List (Pt × Pt)) (cols rows : List Nat) (d : Nat → Nat → Option Pt) (r c : Nat) :
    (cols.foldl (fun d col => rows.foldl (fun d row => setDelta mode pts d row col) d) d) r c =
      if r ∈ rows ∧ c ∈ cols then (newPoint mode pts ⟨c, r⟩).map (fun n => n.sub ⟨c, r⟩) else d r c := by
  have h1 : ∀ (d : Nat → Nat → Option Pt) (col : Nat), (rows.foldl (fun d row => setDelta mode pts d row col) d) r c =
      if r ∈ rows ∧ c = col then (newPoint mode pts ⟨c, r⟩).map (fun n => n.sub ⟨c, r⟩) else d r c := by
    intro d col
    refine fold_ite (fun d : Nat → Nat → Option Pt => d r c) (fun d row => setDelta mode pts d row col) (fun row => r = row ∧ c = col)
      (fun row => (newPoint mode pts ⟨col, row⟩).map (fun n => n.sub ⟨col, row⟩)) (fun d row => rfl) rows d _ _ ?_ ?_
    · rintro ⟨hr, rfl⟩
      exact ⟨⟨r, hr, rfl, rfl⟩, by rintro x _ ⟨rfl, _⟩; rfl⟩
    · rintro hn x hx ⟨rfl, rfl⟩
      exact hn ⟨hx, rfl⟩
  refine fold_ite (fun d : Nat → Nat → Option Pt => d r c) (fun d col => rows.foldl (fun d row => setDelta mode pts d row col) d)
    (fun col => r ∈ rows ∧ c = col) (fun _ => (newPoint mode pts ⟨c, r⟩).map (fun n => n.sub ⟨c, r⟩)) h1 cols d _ _ ?_ ?_
  · rintro ⟨hr, hc⟩
    exact ⟨⟨c, hc, hr, rfl⟩, fun _ _ _ => rfl⟩
  · rintro hn x hx ⟨hr, rfl⟩
    exact hn ⟨hr, hx⟩

/-- The rows (or columns) where the transform is computed. -/
def IsNode (g n x : Nat) : Prop := x < n ∧ (g ∣ x ∨ x = n - 1)

instance (g n x : Nat) : Decidable (IsNode g n x) := inferInstanceAs (Decidable (_ ∧ _))

theorem setup_eval (mode : Mode) (pts : List (Pt × Pt)) (g sw sh dw dh : Nat) (junk : Nat → Nat → Option Pt)
    (hg : 0 < g) (hp : 2 ≤ pts.length) (hs : 0 < sw ∧ 0 < sh) (hd : 0 < dw ∧ 0 < dh) :
    ∃ w, setup mode pts g sw sh dw dh junk = some w ∧ w.g = g ∧ w.sw = sw ∧ w.sh = sh ∧ w.dw = dw ∧ w.dh = dh ∧
      ∀ r c, w.delta r c = if IsNode g dh r ∧ IsNode g dw c then (newPoint mode pts ⟨c, r⟩).map (fun n => n.sub ⟨c, r⟩) else junk r c := by
  unfold setup
  rw [if_pos ⟨hg, by rintro rfl; simp at hp, Nat.mul_pos hs.1 hs.2, Nat.mul_pos hd.1 hd.2⟩, if_neg (by omega)]
  obtain ⟨cols, hc, hcm⟩ := nodeLoop_spec g dw hg (dw + 1) 0 hd.1 (by simp) (by omega)
  obtain ⟨rows, hr, hrm⟩ := nodeLoop_spec g dh hg (dh + 1) 0 hd.2 (by simp) (by omega)
  rw [hc, hr]
  refine ⟨_, rfl, rfl, rfl, rfl, rfl, rfl, fun r c => ?_⟩
  dsimp only
  rw [setDelta_fold]
  have e : (r ∈ rows ∧ c ∈ cols) ↔ (IsNode g dh r ∧ IsNode g dw c) := by
    rw [hrm, hcm]
    simp [IsNode]
  by_cases h : IsNode g dh r ∧ IsNode g dw c
  · rw [if_pos h, if_pos (e.2 h)]
  · rw [if_neg h, if_neg (fun h' => h (e.1 h'))]

/-- Start of the cell of a position. -/
def start (g x : Nat) : Nat := g * (x / g)
/-- Last node of the cell that starts at `s`. -/
def nextNode (g n s : Nat) : Nat := if s + g ≥ n then n - 1 else s + g
/-- Size of the cell that starts at `s`. -/
def cellSize (g n s : Nat) : Nat := if s + g ≥ n then n - 1 - s + 1 else g

theorem start_unique {g x i : Nat} (hg : 0 < g) (h1 : g * i ≤ x) (h2 : x < g * i + g) : g * i = start g x := by
  unfold start
  congr 1
  symm
  rw [Nat.div_eq_iff hg]
  constructor
  · rw [Nat.mul_comm]; omega
  · rw [Nat.mul_comm] at h1 h2; omega

theorem warpCell_at (w : Warper) (ratio : ℝ) (chans : Nat) (inp : Nat → Nat → Nat → Nat) (out : Nat → Nat → Nat → Option Nat) (r c y x k : Nat) :
    warpCell w ratio chans inp out r c y x k =
      if (r ≤ y ∧ y < r + cellSize w.g w.dh r) ∧ (c ≤ x ∧ x < c + cellSize w.g w.dw c) ∧ k < chans then
        (samplePos w ratio r c (nextNode w.g w.dh r) (nextNode w.g w.dw c) (cellSize w.g w.dh r) (cellSize w.g w.dw c) (y - r) (x - c)).bind
          fun p => readPos w.sw w.sh inp p k
      else out y x k := by
  have e : warpCell w ratio chans inp out r c = (List.range (cellSize w.g w.dh r)).foldl (fun out i => (List.range (cellSize w.g w.dw c)).foldl
      (fun out j => (List.range chans).foldl (fun out k =>
      fun r' c' k' => if r' = r + i ∧ c' = c + j ∧ k' = k then
        (samplePos w ratio r c (nextNode w.g w.dh r) (nextNode w.g w.dw c) (cellSize w.g w.dh r) (cellSize w.g w.dw c) i j).bind fun p => readPos w.sw w.sh inp p k
      else out r' c' k') out) out) out := rfl
  rw [e]
  generalize cellSize w.g w.dh r = ch
  generalize cellSize w.g w.dw c = cw
  generalize hval : (fun i j k => (samplePos w ratio r c (nextNode w.g w.dh r) (nextNode w.g w.dw c) ch cw i j).bind fun p => readPos w.sw w.sh inp p k) = val
  have hv : ∀ i j k, ((samplePos w ratio r c (nextNode w.g w.dh r) (nextNode w.g w.dw c) ch cw i j).bind fun p => readPos w.sw w.sh inp p k) = val i j k := by
    intro i j k; rw [← hval]
  simp only [hv]
  have h1 : ∀ (out : Nat → Nat → Nat → Option Nat) (i j : Nat), ((List.range chans).foldl (fun out k =>
      fun r' c' k' => if r' = r + i ∧ c' = c + j ∧ k' = k then val i j k else out r' c' k') out) y x k =
      if y = r + i ∧ x = c + j ∧ k < chans then val i j k else out y x k := by
    intro out i j
    refine fold_ite (fun out : Nat → Nat → Nat → Option Nat => out y x k) (fun out k =>
      fun r' c' k' => if r' = r + i ∧ c' = c + j ∧ k' = k then val i j k else out r' c' k') (fun k' => y = r + i ∧ x = c + j ∧ k = k')
      (fun k' => val i j k') (fun _ _ => rfl) _ out _ _ ?_ ?_
    · rintro ⟨a, b, d⟩
      exact ⟨⟨k, List.mem_range.2 d, a, b, rfl⟩, by rintro z _ ⟨_, _, rfl⟩; rfl⟩
    · rintro hn z hz ⟨a, b, rfl⟩
      exact hn ⟨a, b, List.mem_range.1 hz⟩
  have h2 : ∀ (out : Nat → Nat → Nat → Option Nat) (i : Nat), ((List.range cw).foldl (fun out j => (List.range chans).foldl (fun out k =>
      fun r' c' k' => if r' = r + i ∧ c' = c + j ∧ k' = k then val i j k else out r' c' k') out) out) y x k =
      if y = r + i ∧ (c ≤ x ∧ x < c + cw) ∧ k < chans then val i (x - c) k else out y x k := by
    intro out i
    refine fold_ite (fun out : Nat → Nat → Nat → Option Nat => out y x k) _ (fun j => y = r + i ∧ x = c + j ∧ k < chans)
      (fun j => val i j k) (fun out j => h1 out i j) _ out _ _ ?_ ?_
    · rintro ⟨a, b, d⟩
      refine ⟨⟨x - c, List.mem_range.2 (by omega), a, by omega, d⟩, ?_⟩
      rintro z _ ⟨_, hz, _⟩
      rw [show x - c = z by omega]
    · rintro hn z hz ⟨a, b, d⟩
      have := List.mem_range.1 hz
      exact hn ⟨a, by omega, d⟩
  refine fold_ite (fun out : Nat → Nat → Nat → Option Nat => out y x k) _ (fun i => y = r + i ∧ (c ≤ x ∧ x < c + cw) ∧ k < chans)
      (fun i => val i (x - c) k) (fun out i => h2 out i) _ out _ _ ?_ ?_
  · rintro ⟨a, b, d⟩
    refine ⟨⟨y - r, List.mem_range.2 (by omega), by omega, b, d⟩, ?_⟩
    rintro z _ ⟨hz, _, _⟩
    rw [show y - r = z by omega]
  · rintro hn z hz ⟨a, b, d⟩
    have := List.mem_range.1 hz
    exact hn ⟨by omega, b, d⟩

theorem mem_cells (g n s : Nat) (hg : 0 < g) : s ∈ List.range' 0 ((n + g - 1) / g) g ↔ s < n ∧ g ∣ s := by
  rw [List.mem_range']
  constructor
  · rintro ⟨i, hi, rfl⟩
    refine ⟨?_, by simp⟩
    have h1 : i + 1 ≤ (n + g - 1) / g := hi
    rw [Nat.le_div_iff_mul_le hg, Nat.add_mul, Nat.mul_comm] at h1
    omega
  · rintro ⟨h1, i, rfl⟩
    refine ⟨i, ?_, by omega⟩
    have : i + 1 ≤ (n + g - 1) / g := by
      rw [Nat.le_div_iff_mul_le hg, Nat.add_mul, Nat.mul_comm]; omega
    exact this

theorem cell_iff (g n s x : Nat) (hg : 0 < g) (hs : s < n) (hd : g ∣ s) : (s ≤ x ∧ x < s + cellSize g n s) ↔ (x < n ∧ s = start g x) := by
  obtain ⟨i, rfl⟩ := hd
  unfold cellSize
  have hst : start g x ≤ x ∧ x < start g x + g := by
    unfold start
    have := Nat.div_add_mod x g
    have := Nat.mod_lt x hg
    omega
  constructor
  · rintro ⟨h1, h2⟩
    refine ⟨by split at h2 <;> omega, start_unique hg h1 (by split at h2 <;> omega)⟩
  · rintro ⟨h1, h2⟩
    rw [← h2] at hst
    refine ⟨hst.1, by split <;> omega⟩

theorem start_mem (g n x : Nat) (hx : x < n) : start g x < n ∧ g ∣ start g x := by
  unfold start
  have := Nat.div_add_mod x g
  exact ⟨by omega, by simp⟩

theorem warp_at (w : Warper) (ratio : ℝ) (chans : Nat) (inp : Nat → Nat → Nat → Nat) (old : Nat → Nat → Nat → Option Nat) (y x k : Nat) (hg : 0 < w.g) :
    warp w ratio chans inp old y x k =
      if y < w.dh ∧ x < w.dw ∧ k < chans then
        (samplePos w ratio (start w.g y) (start w.g x) (nextNode w.g w.dh (start w.g y)) (nextNode w.g w.dw (start w.g x))
          (cellSize w.g w.dh (start w.g y)) (cellSize w.g w.dw (start w.g x)) (y - start w.g y) (x - start w.g x)).bind fun p => readPos w.sw w.sh inp p k
      else old y x k := by
  unfold warp
  have h1 : ∀ (out : Nat → Nat → Nat → Option Nat) (r : Nat), ((List.range' 0 ((w.dw + w.g - 1) / w.g) w.g).foldl (fun out c => warpCell w ratio chans inp out r c) out) y x k =
      if (r ≤ y ∧ y < r + cellSize w.g w.dh r) ∧ x < w.dw ∧ k < chans then
        (samplePos w ratio r (start w.g x) (nextNode w.g w.dh r) (nextNode w.g w.dw (start w.g x))
          (cellSize w.g w.dh r) (cellSize w.g w.dw (start w.g x)) (y - r) (x - start w.g x)).bind fun p => readPos w.sw w.sh inp p k
      else out y x k := by
    intro out r
    refine fold_ite (fun out : Nat → Nat → Nat → Option Nat => out y x k) _
      (fun c => (r ≤ y ∧ y < r + cellSize w.g w.dh r) ∧ (c ≤ x ∧ x < c + cellSize w.g w.dw c) ∧ k < chans) _
      (fun out c => warpCell_at w ratio chans inp out r c y x k) _ out _ _ ?_ ?_
    · rintro ⟨a, b, d⟩
      obtain ⟨s1, s2⟩ := start_mem w.g w.dw x b
      refine ⟨⟨start w.g x, (mem_cells _ _ _ hg).2 ⟨s1, s2⟩, a, (cell_iff _ _ _ _ hg s1 s2).2 ⟨b, rfl⟩, d⟩, ?_⟩
      rintro c hc ⟨_, hc', _⟩
      obtain ⟨c1, c2⟩ := (mem_cells _ _ _ hg).1 hc
      rw [((cell_iff _ _ _ _ hg c1 c2).1 hc').2]
    · rintro hn c hc ⟨a, hc', d⟩
      obtain ⟨c1, c2⟩ := (mem_cells _ _ _ hg).1 hc
      exact hn ⟨a, ((cell_iff _ _ _ _ hg c1 c2).1 hc').1, d⟩
  refine fold_ite (fun out : Nat → Nat → Nat → Option Nat => out y x k) _
      (fun r => (r ≤ y ∧ y < r + cellSize w.g w.dh r) ∧ x < w.dw ∧ k < chans) _ (fun out r => h1 out r) _ old _ _ ?_ ?_
  · rintro ⟨a, b, d⟩
    obtain ⟨s1, s2⟩ := start_mem w.g w.dh y a
    refine ⟨⟨start w.g y, (mem_cells _ _ _ hg).2 ⟨s1, s2⟩, (cell_iff _ _ _ _ hg s1 s2).2 ⟨a, rfl⟩, b, d⟩, ?_⟩
    rintro c hc ⟨hc', _, _⟩
    obtain ⟨c1, c2⟩ := (mem_cells _ _ _ hg).1 hc
    rw [((cell_iff _ _ _ _ hg c1 c2).1 hc').2]
  · rintro hn c hc ⟨hc', b, d⟩
    obtain ⟨c1, c2⟩ := (mem_cells _ _ _ hg).1 hc
    exact hn ⟨((cell_iff _ _ _ _ hg c1 c2).1 hc').1, b, d⟩

/-! ### Bilinear sampling -/

theorem tent_split (t : ℝ) (ht : 0 ≤ t) (i : Nat) : tent (t - i) = (if i = ⌊t⌋₊ then 1 - (t - ⌊t⌋₊) else 0) + (if i = ⌊t⌋₊ + 1 then t - ⌊t⌋₊ else 0) := by
  have h1 := Nat.floor_le ht
  have h2 := Nat.lt_floor_add_one t
  unfold tent
  by_cases a : i = ⌊t⌋₊
  · rw [if_pos a, if_neg (by omega), a, abs_of_nonneg (by linarith), add_zero]
    exact max_eq_right (by linarith)
  · rw [if_neg a]
    by_cases b : i = ⌊t⌋₊ + 1
    · rw [if_pos b, b]
      push_cast
      rw [abs_of_nonpos (by linarith), zero_add, max_eq_right (by linarith)]
      ring
    · rw [if_neg b, add_zero]
      apply max_eq_left
      rcases Nat.lt_or_gt_of_ne a with h | h
      · have : (i : ℝ) + 1 ≤ ⌊t⌋₊ := by exact_mod_cast h
        rw [abs_of_nonneg (by linarith)]
        linarith
      · have : (⌊t⌋₊ : ℝ) + 2 ≤ i := by
          have : ⌊t⌋₊ + 2 ≤ i := by omega
          exact_mod_cast this
        rw [abs_of_nonpos (by linarith)]
        linarith

theorem ceil_cases (t : ℝ) (ht : 0 ≤ t) : (t = ⌊t⌋₊ ∧ ⌈t⌉₊ = ⌊t⌋₊) ∨ ⌈t⌉₊ = ⌊t⌋₊ + 1 := by
  have h1 := Nat.floor_le ht
  have h2 := Nat.lt_floor_add_one t
  by_cases h : t = ⌊t⌋₊
  · left
    refine ⟨h, ?_⟩
    conv_lhs => rw [h]
    exact Nat.ceil_natCast _
  · right
    have : (⌊t⌋₊ : ℝ) < t := lt_of_le_of_ne h1 (Ne.symm h)
    apply le_antisymm
    · apply Nat.ceil_le.2
      push_cast
      exact h2.le
    · exact Nat.lt_ceil.2 this

theorem high_lt (t : ℝ) (n : Nat) (hn : 0 < n) (h1 : t ≤ (n : ℝ) - 1) : ⌈t⌉₊ < n := by
  have : ⌈t⌉₊ ≤ n - 1 := by
    apply Nat.ceil_le.2
    rw [Nat.cast_sub (by omega)]
    simpa using h1
  omega

theorem tent_sum (t : ℝ) (n : Nat) (hn : 0 < n) (h0 : 0 ≤ t) (h1 : t ≤ (n : ℝ) - 1) (f : Nat → ℝ) :
    ∑ i ∈ Finset.range n, tent (t - i) * f i = f ⌊t⌋₊ * (1 - (t - ⌊t⌋₊)) + f ⌈t⌉₊ * (t - ⌊t⌋₊) := by
  have hc := high_lt t n hn h1
  have hf : ⌊t⌋₊ < n := lt_of_le_of_lt (Nat.floor_le_ceil t) hc
  have : ∀ i ∈ Finset.range n, tent (t - i) * f i = (if i = ⌊t⌋₊ then f i * (1 - (t - ⌊t⌋₊)) else 0) + (if i = ⌊t⌋₊ + 1 then f i * (t - ⌊t⌋₊) else 0) := by
    intro i _
    rw [tent_split t h0]
    split_ifs <;> ring
  rw [Finset.sum_congr rfl this, Finset.sum_add_distrib, Finset.sum_ite_eq', Finset.sum_ite_eq', if_pos (by simpa using hf)]
  rcases ceil_cases t h0 with ⟨h, hce⟩ | h
  · have : t - ⌊t⌋₊ = 0 := by linarith
    rw [this]
    simp
  · rw [h] at hc ⊢
    rw [if_pos (by simpa using hc)]

theorem readPos_eval (sw sh : Nat) (inp : Nat → Nat → Nat → Nat) (p : Pt) (k : Nat) (hs : 0 < sw ∧ 0 < sh)
    (hx : 0 ≤ p.x ∧ p.x ≤ (sw : ℝ) - 1) (hy : 0 ≤ p.y ∧ p.y ≤ (sh : ℝ) - 1) :
    readPos sw sh inp p k = some ⌊bilinear sw sh (fun r c => inp r c k) p⌋₊ := by
  have c1 := high_lt p.x sw hs.1 hx.2
  have c2 := high_lt p.y sh hs.2 hy.2
  have f1 := lt_of_le_of_lt (Nat.floor_le_ceil p.x) c1
  have f2 := lt_of_le_of_lt (Nat.floor_le_ceil p.y) c2
  unfold readPos
  dsimp only
  rw [if_pos ⟨f2, c2, f1, c1⟩]
  congr 1
  unfold interpByte
  congr 1
  unfold bilinear
  have e : ∀ r ∈ Finset.range sh, ∑ c ∈ Finset.range sw, tent (p.y - r) * tent (p.x - c) * (inp r c k : ℝ) =
      tent (p.y - r) * ((inp r ⌊p.x⌋₊ k : ℝ) * (1 - (p.x - ⌊p.x⌋₊)) + (inp r ⌈p.x⌉₊ k : ℝ) * (p.x - ⌊p.x⌋₊)) := by
    intro r _
    rw [← tent_sum p.x sw hs.1 hx.1 hx.2 (fun c => (inp r c k : ℝ)), Finset.mul_sum]
    exact Finset.sum_congr rfl fun c _ => by ring
  rw [Finset.sum_congr rfl e, tent_sum p.y sh hs.2 hy.1 hy.2 (fun r => (inp r ⌊p.x⌋₊ k : ℝ) * (1 - (p.x - ⌊p.x⌋₊)) + (inp r ⌈p.x⌉₊ k : ℝ) * (p.x - ⌊p.x⌋₊))]
  unfold interp
  ring

theorem clamp_in (sw sh : Nat) (p : Pt) (hs : 0 < sw ∧ 0 < sh) : (0 ≤ (clamp sw sh p).x ∧ (clamp sw sh p).x ≤ (sw : ℝ) - 1) ∧
    (0 ≤ (clamp sw sh p).y ∧ (clamp sw sh p).y ≤ (sh : ℝ) - 1) := by
  have h1 : (1 : ℝ) ≤ sw := by exact_mod_cast hs.1
  have h2 : (1 : ℝ) ≤ sh := by exact_mod_cast hs.2
  unfold clamp
  exact ⟨⟨le_max_left _ _, max_le (by linarith) (min_le_right _ _)⟩, ⟨le_max_left _ _, max_le (by linarith) (min_le_right _ _)⟩⟩

/-- The delta of a pixel. -/
noncomputable def pixelDelta (w : Warper) (y x : Nat) : Option Pt :=
  cellDelta w.delta (start w.g y) (start w.g x) (nextNode w.g w.dh (start w.g y)) (nextNode w.g w.dw (start w.g x))
    (((y - start w.g y : Nat) : ℝ) / (cellSize w.g w.dh (start w.g y) : Nat)) (((x - start w.g x : Nat) : ℝ) / (cellSize w.g w.dw (start w.g x) : Nat))

theorem warp_pixel (w : Warper) (ratio : ℝ) (chans : Nat) (inp : Nat → Nat → Nat → Nat) (old : Nat → Nat → Nat → Option Nat) (y x k : Nat) (hg : 0 < w.g)
    (hs : 0 < w.sw ∧ 0 < w.sh) (hy : y < w.dh) (hx : x < w.dw) (hk : k < chans) :
    warp w ratio chans inp old y x k = (pixelDelta w y x).map fun d =>
      ⌊bilinear w.sw w.sh (fun r c => inp r c k) (clamp w.sw w.sh ⟨(x : ℝ) + d.x * ratio, (y : ℝ) + d.y * ratio⟩)⌋₊ := by
  rw [warp_at _ _ _ _ _ _ _ _ hg, if_pos ⟨hy, hx, hk⟩]
  unfold samplePos
  change ((pixelDelta w y x).map _).bind _ = _
  cases hd : pixelDelta w y x with
  | none => rfl
  | some d =>
    simp only [Option.map_some, Option.bind_some]
    have ex : ((start w.g x : Nat) : ℝ) + ((x - start w.g x : Nat) : ℝ) = x := by
      have : start w.g x ≤ x := by unfold start; exact Nat.mul_div_le x w.g
      rw [Nat.cast_sub this]; ring
    have ey : ((start w.g y : Nat) : ℝ) + ((y - start w.g y : Nat) : ℝ) = y := by
      have : start w.g y ≤ y := by unfold start; exact Nat.mul_div_le y w.g
      rw [Nat.cast_sub this]; ring
    rw [ex, ey]
    have ec : (⟨max (min ((x : ℝ) + d.x * ratio) ((w.sw : ℝ) - 1)) 0, max (min ((y : ℝ) + d.y * ratio) ((w.sh : ℝ) - 1)) 0⟩ : Pt) =
        clamp w.sw w.sh ⟨(x : ℝ) + d.x * ratio, (y : ℝ) + d.y * ratio⟩ := by
      unfold clamp
      rw [max_comm, max_comm (min ((y : ℝ) + d.y * ratio) ((w.sh : ℝ) - 1))]
    rw [ec]
    obtain ⟨c1, c2⟩ := clamp_in w.sw w.sh ⟨(x : ℝ) + d.x * ratio, (y : ℝ) + d.y * ratio⟩ hs
    exact readPos_eval _ _ _ _ _ hs c1 c2

theorem start_node (g n x : Nat) (hx : x < n) : IsNode g n (start g x) := ⟨(start_mem g n x hx).1, .inl (start_mem g n x hx).2⟩

theorem next_node (g n x : Nat) (hx : x < n) : IsNode g n (nextNode g n (start g x)) := by
  obtain ⟨h1, h2⟩ := start_mem g n x hx
  unfold nextNode
  split
  · exact ⟨by omega, .inr rfl⟩
  · exact ⟨by omega, .inl (by simpa using h2)⟩

theorem cellSize_pos (g n x : Nat) (hg : 0 < g) : 0 < cellSize g n (start g x) := by
  unfold cellSize; split <;> omega

theorem bilinear_range (sw sh : Nat) (f : Nat → Nat → Nat) (p : Pt) (hs : 0 < sw ∧ 0 < sh)
    (hx : 0 ≤ p.x ∧ p.x ≤ (sw : ℝ) - 1) (hy : 0 ≤ p.y ∧ p.y ≤ (sh : ℝ) - 1) (lo hi : Nat)
    (h : ∀ r c, r < sh → c < sw → lo ≤ f r c ∧ f r c ≤ hi) : lo ≤ ⌊bilinear sw sh f p⌋₊ ∧ ⌊bilinear sw sh f p⌋₊ ≤ hi := by
  have e1 : ∀ (t : ℝ) (n : Nat), 0 < n → 0 ≤ t → t ≤ (n : ℝ) - 1 → ∑ i ∈ Finset.range n, tent (t - i) = 1 := by
    intro t n hn h0 h1
    have := tent_sum t n hn h0 h1 (fun _ => 1)
    simp only [mul_one] at this
    rw [this]; ring
  have hw : ∀ q : ℝ, ∑ r ∈ Finset.range sh, ∑ c ∈ Finset.range sw, tent (p.y - r) * tent (p.x - c) * q = q := by
    intro q
    have : ∀ r ∈ Finset.range sh, ∑ c ∈ Finset.range sw, tent (p.y - r) * tent (p.x - c) * q = tent (p.y - r) * q := by
      intro r _
      have := e1 p.x sw hs.1 hx.1 hx.2
      calc _ = tent (p.y - r) * q * ∑ c ∈ Finset.range sw, tent (p.x - c) := by
            rw [Finset.mul_sum]; exact Finset.sum_congr rfl fun c _ => by ring
        _ = _ := by rw [this]; ring
    rw [Finset.sum_congr rfl this, ← Finset.sum_mul, e1 p.y sh hs.2 hy.1 hy.2, one_mul]
  have ht : ∀ t, 0 ≤ tent t := fun t => le_max_left _ _
  have hlo : (lo : ℝ) ≤ bilinear sw sh f p := by
    rw [← hw lo]
    unfold bilinear
    refine Finset.sum_le_sum fun r hr => Finset.sum_le_sum fun c hc => ?_
    have := (h r c (Finset.mem_range.1 hr) (Finset.mem_range.1 hc)).1
    exact mul_le_mul_of_nonneg_left (by exact_mod_cast this) (mul_nonneg (ht _) (ht _))
  have hhi : bilinear sw sh f p ≤ hi := by
    rw [← hw hi]
    unfold bilinear
    refine Finset.sum_le_sum fun r hr => Finset.sum_le_sum fun c hc => ?_
    have := (h r c (Finset.mem_range.1 hr) (Finset.mem_range.1 hc)).2
    exact mul_le_mul_of_nonneg_left (by exact_mod_cast this) (mul_nonneg (ht _) (ht _))
  constructor
  · exact Nat.le_floor hlo
  · have := Nat.floor_le_floor hhi
    simpa using this

/-- At an integer position, the sample is the pixel. -/
theorem bilinear_int (sw sh : Nat) (f : Nat → Nat → Nat) (r c : Nat) (hr : r < sh) (hc : c < sw) : ⌊bilinear sw sh f ⟨c, r⟩⌋₊ = f r c := by
  have h1 : (c : ℝ) ≤ (sw : ℝ) - 1 := by
    have : (c : ℝ) + 1 ≤ sw := by exact_mod_cast hc
    linarith
  have h2 : (r : ℝ) ≤ (sh : ℝ) - 1 := by
    have : (r : ℝ) + 1 ≤ sh := by exact_mod_cast hr
    linarith
  have := readPos_eval sw sh (fun r c _ => f r c) ⟨c, r⟩ 0 ⟨by omega, by omega⟩ ⟨by positivity, h1⟩ ⟨by positivity, h2⟩
  unfold readPos at this
  simp only [Nat.floor_natCast, Nat.ceil_natCast] at this
  rw [if_pos ⟨hr, hr, hc, hc⟩] at this
  rw [← Option.some.inj this]
  unfold interpByte interp
  simp

theorem clamp_int (sw sh x y : Nat) (hs : 0 < sw ∧ 0 < sh) : clamp sw sh ⟨x, y⟩ = ⟨(min x (sw - 1) : Nat), (min y (sh - 1) : Nat)⟩ := by
  have h1 : ((sw - 1 : Nat) : ℝ) = (sw : ℝ) - 1 := by rw [Nat.cast_sub (by omega)]; simp
  have h2 : ((sh - 1 : Nat) : ℝ) = (sh : ℝ) - 1 := by rw [Nat.cast_sub (by omega)]; simp
  unfold clamp
  apply pt_eq
  · dsimp only
    rw [← h1, Nat.cast_min]
    exact max_eq_right (le_min (by positivity) (by positivity))
  · dsimp only
    rw [← h2, Nat.cast_min]
    exact max_eq_right (le_min (by positivity) (by positivity))

end Litiv.Warp
