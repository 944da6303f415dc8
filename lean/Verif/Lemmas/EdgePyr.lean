import Verif.Lemmas.EdgeGrad
import Verif.Props.LBSP

/-! Lemmas for `Props/EdgeLBSP`: the pyramid. -/

namespace Litiv.EdgeLBSP
open Spec
open Consensus (foldlM_inv)
open LBSP.Spec (Inner drawing)

/-- Border flag of a pixel. -/
def isBorder (h w y x : Nat) : Bool := !decide (2 ≤ y ∧ y + 2 < h ∧ 2 ≤ x ∧ x + 2 < w)

theorem isBorder_inner (h w y x : Nat) : isBorder h w y x = !decide (Inner h w y x) := by
  unfold isBorder
  congr 1
  rw [decide_eq_decide]
  unfold Inner
  omega

theorem limit_eq {n : Nat} (h2 : 2 ≤ n) (hn : n < 2 ^ 64) : limit n = n - 2 := by
  unfold limit
  rw [BitVec.toNat_sub, BitVec.toNat_ofNat]
  have : (2 : BitVec 64).toNat = 2 := rfl
  rw [this, Nat.mod_eq_of_lt hn]
  omega

theorem limit_one : limit 1 = 2 ^ 64 - 1 := by decide

theorem mem_visits {h w : Nat} (hf : Fits h w) (h64 : h < 2 ^ 64) (w64 : w < 2 ^ 64) (v : Nat × Nat × Bool) :
    v ∈ visits h w ↔ v.1 < h ∧ v.2.1 < w ∧ v.2.2 = isBorder h w v.1 v.2.1 := by
  obtain ⟨y, x, b⟩ := v
  obtain ⟨h2, hw⟩ := hf
  unfold visits
  rw [limit_eq h2 h64]
  simp only [List.mem_append, List.mem_flatMap, List.mem_range, List.mem_range'_1, borderRow, mixedRow, List.mem_map, Prod.mk.injEq]
  by_cases hs : h ≤ 4
  · have hb : isBorder h w y x = true := by
      unfold isBorder
      rw [Bool.not_eq_true', decide_eq_false_iff_not]
      omega
    rw [hb]
    constructor
    · rintro ((⟨y', h1, x', h3, rfl, rfl, rfl⟩ | ⟨y', h1, -⟩) | ⟨y', h1, x', h3, rfl, rfl, rfl⟩)
      · exact ⟨by omega, h3, rfl⟩
      · omega
      · exact ⟨by omega, h3, rfl⟩
    · rintro ⟨h1, h3, rfl⟩
      by_cases hy : y < 2
      · exact Or.inl (Or.inl ⟨y, hy, x, h3, rfl, rfl, rfl⟩)
      · exact Or.inr ⟨y, by omega, x, h3, rfl, rfl, rfl⟩
  · have w2 : 2 ≤ w := by omega
    rw [limit_eq w2 w64]
    unfold isBorder
    constructor
    · rintro ((⟨y', h1, x', h3, rfl, rfl, rfl⟩ | ⟨y', h1, (⟨x', h3, rfl, rfl, rfl⟩ | ⟨x', h3, rfl, rfl, rfl⟩) | ⟨x', h3, rfl, rfl, rfl⟩⟩) | ⟨y', h1, x', h3, rfl, rfl, rfl⟩)
      all_goals refine ⟨by omega, by omega, ?_⟩
      · symm; rw [Bool.not_eq_true', decide_eq_false_iff_not]; omega
      · symm; rw [Bool.not_eq_true', decide_eq_false_iff_not]; omega
      · symm; rw [Bool.not_eq_false', decide_eq_true_eq]; omega
      · symm; rw [Bool.not_eq_true', decide_eq_false_iff_not]; omega
      · symm; rw [Bool.not_eq_true', decide_eq_false_iff_not]; omega
    · rintro ⟨h1, h3, rfl⟩
      by_cases hy : y < 2
      · exact Or.inl (Or.inl ⟨y, hy, x, h3, rfl, rfl, by symm; rw [Bool.not_eq_true', decide_eq_false_iff_not]; omega⟩)
      · by_cases hy' : h ≤ y + 2
        · exact Or.inr ⟨y, by omega, x, h3, rfl, rfl, by symm; rw [Bool.not_eq_true', decide_eq_false_iff_not]; omega⟩
        · refine Or.inl (Or.inr ⟨y, by omega, ?_⟩)
          by_cases hx : x < 2
          · exact Or.inl (Or.inl ⟨x, hx, rfl, rfl, by symm; rw [Bool.not_eq_true', decide_eq_false_iff_not]; omega⟩)
          · by_cases hx' : w ≤ x + 2
            · exact Or.inr ⟨x, by omega, rfl, rfl, by symm; rw [Bool.not_eq_true', decide_eq_false_iff_not]; omega⟩
            · exact Or.inl (Or.inr ⟨x, by omega, rfl, rfl, by symm; rw [Bool.not_eq_false', decide_eq_true_eq]; omega⟩)

/-- One level. -/
theorem level_spec {h w : Nat} (hf : Fits h w) (h64 : h < 2 ^ 64) (w64 : w < 2 ^ 64) (img : Image) (more : Bool) (old : Table × Image) :
    ∃ lut next, (visits h w).foldlM (visit h w img more) old = some (lut, next) ∧
      (∀ y x, y < h → x < w → lut y x = vals img y x (isBorder h w y x)) ∧
      (more = true → ∀ y x, 2 * y < h → 2 * x < w → next y x = nextVal img (2 * y) (2 * x) (isBorder h w (2 * y) (2 * x))) := by
  obtain ⟨⟨lut, next⟩, e, h1, h2⟩ := foldlM_inv (visit h w img more) (visits h w)
    (fun pre s => (∀ v ∈ pre, s.1 v.1 v.2.1 = vals img v.1 v.2.1 (isBorder h w v.1 v.2.1)) ∧
      (more = true → ∀ v ∈ pre, v.1 % 2 = 0 → v.2.1 % 2 = 0 → s.2 (v.1 / 2) (v.2.1 / 2) = nextVal img v.1 v.2.1 (isBorder h w v.1 v.2.1)))
    (fun pre v post s hl ⟨h1, h2⟩ => by
      obtain ⟨vy, vx, vb⟩ := v
      obtain ⟨m1, m2, m3⟩ := (mem_visits hf h64 w64 _).1 (show (vy, vx, vb) ∈ visits h w by rw [hl]; simp)
      dsimp only at m1 m2 m3
      have hc : vy < h ∧ vx < w ∧ (vb = true ∨ (2 ≤ vy ∧ vy + 2 < h ∧ 2 ≤ vx ∧ vx + 2 < w)) := by
        refine ⟨m1, m2, ?_⟩
        rw [m3]
        unfold isBorder
        by_cases hi : 2 ≤ vy ∧ vy + 2 < h ∧ 2 ≤ vx ∧ vx + 2 < w
        · exact Or.inr hi
        · left; rw [Bool.not_eq_true', decide_eq_false_iff_not]; exact hi
      unfold visit
      dsimp only
      rw [if_pos hc]
      have lutOk : ∀ v ∈ pre ++ [(vy, vx, vb)], (fun y' x' => if y' = vy ∧ x' = vx then vals img vy vx vb else s.1 y' x') v.1 v.2.1 =
          vals img v.1 v.2.1 (isBorder h w v.1 v.2.1) := by
        intro v hv
        dsimp only
        by_cases hs : v.1 = vy ∧ v.2.1 = vx
        · rw [if_pos hs, hs.1, hs.2, m3]
        · rw [if_neg hs]
          rcases List.mem_append.1 hv with h | h
          · exact h1 v h
          · rw [List.mem_singleton] at h
            rw [h] at hs
            exact absurd ⟨rfl, rfl⟩ hs
      by_cases hm : more = true ∧ vy % 2 = 0 ∧ vx % 2 = 0
      · rw [if_pos hm, if_pos (by omega)]
        refine ⟨_, rfl, lutOk, ?_⟩
        intro _ v hv hy hx
        dsimp only
        by_cases hs : v.1 / 2 = vy / 2 ∧ v.2.1 / 2 = vx / 2
        · have e1 : v.1 = vy := by omega
          have e2 : v.2.1 = vx := by omega
          rw [if_pos hs, e1, e2, m3]
        · rw [if_neg hs]
          rcases List.mem_append.1 hv with h | h
          · exact h2 hm.1 v h hy hx
          · rw [List.mem_singleton] at h
            rw [h] at hs
            exact absurd ⟨rfl, rfl⟩ hs
      · rw [if_neg hm]
        refine ⟨_, rfl, lutOk, ?_⟩
        intro hmore v hv hy hx
        dsimp only
        rcases List.mem_append.1 hv with h | h
        · exact h2 hmore v h hy hx
        · rw [List.mem_singleton] at h
          rw [h] at hy hx
          exact absurd ⟨hmore, hy, hx⟩ hm) old
    ⟨fun v hv => by simp at hv, fun _ v hv => by simp at hv⟩
  refine ⟨lut, next, e, ?_, ?_⟩
  · intro y x hy hx
    exact h1 (y, x, isBorder h w y x) ((mem_visits hf h64 w64 _).2 ⟨hy, hx, rfl⟩)
  · intro hm y x hy hx
    have := h2 hm (2 * y, 2 * x, isBorder h w (2 * y) (2 * x)) ((mem_visits hf h64 w64 _).2 ⟨hy, hx, rfl⟩) (by dsimp only; omega) (by dsimp only; omega)
    dsimp only at this
    rw [(by omega : 2 * y / 2 = y), (by omega : 2 * x / 2 = x)] at this
    exact this

theorem foldlM_none {σ α : Type} (g : σ → α → Option σ) (v : α) (hv : ∀ s, g s v = none) : ∀ (l : List α) (s : σ), v ∈ l → l.foldlM g s = none := by
  intro l
  induction l with
  | nil => intro s h; simp at h
  | cons a l ih =>
    intro s h
    rw [List.foldlM_cons]
    rcases List.mem_cons.1 h with rfl | h
    · rw [hv]; rfl
    · cases g s a with
      | none => rfl
      | some s' => exact ih s' h

theorem level_none {h w : Nat} (h0 : 0 < h) (w0 : 0 < w) (h64 : h < 2 ^ 64) (hf : ¬ Fits h w) (img : Image) (more : Bool) (old : Table × Image) :
    (visits h w).foldlM (visit h w img more) old = none := by
  unfold Fits at hf
  by_cases h1 : h = 1
  · refine foldlM_none _ (1, 0, true) (fun s => ?_) _ _ ?_
    · unfold visit
      dsimp only
      rw [if_neg (by omega)]
    · unfold visits
      simp only [List.mem_append, List.mem_flatMap, List.mem_range, borderRow, List.mem_map]
      exact Or.inl (Or.inl ⟨1, by omega, 0, w0, rfl⟩)
  · have hw : w = 1 := by omega
    refine foldlM_none _ (2, 1, true) (fun s => ?_) _ _ ?_
    · unfold visit
      dsimp only
      rw [if_neg (by omega)]
    · unfold visits
      rw [limit_eq (by omega) h64]
      simp only [List.mem_append, List.mem_flatMap, List.mem_range'_1, List.mem_range, mixedRow, List.mem_map]
      exact Or.inl (Or.inr ⟨2, by omega, Or.inl (Or.inl ⟨1, by omega, rfl⟩)⟩)

theorem size_succ (n l : Nat) : size ((n + 1) / 2) l = size n (l + 1) := by
  induction l with
  | zero => rfl
  | succ l ih =>
    rw [size, ih]
    rfl

theorem size_pos {n : Nat} (h : 0 < n) (l : Nat) : 0 < size n l := by
  induction l with
  | zero => exact h
  | succ l ih => rw [size]; omega

theorem size_le (n l : Nat) : size n l ≤ n := by
  induction l with
  | zero => exact le_refl _
  | succ l ih => rw [size]; omega

/-- The images are the same in a rectangle. -/
def Agree (h w : Nat) (a b : Image) : Prop := ∀ y x, y < h → x < w → a y x = b y x

theorem inner_nbr {h w y x : Nat} (hi : Inner h w y x) (n : Fin 16) :
    ((y : Int) + LBSP.offY n).toNat < h ∧ ((x : Int) + LBSP.offX n).toNat < w := by
  have b : ∀ n, -2 ≤ LBSP.offY n ∧ LBSP.offY n ≤ 2 ∧ -2 ≤ LBSP.offX n ∧ LBSP.offX n ≤ 2 := by decide
  have := b n
  unfold Inner at hi
  omega

theorem vals_congr {h w : Nat} {a b : Image} (hab : Agree h w a b) {y x : Nat} (hy : y < h) (hx : x < w) :
    vals a y x (isBorder h w y x) = vals b y x (isBorder h w y x) := by
  funext c n
  unfold vals
  rw [isBorder_inner]
  by_cases hi : Inner h w y x
  · obtain ⟨h1, h2⟩ := inner_nbr hi n
    simp only [hi, decide_true, Bool.not_true, Bool.false_eq_true, if_false]
    rw [hab _ _ h1 h2]
  · simp only [hi, decide_false, Bool.not_false, if_true]
    rw [hab _ _ hy hx]

theorem drawing_sum (f : Int → Int → Nat) :
    (drawing.map fun e => f e.2.2 e.2.1).sum = (List.finRange 16).foldl (fun (s : Nat) (n : Fin 16) => s + f (LBSP.offY n) (LBSP.offX n)) 0 := by
  have e : List.finRange 16 = [0, 1, 2, 3, 4, 5, 6, 7, 8, 9, 10, 11, 12, 13, 14, 15] := by decide
  rw [e]
  simp only [drawing, List.map_cons, List.map_nil, List.sum_cons, List.sum_nil, List.foldl_cons, List.foldl_nil, LBSP.offY, LBSP.offX]
  simp only [Matrix.cons_val]
  omega

theorem nextVal_reduce (h w : Nat) (img : Image) (y x : Nat) :
    nextVal img (2 * y) (2 * x) (isBorder h w (2 * y) (2 * x)) = reduce h w img y x := by
  funext c
  unfold nextVal reduce
  rw [isBorder_inner]
  by_cases hi : Inner h w (2 * y : Nat) (2 * x : Nat)
  · rw [if_pos hi]
    simp only [hi, decide_true, Bool.not_true, Bool.false_eq_true, if_false]
    rw [drawing_sum (fun dy dx => (img (((2 * y : Nat) : Int) + dy).toNat (((2 * x : Nat) : Int) + dx).toNat c).toNat)]
    rfl
  · rw [if_neg hi]
    simp only [hi, decide_false, Bool.not_false, if_true]

theorem reduce_congr {h w : Nat} {a b : Image} (hab : Agree h w a b) : Agree ((h + 1) / 2) ((w + 1) / 2) (reduce h w a) (reduce h w b) := by
  intro y x hy hx
  rw [← nextVal_reduce, ← nextVal_reduce]
  funext c
  unfold nextVal
  have hv := vals_congr hab (y := 2 * y) (x := 2 * x) (by omega) (by omega)
  split
  · rw [hab _ _ (by omega) (by omega)]
  · rename_i hb
    rw [Bool.not_eq_true] at hb
    rw [hb] at hv
    rw [hv]

theorem levelImg_congr {R C : Nat} {a b : Image} (hab : Agree R C a b) (l : Nat) :
    Agree (size R l) (size C l) (levelImg R C a l) (levelImg R C b l) := by
  induction l with
  | zero => exact hab
  | succ l ih => exact reduce_congr ih

theorem levelImg_succ (R C : Nat) (img : Image) (l : Nat) :
    levelImg ((R + 1) / 2) ((C + 1) / 2) (reduce R C img) l = levelImg R C img (l + 1) := by
  induction l with
  | zero => rfl
  | succ l ih =>
    rw [levelImg, ih, size_succ, size_succ]
    rfl

/-- What a level of the pyramid holds. -/
structure LevelOk (h w : Nat) (im : Image) (lv : Level) : Prop where
  rows : lv.h = h
  cols : lv.w = w
  img : Agree h w lv.img im
  lut : ∀ y x, y < h → x < w → lv.lut y x = vals im y x (isBorder h w y x)

theorem pyramid_spec (old : Nat → Table × Image) : ∀ (n R C : Nat) (img : Image), R < 2 ^ 64 → C < 2 ^ 64 → (∀ l < n, Fits (size R l) (size C l)) →
    ∃ ls, pyramid old n R C img = some ls ∧ ls.length = n ∧
      ∀ l < n, ∃ lv, ls[l]? = some lv ∧ LevelOk (size R l) (size C l) (levelImg R C img l) lv := by
  intro n
  induction n with
  | zero => intro R C img _ _ _; exact ⟨[], rfl, rfl, fun l h => absurd h (Nat.not_lt_zero _)⟩
  | succ n ih =>
    intro R C img hR hC hf
    obtain ⟨lut, next, e, h1, h2⟩ := level_spec (hf 0 (Nat.succ_pos _)) hR hC img (decide (n ≠ 0)) (old n)
    obtain ⟨ls, e', hlen, hls⟩ := ih ((R + 1) / 2) ((C + 1) / 2) next (by omega) (by omega)
      (fun l hl => by rw [size_succ, size_succ]; exact hf (l + 1) (by omega))
    refine ⟨⟨R, C, img, lut⟩ :: ls, ?_, by rw [List.length_cons, hlen], ?_⟩
    · unfold pyramid
      change (visits R C).foldlM (visit R C img (decide (n ≠ 0))) (old n) = some (lut, next) at e
      rw [e]
      dsimp only
      rw [e']
    · intro l hl
      cases l with
      | zero => exact ⟨_, rfl, rfl, rfl, fun _ _ _ _ => rfl, h1⟩
      | succ l =>
        obtain ⟨lv, a, b⟩ := hls l (by omega)
        refine ⟨lv, a, ?_⟩
        have hn : decide (n ≠ 0) = true := by rw [decide_eq_true_eq]; omega
        have hag : Agree ((R + 1) / 2) ((C + 1) / 2) next (reduce R C img) := by
          intro y x hy hx
          rw [h2 hn y x (show 2 * y < R by omega) (show 2 * x < C by omega)]
          exact nextVal_reduce R C img y x
        have hag' := levelImg_congr hag l
        rw [levelImg_succ, size_succ, size_succ] at hag'
        rw [size_succ, size_succ] at b
        refine ⟨b.rows, b.cols, fun y x hy hx => ?_, fun y x hy hx => ?_⟩
        · rw [b.img y x hy hx]; exact hag' y x hy hx
        · rw [b.lut y x hy hx]; exact vals_congr hag' hy hx

theorem pyramid_none (old : Nat → Table × Image) : ∀ (n R C : Nat) (img : Image), 0 < R → 0 < C → R < 2 ^ 64 → C < 2 ^ 64 →
    (∃ l < n, ¬ Fits (size R l) (size C l)) → pyramid old n R C img = none := by
  intro n
  induction n with
  | zero => rintro R C img _ _ _ _ ⟨l, hl, -⟩; omega
  | succ n ih =>
    rintro R C img hR0 hC0 hR hC ⟨l, hl, hf⟩
    unfold pyramid
    by_cases h0 : Fits R C
    · obtain ⟨lut, next, e, -, -⟩ := level_spec h0 hR hC img (decide (n ≠ 0)) (old n)
      rw [e]
      dsimp only
      cases l with
      | zero => exact absurd h0 hf
      | succ l =>
        rw [ih ((R + 1) / 2) ((C + 1) / 2) next (by omega) (by omega) (by omega) (by omega) ⟨l, by omega, by rw [size_succ, size_succ]; exact hf⟩]
    · rw [level_none hR0 hC0 hR h0]

/-! ## Gradients of a level -/

theorem grad_border (impl : LBSP.Impl) (ch : Nat) (hch : 0 < ch) (ref : Nat → BitVec 8) :
    LBSP.gradient impl 20 2 ch (fun c _ => ref c) ref = (0, 0, 0) := by
  obtain ⟨c, -, h⟩ := LBSP.gradient_spec impl 20 2 ch hch (fun c _ _ => ref c) ref
  have hz : ∀ (p : Int → Int → Bool) (t : BitVec 8), LBSP.Spec.countSide p (fun _ _ => ref c) (ref c) t = 0 := by
    intro p t
    unfold LBSP.Spec.countSide
    rw [List.countP_eq_zero]
    intro e _
    have : ¬ LBSP.Spec.Differs (ref c) (ref c) t := by
      unfold LBSP.Spec.Differs
      rw [sub_self, abs_zero]
      omega
    simp [this]
  have h' := h (LBSP.gradient impl 20 2 ch (fun c _ => ref c) ref).1 (LBSP.gradient impl 20 2 ch (fun c _ => ref c) ref).2.1
    (LBSP.gradient impl 20 2 ch (fun c _ => ref c) ref).2.2 rfl
  clear h
  generalize LBSP.gradient impl 20 2 ch (fun c _ => ref c) ref = g at h' ⊢
  obtain ⟨gx, gy, mag⟩ := g
  obtain ⟨h1, h2, h3⟩ := h'
  rw [hz, hz] at h1 h2
  rw [hz] at h3
  have e1 : gx = 0 := BitVec.eq_of_toInt_eq (by rw [h1]; rfl)
  have e2 : gy = 0 := BitVec.eq_of_toInt_eq (by rw [h2]; rfl)
  have e3 : mag = 0 := BitVec.eq_of_toNat_eq (by rw [h3]; rfl)
  rw [e1, e2, e3]

theorem cellOf_spec (impl : LBSP.Impl) (ch : Nat) (hch : 0 < ch) {h w : Nat} {im : Image} {lv : Level} (H : LevelOk h w im lv) {y x : Nat} (hy : y < h) (hx : x < w) :
    cellOf impl ch lv y x = ⟨(grad impl ch h w im y x).1, (grad impl ch h w im y x).2.1, (grad impl ch h w im y x).2.2⟩ := by
  unfold cellOf grad
  rw [H.lut y x hy hx, H.img y x hy hx, isBorder_inner]
  by_cases hi : Inner h w y x
  · rw [if_pos hi]
    have e : vals im y x (!decide (Inner h w y x)) = fun c n => im ((y : Int) + LBSP.offY n).toNat ((x : Int) + LBSP.offX n).toNat c := by
      funext c n
      unfold vals
      simp [hi]
    rw [e]
  · rw [if_neg hi]
    have e : vals im y x (!decide (Inner h w y x)) = fun c _ => im y x c := by
      funext c n
      unfold vals
      simp [hi]
    rw [e, grad_border impl ch hch (im y x)]

end Litiv.EdgeLBSP
