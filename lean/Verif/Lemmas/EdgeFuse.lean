import Verif.Lemmas.EdgePyr

/-! Lemmas for `Props/EdgeLBSP`: levels put together, and the whole detector. -/

namespace Litiv.EdgeLBSP
open Spec
open LBSP.Spec (Inner drawing)

/-- Sizes and gradients of the levels. -/
abbrev Levels := List (Nat × Nat × (Nat → Nat → Cell))

/-- Gradient map made from the levels. -/
def fuse (e : Endian) : Levels → Nat → Nat → Cell
  | [], _, _ => defaultCell e
  | l :: rest, y, x => merge (l.2.2 y x) (fuse e rest (y / 2) (x / 2))

/-- Sizes halved from level to level. -/
def Chain : Nat → Nat → Levels → Prop
  | _, _, [] => True
  | h, w, l :: rest => l.1 = (h + 1) / 2 ∧ l.2.1 = (w + 1) / 2 ∧ Chain l.1 l.2.1 rest

theorem upper_spec (e : Endian) (R C : Nat) (old : Map) : ∀ (above : Levels) (hp wp : Nat), Chain hp wp above → hp ≤ R → wp ≤ C →
    ∃ m, above.reverse.foldlM (fun (m : Map) (l : Nat × Nat × (Nat → Nat → Cell)) => levelStep R C l.1 l.2.1 l.2.2 m) (initMap e R C old) = some m ∧
      (∀ y x : Nat, y < hp → x < wp → m y x = fuse e above (y / 2) (x / 2)) ∧ ∀ y x : Int, y < 0 → m y x = ⟨0, 0, 0⟩ := by
  intro above
  induction above with
  | nil =>
    intro hp wp _ h1 h2
    refine ⟨_, rfl, ?_, ?_⟩
    · intro y x hy hx
      show initMap e R C old y x = defaultCell e
      unfold initMap
      rw [if_neg (by omega), if_neg (by omega)]
    · intro y x hy
      unfold initMap
      rw [if_pos (Or.inl hy)]
  | cons l rest ih =>
    rintro hp wp ⟨c1, c2, c3⟩ h1 h2
    obtain ⟨m, e1, a1, a2⟩ := ih l.1 l.2.1 c3 (by omega) (by omega)
    obtain ⟨m', e2, b1, b2⟩ := levelStep_spec (R := R) (C := C) (h := l.1) (w := l.2.1) (by omega) (by omega) l.2.2
      (fun y x => fuse e rest (y / 2) (x / 2)) m a1
    refine ⟨m', ?_, ?_, ?_⟩
    · rw [List.reverse_cons, List.foldlM_append, e1]
      simp [e2]
    · intro y x hy hx
      rw [b1 y x (by omega) (by omega)]
      rfl
    · intro y x hy
      rw [b2 y x (by omega), a2 y x hy]

theorem minU_zero (b : BitVec 8) : minU 0 b = 0 := by
  unfold minU
  rw [if_neg (by simp)]

theorem threshold_spec (e : Endian) (R C : Nat) (hC : C < 2 ^ 31) (G : Nat → Nat → Cell) (above : Levels) (low high : Nat) (old : Left)
    (hch : Chain R C above) (hbot : ∀ y x, y < R → R ≤ y + 2 → x < C → (G y x).mag = 0) :
    ∃ out, threshold e R C ((R, C, G) :: above) low high old = some out ∧ ∀ y x : Nat, y < R → x < C →
      (out y x = 255 ∨ out y x = 0) ∧
      (out y x = 255 ↔ Hyst R C (goodAt C low (ideal R C (fuse e ((R, C, G) :: above))))
        (fun y x => decide (high ≤ (fuse e ((R, C, G) :: above) y x).mag.toNat)) (y, x)) := by
  obtain ⟨m, e1, a1, a2⟩ := upper_spec e R C old.map above R C hch (le_refl _) (le_refl _)
  obtain ⟨m', s, e2, hp⟩ := base_spec R C hC G (fun y x => fuse e above (y / 2) (x / 2)) low high (fun y x h1 h2 h3 => by
    show minU (G y x).mag _ = 0
    rw [hbot y x h1 h2 h3, minU_zero]) m old a1 a2
  obtain ⟨s', e3, hf⟩ := flood_final R C _ _ hp
  refine ⟨fun y x => - (s'.lab y x >>> 1), ?_, ?_⟩
  · unfold threshold
    dsimp only
    rw [e1]
    dsimp only
    rw [e2]
    dsimp only
    rw [e3]
    rfl
  · intro y x hy hx
    obtain ⟨q1, q2⟩ := hf y x hy hx
    dsimp only
    rw [q1]
    by_cases h2 : s'.lab y x = 2
    · rw [if_pos h2]
      exact ⟨Or.inl rfl, fun _ => q2.1 h2, fun _ => rfl⟩
    · rw [if_neg h2]
      exact ⟨Or.inr rfl, fun h => absurd h (by decide), fun h => absurd (q2.2 h) h2⟩

/-! ## The three components -/

def foldAbs (d : BitVec 8) : Nat → (Nat → BitVec 8) → BitVec 8
  | 0, _ => d
  | n + 1, f => minAbs (f 0) (foldAbs d n fun l => f (l + 1))

def foldU (d : BitVec 8) : Nat → (Nat → BitVec 8) → BitVec 8
  | 0, _ => d
  | n + 1, f => minU (f 0) (foldU d n fun l => f (l + 1))

theorem foldAbs_spec (d : BitVec 8) : ∀ (n : Nat) (f : Nat → BitVec 8),
    (|(foldAbs d n f).toInt| ≤ |d.toInt| ∧ ∀ k < n, |(foldAbs d n f).toInt| ≤ |(f k).toInt|) ∧
    ((foldAbs d n f = d ∧ ∀ k < n, |d.toInt| < |(f k).toInt|) ∨
      ∃ l < n, f l = foldAbs d n f ∧ ∀ k < l, |(foldAbs d n f).toInt| < |(f k).toInt|) := by
  intro n
  induction n with
  | zero => intro f; exact ⟨⟨le_refl _, fun k h => absurd h (Nat.not_lt_zero _)⟩, Or.inl ⟨rfl, fun k h => absurd h (Nat.not_lt_zero _)⟩⟩
  | succ n ih =>
    intro f
    obtain ⟨⟨h1, h2⟩, h3⟩ := ih fun l => f (l + 1)
    rw [foldAbs]
    generalize foldAbs d n (fun l => f (l + 1)) = r at h1 h2 h3 ⊢
    unfold minAbs
    by_cases hc : r.toInt.natAbs < (f 0).toInt.natAbs
    · rw [if_pos hc]
      have hc' : |r.toInt| < |(f 0).toInt| := by rw [Int.abs_eq_natAbs, Int.abs_eq_natAbs]; omega
      refine ⟨⟨h1, fun k hk => ?_⟩, ?_⟩
      · cases k with
        | zero => exact le_of_lt hc'
        | succ k => exact h2 k (by omega)
      · rcases h3 with ⟨e, h3⟩ | ⟨l, hl, e, h3⟩
        · refine Or.inl ⟨e, fun k hk => ?_⟩
          cases k with
          | zero => rw [← e]; exact hc'
          | succ k => exact h3 k (by omega)
        · refine Or.inr ⟨l + 1, by omega, e, fun k hk => ?_⟩
          cases k with
          | zero => exact hc'
          | succ k => exact h3 k (by omega)
    · rw [if_neg hc]
      have hc' : |(f 0).toInt| ≤ |r.toInt| := by rw [Int.abs_eq_natAbs, Int.abs_eq_natAbs]; omega
      refine ⟨⟨hc'.trans h1, fun k hk => ?_⟩, Or.inr ⟨0, by omega, rfl, fun k hk => by omega⟩⟩
      cases k with
      | zero => exact le_refl _
      | succ k => exact hc'.trans (h2 k (by omega))

theorem foldU_spec (d : BitVec 8) : ∀ (n : Nat) (f : Nat → BitVec 8),
    ((foldU d n f).toNat ≤ d.toNat ∧ ∀ k < n, (foldU d n f).toNat ≤ (f k).toNat) ∧
    (foldU d n f = d ∨ ∃ l < n, f l = foldU d n f) := by
  intro n
  induction n with
  | zero => intro f; exact ⟨⟨le_refl _, fun k h => absurd h (Nat.not_lt_zero _)⟩, Or.inl rfl⟩
  | succ n ih =>
    intro f
    obtain ⟨⟨h1, h2⟩, h3⟩ := ih fun l => f (l + 1)
    rw [foldU]
    generalize foldU d n (fun l => f (l + 1)) = r at h1 h2 h3 ⊢
    unfold minU
    by_cases hc : r.toNat < (f 0).toNat
    · rw [if_pos hc]
      refine ⟨⟨h1, fun k hk => ?_⟩, ?_⟩
      · cases k with
        | zero => exact le_of_lt hc
        | succ k => exact h2 k (by omega)
      · rcases h3 with e | ⟨l, hl, e⟩
        · exact Or.inl e
        · exact Or.inr ⟨l + 1, by omega, e⟩
    · rw [if_neg hc]
      refine ⟨⟨by omega, fun k hk => ?_⟩, Or.inr ⟨0, by omega, rfl⟩⟩
      cases k with
      | zero => exact le_refl _
      | succ k => have := h2 k (by omega); omega

/-- The cell of level `l` that covers `(y, x)`. -/
def cellAt (e : Endian) (ls : Levels) (y x l : Nat) : Cell :=
  match ls[l]? with
  | some lv => lv.2.2 (y / 2 ^ l) (x / 2 ^ l)
  | none => defaultCell e

theorem fuse_fold (e : Endian) : ∀ (ls : Levels) (y x : Nat),
    (fuse e ls y x).gx = foldAbs (defaultCell e).gx ls.length (fun l => (cellAt e ls y x l).gx) ∧
    (fuse e ls y x).gy = foldAbs (defaultCell e).gy ls.length (fun l => (cellAt e ls y x l).gy) ∧
    (fuse e ls y x).mag = foldU (defaultCell e).mag ls.length (fun l => (cellAt e ls y x l).mag) := by
  intro ls
  induction ls with
  | nil => intro y x; exact ⟨rfl, rfl, rfl⟩
  | cons a rest ih =>
    intro y x
    obtain ⟨h1, h2, h3⟩ := ih (y / 2) (x / 2)
    have e0 : cellAt e (a :: rest) y x 0 = a.2.2 y x := by
      show a.2.2 (y / 2 ^ 0) (x / 2 ^ 0) = _
      rw [pow_zero, Nat.div_one, Nat.div_one]
    have es : ∀ l, cellAt e (a :: rest) y x (l + 1) = cellAt e rest (y / 2) (x / 2) l := by
      intro l
      unfold cellAt
      rw [List.getElem?_cons_succ, Nat.div_div_eq_div_mul, Nat.div_div_eq_div_mul, ← pow_succ']
    rw [List.length_cons, foldAbs, foldAbs, foldU, e0]
    simp only [es]
    rw [← h1, ← h2, ← h3]
    exact ⟨rfl, rfl, rfl⟩

theorem size_div {R y : Nat} (h : y < R) (l : Nat) : y / 2 ^ l < size R l := by
  induction l with
  | zero => rw [pow_zero, Nat.div_one]; exact h
  | succ l ih =>
    rw [pow_succ, ← Nat.div_div_eq_div_mul, size]
    omega

theorem gradAt_range (impl : LBSP.Impl) (ch R C : Nat) (hch : 0 < ch) (img : Image) (y x l : Nat) :
    (gradAt impl ch R C img y x l).2.2.toNat ≤ 16 ∧ |(gradAt impl ch R C img y x l).1.toInt| ≤ 6 ∧ |(gradAt impl ch R C img y x l).2.1.toInt| ≤ 6 := by
  unfold gradAt grad
  split
  · exact LBSP.gradient_range impl 20 2 ch hch (fun c dx dy => levelImg R C img l (((y / 2 ^ l : Nat) : Int) + dy).toNat (((x / 2 ^ l : Nat) : Int) + dx).toNat c)
      (levelImg R C img l (y / 2 ^ l) (x / 2 ^ l)) _ _ _ rfl
  · decide

/-- The levels used by the detector. -/
def cells (impl : LBSP.Impl) (ch : Nat) (ls : List Level) : Levels := ls.map fun (l : Level) => (l.h, l.w, cellOf impl ch l)

theorem cellAt_cells (e : Endian) (impl : LBSP.Impl) (ch : Nat) (hch : 0 < ch) {R C n : Nat} {img : Image} {ls : List Level}
    (hls : ∀ l < n, ∃ lv, ls[l]? = some lv ∧ LevelOk (size R l) (size C l) (levelImg R C img l) lv) {y x l : Nat} (hy : y < R) (hx : x < C) (hl : l < n) :
    cellAt e (cells impl ch ls) y x l =
      ⟨(gradAt impl ch R C img y x l).1, (gradAt impl ch R C img y x l).2.1, (gradAt impl ch R C img y x l).2.2⟩ := by
  obtain ⟨lv, e1, ok⟩ := hls l hl
  unfold cellAt cells
  rw [List.getElem?_map, e1]
  exact cellOf_spec impl ch hch ok (size_div hy l) (size_div hx l)

theorem chain_cells (impl : LBSP.Impl) (ch : Nat) : ∀ (ls : List Level) (R C : Nat) (n : Nat), ls.length = n →
    (∀ l < n, ∃ lv, ls[l]? = some lv ∧ lv.h = size R (l + 1) ∧ lv.w = size C (l + 1)) → Chain R C (cells impl ch ls) := by
  intro ls
  induction ls with
  | nil => intro R C n _ _; trivial
  | cons a rest ih =>
    intro R C n hn h
    obtain ⟨lv, e1, e2, e3⟩ := h 0 (by rw [← hn, List.length_cons]; omega)
    rw [List.getElem?_cons_zero, Option.some.injEq] at e1
    subst e1
    refine ⟨e2, e3, ih _ _ rest.length rfl fun l hl => ?_⟩
    obtain ⟨lv, f1, f2, f3⟩ := h (l + 1) (by rw [← hn, List.length_cons]; omega)
    refine ⟨lv, f1, ?_, ?_⟩
    · show lv.h = size a.h (l + 1)
      rw [f2, e2]
      exact (size_succ R (l + 1)).symm
    · show lv.w = size a.w (l + 1)
      rw [f3, e3]
      exact (size_succ C (l + 1)).symm

/-! ## Detector -/

theorem detect_spec (impl : LBSP.Impl) (e : Endian) (rd : ℚ → ℚ) (factor : ℚ) (n R C ch : Nat) (hn : 0 < n) (hch : 0 < ch) (hR : R < 2 ^ 64)
    (hC : C < 2 ^ 31) (img : Image) (high : Nat) (oldP : Nat → Table × Image) (old : Left) (hf : ∀ l < n, Fits (size R l) (size C l)) :
    ∃ (out : Nat → Nat → BitVec 8) (F : Nat → Nat → Cell), detect impl e rd factor n R C ch img high oldP old = some out ∧
      (∀ y x, y < R → x < C → ∃ f : Nat → Cell, (∀ l < n, f l = ⟨(gradAt impl ch R C img y x l).1, (gradAt impl ch R C img y x l).2.1, (gradAt impl ch R C img y x l).2.2⟩) ∧
        (F y x).gx = foldAbs (defaultCell e).gx n (fun l => (f l).gx) ∧ (F y x).gy = foldAbs (defaultCell e).gy n (fun l => (f l).gy) ∧
        (F y x).mag = foldU (defaultCell e).mag n (fun l => (f l).mag)) ∧
      ∀ y x : Nat, y < R → x < C → (out y x = 255 ∨ out y x = 0) ∧
        (out y x = 255 ↔ Hysteresis (fun p => p.1 < R ∧ p.2 < C ∧ lowThreshold rd factor high ≤ (F p.1 p.2).mag.toNat ∧
            Thin (around R C fun y x => (F y x).mag.toNat) (F p.1 p.2).gx.toInt (F p.1 p.2).gy.toInt p.1 p.2)
          (fun p => high ≤ (F p.1 p.2).mag.toNat) (y, x)) := by
  obtain ⟨ls, e1, hlen, hls⟩ := pyramid_spec oldP n R C img hR (by omega) hf
  obtain ⟨base, rest, rfl⟩ : ∃ base rest, ls = base :: rest := by
    cases ls with
    | nil => rw [List.length_nil] at hlen; omega
    | cons a l => exact ⟨a, l, rfl⟩
  obtain ⟨lv0, g0, ok0⟩ := hls 0 hn
  rw [List.getElem?_cons_zero, Option.some.injEq] at g0
  subst g0
  have hcells : cells impl ch (base :: rest) = (R, C, cellOf impl ch base) :: cells impl ch rest := by
    have := ok0.rows
    have := ok0.cols
    show (base.h, base.w, cellOf impl ch base) :: _ = _
    rw [ok0.rows, ok0.cols]
    rfl
  obtain ⟨out, e2, h2⟩ := threshold_spec e R C hC (cellOf impl ch base) (cells impl ch rest) (lowThreshold rd factor high) high old
    (chain_cells impl ch rest R C rest.length rfl fun l hl => by
      obtain ⟨lv, f1, ok⟩ := hls (l + 1) (by rw [← hlen, List.length_cons]; omega)
      exact ⟨lv, f1, ok.rows, ok.cols⟩)
    (fun y x hy hy' hx => by
      rw [cellOf_spec impl ch hch ok0 hy hx]
      unfold grad
      have : ¬ Inner (size R 0) (size C 0) y x := by
        show ¬ Inner R C y x
        unfold Inner
        omega
      rw [if_neg this])
  rw [← hcells] at e2 h2
  refine ⟨out, fuse e (cells impl ch (base :: rest)), ?_, ?_, ?_⟩
  · unfold detect
    rw [e1]
    exact e2
  · intro y x hy hx
    refine ⟨cellAt e (cells impl ch (base :: rest)) y x, fun l hl => cellAt_cells e impl ch hch hls hy hx hl, ?_⟩
    have := fuse_fold e (cells impl ch (base :: rest)) y x
    rw [show (cells impl ch (base :: rest)).length = n by unfold cells; rw [List.length_map, hlen]] at this
    exact this
  · intro y x hy hx
    obtain ⟨q1, q2⟩ := h2 y x hy hx
    refine ⟨q1, ?_⟩
    rw [q2]
    generalize fuse e (cells impl ch (base :: rest)) = F
    have hm : mags (ideal R C F) = around R C fun y x => (F y x).mag.toNat := by
      funext a b
      unfold mags ideal around
      split <;> rfl
    have hc : Cand R C (goodAt C (lowThreshold rd factor high) (ideal R C F)) =
        (fun p => p.1 < R ∧ p.2 < C ∧ lowThreshold rd factor high ≤ (F p.1 p.2).mag.toNat ∧
            Thin (around R C fun y x => (F y x).mag.toNat) (F p.1 p.2).gx.toInt (F p.1 p.2).gy.toInt p.1 p.2) := by
      funext p
      unfold Cand
      refine propext (and_congr_right fun h1 => and_congr_right fun h2 => ?_)
      rw [goodAt_iff C hC _ _ _ _ h2, ideal_in F h1 h2, hm]
    unfold Hyst
    rw [hc]
    simp only [decide_eq_true_eq]

/-! ## Components of the map -/

theorem least_of_fold {d : BitVec 8} {n : Nat} {f : Nat → BitVec 8} (hn : 0 < n) (hd : ∀ l < n, (f l).toNat < d.toNat) :
    Least (fun l => (f l).toNat) n (foldU d n f).toNat := by
  obtain ⟨⟨h1, h2⟩, h3⟩ := foldU_spec d n f
  refine ⟨?_, h2⟩
  rcases h3 with e | ⟨l, hl, e⟩
  · have := h2 0 hn
    have := hd 0 hn
    rw [e] at *
    omega
  · exact ⟨l, hl, by dsimp only; rw [e]⟩

theorem weakest_of_fold {d : BitVec 8} {n : Nat} {f : Nat → BitVec 8} (hn : 0 < n) (hd : ∀ l < n, |(f l).toInt| < |d.toInt|) :
    Weakest (fun l => (f l).toInt) n (foldAbs d n f).toInt := by
  obtain ⟨⟨h1, h2⟩, h3⟩ := foldAbs_spec d n f
  rcases h3 with ⟨e, h3⟩ | ⟨l, hl, e, h3⟩
  · exact absurd (hd 0 hn) (not_lt.2 (le_of_lt (h3 0 hn)))
  · exact ⟨l, hl, by dsimp only; rw [e], h2, h3⟩

theorem fold_zero {d : BitVec 8} {n : Nat} {f : Nat → BitVec 8} (hd : d = 0) : (foldAbs d n f).toInt = 0 := by
  obtain ⟨⟨h1, -⟩, -⟩ := foldAbs_spec d n f
  rw [hd] at h1
  have : |(0 : BitVec 8).toInt| = 0 := by decide
  rw [this] at h1
  rw [hd]
  exact abs_eq_zero.1 (le_antisymm h1 (abs_nonneg _))

theorem fold_ne_zero {d : BitVec 8} {n : Nat} {f : Nat → BitVec 8} (hd : d.toInt ≠ 0) :
    (foldAbs d n f).toInt = 0 ↔ ∃ l < n, (f l).toInt = 0 := by
  obtain ⟨⟨h1, h2⟩, h3⟩ := foldAbs_spec d n f
  constructor
  · intro h
    rcases h3 with ⟨e, -⟩ | ⟨l, hl, e, -⟩
    · rw [e] at h; exact absurd h hd
    · exact ⟨l, hl, by rw [e]; exact h⟩
  · rintro ⟨l, hl, h⟩
    have := h2 l hl
    rw [h, abs_zero] at this
    exact abs_eq_zero.1 (le_antisymm this (abs_nonneg _))

theorem detThreshold_spec {d : ℚ} {high : Nat} (hh : (high : ℤ) = if d < 0 ∨ 1 < d then 8 else ⌊16 * d⌋) : detThreshold d = high := by
  unfold detThreshold
  split
  · rename_i h; rw [if_pos h] at hh; omega
  · rename_i h; rw [if_neg h] at hh; rw [mul_comm, ← hh]; rfl

theorem lowThreshold_spec {rd : ℚ → ℚ} {factor : ℚ} {high low : Nat} (hl : (low : ℤ) = ⌊rd (high * factor)⌋) : lowThreshold rd factor high = low := by
  unfold lowThreshold
  rw [← hl]; rfl

/-! ## Several thresholds -/

theorem step_end {cand : Nat × Nat → Prop} {a b : Nat × Nat} (ha : cand a) (h : Relation.ReflTransGen (Step cand) a b) : cand b := by
  induction h with
  | refl => exact ha
  | tail _ hs _ => exact hs.2.1

theorem thin_around_pos {R C : Nat} (f : Nat → Nat → Nat) (gx gy : Int) (p : Nat × Nat) (h1 : p.1 < R) (h2 : p.2 < C)
    (h : Thin (around R C f) gx gy p.1 p.2) : 0 < f p.1 p.2 := by
  have nn : ∀ a b, 0 ≤ around R C f a b := fun a b => by unfold around; split <;> omega
  have e : around R C f p.1 p.2 = f p.1 p.2 := by
    unfold around
    rw [if_pos (by omega)]; rfl
  have pk : ∀ dy dx, Peak (around R C f) p.1 p.2 dy dx → 0 < f p.1 p.2 := fun dy dx h => by
    have := lt_of_le_of_lt (nn _ _) h.1.1
    rw [e] at this
    omega
  unfold Thin at h
  split at h
  · exact pk _ _ h
  · split at h
    · exact pk _ _ h
    · split at h
      · split at h <;> exact pk _ _ h
      · rcases h with h | h <;> exact pk _ _ h

theorem foldAbs_congr (d : BitVec 8) : ∀ (n : Nat) (f g : Nat → BitVec 8), (∀ l < n, f l = g l) → foldAbs d n f = foldAbs d n g := by
  intro n
  induction n with
  | zero => intro f g _; rfl
  | succ n ih =>
    intro f g h
    rw [foldAbs, foldAbs, h 0 (by omega), ih _ _ fun l hl => h (l + 1) (by omega)]

theorem foldU_congr (d : BitVec 8) : ∀ (n : Nat) (f g : Nat → BitVec 8), (∀ l < n, f l = g l) → foldU d n f = foldU d n g := by
  intro n
  induction n with
  | zero => intro f g _; rfl
  | succ n ih =>
    intro f g h
    rw [foldU, foldU, h 0 (by omega), ih _ _ fun l hl => h (l + 1) (by omega)]

section
variable (impl : LBSP.Impl) (e : Endian) (rd : ℚ → ℚ) (factor : ℚ) (n R C ch : Nat) (hn : 0 < n) (hch : 0 < ch) (hR : R < 2 ^ 31) (hC : C < 2 ^ 31) (img : Image)
  (oldP : Nat → Table × Image) (hf : ∀ l < n, Fits (size R l) (size C l)) (hrd : ∀ a b, a ≤ b → rd a ≤ rd b) (hfac : 0 ≤ factor)

include hrd hfac in
theorem low_mono {high high' : Nat} (h : high ≤ high') : lowThreshold rd factor high ≤ lowThreshold rd factor high' := by
  unfold lowThreshold
  refine Int.toNat_le_toNat (Int.floor_le_floor (hrd _ _ ?_))
  exact mul_le_mul_of_nonneg_right (by exact_mod_cast h) hfac

include hn hch hR hC hf hrd hfac in
theorem detect_mono (high high' : Nat) (hh : high ≤ high') (old old' : Left) :
    ∃ out out', detect impl e rd factor n R C ch img high oldP old = some out ∧ detect impl e rd factor n R C ch img high' oldP old' = some out' ∧
      ∀ y x, y < R → x < C → out' y x = 255 → out y x = 255 := by
  obtain ⟨out, F, e1, h1, h2⟩ := detect_spec impl e rd factor n R C ch hn hch (by omega) hC img high oldP old hf
  obtain ⟨out', F', e1', h1', h2'⟩ := detect_spec impl e rd factor n R C ch hn hch (by omega) hC img high' oldP old' hf
  refine ⟨out, out', e1, e1', fun y x hy hx h => ?_⟩
  have hF : ∀ y x, y < R → x < C → F' y x = F y x := by
    intro y x hy hx
    obtain ⟨f, g, a1, a2, a3⟩ := h1 y x hy hx
    obtain ⟨f', g', a1', a2', a3'⟩ := h1' y x hy hx
    have hff : ∀ l < n, f' l = f l := fun l hl => by rw [g l hl, g' l hl]
    have b1 : (F' y x).gx = (F y x).gx := by rw [a1, a1']; exact foldAbs_congr _ _ _ _ fun l hl => by rw [hff l hl]
    have b2 : (F' y x).gy = (F y x).gy := by rw [a2, a2']; exact foldAbs_congr _ _ _ _ fun l hl => by rw [hff l hl]
    have b3 : (F' y x).mag = (F y x).mag := by rw [a3, a3']; exact foldU_congr _ _ _ _ fun l hl => by rw [hff l hl]
    cases hF : F y x
    cases hF' : F' y x
    rw [hF, hF'] at b1 b2 b3
    dsimp only at b1 b2 b3
    rw [b1, b2, b3]
  have ha : around R C (fun y x => (F' y x).mag.toNat) = around R C (fun y x => (F y x).mag.toNat) := by
    funext a b
    unfold around
    by_cases hi : 0 ≤ a ∧ a < R ∧ 0 ≤ b ∧ b < C
    · rw [if_pos hi, if_pos hi]
      dsimp only
      rw [hF _ _ (by omega) (by omega)]
    · rw [if_neg hi, if_neg hi]
  rw [(h2 y x hy hx).2]
  have hq := (h2' y x hy hx).2.1 h
  have hc : ∀ p : Nat × Nat, (p.1 < R ∧ p.2 < C ∧ lowThreshold rd factor high' ≤ (F' p.1 p.2).mag.toNat ∧
            Thin (around R C fun y x => (F' y x).mag.toNat) (F' p.1 p.2).gx.toInt (F' p.1 p.2).gy.toInt p.1 p.2) →
      (p.1 < R ∧ p.2 < C ∧ lowThreshold rd factor high ≤ (F p.1 p.2).mag.toNat ∧
            Thin (around R C fun y x => (F y x).mag.toNat) (F p.1 p.2).gx.toInt (F p.1 p.2).gy.toInt p.1 p.2) := by
    rintro p ⟨c1, c2, c3, c4⟩
    rw [hF _ _ c1 c2] at c3 c4
    rw [ha] at c4
    exact ⟨c1, c2, (low_mono rd factor hrd hfac hh).trans c3, c4⟩
  obtain ⟨q, k1, k2, k3⟩ := hq
  refine ⟨q, hc q k1, ?_, ?_⟩
  · rw [hF _ _ k1.1 k1.2.1] at k2
    exact hh.trans k2
  · refine Relation.ReflTransGen.mono ?_ _ _ k3
    rintro a b ⟨h1, h2, h3⟩
    exact ⟨hc a h1, hc b h2, h3⟩

theorem scaled_255 : scaled 255 = 16 := by decide +kernel
theorem scaled_0 : scaled 0 = 0 := by decide +kernel

include hn hch hR hC hf hrd hfac in
theorem apply_spec (old : Nat → Left) (old' : Left) :
    ∃ conf, apply impl e rd factor n R C ch img oldP old = some conf ∧ ∀ y x, y < R → x < C → ∃ k ≤ 16, (conf y x).toNat = min 255 (16 * k) ∧
      ∀ t < 16, ∃ out, detect impl e rd factor n R C ch img t oldP old' = some out ∧ (out y x = 255 ↔ t < k) := by
  -- the mask of a threshold
  have hex : ∀ t, ∃ out, detect impl e rd factor n R C ch img t oldP old' = some out := fun t => by
    obtain ⟨out, -, e1, -⟩ := detect_mono impl e rd factor n R C ch hn hch hR hC img oldP hf hrd hfac t t (le_refl _) old' old'
    exact ⟨out, e1⟩
  choose mask hmask using hex
  have hmono : ∀ t t' y x, t ≤ t' → y < R → x < C → mask t' y x = 255 → mask t y x = 255 := by
    intro t t' y x ht hy hx
    obtain ⟨o, o', e1, e2, h⟩ := detect_mono impl e rd factor n R C ch hn hch hR hC img oldP hf hrd hfac t t' ht old' old'
    rw [hmask] at e1 e2
    cases e1; cases e2
    exact h y x hy hx
  have hsame : ∀ t, ∃ out, detect impl e rd factor n R C ch img t oldP (old t) = some out ∧ ∀ y x, y < R → x < C →
      scaled (out y x) = if mask t y x = 255 then 16 else 0 := by
    intro t
    obtain ⟨o, o', e1, e2, h⟩ := detect_mono impl e rd factor n R C ch hn hch hR hC img oldP hf hrd hfac t t (le_refl _) (old t) old'
    obtain ⟨p, p', e3, e4, h'⟩ := detect_mono impl e rd factor n R C ch hn hch hR hC img oldP hf hrd hfac t t (le_refl _) old' (old t)
    obtain ⟨out, F, e5, hF, hv⟩ := detect_spec impl e rd factor n R C ch hn hch (by omega) hC img t oldP (old t) hf
    rw [hmask] at e2 e3
    cases e2; cases e3
    rw [e1] at e4 e5
    cases e4; cases e5
    refine ⟨o, e1, fun y x hy hx => ?_⟩
    by_cases hm : mask t y x = 255
    · rw [if_pos hm, h y x hy hx hm, scaled_255]
    · rw [if_neg hm]
      rcases (hv y x hy hx).1 with q | q
      · exact absurd (h' y x hy hx q) hm
      · rw [q, scaled_0]
  obtain ⟨conf, e1, hc⟩ := Consensus.foldlM_inv (fun (acc : Nat → Nat → BitVec 8) (t : Nat) =>
      (detect impl e rd factor n R C ch img t oldP (old t)).map fun (m : Nat → Nat → BitVec 8) => fun y x => satAdd (acc y x) (scaled (m y x)))
    (List.range 16)
    (fun pre acc => ∀ y x, y < R → x < C → ∃ k ≤ pre.length, (acc y x).toNat = min 255 (16 * k) ∧ ∀ t < pre.length, (mask t y x = 255 ↔ t < k))
    (fun pre t post acc hl H => by
      have ht : t = pre.length := by
        have h1 : (List.range 16)[pre.length]? = some t := by rw [hl]; simp
        rw [List.getElem?_eq_some_iff] at h1
        obtain ⟨_, h1⟩ := h1
        rw [List.getElem_range] at h1
        exact h1.symm
      obtain ⟨out, e1, ho⟩ := hsame t
      rw [e1]
      refine ⟨_, rfl, fun y x hy hx => ?_⟩
      obtain ⟨k, hk, a1, a2⟩ := H y x hy hx
      rw [List.length_append, List.length_singleton]
      by_cases hm : mask t y x = 255
      · have hkt : k = t := by
          by_contra hne
          have := (a2 k (by omega)).1 (hmono k t y x (by omega) hy hx hm)
          omega
        refine ⟨k + 1, by omega, ?_, fun t' ht' => ?_⟩
        · unfold satAdd
          dsimp only
          rw [ho y x hy hx, if_pos hm, a1, BitVec.toNat_ofNat, Nat.mod_eq_of_lt (by omega)]
          omega
        · constructor
          · intro _; omega
          · intro _; exact hmono t' t y x (by omega) hy hx hm
      · refine ⟨k, by omega, ?_, fun t' ht' => ?_⟩
        · unfold satAdd
          dsimp only
          rw [ho y x hy hx, if_neg hm, a1, BitVec.toNat_ofNat, Nat.mod_eq_of_lt (by omega)]
          omega
        · by_cases h' : t' < pre.length
          · exact a2 t' h'
          · have : t' = t := by omega
            subst this
            exact ⟨fun h => absurd h hm, fun h => by omega⟩)
    (fun _ _ => 0) (fun y x hy hx => ⟨0, le_refl _, rfl, fun t ht => absurd ht (Nat.not_lt_zero _)⟩)
  refine ⟨conf, e1, fun y x hy hx => ?_⟩
  obtain ⟨k, hk, a1, a2⟩ := hc y x hy hx
  rw [List.length_range] at hk a2
  exact ⟨k, hk, a1, fun t ht => ⟨mask t, hmask t, a2 t ht⟩⟩

end

end Litiv.EdgeLBSP
