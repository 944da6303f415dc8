import Verif.Lemmas.EdgeHyst
import Verif.Props.Maxima

/-! Lemmas for `Props/EdgeLBSP`: gradient maps, local maxima, and level 0. -/

namespace Litiv.EdgeLBSP
open Spec
open Consensus (foldlM_inv)

/-! ## Local maxima -/

theorem flat_fixed (a b : Nat) (ha : a ≤ 128) (hb : b ≤ 128) :
    (b * 2 ^ 15 < a * 13573 ↔ (a + b) ^ 2 < 2 * a ^ 2) ∧ (a * 13573 + a * 2 ^ 16 < b * 2 ^ 15 ↔ (b + a) ^ 2 < 2 * b ^ 2) := by
  have key : ∀ a ≤ 128, ∀ b ≤ 128, ((b * 2 ^ 15 < a * 13573 ↔ (a + b) ^ 2 < 2 * a ^ 2) ∧
      (a * 13573 + a * 2 ^ 16 < b * 2 ^ 15 ↔ (b + a) ^ 2 < 2 * b ^ 2)) := by decide +kernel
  exact key a ha b hb

theorem natAbs_le (v : BitVec 8) : v.toInt.natAbs ≤ 128 := by
  revert v
  decide

theorem flat_iff (gx gy : BitVec 8) : Flat gx.toInt gy.toInt ↔ (gx.toInt.natAbs + gy.toInt.natAbs) ^ 2 < 2 * gx.toInt.natAbs ^ 2 := by
  unfold Flat
  rw [Int.abs_eq_natAbs, Int.abs_eq_natAbs, ← Int.natAbs_sq gx.toInt]
  constructor
  · intro h; exact_mod_cast h
  · intro h; exact_mod_cast h

theorem bytes_mag (C : Nat) (m : Map) (y x : Int) (h1 : -2 ≤ x) (h2 : x < (C : Int) + 2) :
    bytes (C + 4) m (((y + 2) * ((C + 4 : Nat) : Int) + (x + 2)) * 4 + 2) = ((m y x).mag.toNat : Int) := by
  unfold bytes
  have e1 : (((y + 2) * ((C + 4 : Nat) : Int) + (x + 2)) * 4 + 2) / 4 = (y + 2) * ((C + 4 : Nat) : Int) + (x + 2) := by omega
  have e2 : (((y + 2) * ((C + 4 : Nat) : Int) + (x + 2)) * 4 + 2) % 4 = 2 := by omega
  have e3 : ((y + 2) * ((C + 4 : Nat) : Int) + (x + 2)) / ((C + 4 : Nat) : Int) = y + 2 := by
    rw [add_comm, Int.add_mul_ediv_right _ _ (by omega), Int.ediv_eq_zero_of_lt (by omega) (by push_cast; omega)]
    omega
  have e4 : ((y + 2) * ((C + 4 : Nat) : Int) + (x + 2)) % ((C + 4 : Nat) : Int) = x + 2 := by
    rw [add_comm, Int.add_mul_emod_self_right, Int.emod_eq_of_lt (by omega) (by push_cast; omega)]
  dsimp only
  rw [e1, e2, e3, e4, add_sub_cancel_right, add_sub_cancel_right]
  simp

/-- Magnitudes of a map. -/
def mags (m : Map) (y x : Int) : Int := ((m y x).mag.toNat : Int)

theorem peakAlong_iff (C : Nat) (m : Map) (y x dy dx : Int) (h1 : 0 ≤ x) (h2 : x < C) (hd1 : -1 ≤ dx) (hd2 : dx ≤ 1) :
    Maxima.Spec.PeakAlong 2 (bytes (C + 4) m) (((y + 2) * ((C + 4 : Nat) : Int) + (x + 2)) * 4 + 2) ((dy * ((C + 4 : Nat) : Int) + dx) * 4) ↔
      Peak (mags m) y x dy dx := by
  have minus : ∀ k : Int, 0 ≤ k → k ≤ 2 → bytes (C + 4) m (((y + 2) * ((C + 4 : Nat) : Int) + (x + 2)) * 4 + 2 - k * ((dy * ((C + 4 : Nat) : Int) + dx) * 4)) =
      mags m (y - k * dy) (x - k * dx) := by
    intro k k0 k2
    have e : ((y + 2) * ((C + 4 : Nat) : Int) + (x + 2)) * 4 + 2 - k * ((dy * ((C + 4 : Nat) : Int) + dx) * 4) =
        ((y - k * dy + 2) * ((C + 4 : Nat) : Int) + (x - k * dx + 2)) * 4 + 2 := by ring
    have hk : -2 ≤ k * dx ∧ k * dx ≤ 2 := by constructor <;> nlinarith
    rw [e, bytes_mag C m _ _ (by omega) (by omega)]
    rfl
  have plus : ∀ k : Int, 0 ≤ k → k ≤ 2 → bytes (C + 4) m (((y + 2) * ((C + 4 : Nat) : Int) + (x + 2)) * 4 + 2 + k * ((dy * ((C + 4 : Nat) : Int) + dx) * 4)) =
      mags m (y + k * dy) (x + k * dx) := by
    intro k k0 k2
    have e : ((y + 2) * ((C + 4 : Nat) : Int) + (x + 2)) * 4 + 2 + k * ((dy * ((C + 4 : Nat) : Int) + dx) * 4) =
        ((y + k * dy + 2) * ((C + 4 : Nat) : Int) + (x + k * dx + 2)) * 4 + 2 := by ring
    have hk : -2 ≤ k * dx ∧ k * dx ≤ 2 := by constructor <;> nlinarith
    rw [e, bytes_mag C m _ _ (by omega) (by omega)]
    rfl
  have centre : bytes (C + 4) m (((y + 2) * ((C + 4 : Nat) : Int) + (x + 2)) * 4 + 2) = mags m y x := bytes_mag C m y x (by omega) (by omega)
  have m1 := minus 1 (by norm_num) (by norm_num)
  have m2 := minus 2 (by norm_num) (by norm_num)
  have p1 := plus 1 (by norm_num) (by norm_num)
  have p2 := plus 2 (by norm_num) (by norm_num)
  rw [one_mul, one_mul, one_mul] at m1 p1
  unfold Maxima.Spec.PeakAlong Peak
  rw [centre]
  constructor
  · intro h
    have a1 := h 1 (by norm_num) (by norm_num)
    have a2 := h 2 (by norm_num) (by norm_num)
    push_cast at a1 a2 m1 m2 p1 p2
    rw [one_mul, m1, p1] at a1
    rw [m2, p2] at a2
    exact ⟨a1, a2⟩
  · rintro ⟨⟨a1, a2⟩, a3, a4⟩ k k1 k2
    interval_cases k
    · push_cast at m1 p1 ⊢
      rw [one_mul, m1, p1]
      exact ⟨a1, a2⟩
    · push_cast at m2 p2 ⊢
      rw [m2, p2]
      exact ⟨a3, a4⟩

theorem goodAt_iff (C : Nat) (hC : C < 2 ^ 31) (low : Nat) (m : Map) (y x : Nat) (hx : x < C) :
    goodAt C low m y x = true ↔ low ≤ (m y x).mag.toNat ∧ Thin (mags m) (m y x).gx.toInt (m y x).gy.toInt y x := by
  unfold goodAt
  dsimp only
  by_cases hl : low ≤ (m y x).mag.toNat
  · rw [if_pos hl]
    simp only [hl, true_and]
    unfold peak Thin
    dsimp only
    generalize (m (y : Int) (x : Int)).gx = gx
    generalize (m (y : Int) (x : Int)).gy = gy
    have r0 : (BitVec.ofNat 64 ((C + 4) * 4)).toNat = (C + 4) * 4 := by rw [BitVec.toNat_ofNat, Nat.mod_eq_of_lt (by omega)]
    have c0 : (4 : BitVec 64).toNat = 4 := rfl
    have ff := flat_fixed gx.toInt.natAbs gy.toInt.natAbs (natAbs_le gx) (natAbs_le gy)
    have P := fun dy dx h1 h2 => peakAlong_iff C m y x dy dx (by omega) (by exact_mod_cast hx) h1 h2
    have diag : ∀ inv : Bool, Maxima.isLocalMaximumDiagonal 2 (bytes (C + 4) m) ((((y : Int) + 2) * ((C + 4 : Nat) : Int) + ((x : Int) + 2)) * 4 + 2)
        4 (BitVec.ofNat 64 ((C + 4) * 4)) inv = true ↔ Peak (mags m) y x 1 (if inv then -1 else 1) := by
      intro inv
      rw [Maxima.diagonal_exact _ _ _ _ _ _ (by rw [r0, c0]; omega), r0, c0]
      have e : (((C + 4) * 4 : Nat) : Int) + (if inv then -1 else 1) * ((4 : Nat) : Int) = (1 * ((C + 4 : Nat) : Int) + (if inv then -1 else 1)) * 4 := by
        push_cast; ring
      rw [e]
      refine P 1 _ ?_ ?_ <;> cases inv <;> decide
    by_cases h1 : gy.toInt.natAbs * 2 ^ 15 < gx.toInt.natAbs * 13573
    · rw [if_pos h1, if_pos ((flat_iff gx gy).2 (ff.1.1 h1)), Maxima.horizontal_exact _ _ _ _ _ (by rw [c0]; omega), c0]
      have e : ((4 : Nat) : Int) = (0 * ((C + 4 : Nat) : Int) + 1) * 4 := by ring
      rw [e]
      exact P 0 1 (by norm_num) (by norm_num)
    · rw [if_neg h1, if_neg (fun h => h1 (ff.1.2 ((flat_iff gx gy).1 h)))]
      by_cases h2 : gx.toInt.natAbs * 13573 + gx.toInt.natAbs * 2 ^ 16 < gy.toInt.natAbs * 2 ^ 15
      · rw [if_pos h2, if_pos ((flat_iff gy gx).2 (ff.2.1 h2)), Maxima.vertical_exact _ _ _ _ _ (by rw [r0]; omega), r0]
        have e : (((C + 4) * 4 : Nat) : Int) = (1 * ((C + 4 : Nat) : Int) + 0) * 4 := by push_cast; ring
        rw [e]
        exact P 1 0 (by norm_num) (by norm_num)
      · rw [if_neg h2, if_neg (fun h => h2 (ff.2.2 ((flat_iff gy gx).1 h)))]
        have z : ∀ v : BitVec 8, v ≠ 0 ↔ v.toInt ≠ 0 := by decide
        have sg : ∀ v : BitVec 8, v.msb = true ↔ v.toInt < 0 := by decide
        by_cases h3 : gx ≠ 0 ∨ gy ≠ 0
        · rw [if_pos h3, if_pos (show gx.toInt ≠ 0 ∨ gy.toInt ≠ 0 by rw [← z, ← z]; exact h3), diag]
          by_cases h4 : (gx.toInt < 0 ↔ gy.toInt < 0)
          · rw [if_pos h4, if_pos]
            rw [← sg, ← sg] at h4
            rw [beq_iff_eq, Bool.eq_iff_iff]; exact h4
          · rw [if_neg h4, if_neg]
            rw [← sg, ← sg, ← Bool.eq_iff_iff] at h4
            rw [beq_iff_eq]; exact h4
        · rw [if_neg h3, if_neg (show ¬ (gx.toInt ≠ 0 ∨ gy.toInt ≠ 0) by rw [← z, ← z]; exact h3), Bool.or_eq_true, diag, diag]
          simp
  · rw [if_neg hl]
    simp [hl]

/-- A pixel of magnitude zero is never a local maximum. -/
theorem thin_pos (m : Map) (gx gy y x : Int) (h : Thin (mags m) gx gy y x) : 0 < mags m y x := by
  have nn : ∀ a b, 0 ≤ mags m a b := fun a b => Int.natCast_nonneg _
  have pk : ∀ dy dx, Peak (mags m) y x dy dx → 0 < mags m y x := fun dy dx h => lt_of_le_of_lt (nn _ _) h.1.1
  unfold Thin at h
  split at h
  · exact pk _ _ h
  · split at h
    · exact pk _ _ h
    · split at h
      · split at h <;> exact pk _ _ h
      · rcases h with h | h <;> exact pk _ _ h

theorem peak_congr (f g : Int → Int → Int) (y x dy dx : Int) (hdy : -1 ≤ dy ∧ dy ≤ 1) (hdx : -1 ≤ dx ∧ dx ≤ 1)
    (h : ∀ a b : Int, y - 2 ≤ a → a ≤ y + 2 → x - 2 ≤ b → b ≤ x + 2 → f a b = g a b) : Peak f y x dy dx ↔ Peak g y x dy dx := by
  unfold Peak
  rw [h y x (by omega) (by omega) (by omega) (by omega), h (y - dy) (x - dx) (by omega) (by omega) (by omega) (by omega),
    h (y + dy) (x + dx) (by omega) (by omega) (by omega) (by omega), h (y - 2 * dy) (x - 2 * dx) (by omega) (by omega) (by omega) (by omega),
    h (y + 2 * dy) (x + 2 * dx) (by omega) (by omega) (by omega) (by omega)]

theorem thin_congr (f g : Int → Int → Int) (gx gy y x : Int)
    (h : ∀ a b : Int, y - 2 ≤ a → a ≤ y + 2 → x - 2 ≤ b → b ≤ x + 2 → f a b = g a b) : Thin f gx gy y x ↔ Thin g gx gy y x := by
  unfold Thin
  rw [peak_congr f g y x 0 1 (by decide) (by decide) h, peak_congr f g y x 1 0 (by decide) (by decide) h,
    peak_congr f g y x 1 (-1) (by decide) (by decide) h, peak_congr f g y x 1 1 (by decide) (by decide) h]

/-! ## Levels above 0 -/

theorem setCell_some {R C : Nat} {y x : Int} (h : inMap R C y x = true) (m : Map) (v : Cell) :
    setCell R C m y x v = some fun y' x' => if y' = y ∧ x' = x then v else m y' x' := by
  unfold setCell
  rw [if_pos h]

theorem pixelUp_spec (R C : Nat) (G : Nat → Nat → Cell) (r c : Nat) (hr : 2 * r + 2 ≤ R + 2) (hc : 2 * c + 2 ≤ C + 2) (m : Map) :
    ∃ m', pixelStep R C true G r m c = some m' ∧ ∀ y x : Int, m' y x =
      if (y = r ∧ x = c) ∨ ((y = 2 * r ∨ y = 2 * r + 1) ∧ (x = 2 * c ∨ x = 2 * c + 1)) then merge (G r c) (m r c) else m y x := by
  have hin : ∀ a b : Int, 0 ≤ a → a ≤ 2 * r + 1 → 0 ≤ b → b ≤ 2 * c + 1 → inMap R C a b = true := by
    intro a b h1 h2 h3 h4
    unfold inMap; rw [decide_eq_true_eq]; omega
  unfold pixelStep
  rw [setCell_some (hin _ _ (by omega) (by omega) (by omega) (by omega))]
  dsimp only
  rw [if_pos rfl]
  simp only [List.foldlM_cons, List.foldlM_nil]
  rw [setCell_some (hin _ _ (by omega) (by push_cast; omega) (by omega) (by push_cast; omega))]
  dsimp only [bind, Option.bind]
  rw [setCell_some (hin _ _ (by omega) (by push_cast; omega) (by omega) (by push_cast; omega))]
  dsimp only [bind, Option.bind]
  rw [setCell_some (hin _ _ (by omega) (by push_cast; omega) (by omega) (by push_cast; omega))]
  dsimp only [bind, Option.bind]
  rw [setCell_some (hin _ _ (by omega) (by push_cast; omega) (by omega) (by push_cast; omega))]
  dsimp only [bind, Option.bind, pure]
  refine ⟨_, rfl, fun y x => ?_⟩
  generalize merge (G r c) (m r c) = v
  push_cast
  simp only [true_and, and_self, if_true, ite_self]
  by_cases h : (y = r ∧ x = c) ∨ ((y = 2 * r ∨ y = 2 * r + 1) ∧ (x = 2 * c ∨ x = 2 * c + 1))
  · rw [if_pos h]
    split_ifs <;> first | rfl | (exfalso; omega)
  · rw [if_neg h]
    split_ifs <;> first | rfl | (exfalso; omega)

structure LInv (h w : Nat) (G I : Nat → Nat → Cell) (m0 : Map) (done : Nat → Nat → Prop) (m : Map) : Prop where
  todo : ∀ y x : Nat, y < h → x < w → ¬ done y x → m y x = I y x
  block : ∀ y x : Nat, done y x → ∀ i j : Nat, i < 2 → j < 2 → m ((2 * y + i : Nat) : Int) ((2 * x + j : Nat) : Int) = merge (G y x) (I y x)
  out : ∀ y x : Int, ¬ (0 ≤ y ∧ y < 2 * h ∧ 0 ≤ x ∧ x < 2 * w) → m y x = m0 y x

/-- Pixels treated so far at a level: rows below `r`, and row `r` from column `c` on. -/
def DoneRC (h w r c : Nat) (y x : Nat) : Prop := y < h ∧ x < w ∧ (r < y ∨ (y = r ∧ c ≤ x))

theorem pixelUp_inv {R C h w : Nat} (hh : 2 * h ≤ R + 2) (hw : 2 * w ≤ C + 2) {G I : Nat → Nat → Cell} {m0 m : Map} {r c : Nat} (hr : r < h) (hc : c < w)
    (H : LInv h w G I m0 (DoneRC h w r (c + 1)) m) :
    ∃ m', pixelStep R C true G r m c = some m' ∧ LInv h w G I m0 (DoneRC h w r c) m' := by
  obtain ⟨m', e, hm⟩ := pixelUp_spec R C G r c (by omega) (by omega) m
  have hi : m r c = I r c := H.todo r c hr hc (by unfold DoneRC; omega)
  rw [hi] at hm
  refine ⟨m', e, ?_, ?_, ?_⟩
  · intro y x hy hx hn
    unfold DoneRC at hn
    rw [hm, if_neg (by omega)]
    exact H.todo y x hy hx (by unfold DoneRC; omega)
  · intro y x hd i j hi hj
    rw [hm]
    by_cases e : y = r ∧ x = c
    · rw [if_pos (by push_cast; omega), e.1, e.2]
    · unfold DoneRC at hd
      rw [if_neg (by push_cast; omega)]
      exact H.block y x (by unfold DoneRC; omega) i j hi hj
  · intro y x hn
    rw [hm, if_neg (by omega)]
    exact H.out y x hn

theorem reverse_range_idx {n : Nat} {pre post : List Nat} {x : Nat} (hl : (List.range n).reverse = pre ++ x :: post) :
    pre.length < n ∧ x = n - 1 - pre.length := by
  have hlen : pre.length < n := by
    have := congrArg List.length hl
    simp at this
    omega
  refine ⟨hlen, ?_⟩
  have h : (List.range n).reverse[pre.length]? = (pre ++ x :: post)[pre.length]? := by rw [← hl]
  rw [List.getElem?_reverse (by simpa using hlen), List.length_range, List.getElem?_range (by omega), List.getElem?_append_right (le_refl _)] at h
  simp at h
  exact h.symm

theorem rowUp_inv {R C h w : Nat} (hh : 2 * h ≤ R + 2) (hw : 2 * w ≤ C + 2) {G I : Nat → Nat → Cell} {m0 m : Map} {r : Nat} (hr : r < h)
    (H : LInv h w G I m0 (DoneRC h w (r + 1) 0) m) :
    ∃ m', rowStep R C true w G m r = some m' ∧ LInv h w G I m0 (DoneRC h w r 0) m' := by
  have hd : DoneRC h w (r + 1) 0 = DoneRC h w r w := by
    funext y x
    unfold DoneRC
    exact propext (by omega)
  rw [hd] at H
  obtain ⟨m', e, h1⟩ := foldlM_inv (pixelStep R C true G r) (List.range w).reverse
    (fun pre m => LInv h w G I m0 (DoneRC h w r (w - pre.length)) m)
    (fun pre c post m hl H' => by
      obtain ⟨hlen, rfl⟩ := reverse_range_idx hl
      have e1 : w - pre.length = w - 1 - pre.length + 1 := by omega
      rw [e1] at H'
      obtain ⟨m', e, h1⟩ := pixelUp_inv hh hw hr (by omega) H'
      refine ⟨m', e, ?_⟩
      rw [List.length_append, List.length_singleton, (by omega : w - (pre.length + 1) = w - 1 - pre.length)]
      exact h1) m H
  refine ⟨m', e, ?_⟩
  rw [List.length_reverse, List.length_range, Nat.sub_self] at h1
  exact h1

/-- A level: each pixel of the level gives its merged gradient to four pixels. -/
theorem levelStep_spec {R C h w : Nat} (hh : 2 * h ≤ R + 2) (hw : 2 * w ≤ C + 2) (G I : Nat → Nat → Cell) (m0 : Map)
    (h0 : ∀ y x : Nat, y < h → x < w → m0 y x = I y x) :
    ∃ m', levelStep R C h w G m0 = some m' ∧
      (∀ y x : Nat, y < 2 * h → x < 2 * w → m' y x = merge (G (y / 2) (x / 2)) (I (y / 2) (x / 2))) ∧
      ∀ y x : Int, ¬ (0 ≤ y ∧ y < 2 * h ∧ 0 ≤ x ∧ x < 2 * w) → m' y x = m0 y x := by
  obtain ⟨m', e, h1⟩ := foldlM_inv (rowStep R C true w G) (List.range h).reverse
    (fun pre m => LInv h w G I m0 (DoneRC h w (h - pre.length) 0) m)
    (fun pre r post m hl H' => by
      obtain ⟨hlen, rfl⟩ := reverse_range_idx hl
      have e1 : h - pre.length = h - 1 - pre.length + 1 := by omega
      rw [e1] at H'
      obtain ⟨m', e, h1⟩ := rowUp_inv hh hw (by omega) H'
      refine ⟨m', e, ?_⟩
      rw [List.length_append, List.length_singleton, (by omega : h - (pre.length + 1) = h - 1 - pre.length)]
      exact h1) m0
    ⟨fun y x hy hx _ => h0 y x hy hx, fun y x hd => by unfold DoneRC at hd; simp at hd; omega, fun _ _ _ => rfl⟩
  refine ⟨m', e, ?_, h1.out⟩
  intro y x hy hx
  have := h1.block (y / 2) (x / 2) (by unfold DoneRC; rw [List.length_reverse, List.length_range]; omega) (y % 2) (x % 2)
    (Nat.mod_lt _ (by norm_num)) (Nat.mod_lt _ (by norm_num))
  rw [Nat.div_add_mod, Nat.div_add_mod] at this
  exact this

/-! ## Level 0 -/

theorem rowBase_spec (R C : Nat) (G : Nat → Nat → Cell) (r : Nat) (hr : r < R) (m : Map) :
    ∃ m', rowStep R C false C G m r = some m' ∧ ∀ y x : Int, m' y x =
      if y = r ∧ 0 ≤ x ∧ x < C then merge (G r x.toNat) (m r x) else m y x := by
  obtain ⟨m', e, h1⟩ := foldlM_inv (pixelStep R C false G r) (List.range C).reverse
    (fun pre m' => ∀ y x : Int, m' y x = if y = r ∧ ((C - pre.length : Nat) : Int) ≤ x ∧ x < C then merge (G r x.toNat) (m r x) else m y x)
    (fun pre c post m' hl H => by
      obtain ⟨hlen, rfl⟩ := reverse_range_idx hl
      have hin : inMap R C r ((C - 1 - pre.length : Nat) : Int) = true := by unfold inMap; rw [decide_eq_true_eq]; omega
      unfold pixelStep
      rw [setCell_some hin]
      dsimp only
      rw [if_neg (by decide)]
      refine ⟨_, rfl, fun y x => ?_⟩
      rw [List.length_append, List.length_singleton, H, H, if_neg (by omega : ¬ ((r : Int) = r ∧ ((C - pre.length : Nat) : Int) ≤ ((C - 1 - pre.length : Nat) : Int) ∧ _))]
      by_cases h : y = r ∧ x = ((C - 1 - pre.length : Nat) : Int)
      · rw [if_pos h, if_pos (by omega), h.2, Int.toNat_natCast]
      · rw [if_neg h]
        by_cases h' : y = r ∧ ((C - pre.length : Nat) : Int) ≤ x ∧ x < C
        · rw [if_pos h', if_pos (by omega)]
        · rw [if_neg h', if_neg (by omega)]) m
    (fun y x => by rw [if_neg (by simp)])
  refine ⟨m', e, fun y x => ?_⟩
  rw [h1, List.length_reverse, List.length_range, Nat.sub_self]
  rfl

theorem nmsRow_congr (R C : Nat) {g g' st st' : Nat → Bool} (hg : ∀ x < C, g x = g' x) (hs : ∀ x < C, st x = st' x) (y : Nat) (s : Scan) :
    nmsRow R C g st y s = nmsRow R C g' st' y s := by
  unfold nmsRow
  dsimp only
  have : ∀ (l : List Nat) (a : Scan × Bool), (∀ x ∈ l, x < C) → l.foldlM (nmsCol R C g st y) a = l.foldlM (nmsCol R C g' st' y) a := by
    intro l
    induction l with
    | nil => intro a _; rfl
    | cons x l ih =>
      intro a h
      have e : nmsCol R C g st y a x = nmsCol R C g' st' y a x := by
        unfold nmsCol
        rw [hg x (h x List.mem_cons_self), hs x (h x List.mem_cons_self)]
      rw [List.foldlM_cons, List.foldlM_cons, e]
      cases nmsCol R C g' st' y a x with
      | none => rfl
      | some b => exact ih b fun x hx => h x (List.mem_cons_of_mem _ hx)
  rw [this _ _ fun x hx => List.mem_range.1 hx]

/-- The final gradient map: `F` in the image, zero around it. -/
def ideal (R C : Nat) (F : Nat → Nat → Cell) : Map := fun y x =>
  if 0 ≤ y ∧ y < R ∧ 0 ≤ x ∧ x < C then F y.toNat x.toNat else ⟨0, 0, 0⟩

theorem ideal_in {R C : Nat} (F : Nat → Nat → Cell) {y x : Nat} (hy : y < R) (hx : x < C) : ideal R C F y x = F y x := by
  unfold ideal
  rw [if_pos (by omega), Int.toNat_natCast, Int.toNat_natCast]

section
variable (R C : Nat) (hC : C < 2 ^ 31) (G I : Nat → Nat → Cell) (low high : Nat)

/-- After rows `k` and below (in signed coordinates) have been treated. -/
structure BInv (k : Int) (a : Map × Scan) : Prop where
  fin : ∀ y x : Nat, y < R → x < C → k ≤ y → a.1 y x = merge (G y x) (I y x)
  todo : ∀ y x : Nat, y < R → x < C → (y : Int) < k → a.1 y x = I y x
  top : ∀ y x : Int, y < 0 → a.1 y x = ⟨0, 0, 0⟩
  side : ∀ y x : Int, k ≤ y → y < R → (x = -2 ∨ x = -1 ∨ x = C ∨ x = (C : Int) + 1) → a.1 y x = ⟨0, 0, 0⟩
  scan : PInv R C (goodAt C low (ideal R C fun y x => merge (G y x) (I y x)))
    (fun y x => decide (high ≤ (merge (G y x) (I y x)).mag.toNat)) (RowsDone R C (min R (k + 2).toNat)) (min R (k + 2).toNat) a.2

include hC in
theorem baseRow_spec (hbot : ∀ y x, y < R → R ≤ y + 2 → x < C → (merge (G y x) (I y x)).mag = 0) {k : Int} (hk0 : -2 ≤ k) (hkR : k < R)
    {a : Map × Scan} (B : BInv R C G I low high (k + 1) a) :
    ∃ a', baseRow R C G low high a k = some a' ∧ BInv R C G I low high k a' := by
  set F : Nat → Nat → Cell := fun y x => merge (G y x) (I y x) with hF
  obtain ⟨m1, e1, hm1⟩ : ∃ m1, (if 0 ≤ k then rowStep R C false C G a.1 k.toNat else some a.1) = some m1 ∧
      ∀ y x : Int, m1 y x = if y = k ∧ 0 ≤ k ∧ 0 ≤ x ∧ x < C then merge (G k.toNat x.toNat) (a.1 k x) else a.1 y x := by
    by_cases h : 0 ≤ k
    · obtain ⟨m1, e, hm⟩ := rowBase_spec R C G k.toNat (by omega) a.1
      refine ⟨m1, by rw [if_pos h]; exact e, fun y x => ?_⟩
      rw [hm, Int.toNat_of_nonneg h]
      by_cases h' : y = k ∧ 0 ≤ x ∧ x < C
      · rw [if_pos h', if_pos ⟨h'.1, h, h'.2⟩]
      · rw [if_neg h', if_neg (fun c => h' ⟨c.1, c.2.2⟩)]
    · refine ⟨a.1, by rw [if_neg h], fun y x => ?_⟩
      rw [if_neg (fun c => h c.2.1)]
  unfold baseRow
  rw [e1]
  dsimp only
  set m2 : Map := fun y x => if y = k ∧ (x = -2 ∨ x = -1 ∨ x = C ∨ x = (C : Int) + 1) then ⟨0, 0, 0⟩ else m1 y x with hm2
  have fin : ∀ y x : Nat, y < R → x < C → k ≤ y → m2 y x = F y x := by
    intro y x hy hx h
    rw [hm2]
    dsimp only
    rw [if_neg (by omega), hm1]
    by_cases e : (y : Int) = k
    · rw [if_pos ⟨e, by omega, by omega, by omega⟩, ← e, Int.toNat_natCast, Int.toNat_natCast, B.todo y x hy hx (by omega)]
    · rw [if_neg (by omega)]
      exact B.fin y x hy hx (by omega)
  have todo : ∀ y x : Nat, y < R → x < C → (y : Int) < k → m2 y x = I y x := by
    intro y x hy hx h
    rw [hm2]
    dsimp only
    rw [if_neg (by omega), hm1, if_neg (by omega)]
    exact B.todo y x hy hx (by omega)
  have top : ∀ y x : Int, y < 0 → m2 y x = ⟨0, 0, 0⟩ := by
    intro y x h
    rw [hm2]
    dsimp only
    split
    · rfl
    · rw [hm1, if_neg (by omega)]
      exact B.top y x h
  have side : ∀ y x : Int, k ≤ y → y < R → (x = -2 ∨ x = -1 ∨ x = C ∨ x = (C : Int) + 1) → m2 y x = ⟨0, 0, 0⟩ := by
    intro y x h1 h2 h3
    rw [hm2]
    dsimp only
    by_cases e : y = k
    · rw [if_pos ⟨e, h3⟩]
    · rw [if_neg (fun c => e c.1), hm1, if_neg (fun c => e c.1)]
      exact B.side y x (by omega) h2 h3
  by_cases hrow : k < (R : Int) - 2
  · rw [if_pos hrow]
    have hyR : (k + 2).toNat < R := by omega
    set y := (k + 2).toNat with hy
    have hyk : (y : Int) = k + 2 := by omega
    -- the map around the row agrees with the final one
    have agree : ∀ p q : Int, y - 2 ≤ p → p ≤ y + 2 → p < R → -2 ≤ q → q ≤ C + 1 → m2 p q = ideal R C F p q := by
      intro p q h1 h2 h3 h4 h5
      unfold ideal
      by_cases hin : 0 ≤ p ∧ p < R ∧ 0 ≤ q ∧ q < C
      · rw [if_pos hin]
        obtain ⟨p', hp⟩ := Int.eq_ofNat_of_zero_le hin.1
        obtain ⟨q', hq⟩ := Int.eq_ofNat_of_zero_le hin.2.2.1
        subst hp hq
        rw [Int.toNat_natCast, Int.toNat_natCast]
        exact fin p' q' (by omega) (by omega) (by omega)
      · rw [if_neg hin]
        by_cases hp : p < 0
        · exact top p q hp
        · exact side p q (by omega) h3 (by omega)
    have hgood : ∀ x < C, goodAt C low m2 y x = goodAt C low (ideal R C F) y x := by
      intro x hx
      rw [Bool.eq_iff_iff, goodAt_iff C hC low m2 y x hx, goodAt_iff C hC low (ideal R C F) y x hx, ← agree y x (by omega) (by omega) (by omega) (by omega) (by omega)]
      refine and_congr_right fun _ => ?_
      by_cases hb : R ≤ y + 2
      · have z : (m2 y x).mag = 0 := by
          rw [fin y x hyR hx (by omega)]
          exact hbot y x hyR hb hx
        have z' : (ideal R C F y x).mag = 0 := by rw [← agree y x (by omega) (by omega) (by omega) (by omega) (by omega)]; exact z
        constructor <;> intro h
        · have := thin_pos _ _ _ _ _ h
          unfold mags at this
          rw [z] at this
          exact absurd this (by decide)
        · have := thin_pos _ _ _ _ _ h
          unfold mags at this
          rw [z'] at this
          exact absurd this (by decide)
      · refine thin_congr _ _ _ _ _ _ fun p q h1 h2 h3 h4 => ?_
        unfold mags
        rw [agree p q h1 h2 (by omega) (by omega) (by omega)]
    have hstrong : ∀ x < C, decide (high ≤ (m2 y x).mag.toNat) = decide (high ≤ (F y x).mag.toNat) := by
      intro x hx
      rw [fin y x hyR hx (by omega)]
    rw [nmsRow_congr R C hgood hstrong]
    have hsc := B.scan
    have em : min R (k + 1 + 2).toNat = y + 1 := by omega
    rw [em] at hsc
    obtain ⟨s', e, hs⟩ := nmsRow_spec R C (goodAt C low (ideal R C F)) (fun y x => decide (high ≤ (F y x).mag.toNat)) hyR hsc
    rw [e]
    refine ⟨(m2, s'), rfl, fin, todo, top, side, ?_⟩
    rw [← hy, min_eq_right (by omega : y ≤ R)]
    exact hs
  · rw [if_neg hrow]
    refine ⟨(m2, a.2), rfl, fin, todo, top, side, ?_⟩
    have hsc := B.scan
    rw [min_eq_left (by omega : R ≤ (k + 1 + 2).toNat)] at hsc
    rw [min_eq_left (by omega : R ≤ (k + 2).toNat)]
    exact hsc

include hC in
/-- All of level 0. -/
theorem base_spec (hbot : ∀ y x, y < R → R ≤ y + 2 → x < C → (merge (G y x) (I y x)).mag = 0) (m : Map) (old : Left)
    (hm : ∀ y x : Nat, y < R → x < C → m y x = I y x) (htop : ∀ y x : Int, y < 0 → m y x = ⟨0, 0, 0⟩) :
    ∃ m' s, ((List.range (R + 2)).reverse.map fun (k : Nat) => (k : Int) - 2).foldlM (baseRow R C G low high) (m, initScan R C old) = some (m', s) ∧
      PInv R C (goodAt C low (ideal R C fun y x => merge (G y x) (I y x))) (fun y x => decide (high ≤ (merge (G y x) (I y x)).mag.toNat))
        (RowsDone R C 0) 0 s := by
  have I0 : BInv R C G I low high R (m, initScan R C old) := by
    refine ⟨fun y x hy _ h => by omega, fun y x hy hx _ => hm y x hy hx, htop, fun y x h1 h2 _ => by omega, ?_⟩
    rw [min_eq_left (by omega : R ≤ ((R : Int) + 2).toNat)]
    have nd : ∀ p, ¬ RowsDone R C R p := fun p h => by unfold RowsDone at h; omega
    refine ⟨fun p h => absurd h (nd p), fun p h => absurd h (nd p), fun p h => absurd h (nd p), fun p h => absurd h (nd p), ?_, ?_, fun y h1 h2 => by omega⟩
    · intro q
      constructor
      · intro h; simp [initScan] at h
      · rintro ⟨p, h, -⟩; exact absurd h (nd p)
    · intro y x h
      show (if y < 0 ∨ (R : Int) ≤ y then (1 : BitVec 8) else old.lab y x) = 1
      rw [if_pos h]
  rw [List.foldlM_map]
  obtain ⟨⟨m', s⟩, e, h⟩ := foldlM_inv (fun a (k : Nat) => baseRow R C G low high a ((k : Int) - 2)) (List.range (R + 2)).reverse
    (fun pre a => BInv R C G I low high ((R : Int) - pre.length) a)
    (fun pre r post a hl B => by
      obtain ⟨hlen, rfl⟩ := reverse_range_idx hl
      have e1 : (((R + 2 - 1 - pre.length : Nat) : Int) - 2) = (R : Int) - pre.length - 1 := by omega
      rw [e1]
      have B' : BInv R C G I low high ((R : Int) - pre.length - 1 + 1) a := by rw [sub_add_cancel]; exact B
      obtain ⟨a', e, h⟩ := baseRow_spec R C hC G I low high hbot (by omega) (by omega) B'
      refine ⟨a', e, ?_⟩
      rw [List.length_append, List.length_singleton, Nat.cast_add, Nat.cast_one, ← sub_sub]
      exact h) (m, initScan R C old) (by simpa using I0)
  refine ⟨m', s, e, ?_⟩
  have hs := h.scan
  rw [List.length_reverse, List.length_range] at hs
  have e0 : min R ((R : Int) - ((R + 2 : Nat) : Int) + 2).toNat = 0 := by omega
  rw [e0] at hs
  exact hs

end

end Litiv.EdgeLBSP
