import Verif.Lemmas.Thinning

/-!
# Properties C41, C73: thinning
-/

namespace Litiv.Thinning
open Spec

/-- An image given by its rows. -/
def ofRows (l : List (List Nat)) : Img := fun y x => BitVec.ofNat 8 ((l.getD y []).getD x 0)

/-- A filled rectangle. -/
def exRect : Img := ofRows [[0,0,0,0,0,0], [0,1,1,1,1,0], [0,1,1,1,1,0], [0,1,1,1,1,0], [0,0,0,0,0,0]]

/-- A corner with a tail. -/
def exHook : Img := ofRows [[0,0,0,0,0], [0,0,0,1,0], [0,1,1,0,0], [0,0,1,0,0], [0,0,0,0,0]]

/-- A 2x2 square. -/
def exSquare : Img := ofRows [[0,0,0,0], [0,1,1,0], [0,1,1,0], [0,0,0,0]]

/-- The build in which the byte past the array is always `v`. -/
def stray (fixed : Bool) (v : BitVec 8) : Build := ⟨fixed, fun _ _ _ _ _ => some v⟩

/-- The image returned by a finished run. -/
def result : Option Outcome → Img
  | some (.done out) => out
  | _ => fun _ _ => 0

def finished : Option Outcome → Bool
  | some (.done _) => true
  | _ => false

theorem thins_result (b : Build) (mode : Mode) (rows cols fuel : Nat) (f : Img)
    (h : finished (thinning b mode rows cols fuel f) = true) :
    Thins b mode rows cols f (result (thinning b mode rows cols fuel f)) := by
  refine ⟨fuel, ?_⟩
  generalize thinning b mode rows cols fuel f = o at h ⊢
  match o, h with
  | some (.done out), _ => rfl

/-! ## C41 -/

/-- C41: thinning ends on every image of an accepted size, in both modes, whatever is found past the lookup array as long as
reading it does no harm. -/
theorem thinning_terminates (b : Build) (mode : Mode) (hb : mode = .lamLeeSuen → Benign b) (rows cols : Nat)
    (hr : rows > 3) (hc : cols > 3) (f : Img) : ∃ out, Thins b mode rows cols f out := by
  have main : ∀ b, Benign b → ∃ out, Thins b mode rows cols f out := by
    intro b hb
    obtain ⟨g, hg⟩ := round_some b hb mode rows cols 0 f
    obtain ⟨out, ho⟩ := loop_done b hb mode rows cols (count rows cols g + 1) 1 g (by omega)
    cases hs : same rows cols g (fun _ _ => 0) with
    | true =>
      refine ⟨g, 1, ?_⟩
      rw [thinning, if_pos ⟨hr, hc⟩, loop, hg]
      simp only [hs, cond_true]
    | false =>
      refine ⟨out, count rows cols g + 1 + 1, ?_⟩
      rw [thinning, if_pos ⟨hr, hc⟩, loop, hg]
      simp only [hs, cond_false]
      rw [ho]
  cases mode with
  | lamLeeSuen => exact main b (hb rfl)
  | zhangSuen =>
    obtain ⟨out, h⟩ := main intended benign_intended
    exact ⟨out, thins_zs _ _ _ _ _ _ h⟩

/-- C41: the result is unique. -/
theorem thins_unique (b : Build) (mode : Mode) (rows cols : Nat) (f o1 o2 : Img) (h1 : Thins b mode rows cols f o1)
    (h2 : Thins b mode rows cols f o2) : o1 = o2 := by
  obtain ⟨_, n, h1⟩ := thins_size h1
  obtain ⟨_, m, h2⟩ := thins_size h2
  have e1 := loop_more b mode rows cols m n _ _ _ _ h1
  have e2 := loop_more b mode rows cols n m _ _ _ _ h2
  rw [Nat.add_comm m n, e1] at e2
  injection e2

/-- C41: thinning only clears pixels, keeps the border, and keeps every pixel with at most one set neighbour. -/
theorem thins_erodes (b : Build) (mode : Mode) (hb : mode = .lamLeeSuen → Benign b) (rows cols : Nat) (f out : Img)
    (h : Thins b mode rows cols f out) :
    Erodes rows cols f out ∧
    (∀ p : Nat × Nat, p.1 < rows → p.2 < cols → Border rows cols p → out p.1 p.2 = f p.1 p.2) ∧
    (∀ p : Nat × Nat, p.1 < rows → p.2 < cols → Tip rows cols f p → out p.1 p.2 = f p.1 p.2) := by
  have main : ∀ b, Benign b → Thins b mode rows cols f out → PassOK rows cols f out := by
    intro b hb h
    obtain ⟨_, fuel, h⟩ := thins_size h
    exact (loop_inv b hb mode rows cols (fun _ _ => True) (fun _ => trivial) (fun _ _ _ _ _ => trivial)
      (fun _ _ _ _ => trivial) fuel 0 _ f out h).2.1
  have hok : PassOK rows cols f out := by
    cases mode with
    | lamLeeSuen => exact main b (hb rfl) h
    | zhangSuen => exact main intended benign_intended (thins_zs _ _ _ _ _ _ h)
  refine ⟨fun y x _ _ => (hok.shr (y, x)).imp id And.left, fun p _ _ hbd => ?_, fun p _ _ ht => hok.tips p ht⟩
  rcases hok.shr p with e | ⟨_, hi⟩
  · exact e
  · exfalso
    obtain ⟨_, _, _, _⟩ := hi
    rcases hbd with _ | _ | _ | _ <;> omega

/-- C41: thinning a thinned image changes nothing. For Lam-Lee-Suen this needs the byte past the lookup array to depend only on
the image and the place (the property asks for it without condition). -/
theorem thins_again_partial (b : Build) (mode : Mode) (hb : mode = .lamLeeSuen → Steady b) (rows cols : Nat) (f out : Img)
    (h : Thins b mode rows cols f out) : Thins b mode rows cols out out := by
  have main : ∀ b, Steady b → Thins b mode rows cols f out → Thins b mode rows cols out out := by
    intro b hb h
    have hfix := thins_fixed b hb mode rows cols f out h
    obtain ⟨hsz, -⟩ := thins_size h
    have hself : same rows cols out out = true := (same_iff rows cols out out).2 fun _ _ _ _ => rfl
    refine ⟨2, ?_⟩
    rw [thinning, if_pos hsz, loop, hfix 0]
    cases hs : same rows cols out (fun _ _ => 0) with
    | true => simp only [hs, cond_true]
    | false => simp only [hs, cond_false]; rw [loop, hfix 1]; simp only [hself, cond_true]
  cases mode with
  | lamLeeSuen => exact main b (hb rfl) h
  | zhangSuen => exact thins_zs _ _ _ _ _ _ (main intended steady_intended (thins_zs _ _ _ _ _ _ h))

/-- The rectangle loses pixels in both modes, the tail of the hook survives. -/
example : (∃ out, Thins intended .lamLeeSuen 5 6 exRect out ∧ out 1 1 = 0 ∧ out 2 2 = 1) ∧
    (∃ out, Thins intended .zhangSuen 5 6 exRect out ∧ out 1 1 = 0 ∧ out 2 2 = 1) ∧ Benign (stray true 3) ∧ Steady (stray true 3) := by
  refine ⟨⟨_, thins_result _ _ _ _ 3 _ (by decide +kernel), by decide +kernel, by decide +kernel⟩,
    ⟨_, thins_result _ _ _ _ 3 _ (by decide +kernel), by decide +kernel, by decide +kernel⟩,
    fun _ _ _ _ _ => rfl, fun _ _ _ _ _ => rfl, fun _ _ => rfl⟩

/-- C41 fails in the default mode: whenever some inner set pixel has an unset neighbour below right, the lookup array of eight
elements is read at index eight, whichever way the file is compiled. -/
theorem lamLeeSuen_out_of_bounds_refuted (fixed : Bool) (rows cols : Nat) (f : Img) (y x : Nat) (hr : rows > 3) (hc : cols > 3)
    (hy : 1 ≤ y ∧ y + 1 < rows) (hx : 1 ≤ x ∧ x + 1 < cols) (hset : f y x ≠ 0) (hse : f (y + 1) (x + 1) = 0) (fuel : Nat) :
    thinning (strict fixed) .lamLeeSuen rows cols (fuel + 1) f = some .undefined := by
  rw [thinning, if_pos ⟨hr, hc⟩, loop]
  have : round (strict fixed) .lamLeeSuen rows cols 0 f = none := by
    simp only [round, llsPass]
    have := llsFold_strict fixed false (y, x) (interior rows cols) (interior_mem rows cols (y, x) ⟨hy.1, hy.2, hx.1, hx.2⟩)
      f hset hse
    simp only [strict]
    rw [this]; rfl
  rw [this]

example : exHook 1 3 ≠ 0 ∧ exHook (1 + 1) (3 + 1) = 0 := by decide

/-- C41 fails in the default mode: the result depends on what happens to lie past the lookup array. -/
theorem lamLeeSuen_stray_refuted : ∃ o0 o1, Thins (stray false 0) .lamLeeSuen 5 6 exRect o0 ∧
    Thins (stray false 1) .lamLeeSuen 5 6 exRect o1 ∧ o0 3 1 ≠ o1 3 1 :=
  ⟨_, _, thins_result _ _ _ _ 3 _ (by decide +kernel), thins_result _ _ _ _ 3 _ (by decide +kernel), by decide +kernel⟩

/-- With the lines meant to repair the index compiled in (as under MSVC) and the intended byte past the array, Lam-Lee-Suen
thinning returns every image unchanged: all counters are doubled. -/
theorem lamLeeSuen_fixed_refuted (rows cols : Nat) (hr : rows > 3) (hc : cols > 3) (f : Img) :
    Thins ⟨true, intended.oob⟩ .lamLeeSuen rows cols f f := by
  have hb : Benign ⟨true, intended.oob⟩ := fun _ _ _ _ _ => rfl
  have hround : ∀ n g k, round ⟨true, intended.oob⟩ .lamLeeSuen rows cols n g = some k → g = k := by
    intro n
    refine round_rel (fun g k => g = k) (fun _ => rfl) (fun _ _ _ => Eq.trans) _ rows cols n ?_
    intro it g k p _ hs
    rcases llsPixel_cases _ _ _ g k p (g (p.1 + 1) p.2) rfl hs with e | ⟨_, _, h⟩
    · exact e.symm
    · exfalso
      simp only [llsB, cond_true, Bool.and_eq_true, decide_eq_true_eq] at h
      have h1 := h.1.1.1
      have : bits g p 0 = (g (p.1 + 1) p.2 != 0) := rfl
      rw [this] at h1
      omega
  obtain ⟨out, h⟩ := thinning_terminates ⟨true, intended.oob⟩ .lamLeeSuen (fun _ => hb) rows cols hr hc f
  obtain ⟨_, fuel, h'⟩ := thins_size h
  have := (loop_inv _ hb _ rows cols (fun g k => g = k) (fun _ => rfl) (fun _ _ _ => Eq.trans) hround fuel 0 _ f out h').1
  rw [← this] at h
  exact h

/-! ## C73 -/

/-- C73: when the byte read past the array is the one the algorithm intends, Lam-Lee-Suen thinning neither splits, joins nor
erases connected components. -/
theorem lamLeeSuen_components_partial (rows cols : Nat) (f out : Img) (h : Thins intended .lamLeeSuen rows cols f out) :
    SameComponents rows cols f out := by
  obtain ⟨_, fuel, h⟩ := thins_size h
  exact (loop_inv intended benign_intended _ rows cols _ (SameComponents.refl rows cols) (fun _ _ _ => SameComponents.trans)
    (round_components rows cols) fuel 0 _ f out h).1

example : ∃ out, Thins intended .lamLeeSuen 5 5 exHook out ∧ out 1 3 = 1 ∧ out 2 2 = 1 ∧ out 3 2 = 1 :=
  ⟨_, thins_result _ _ _ _ 3 _ (by decide +kernel), by decide +kernel, by decide +kernel, by decide +kernel⟩

/-- C73 fails in Zhang-Suen mode: a 2x2 square disappears. -/
theorem zhangSuen_components_refuted (b : Build) : ∃ out, Thins b .zhangSuen 4 4 exSquare out ∧
    IsSet 4 4 exSquare (1, 1) ∧ (∀ p, ¬IsSet 4 4 out p) ∧ ¬SameComponents 4 4 exSquare out := by
  have hset : IsSet 4 4 exSquare (1, 1) := ⟨by decide, by decide, by decide⟩
  have h : ∃ out, Thins b .zhangSuen 4 4 exSquare out ∧ ∀ y, y < 4 → ∀ x, x < 4 → out y x = 0 :=
    ⟨_, thins_zs intended b _ _ _ _ (thins_result _ _ _ _ 3 _ (by decide +kernel)), by decide +kernel⟩
  obtain ⟨out, ho, hz⟩ := h
  have hno : ∀ p, ¬IsSet 4 4 out p := fun p hp => hp.2.2 (hz p.1 hp.1 p.2 hp.2.1)
  exact ⟨out, ho, hset, hno, fun hs => by
    obtain ⟨q, hq, _⟩ := hs.inhabited _ hset
    exact hno q hq⟩

/-- C73 fails in the default mode when the byte past the array is zero: the end of the hook is cut off. -/
theorem lamLeeSuen_components_refuted : ∃ out, Thins (stray false 0) .lamLeeSuen 5 5 exHook out ∧
    Linked 5 5 exHook (1, 3) (3, 2) ∧ IsSet 5 5 out (1, 3) ∧ IsSet 5 5 out (3, 2) ∧ ¬SameComponents 5 5 exHook out := by
  have h : ∃ out, Thins (stray false 0) .lamLeeSuen 5 5 exHook out ∧
      (∀ y x : Fin 5, out y x = 0 ∨ (y.val = 1 ∧ x.val = 3) ∨ (2 ≤ y.val ∧ x.val ≤ 2 ∧ ¬(y.val = 2 ∧ x.val = 2))) ∧ out 1 3 ≠ 0 ∧ out 3 2 ≠ 0 :=
    ⟨_, thins_result _ _ _ _ 3 _ (by decide +kernel), by decide +kernel, by decide +kernel, by decide +kernel⟩
  obtain ⟨out, ho, hz, h13, h32⟩ := h
  have hl : Linked 5 5 exHook (1, 3) (3, 2) := by
    refine ⟨⟨by decide, by decide, by decide⟩, ?_⟩
    exact (Relation.ReflTransGen.single (b := (2, 2)) ⟨by unfold Adj; decide, by unfold IsSet; decide⟩).tail
      ⟨by unfold Adj; decide, by unfold IsSet; decide⟩
  have s1 : IsSet 5 5 out (1, 3) := ⟨by decide, by decide, h13⟩
  have s2 : IsSet 5 5 out (3, 2) := ⟨by decide, by decide, h32⟩
  refine ⟨out, ho, hl, s1, s2, fun hs => ?_⟩
  have hp := ((hs.linked _ _ s1 s2).2 hl).2
  have key : ∀ d, Relation.ReflTransGen (fun a b => Adj a b ∧ IsSet 5 5 out b) (1, 3) d → d = (1, 3) := by
    intro d hd
    induction hd with
    | refl => rfl
    | @tail c d _ hs ih =>
      subst ih
      rcases hz ⟨d.1, hs.2.1⟩ ⟨d.2, hs.2.2.1⟩ with e | e | ⟨h1, h2, h3⟩
      · exact absurd e hs.2.2.2
      · exact Prod.ext e.1 e.2
      · exfalso
        obtain ⟨-, a, a', c, c'⟩ := hs.1
        simp only at a a' c c' h1 h2 h3
        omega
  have := key _ hp
  simp at this

/-! ## C74 -/

/-- C74: in the result of Zhang-Suen thinning no inner pixel satisfies the published removal conditions of either sub-iteration. -/
theorem zhangSuen_thinned (b : Build) (rows cols : Nat) (f out : Img) (h : Thins b .zhangSuen rows cols f out) (second : Bool)
    (y x : Nat) (hy : 1 ≤ y ∧ y + 1 < rows) (hx : 1 ≤ x ∧ x + 1 < cols) (hset : out y x ≠ 0) :
    ¬ZhangSuenRemoves second (ring out y x) :=
  zsPass_fix rows cols second out
    (round_zs_fix intended rows cols 0 out (thins_fixed intended steady_intended _ rows cols f out (thins_zs _ _ _ _ _ _ h) 0) second)
    (y, x) ⟨hy.1, hy.2, hx.1, hx.2⟩ hset

/-- C74: the same for Lam-Lee-Suen when the byte read past the array is the intended one. -/
theorem lamLeeSuen_thinned_partial (rows cols : Nat) (f out : Img) (h : Thins intended .lamLeeSuen rows cols f out) (second : Bool)
    (y x : Nat) (hy : 1 ≤ y ∧ y + 1 < rows) (hx : 1 ≤ x ∧ x + 1 < cols) (hset : out y x ≠ 0) :
    ¬LamLeeSuenRemoves second (ring out y x) :=
  llsPass_fix rows cols second out
    (round_lls_fix rows cols 0 out (thins_fixed intended steady_intended _ rows cols f out h 0) second)
    (y, x) ⟨hy.1, hy.2, hx.1, hx.2⟩ hset

/-- C74: every pixel cleared by a pass of Zhang-Suen satisfied the published conditions, judged on the image before the pass. -/
theorem zhangSuen_pass_exact (rows cols : Nat) (second : Bool) (f : Img) (y x : Nat) (hset : f y x ≠ 0) :
    zsPass rows cols second f y x = 0 ↔
      ((1 ≤ y ∧ y + 1 < rows) ∧ (1 ≤ x ∧ x + 1 < cols) ∧ ZhangSuenRemoves second (ring f y x)) := by
  rw [zsPass_apply, zsAt_bits]
  constructor
  · intro h
    split at h
    · rename_i hc
      refine ⟨by omega, by omega, ?_⟩
      have := ring_bits f (y, x)
      dsimp only at this
      rw [this]
      exact ring_zsB second _ _ _ _ _ _ _ _ (by rw [vec_eta]; exact hc.2.2.2.2)
    · exact absurd h hset
  · rintro ⟨_, _, h⟩
    rw [if_pos ⟨by omega, by omega, by omega, by omega, zsB_of_removes second f (y, x) h⟩]

/-- C74: visiting a set pixel, Lam-Lee-Suen with the intended byte clears it exactly when the published conditions hold for the
image at that moment, and touches no other pixel. -/
theorem lamLeeSuen_pixel_exact (second : Bool) (f : Img) (y x : Nat) (hset : f y x ≠ 0) :
    ∃ g, llsPixel false second (intended.oob 0 second) f (y, x) = some g ∧
      (g y x = 0 ↔ LamLeeSuenRemoves second (ring f y x)) ∧ ∀ y' x', (y', x') ≠ (y, x) → g y' x' = f y' x' := by
  rw [llsPixel, if_neg hset]
  have e : intended.oob 0 second f (y, x).1 (y, x).2 = some (f (y + 1) x) := rfl
  rw [e, llsDecide_some, Option.map_some]
  refine ⟨_, rfl, ⟨fun h => ?_, fun h => ?_⟩, fun y' x' hne => ?_⟩
  · split at h
    · rename_i hb
      have := ring_bits f (y, x)
      dsimp only at this
      rw [this]
      exact ring_llsB second _ _ _ _ _ _ _ _ (by rw [vec_eta]; exact hb)
    · exact absurd h hset
  · have : llsB false second (bits f (y, x)) (f (y + 1) x != 0) = true := llsB_of_removes second f (y, x) h
    rw [if_pos this]
    simp [set]
  · have := set_apply f (y, x) (y', x') 0
    rw [if_neg hne] at this
    split
    · exact this
    · rfl

example : ZhangSuenRemoves false (ring exRect 1 1) ∧ ¬ZhangSuenRemoves false (ring exRect 2 2) ∧
    LamLeeSuenRemoves true (ring exRect 1 2) ∧ ¬LamLeeSuenRemoves true (ring exRect 2 2) := by decide +kernel

end Litiv.Thinning
