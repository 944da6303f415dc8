import Verif.Lemmas.Pbas

/-!
# Property C90: the adaptive feedback of PBAS

`session rd K P zero rnd mean img fs` is a history: initialization with an image, then frames, with an arbitrary stream `rnd` of
random numbers; `mean` is 20 for a new object. `float32` is the rounding of single precision. The theorems hold for all image
sizes, sample counts, histories and streams, and for both variants (`kind1`, `kind3`).
-/

namespace Litiv.Pbas
open Consensus Consensus.Spec IEEE Spec
open SubSense (rd0 rd1 rd_nonneg rd_le_one one_le_rd rd_le_nat)

section
variable {V : Type} {rd : ℚ → ℚ}

/-! ## The two variants -/

theorem kind1_good (rd : ℚ → ℚ) : (kind1 rd).Good where
  col0 := fun a b => by show (0 : ℚ) ≤ ((_ : Nat) : ℚ); positivity
  grd0 := fun a b => by show (0 : ℚ) ≤ ((_ : Nat) : ℚ); positivity
  colSelf := fun a => by show (((Bits.l1distU a.1 a.1).toNat : Nat) : ℚ) = 0; rw [Bits.l1distU_eq]; simp [Bits.Spec.dist]
  grdSelf := fun a => by show (((Bits.l1distU a.2 a.2).toNat : Nat) : ℚ) = 0; rw [Bits.l1distU_eq]; simp [Bits.Spec.dist]

/-- What the three-channel variant needs of the square root: exact on squares, monotone. -/
structure Root (sq : Nat → ℚ) : Prop where
  exact : ∀ n, sq (n * n) = n
  mono : ∀ a b, a ≤ b → sq a ≤ sq b

/-- The integer part of the root is one such function; the rounded root is another. -/
example : Root (fun n => (Nat.sqrt n : ℚ)) :=
  ⟨fun n => by simp only [Nat.sqrt_eq], fun a b h => by exact_mod_cast Nat.sqrt_le_sqrt h⟩

theorem kind3_good (rd : ℚ → ℚ) {sq : Nat → ℚ} (h : Root sq) : (kind3 rd sq).Good := by
  have h0 : sq 0 = 0 := by simpa using h.exact 0
  have hz : ∀ v : Col, (Bits.l2sqrdistArr8 16 v.toList v.toList).toNat = 0 := by
    intro v
    obtain ⟨a, b, c⟩ := v
    simp [Bits.l2sqrdistArr8, Col.toList, Bits.l2sqrdistU]
  refine ⟨fun a b => ?_, fun a b => ?_, fun a => ?_, fun a => ?_⟩
  · exact h0 ▸ h.mono 0 _ (Nat.zero_le _)
  · exact h0 ▸ h.mono 0 _ (Nat.zero_le _)
  · show sq _ = 0; rw [hz]; exact h0
  · show sq _ = 0; rw [hz]; exact h0

/-- C90: the distances of the single-channel variant are absolute differences. -/
theorem distances1 (rd : ℚ → ℚ) (u v : BitVec 8 × BitVec 8) :
    (kind1 rd).col u v = ((((u.1.toNat : Int) - v.1.toNat).natAbs : Nat) : ℚ) ∧
    (kind1 rd).grd u v = ((((u.2.toNat : Int) - v.2.toNat).natAbs : Nat) : ℚ) := by
  constructor
  · show (((Bits.l1distU u.1 v.1).toNat : Nat) : ℚ) = _
    rw [Bits.l1distU_eq, Bits.Spec.dist]
    congr 1
    omega
  · show (((Bits.l1distU u.2 v.2).toNat : Nat) : ℚ) = _
    rw [Bits.l1distU_eq, Bits.Spec.dist]
    congr 1
    omega

theorem l2sqr_eq (u v : Col) : (Bits.l2sqrdistArr8 16 u.toList v.toList).toNat = sqDist u v % 2 ^ 16 := by
  have key : ∀ a b : BitVec 8, ((Bits.l2sqrdistU a b).getD 0) = BitVec.ofNat 16 (((a.toNat : Int) - b.toNat).natAbs ^ 2) := by
    intro a b
    obtain ⟨r, h1, h2, -⟩ := Bits.l2sqrdist8_spec a b
    rw [h1]
    apply BitVec.eq_of_toNat_eq
    have e : Bits.Spec.dist a.toNat b.toNat = ((a.toNat : Int) - b.toNat).natAbs := by rw [Bits.Spec.dist]; omega
    have hr : r.toNat < 2 ^ 16 := r.isLt
    rw [BitVec.toNat_ofNat, ← e, ← h2]
    exact (Nat.mod_eq_of_lt hr).symm
  unfold Bits.l2sqrdistArr8 Col.toList sqDist
  simp only [List.zip_cons_cons, List.foldl_cons, List.foldl_nil, List.zip_nil_right, key]
  simp

/-- C90 (part): the distances of the three-channel variant are Euclidean (rounded square roots) when the squared distance fits
in 16 bits. Missing: larger ones, `far_colour_refuted`. -/
theorem distances3_partial (rd : ℚ → ℚ) (sq : Nat → ℚ) (u v : Col × Col) (h1 : sqDist u.1 v.1 < 2 ^ 16) (h2 : sqDist u.2 v.2 < 2 ^ 16) :
    (kind3 rd sq).col u v = sq (sqDist u.1 v.1) ∧ (kind3 rd sq).grd u v = sq (sqDist u.2 v.2) := by
  constructor
  · show sq _ = _
    rw [l2sqr_eq, Nat.mod_eq_of_lt h1]
  · show sq _ = _
    rw [l2sqr_eq, Nat.mod_eq_of_lt h2]

example : sqDist (200, 100, 50) (100, 200, 0) < 2 ^ 16 := by decide

/-- A learning rate override is positive (otherwise it is ignored by `apply`). -/
def Overrides (fs : List (Input V)) : Prop := ∀ f ∈ fs, ∀ r, f.over = some r → 0 < r

/-! ## Histories -/

variable (H : Rounds rd) (K : Kind V) (hK : K.Good) (P : Par) (hP : P.Valid rd) (zero : V) (rnd : Nat → Nat)

include H hK hP in
theorem apply_ok (s : Hist V) (hs : HistOk rd P s) (f : Input V) (ho : ∀ r, f.over = some r → 0 < r) :
    ∃ bm jj md st, LInv rd K P rnd s f bm jj md (raster P.c.h P.c.w) st ∧
      apply rd K P rnd s f = some ⟨st.core.model, st.core.k, st.ad, max (rd (K.fin st.tot / rd st.bad)) 20, s.masks ++ [st.core.mask]⟩ ∧
      Consensus.apply P.c rnd (frameOf rd K P s.mean s.ad f) (raster P.c.h P.c.w) s.model s.k = some st.core := by
  obtain ⟨bm, jj, md, st, I⟩ := loop_inv K P rnd H hK hP s hs f ho
  refine ⟨bm, jj, md, st, I, ?_, ?_⟩
  · unfold apply
    rw [I.run]
  · have := refine_fold (rd := rd) K P rnd s.mean f s.ad (raster P.c.h P.c.w) ⟨⟨s.model, fun _ _ => 0, s.k⟩, s.ad, 0, 1⟩ (raster_nodup _ _) (fun _ _ => rfl)
    have hrun := I.run
    unfold pixels at hrun
    rw [hrun] at this
    exact this.symm

include H hK hP in
theorem session_ind (mean : ℚ) (hm : 20 ≤ mean) (img : Nat → Nat → V) (fs : List (Input V)) (ho : Overrides fs)
    (Q : List (Input V) → Hist V → Prop)
    (h0 : ∀ m k, initModel P.c zero rnd img = some (m, k) → Q [] ⟨m, k, fun _ _ => ⟨1, P.rate0, 0⟩, mean, []⟩)
    (hs : ∀ pre f s st, f ∈ fs → Q pre s → HistOk rd P s →
      Consensus.apply P.c rnd (frameOf rd K P s.mean s.ad f) (raster P.c.h P.c.w) s.model s.k = some st →
      ∀ ad mn, Q (pre ++ [f]) ⟨st.model, st.k, ad, mn, s.masks ++ [st.mask]⟩) :
    ∃ s, session rd K P zero rnd mean img fs = some s ∧ HistOk rd P s ∧ Q fs s := by
  obtain ⟨s0, e0, hok, hm0, -⟩ := init_spec P rnd H hP zero hm img
  have e1 : s0 = ⟨s0.model, s0.k, fun _ _ => ⟨1, P.rate0, 0⟩, mean, []⟩ := by
    unfold init at e0
    rw [hm0] at e0
    injection e0 with e0
    rw [← e0]
  obtain ⟨s, e, hs', hq⟩ := foldlM_inv (apply rd K P rnd) fs (fun pre s => HistOk rd P s ∧ Q pre s)
    (fun pre f post s hl hacc => by
      have hf : f ∈ fs := by rw [hl]; simp
      obtain ⟨bm, jj, md, st, I, ea, ec⟩ := apply_ok H K hK P hP rnd s hacc.1 f (ho f hf)
      exact ⟨_, ea, ⟨I.ok, le_max_right _ _⟩, hs pre f s st.core hf hacc.2 hacc.1 ec _ _⟩)
    s0 ⟨hok, by rw [e1]; exact h0 _ _ hm0⟩
  refine ⟨s, ?_, hs', hq⟩
  unfold session
  rw [e0]
  exact e

include H hK hP in
theorem session_ok (mean : ℚ) (hm : 20 ≤ mean) (img : Nat → Nat → V) (fs : List (Input V)) (ho : Overrides fs) (s : Hist V)
    (e : session rd K P zero rnd mean img fs = some s) : HistOk rd P s := by
  obtain ⟨s', e', h, -⟩ := session_ind H K hK P hP zero rnd mean hm img fs ho (fun _ _ => True) (fun _ _ _ => trivial)
    (fun _ _ _ _ _ _ _ _ _ _ => trivial)
  rw [e] at e'
  injection e' with e'
  rw [e']
  exact h

end

/-- C90: after initialization, before any frame, every pixel has threshold factor 1, the initial learning rate and running mean
distance 0; the mean gradient distance is the one before the call, and no mask has been produced. -/
theorem initial_values {V : Type} {rd : ℚ → ℚ} (H : Rounds rd) (K : Kind V) (hK : K.Good) (P : Par) (hP : P.Valid rd) (zero : V)
    (rnd : Nat → Nat) (mean : ℚ) (hm : 20 ≤ mean) (img : Nat → Nat → V) :
    ∃ s, session rd K P zero rnd mean img [] = some s ∧ (∀ y x, s.ad y x = ⟨1, P.rate0, 0⟩) ∧ s.mean = mean ∧ s.masks = [] := by
  obtain ⟨s, e, -, h⟩ := session_ind H K hK P hP zero rnd mean hm img [] (fun _ h => by simp at h)
    (fun pre s => pre = [] → (∀ y x, s.ad y x = ⟨1, P.rate0, 0⟩) ∧ s.mean = mean ∧ s.masks = [])
    (fun _ _ _ _ => ⟨fun _ _ => rfl, rfl, rfl⟩) (fun _ _ _ _ h _ _ _ => by simp at h)
  exact ⟨s, e, h rfl⟩

theorem lo_val : (569999 : ℚ) / 1000000 ≤ loR float32 := by decide +kernel
theorem hi_val : hiR float32 ≤ (588 : ℚ) / 100 := by decide +kernel

/-- C90: every history runs to its end (no access out of range, no remainder by zero), gives one mask per frame, and leaves the
adaptive values of every pixel in range: running mean of minimal distances between 0 and 1; distance threshold factor between
0.569999 and 5.88 (so that its upper limit of 99 is never reached); learning rate between the smaller of the initial rate and 2,
and the larger of the initial rate and 200; mean gradient distance at least 20. -/
theorem ranges {V : Type} (K : Kind V) (hK : K.Good) (P : Par) (hP : P.Valid float32) (zero : V) (rnd : Nat → Nat) (img : Nat → Nat → V)
    (fs : List (Input V)) (ho : Overrides fs) :
    ∃ s, session float32 K P zero rnd 20 img fs = some s ∧ s.masks.length = fs.length ∧ 20 ≤ s.mean ∧
      ∀ y x, (0 ≤ (s.ad y x).D ∧ (s.ad y x).D ≤ 1) ∧ (569999 / 1000000 ≤ (s.ad y x).R ∧ (s.ad y x).R ≤ 588 / 100) ∧
        (min P.rate0 2 ≤ (s.ad y x).T ∧ (s.ad y x).T ≤ max P.rate0 200) := by
  obtain ⟨s, e, h, hl⟩ := session_ind float32_rounds K hK P hP zero rnd 20 (le_refl _) img fs ho (fun pre s => s.masks.length = pre.length)
    (fun _ _ _ => rfl) (fun pre f s st _ hq _ _ ad mn => by simp [hq])
  refine ⟨s, e, hl, h.mean, fun y x => ?_⟩
  have o := h.ok y x
  exact ⟨⟨o.d0, o.d1⟩, ⟨lo_val.trans o.r0, o.r1.trans hi_val⟩, o.tlo, o.thi⟩

/-- The default parameters (`BackgroundSubtractorPBAS.hpp:48-55`) are valid. -/
example : Par.Valid float32 ⟨⟨240, 320, 35, 2, 0⟩, 30, 16⟩ :=
  ⟨rfl, by decide, by decide, by decide, by decide, by decide, by norm_num, by norm_num, by decide +kernel⟩

/-- A session without frames on an image of one pixel. -/
example : (session float32 (kind1 float32) ⟨⟨1, 1, 2, 1, 0⟩, 30, 16⟩ (0, 0) (fun k => k) 20 (fun _ _ => (100, 10)) []).map
    (fun s => (s.masks.length, s.ad 0 0, s.mean)) = some (0, ⟨1, 16, 0⟩, 20) := by decide +kernel

/-- A foreground frame, then a background frame, on an image of one pixel. -/
example : (session float32 (kind1 float32) ⟨⟨1, 1, 2, 1, 0⟩, 30, 16⟩ (0, 0) (fun k => k) 20 (fun _ _ => (100, 10))
      [⟨fun _ _ => (200, 50), none⟩, ⟨fun _ _ => (105, 10), some (1 / 2)⟩]).map
    (fun s => (s.masks.map fun m => m 0 0, s.ad 0 0, s.mean)) =
    some ([255, 0], ⟨9248439 / 8388608, 4196149 / 262144, 8717573 / 33554432⟩, 20) := by decide +kernel

/-- C90: after any history, every stored sample was observed: in the initialization image at most 3 rows and columns away, or in a
later frame at this very pixel. -/
theorem samples_observed {V : Type} (K : Kind V) (hK : K.Good) (P : Par) (hP : P.Valid float32) (zero : V) (rnd : Nat → Nat)
    (img : Nat → Nat → V) (fs : List (Input V)) (ho : Overrides fs) :
    ∃ s, session float32 K P zero rnd 20 img fs = some s ∧ ∀ i < P.c.n, ∀ y < P.c.h, ∀ x < P.c.w,
      (∃ q, InImg P.c.h P.c.w q ∧ Near 3 (y, x) q ∧ s.model i y x = img q.1 q.2) ∨ (∃ f ∈ fs, s.model i y x = f.img y x) := by
  have hpx : ∀ p ∈ raster P.c.h P.c.w, Inner P.c.b P.c.h P.c.w p := fun p hp => by rw [hP.b0, inner_iff]; exact (raster_mem _ _ _).1 hp
  obtain ⟨s, e, -, h⟩ := session_ind float32_rounds K hK P hP zero rnd 20 (le_refl _) img fs ho
    (fun pre s => ∀ i < P.c.n, ∀ y < P.c.h, ∀ x < P.c.w,
      (∃ q, InImg P.c.h P.c.w q ∧ Near 3 (y, x) q ∧ s.model i y x = img q.1 q.2) ∨ (∃ f ∈ pre, s.model i y x = f.img y x))
    (fun m k hm i hi y hy x hx => by
      obtain ⟨m', e, hm'⟩ := initModel_spec P.c hP.b0 hP.h0 hP.w0 zero rnd img
      rw [hm] at e
      injection e with e
      injection e with e
      rw [e]
      exact Or.inl (hm' i hi y hy x hx))
    (fun pre f s st hf hq hok hst ad mn i hi y hy x hx => by
      have hb := hP.b0
      have hh := hP.h0
      have hw := hP.w0
      obtain ⟨st', e', I, -⟩ := apply_inv P.c (by omega) (by omega) rnd (frameOf float32 K P s.mean s.ad f) (raster P.c.h P.c.w) hpx (raster_nodup _ _)
        (fun p _ => learnRate_pos (ho f hf) (rate_pos hP.rpos (hok.ok p.1 p.2))) hP.n0 s.model s.k
      rw [hst] at e'
      injection e' with e'
      subst e'
      rcases I.samples i y x with h | ⟨p, -, -, -, -, h⟩
      · dsimp only
        rw [h]
        rcases hq i hi y hy x hx with h | ⟨g, hg, h⟩
        · exact Or.inl h
        · exact Or.inr ⟨g, by simp [hg], h⟩
      · right
        refine ⟨f, by simp, ?_⟩
        simpa [frameOf, pbas] using h)
  exact ⟨s, e, h⟩

/-! ## One frame of a history -/

/-- C90: what one frame does, at any point of any history. The samples of a pixel are compared, in order, as they stand when the
pixel is reached (`bm`, after the pixels before it in row-major order), at distance "gradient distance times ten over the mean
gradient distance, plus colour distance, at most 255", with the pixel's threshold "factor times the default threshold" as of the
frame's start. The pixel is 255 in the mask when fewer than the required number are within the threshold, 0 otherwise. With `md`
the smallest distance met within the threshold, the running mean of the pixel absorbs `md/255` with weight one over the number of
samples; then the rate rises for foreground and falls for background, and the threshold factor follows the running mean. -/
theorem pixel_update {V : Type} {rd : ℚ → ℚ} (H : Rounds rd) (K : Kind V) (hK : K.Good) (P : Par) (hP : P.Valid rd) (zero : V) (rnd : Nat → Nat)
    (mean : ℚ) (hm : 20 ≤ mean) (img : Nat → Nat → V) (fs : List (Input V)) (ho : Overrides fs) (s : Hist V)
    (hs : session rd K P zero rnd mean img fs = some s) (f : Input V) (hf : ∀ r, f.over = some r → 0 < r) :
    ∃ s' mask, apply rd K P rnd s f = some s' ∧ s'.masks = s.masks ++ [mask] ∧
      ∀ pre y x post, raster P.c.h P.c.w = pre ++ (y, x) :: post →
        ∃ before j md, pixels rd K P rnd s f pre = some before ∧
          let d := fun i => min (rd (rd (rd (10 / s.mean) * K.grd (f.img y x) (before.core.model i y x)) +
            K.col (f.img y x) (before.core.model i y x))) 255
          let thr := rd ((s.ad y x).R * rd P.thr)
          let fg := count P.c.n (fun i => decide (d i ≤ thr)) < P.c.req
          let D := rd (rd (rd ((s.ad y x).D * rd ((P.c.n - 1 : Nat) : ℚ)) + rd (md / 255)) / rd P.c.n)
          Searched P.c.n P.c.req d thr j md ∧
          mask y x = (if fg then 255 else 0) ∧
          (s'.ad y x).D = D ∧
          (s'.ad y x).T = (if fg then min (rd ((s.ad y x).T + rd (1 / rd (rd (D * 255) + 1)))) 200
            else max (rd ((s.ad y x).T - rd (rd (1 / 20) / rd (rd (D * 255) + 1)))) 2) ∧
          (s'.ad y x).R = (if (s.ad y x).R < rd (rd (3 / 5) + rd (D * 5)) then rd ((s.ad y x).R * rd (21 / 20))
            else if (s.ad y x).R > rd (3 / 5) then rd ((s.ad y x).R * rd (19 / 20)) else (s.ad y x).R) := by
  have hok := session_ok H K hK P hP zero rnd mean hm img fs ho s hs
  obtain ⟨bm, jj, md, st, I, ea, ec⟩ := apply_ok H K hK P hP rnd s hok f hf
  have hpx : ∀ p ∈ raster P.c.h P.c.w, Inner P.c.b P.c.h P.c.w p := fun p hp => by rw [hP.b0, inner_iff]; exact (raster_mem _ _ _).1 hp
  have hb := hP.b0
  have hh := hP.h0
  have hw := hP.w0
  refine ⟨_, st.core.mask, ea, rfl, fun pre y x post hsp => ?_⟩
  obtain ⟨⟨before, hbr, hbm⟩, hS, hA⟩ := I.each pre y x post hsp
  obtain ⟨st', e', -, hM⟩ := apply_inv P.c (by omega) (by omega) rnd (frameOf rd K P s.mean s.ad f) (raster P.c.h P.c.w) hpx (raster_nodup _ _)
    (fun p _ => learnRate_pos hf (rate_pos hP.rpos (hok.ok p.1 p.2))) hP.n0 s.model s.k
  rw [ec] at e'
  injection e' with e'
  subst e'
  obtain ⟨b2, hb2, hmk⟩ := hM pre (y, x) post hsp
  have hnd := raster_nodup P.c.h P.c.w
  rw [hsp] at hnd
  have := refine_fold (rd := rd) K P rnd s.mean f s.ad pre ⟨⟨s.model, fun _ _ => 0, s.k⟩, s.ad, 0, 1⟩ (List.nodup_append.1 hnd).1 (fun _ _ => rfl)
  unfold pixels at hbr
  rw [hbr] at this
  rw [Consensus.apply, ← this] at hb2
  injection hb2 with hb2
  refine ⟨before, jj (y, x), md (y, x), hbr, ?_⟩
  rw [hbm] at hS hA
  dsimp only
  refine ⟨hS, ?_, ?_, ?_, ?_⟩
  · rw [hmk, ← hb2]; rfl
  · rw [hA]; rfl
  · rw [hA]
    unfold newAd
    dsimp only
    have e1 : ∀ T D, rateUp rd T D = min (rd (T + rd (1 / rd (rd (D * 255) + 1)))) 200 := by
      intro T D
      unfold rateUp
      dsimp only
      split
      · rw [min_eq_right (by linarith)]
      · rw [min_eq_left (by linarith)]
    have e2 : ∀ T D, rateDown rd T D = max (rd (T - rd (rd (1 / 20) / rd (rd (D * 255) + 1)))) 2 := by
      intro T D
      unfold rateDown
      dsimp only
      split
      · rw [max_eq_right (by linarith)]
      · rw [max_eq_left (by linarith)]
    rw [e1, e2]
    simp only [decide_eq_true_eq]
    rfl
  · rw [hA]
    unfold newAd
    have hR : (s.ad y x).R < 99 := by
      refine lt_of_le_of_lt (hok.ok y x).r1 ?_
      unfold hiR
      have h1 : rd (rd (3 / 5) + 5) ≤ (6 : Nat) := rd_le_nat H 6 (by norm_num) (by push_cast; linarith [(c06 H).2])
      have h2 : rd (21 / 20) ≤ (2 : Nat) := rd_le_nat H 2 (by norm_num) (by norm_num)
      have h3 := c105 H
      push_cast at h1 h2
      have : rd (rd (rd (3 / 5) + 5) * rd (21 / 20)) ≤ (12 : Nat) := rd_le_nat H 12 (by norm_num) (by push_cast; nlinarith)
      push_cast at this
      linarith
    unfold stepThr
    dsimp only
    rw [if_pos hR, add_zero, H.idem]
    rfl

/-- C90: the mean gradient distance used for the next frame is the mean, over the samples that this frame examined and rejected
(counting one more), of their gradient distances, and at least 20. -/
theorem mean_update {V : Type} {rd : ℚ → ℚ} (H : Rounds rd) (K : Kind V) (hK : K.Good) (P : Par) (hP : P.Valid rd) (zero : V) (rnd : Nat → Nat)
    (mean : ℚ) (hm : 20 ≤ mean) (img : Nat → Nat → V) (fs : List (Input V)) (ho : Overrides fs) (s : Hist V)
    (hs : session rd K P zero rnd mean img fs = some s) (f : Input V) (hf : ∀ r, f.over = some r → 0 < r) :
    ∃ s', apply rd K P rnd s f = some s' ∧ ∃ (bm : Nat × Nat → Model V) (jj : Nat × Nat → Nat) (md : Nat × Nat → ℚ),
      let d := fun (p : Nat × Nat) i => sumDist rd K s.mean (f.img p.1 p.2) (bm p i p.1 p.2)
      let thr := fun p : Nat × Nat => curThr rd P (s.ad p.1 p.2)
      let all := (raster P.c.h P.c.w).flatMap fun p => rejected (d p) (fun i => K.grd (f.img p.1 p.2) (bm p i p.1 p.2)) (thr p) (jj p)
      (∀ pre p post, raster P.c.h P.c.w = pre ++ p :: post → (∃ b, pixels rd K P rnd s f pre = some b ∧ bm p = b.core.model) ∧
        Searched P.c.n P.c.req (d p) (thr p) (jj p) (md p)) ∧
      s'.mean = max (rd (K.fin (all.foldl K.acc 0) / rd ((1 + all.length : Nat) : ℚ))) 20 := by
  have hok := session_ok H K hK P hP zero rnd mean hm img fs ho s hs
  obtain ⟨bm, jj, md, st, I, ea, ec⟩ := apply_ok H K hK P hP rnd s hok f hf
  refine ⟨_, ea, bm, jj, md, fun pre p post hsp => ⟨(I.each pre p.1 p.2 post hsp).1, (I.each pre p.1 p.2 post hsp).2.1⟩, ?_⟩
  dsimp only
  rw [I.tot, I.bad]

/-! ## Directions -/

/-- C90: learning rates move in the documented direction once they are between 2 and 200: foreground never decreases them,
background never increases them; the threshold factor grows by at most 5%, shrinks by at most 5% (rounded). -/
theorem directions {rd : ℚ → ℚ} (H : Rounds rd) (R T D : ℚ) (hD : 0 ≤ D) (hT : rd T = T) (hT2 : 2 ≤ T) (hT200 : T ≤ 200) (hR0 : 0 ≤ R) (hR : rd R = R) :
    (T ≤ rateUp rd T D ∧ rateUp rd T D ≤ 200) ∧ (2 ≤ rateDown rd T D ∧ rateDown rd T D ≤ T) ∧
    (rd (R * rd (19 / 20)) ≤ stepThr rd R D ∧ stepThr rd R D ≤ rd (R * rd (21 / 20))) := by
  obtain ⟨q0, q1⟩ := c95 H
  have q2 := c105 H
  have a1 : rd (R * rd (19 / 20)) ≤ R := by
    have := H.mono (R * rd (19 / 20)) R (by nlinarith)
    rwa [hR] at this
  have a2 : R ≤ rd (R * rd (21 / 20)) := by
    have := H.mono R (R * rd (21 / 20)) (by nlinarith)
    rwa [hR] at this
  refine ⟨⟨?_, rateUp_le _ _⟩, ⟨rateDown_ge _ _, ?_⟩, ?_⟩
  · have := rateUp_mono H hT hD
    rwa [min_eq_left hT200] at this
  · have := rateDown_mono H hT hD
    rwa [max_eq_left hT2] at this
  · unfold stepThr
    split
    · split
      · exact ⟨a1.trans a2, le_refl _⟩
      · exact ⟨a1, a2⟩
    · split
      · exact ⟨le_refl _, a1.trans a2⟩
      · exact ⟨a1, a2⟩

example : rateUp float32 16 (1 / 2) = 524543 / 32768 := by decide +kernel
example : rateDown float32 16 (1 / 2) < 16 ∧ 2 ≤ rateDown float32 16 (1 / 2) := by decide +kernel

/-- C90 fails for initial rates above 200 (up to 255 are accepted): one foreground frame lowers the rate of the pixel, from 255
to 200. It also fails below 2: one background frame raises the rate, from 1 to 2. -/
theorem rate_direction_refuted :
    (∃ s, session float32 (kind1 float32) ⟨⟨1, 1, 1, 1, 0⟩, 30, 255⟩ (0, 0) (fun k => k) 20 (fun _ _ => (0, 0)) [⟨fun _ _ => (200, 0), none⟩] = some s ∧
      s.masks.map (fun m => m 0 0) = [255] ∧ (s.ad 0 0).T = 200) ∧
    (∃ s, session float32 (kind1 float32) ⟨⟨1, 1, 1, 1, 0⟩, 30, 1⟩ (0, 0) (fun k => k) 20 (fun _ _ => (0, 0)) [⟨fun _ _ => (0, 0), none⟩] = some s ∧
      s.masks.map (fun m => m 0 0) = [0] ∧ (s.ad 0 0).T = 2) := by
  refine ⟨?_, ?_⟩
  · have h : (session float32 (kind1 float32) ⟨⟨1, 1, 1, 1, 0⟩, 30, 255⟩ (0, 0) (fun k => k) 20 (fun _ _ => (0, 0)) [⟨fun _ _ => (200, 0), none⟩]).map
        (fun s => (s.masks.map (fun m => m 0 0), (s.ad 0 0).T)) = some ([255], 200) := by decide +kernel
    obtain ⟨s, e, h⟩ := Option.map_eq_some_iff.1 h
    injection h with h1 h2
    exact ⟨s, e, h1, h2⟩
  · have h : (session float32 (kind1 float32) ⟨⟨1, 1, 1, 1, 0⟩, 30, 1⟩ (0, 0) (fun k => k) 20 (fun _ _ => (0, 0)) [⟨fun _ _ => (0, 0), none⟩]).map
        (fun s => (s.masks.map (fun m => m 0 0), (s.ad 0 0).T)) = some ([0], 2) := by decide +kernel
    obtain ⟨s, e, h⟩ := Option.map_eq_some_iff.1 h
    injection h with h1 h2
    exact ⟨s, e, h1, h2⟩

/-! ## Matching -/

/-- C90: a sample equal to the input always matches. -/
theorem self_match {V : Type} {rd : ℚ → ℚ} (H : Rounds rd) (K : Kind V) (hK : K.Good) (P : Par) (hP : P.Valid rd) (zero : V) (rnd : Nat → Nat)
    (mean : ℚ) (hm : 20 ≤ mean) (img : Nat → Nat → V) (fs : List (Input V)) (ho : Overrides fs) (s : Hist V)
    (hs : session rd K P zero rnd mean img fs = some s) (y x : Nat) (v : V) : sumDist rd K s.mean v v ≤ curThr rd P (s.ad y x) := by
  rw [sumDist_self K H hK]
  exact curThr_nonneg P H ((session_ok H K hK P hP zero rnd mean hm img fs ho s hs).ok y x)

/-- A history whose values pairwise match at every point has no foreground. -/
theorem scene_background {V : Type} {rd : ℚ → ℚ} (H : Rounds rd) (K : Kind V) (hK : K.Good) (P : Par) (hP : P.Valid rd) (zero : V) (rnd : Nat → Nat)
    (mean : ℚ) (hm : 20 ≤ mean) (img : Nat → Nat → V) (fs : List (Input V)) (ho : Overrides fs) (S : V → Prop)
    (hi : ∀ y x, InImg P.c.h P.c.w (y, x) → S (img y x)) (hf : ∀ f ∈ fs, ∀ y x, InImg P.c.h P.c.w (y, x) → S (f.img y x))
    (hS : ∀ mean a u v, 20 ≤ mean → Ok rd P.rate0 a → S u → S v → sumDist rd K mean u v ≤ curThr rd P a) :
    ∃ s, session rd K P zero rnd mean img fs = some s ∧ s.masks.length = fs.length ∧
      ∀ mask ∈ s.masks, ∀ y x, InImg P.c.h P.c.w (y, x) → mask y x = 0 := by
  have hpx : ∀ p ∈ raster P.c.h P.c.w, Inner P.c.b P.c.h P.c.w p := fun p hp => by rw [hP.b0, inner_iff]; exact (raster_mem _ _ _).1 hp
  have hb := hP.b0
  have hh := hP.h0
  have hw := hP.w0
  obtain ⟨s, e, -, h⟩ := session_ind H K hK P hP zero rnd mean hm img fs ho
    (fun pre s => (∀ i < P.c.n, ∀ y < P.c.h, ∀ x < P.c.w, S (s.model i y x)) ∧ s.masks.length = pre.length ∧
      ∀ mask ∈ s.masks, ∀ y x, InImg P.c.h P.c.w (y, x) → mask y x = 0)
    (fun m k hm => ⟨fun i hi' y hy x hx => by
      obtain ⟨m', e, hm'⟩ := initModel_spec P.c hP.b0 hP.h0 hP.w0 zero rnd img
      rw [hm] at e
      injection e with e
      injection e with e
      rw [e]
      obtain ⟨q, hq, -, e⟩ := hm' i hi' y hy x hx
      dsimp only
      rw [e]
      exact hi _ _ hq, rfl, fun mask hmask => by simp at hmask⟩)
    (fun pre f s st hff hq hok hst ad mn => by
      obtain ⟨hq1, hq2, hq3⟩ := hq
      have hr : ∀ p ∈ raster P.c.h P.c.w, 0 < (frameOf rd K P s.mean s.ad f).rate p.1 p.2 :=
        fun p _ => learnRate_pos (ho f hff) (rate_pos hP.rpos (hok.ok p.1 p.2))
      obtain ⟨st', e', I, hM⟩ := apply_inv P.c (by omega) (by omega) rnd (frameOf rd K P s.mean s.ad f) (raster P.c.h P.c.w) hpx (raster_nodup _ _)
        hr hP.n0 s.model s.k
      rw [hst] at e'
      injection e' with e'
      subst e'
      have key : ∀ px (st : Consensus.St V), (∀ p ∈ px, InImg P.c.h P.c.w p) → Inv P.c (frameOf rd K P s.mean s.ad f) s.model px st →
          ∀ i < P.c.n, ∀ y < P.c.h, ∀ x < P.c.w, S (st.model i y x) := by
        intro px st hpx I i hi' y hy x hx
        rcases I.samples i y x with h | ⟨p, hp, -, -, -, h⟩
        · rw [h]; exact hq1 i hi' y hy x hx
        · rw [h]; exact hf f hff y x ⟨hy, hx⟩
      refine ⟨key _ st (fun p hp => (raster_mem _ _ _).1 hp) I, by simp [hq2], ?_⟩
      intro mask hmask y x hyx
      rw [List.mem_append, List.mem_singleton] at hmask
      rcases hmask with hmask | rfl
      · exact hq3 mask hmask y x hyx
      · obtain ⟨pre', post, hsp⟩ := List.append_of_mem ((raster_mem P.c.h P.c.w (y, x)).2 hyx)
        obtain ⟨before, hbe, hmk⟩ := hM pre' (y, x) post hsp
        have hpx' : ∀ p ∈ pre', p ∈ raster P.c.h P.c.w := fun p hp => by rw [hsp]; exact List.mem_append_left _ hp
        obtain ⟨b', eb, Ib, -⟩ := apply_inv P.c (by omega) (by omega) rnd (frameOf rd K P s.mean s.ad f) pre' (fun p hp => hpx p (hpx' p hp))
          ((List.nodup_append.1 (hsp ▸ raster_nodup P.c.h P.c.w)).1) (fun p hp => hr p (hpx' p hp)) hP.n0 s.model s.k
        rw [hbe] at eb
        injection eb with eb
        subst eb
        have hall := key pre' before (fun p hp => (raster_mem _ _ _).1 (hpx' p hp)) Ib
        rw [hmk, if_neg]
        have : count P.c.n (fun i => (frameOf rd K P s.mean s.ad f).matched y x (before.model i y x)) = P.c.n := by
          unfold count
          rw [List.filter_eq_self.2, List.length_range]
          intro i hi'
          refine decide_eq_true (hS _ _ _ _ hok.mean (hok.ok y x) (hf f hff y x hyx) (hall i (List.mem_range.1 hi') y hyx.1 x hyx.2))
        rw [this]
        exact Nat.not_lt.2 hP.req)
  exact ⟨s, e, h.2⟩

/-- C90, static scenes: when the initialization image and all frames show the same value everywhere, no pixel is ever foreground. -/
theorem uniform_scene {V : Type} {rd : ℚ → ℚ} (H : Rounds rd) (K : Kind V) (hK : K.Good) (P : Par) (hP : P.Valid rd) (zero : V) (rnd : Nat → Nat)
    (v : V) (fs : List (Input V)) (ho : Overrides fs) (hf : ∀ f ∈ fs, ∀ y x, InImg P.c.h P.c.w (y, x) → f.img y x = v) :
    ∃ s, session rd K P zero rnd 20 (fun _ _ => v) fs = some s ∧ s.masks.length = fs.length ∧
      ∀ mask ∈ s.masks, ∀ y x, InImg P.c.h P.c.w (y, x) → mask y x = 0 :=
  scene_background H K hK P hP zero rnd 20 (le_refl _) _ fs ho (fun w => w = v) (fun _ _ _ => rfl) hf (fun mean a u w hmean ha hu hw => by
    rw [hu, hw, sumDist_self K H hK]
    exact curThr_nonneg P H ha)

theorem halves : ∀ n < 766, float32 ((n : Nat) / 2) = n / 2 := by decide +kernel

/-- C90, quiet scenes (one channel): a single-channel scene in which any two (gray, gradient) values, wherever and whenever they
appear, differ by at most 0.5699 times the default threshold, the gradient counting for half, never has foreground. -/
theorem quiet_scene1 (P : Par) (hP : P.Valid float32) (hthr : P.thr ≤ 2 ^ 24) (zero : BitVec 8 × BitVec 8) (rnd : Nat → Nat)
    (img : Nat → Nat → BitVec 8 × BitVec 8) (fs : List (Input (BitVec 8 × BitVec 8))) (ho : Overrides fs) (S : BitVec 8 × BitVec 8 → Prop)
    (hi : ∀ y x, InImg P.c.h P.c.w (y, x) → S (img y x)) (hf : ∀ f ∈ fs, ∀ y x, InImg P.c.h P.c.w (y, x) → S (f.img y x))
    (hS : ∀ u v, S u → S v → 10000 * (2 * ((u.1.toNat : Int) - v.1.toNat).natAbs + ((u.2.toNat : Int) - v.2.toNat).natAbs) ≤ 11398 * P.thr) :
    ∃ s, session float32 (kind1 float32) P zero rnd 20 img fs = some s ∧ s.masks.length = fs.length ∧
      ∀ mask ∈ s.masks, ∀ y x, InImg P.c.h P.c.w (y, x) → mask y x = 0 := by
  refine scene_background float32_rounds (kind1 float32) (kind1_good _) P hP zero rnd 20 (le_refl _) img fs ho S hi hf ?_
  intro mean a u v hmean ha hu hv
  have H := float32_rounds
  have h := hS u v hu hv
  unfold sumDist curThr
  refine (min_le_left _ _).trans ?_
  rw [H.nat P.thr hthr]
  obtain ⟨hcol, hgrd⟩ := distances1 float32 u v
  rw [hcol, hgrd]
  have b1 := u.1.isLt
  have b2 := v.1.isLt
  have b3 := u.2.isLt
  have b4 := v.2.isLt
  have c1 : ((u.1.toNat : Int) - v.1.toNat).natAbs ≤ 255 := by omega
  have c2 : ((u.2.toNat : Int) - v.2.toNat).natAbs ≤ 255 := by omega
  generalize ((u.1.toNat : Int) - v.1.toNat).natAbs = c at *
  generalize ((u.2.toNat : Int) - v.2.toNat).natAbs = g at *
  have w1 : float32 (10 / mean) ≤ 1 / 2 := by
    have h12 : float32 ((1 : Nat) / 2) = (1 : Nat) / 2 := halves 1 (by norm_num)
    push_cast at h12
    rw [← h12]
    refine H.mono _ _ ?_
    rw [div_le_div_iff₀ (by linarith) (by norm_num)]
    linarith
  have w2 : float32 (float32 (10 / mean) * g) ≤ (g : ℚ) / 2 := by
    rw [← halves g (by omega)]
    refine H.mono _ _ ?_
    have : (0 : ℚ) ≤ g := by positivity
    nlinarith
  have hl : (569999 : ℚ) / 1000000 ≤ a.R := lo_val.trans ha.r0
  have hq : 10000 * (2 * (c : ℚ) + g) ≤ 11398 * P.thr := by exact_mod_cast h
  refine H.mono _ _ ?_
  have ht : (0 : ℚ) ≤ P.thr := by positivity
  have : (569999 : ℚ) / 1000000 * P.thr ≤ a.R * P.thr := mul_le_mul_of_nonneg_right hl ht
  linarith

/-- The default threshold, gray levels between 100 and 108 with gradients between 0 and 16. -/
example : ∃ S : BitVec 8 × BitVec 8 → Prop, (∀ u v, S u → S v → 10000 * (2 * ((u.1.toNat : Int) - v.1.toNat).natAbs +
    ((u.2.toNat : Int) - v.2.toNat).natAbs) ≤ 11398 * 30) ∧ S (100, 16) ∧ S (108, 0) :=
  ⟨fun u => 100 ≤ u.1.toNat ∧ u.1.toNat ≤ 108 ∧ u.2.toNat ≤ 16, fun u v hu hv => by dsimp only at hu hv; omega, by decide, by decide⟩

/-- C90, limit of the method: distances are capped at 255, so with a default threshold of 448 or more every sample matches every
input: nothing is ever foreground, whatever the frames show. -/
theorem blind {V : Type} (K : Kind V) (hK : K.Good) (P : Par) (hP : P.Valid float32) (hthr : 448 ≤ P.thr) (hle : P.thr ≤ 2 ^ 24) (zero : V)
    (rnd : Nat → Nat) (img : Nat → Nat → V) (fs : List (Input V)) (ho : Overrides fs) :
    ∃ s, session float32 K P zero rnd 20 img fs = some s ∧ s.masks.length = fs.length ∧
      ∀ mask ∈ s.masks, ∀ y x, InImg P.c.h P.c.w (y, x) → mask y x = 0 := by
  have H := float32_rounds
  refine scene_background H K hK P hP zero rnd 20 (le_refl _) img fs ho (fun _ => True) (fun _ _ _ => trivial) (fun _ _ _ _ _ => trivial) ?_
  intro mean a u v hmean ha _ _
  refine (min_le_right _ _).trans ?_
  unfold curThr
  rw [H.nat P.thr hle]
  have h255 : float32 ((255 : Nat) : ℚ) = (255 : Nat) := H.nat 255 (by norm_num)
  push_cast at h255
  rw [← h255]
  refine H.mono _ _ ?_
  have hl : (569999 : ℚ) / 1000000 ≤ a.R := lo_val.trans ha.r0
  have ht : (448 : ℚ) ≤ P.thr := by exact_mod_cast hthr
  nlinarith

example : Par.Valid float32 ⟨⟨2, 2, 3, 2, 0⟩, 448, 16⟩ :=
  ⟨rfl, by decide, by decide, by decide, by decide, by decide, by norm_num, by norm_num, by decide +kernel⟩

/-- C90 fails for three channels: the squares are summed in 16 bits, so a black sample is at distance 1 of the colour (255, 16, 16)
and the pixel is background, although its only sample is at distance 256. -/
theorem far_colour_refuted (sq : Nat → ℚ) (h : Root sq) :
    sqDist (255, 16, 16) (0, 0, 0) = 256 ^ 2 + 1 ∧
    ∃ s, session float32 (kind3 float32 sq) ⟨⟨1, 1, 1, 1, 0⟩, 30, 16⟩ ((0, 0, 0), (0, 0, 0)) (fun k => k) 20 (fun _ _ => ((0, 0, 0), (0, 0, 0)))
      [⟨fun _ _ => ((255, 16, 16), (0, 0, 0)), none⟩] = some s ∧ s.masks.map (fun m => m 0 0) = [0] := by
  refine ⟨by decide, ?_⟩
  have hP : Par.Valid float32 ⟨⟨1, 1, 1, 1, 0⟩, 30, 16⟩ :=
    ⟨rfl, by decide, by decide, by decide, by decide, by decide, by norm_num, by norm_num, by decide +kernel⟩
  have s1 : sq 1 = 1 := by simpa using h.exact 1
  have s0 : sq 0 = 0 := by simpa using h.exact 0
  obtain ⟨s, e, hl, hm⟩ := scene_background float32_rounds (kind3 float32 sq) (kind3_good _ h) _ hP ((0, 0, 0), (0, 0, 0)) (fun k => k) 20 (le_refl _)
    (fun _ _ => ((0, 0, 0), (0, 0, 0))) [⟨fun _ _ => ((255, 16, 16), (0, 0, 0)), none⟩] (fun f hf r hr => by simp at hf; rw [hf] at hr; simp at hr)
    (fun v => v = ((0, 0, 0), (0, 0, 0)) ∨ v = ((255, 16, 16), (0, 0, 0))) (fun _ _ _ => Or.inl rfl)
    (fun f hf y x _ => by simp at hf; rw [hf]; exact Or.inr rfl) (fun mean a u v hmean ha hu hv => by
      have H := float32_rounds
      have hd : sumDist float32 (kind3 float32 sq) mean u v ≤ 1 := by
        have hg : (kind3 float32 sq).grd u v = 0 := by
          show sq (Bits.l2sqrdistArr8 16 u.2.toList v.2.toList).toNat = 0
          rcases hu with rfl | rfl <;> rcases hv with rfl | rfl <;> exact s0
        have hc : (kind3 float32 sq).col u v ≤ 1 := by
          show sq (Bits.l2sqrdistArr8 16 u.1.toList v.1.toList).toNat ≤ 1
          rw [← s1]
          refine h.mono _ _ ?_
          rcases hu with rfl | rfl <;> rcases hv with rfl | rfl <;> decide
        unfold sumDist
        refine (min_le_left _ _).trans ?_
        rw [hg, mul_zero, rd0 H, zero_add]
        exact rd_le_one H hc
      refine hd.trans ?_
      unfold curThr
      refine one_le_rd H ?_
      rw [H.nat 30 (by norm_num)]
      have := lo_val.trans ha.r0
      push_cast
      linarith)
  refine ⟨s, e, ?_⟩
  match hm' : s.masks, hl with
  | [m], _ =>
    simp only [List.map_cons, List.map_nil]
    rw [hm m (by rw [hm']; simp) 0 0 ⟨by decide, by decide⟩]

/-! ## Refinement -/

/-- C90: at any point of any history, a frame processes samples and mask exactly as the sample-consensus model of C76 does with
the matching decisions and learning rates given by the adaptive values at the frame's start. -/
theorem refines {V : Type} {rd : ℚ → ℚ} (H : Rounds rd) (K : Kind V) (hK : K.Good) (P : Par) (hP : P.Valid rd) (zero : V) (rnd : Nat → Nat)
    (mean : ℚ) (hm : 20 ≤ mean) (img : Nat → Nat → V) (fs : List (Input V)) (ho : Overrides fs) (s : Hist V)
    (hs : session rd K P zero rnd mean img fs = some s) (f : Input V) (hf : ∀ r, f.over = some r → 0 < r) :
    ∃ s' st, apply rd K P rnd s f = some s' ∧
      Consensus.apply P.c rnd (pbas f.img (fun y x v => decide (sumDist rd K s.mean (f.img y x) v ≤ curThr rd P (s.ad y x)))
        (fun y x => match f.over with | some r => ⌈r⌉.toNat | none => ⌈(s.ad y x).T⌉.toNat)) (raster P.c.h P.c.w) s.model s.k = some st ∧
      s'.model = st.model ∧ s'.k = st.k ∧ s'.masks = s.masks ++ [st.mask] := by
  have hok := session_ok H K hK P hP zero rnd mean hm img fs ho s hs
  obtain ⟨bm, jj, md, st, I, ea, ec⟩ := apply_ok H K hK P hP rnd s hok f hf
  exact ⟨_, st.core, ea, ec, rfl, rfl, rfl⟩

end Litiv.Pbas
