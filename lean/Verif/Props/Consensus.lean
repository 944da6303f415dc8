import Verif.Lemmas.Consensus
import Verif.Props.Bits

/-!
# Properties C47 (ViBe) and C76 (PBAS)

`session c zero rnd init frames` is a history: initialization with an image, then frames, with an arbitrary stream
`rnd` of random numbers. The theorems hold for all image sizes, sample counts, histories and streams.
-/

namespace Litiv.Consensus
open Spec

theorem inner_iff (h w : Nat) (p : Nat × Nat) : Inner 0 h w p ↔ InImg h w p := by
  unfold Inner InImg; omega

/-! ## Histories -/

theorem session_inv {V : Type} (c : Cfg) (hb : c.b = 0) (hh : 0 < c.h) (hw : 0 < c.w) (hn : 0 < c.n) (zero : V) (rnd : Nat → Nat)
    (init : Nat → Nat → V) (fs : List (Frame V)) (hr : ∀ f ∈ fs, ∀ y x, 0 < f.rate y x)
    (P : List (Frame V) → Model V → Prop)
    (h0 : ∀ m, (∀ s < c.n, ∀ y < c.h, ∀ x < c.w, ∃ q, InImg c.h c.w q ∧ Near 3 (y, x) q ∧ m s y x = init q.1 q.2) → P [] m)
    (Q : Frame V → (Nat → Nat → BitVec 8) → Prop)
    (hs : ∀ pre f m st, f ∈ fs → P pre m → Inv c f m (raster c.h c.w) st →
      (∀ pre' p post, raster c.h c.w = pre' ++ p :: post → ∃ before, Inv c f m pre' before ∧
        st.mask p.1 p.2 = if count c.n (fun s => f.matched p.1 p.2 (before.model s p.1 p.2)) < c.req then 255 else 0) →
      P (pre ++ [f]) st.model ∧ Q f st.mask) :
    ∃ m k masks, session c zero rnd init fs = some (m, k, masks) ∧ P fs m ∧ List.Forall₂ Q fs masks := by
  obtain ⟨m0, e0, hm0⟩ := initModel_spec c hb hh hw zero rnd init
  have hpx : ∀ p ∈ raster c.h c.w, Inner c.b c.h c.w p := fun p hp => by rw [hb, inner_iff]; exact (raster_mem _ _ _).1 hp
  obtain ⟨⟨m, k, masks⟩, e, hP, hQ⟩ := foldlM_inv
    (fun (acc : Model V × Nat × List (Nat → Nat → BitVec 8)) f =>
      (apply c rnd f (raster c.h c.w) acc.1 acc.2.1).map fun st => (st.model, st.k, acc.2.2 ++ [st.mask])) fs
    (fun pre acc => P pre acc.1 ∧ List.Forall₂ Q pre acc.2.2)
    (fun pre f post acc hl hacc => by
      have hf : f ∈ fs := by rw [hl]; simp
      obtain ⟨st, e, hI, hM⟩ := apply_inv c (by omega) (by omega) rnd f (raster c.h c.w) hpx (raster_nodup _ _)
        (fun p _ => hr f hf p.1 p.2) hn acc.1 acc.2.1
      have := hs pre f acc.1 st hf hacc.1 hI (fun pre' p post hsp => by
        obtain ⟨before, hb1, hb2⟩ := hM pre' p post hsp
        refine ⟨before, ?_, hb2⟩
        obtain ⟨b', e', hI', -⟩ := apply_inv c (by omega) (by omega) rnd f pre'
          (fun p hp => hpx p (by rw [hsp]; exact List.mem_append_left _ hp))
          ((List.nodup_append.1 (hsp ▸ raster_nodup c.h c.w)).1) (fun p _ => hr f hf p.1 p.2) hn acc.1 acc.2.1
        rw [e'] at hb1
        injection hb1 with hb1
        subst hb1
        exact hI')
      refine ⟨_, by rw [e]; rfl, this.1, ?_⟩
      exact List.rel_append hacc.2 (List.Forall₂.cons this.2 List.Forall₂.nil))
    (m0, c.n * (c.h * c.w), []) ⟨h0 m0 hm0, List.Forall₂.nil⟩
  refine ⟨m, k, masks, ?_, hP, hQ⟩
  unfold session
  rw [e0]
  exact e

/-- C47: after any history, nothing was accessed out of range and every stored sample is a value that was observed:
either in the initialization image at most 3 rows and columns away, or in a later frame at the pixel or a direct neighbour.
(For self-diffusion, C76, the later frame's value is the one of the pixel itself.) -/
theorem samples_observed {V : Type} (c : Cfg) (hb : c.b = 0) (hh : 0 < c.h) (hw : 0 < c.w) (hn : 0 < c.n) (zero : V) (rnd : Nat → Nat)
    (init : Nat → Nat → V) (fs : List (Frame V)) (hr : ∀ f ∈ fs, ∀ y x, 0 < f.rate y x) :
    ∃ m k masks, session c zero rnd init fs = some (m, k, masks) ∧ masks.length = fs.length ∧
      ∀ s < c.n, ∀ y < c.h, ∀ x < c.w,
        (∃ q, InImg c.h c.w q ∧ Near 3 (y, x) q ∧ m s y x = init q.1 q.2) ∨
        (∃ f ∈ fs, ∃ q, InImg c.h c.w q ∧ Near 1 (y, x) q ∧ m s y x = f.img q.1 q.2 ∧ (f.self = true → q = (y, x))) := by
  obtain ⟨m, k, masks, e, h, hq⟩ := session_inv c hb hh hw hn zero rnd init fs hr
    (fun pre m => ∀ s < c.n, ∀ y < c.h, ∀ x < c.w,
        (∃ q, InImg c.h c.w q ∧ Near 3 (y, x) q ∧ m s y x = init q.1 q.2) ∨
        (∃ f ∈ pre, ∃ q, InImg c.h c.w q ∧ Near 1 (y, x) q ∧ m s y x = f.img q.1 q.2 ∧ (f.self = true → q = (y, x))))
    (fun m hm s hs y hy x hx => Or.inl (hm s hs y hy x hx)) (fun _ _ => True)
    (fun pre f m st hf hP hI _ => ⟨fun s hs y hy x hx => by
      rcases hI.samples s y x with h | ⟨p, hp, -, hn, hi, hv⟩
      · rw [h]
        rcases hP s hs y hy x hx with h | ⟨g, hg, h⟩
        · exact Or.inl h
        · exact Or.inr ⟨g, List.mem_append_left _ hg, h⟩
      · right
        refine ⟨f, by simp, ?_⟩
        by_cases hself : f.self = true
        · rw [if_pos hself] at hv
          exact ⟨(y, x), ⟨hy, hx⟩, ⟨by dsimp only; omega, by dsimp only; omega, by dsimp only; omega, by dsimp only; omega⟩, hv, fun _ => rfl⟩
        · rw [if_neg hself] at hv
          exact ⟨p, (raster_mem _ _ _).1 hp, ⟨hn.2.1, hn.1, hn.2.2.2, hn.2.2.1⟩, hv, fun h => absurd h hself⟩, trivial⟩)
  exact ⟨m, k, masks, e, (List.Forall₂.length_eq hq).symm, h⟩

/-- A 1x2 image with two samples per pixel; the random stream makes both updates happen at the first pixel. -/
example : (session ⟨1, 2, 2, 1, 0⟩ (0 : BitVec 8) (fun k => k * 48) (fun _ x => BitVec.ofNat 8 (10 * x + 5))
      [vibe1 20 16 (fun _ x => BitVec.ofNat 8 (10 * x + 9)), vibe1 20 16 (fun _ x => BitVec.ofNat 8 (200 - 190 * x))]).map
    (fun r => ([r.1 0 0 0, r.1 1 0 0, r.1 0 0 1, r.1 1 0 1], r.2.1, r.2.2.map fun mk => (mk 0 0, mk 0 1))) =
    some ([10, 5, 10, 15], 19, [(0, 0), (255, 0)]) := by decide +kernel

/-! ## One frame -/

/-- C47: `apply` is defined on every model and frame; the mask of each pixel is 255 when fewer than the required number of
samples match (in the model as it stands when the pixel is reached, i.e. after the pixels before it in row-major order) and 0
otherwise; every sample that changes receives the value of this frame at a background-labelled pixel at most one row and
column away; when all pixels are foreground the model is unchanged. -/
theorem apply_spec {V : Type} (c : Cfg) (hb : c.b = 0) (hh : 0 < c.h) (hw : 0 < c.w) (hn : 0 < c.n) (rnd : Nat → Nat) (f : Frame V)
    (hself : f.self = false) (hr : ∀ y x, 0 < f.rate y x) (m : Model V) (k : Nat) :
    ∃ st, apply c rnd f (raster c.h c.w) m k = some st ∧
      (∀ pre y x post, raster c.h c.w = pre ++ (y, x) :: post → ∃ before, apply c rnd f pre m k = some before ∧
        st.mask y x = if count c.n (fun s => f.matched y x (before.model s y x)) < c.req then 255 else 0) ∧
      (∀ s y x, st.model s y x ≠ m s y x →
        ∃ p, InImg c.h c.w p ∧ st.mask p.1 p.2 = 0 ∧ Near 1 p (y, x) ∧ InImg c.h c.w (y, x) ∧ st.model s y x = f.img p.1 p.2) ∧
      ((∀ p, InImg c.h c.w p → st.mask p.1 p.2 = 255) → st.model = m) := by
  have hpx : ∀ p ∈ raster c.h c.w, Inner c.b c.h c.w p := fun p hp => by rw [hb, inner_iff]; exact (raster_mem _ _ _).1 hp
  obtain ⟨st, e, hI, hM⟩ := apply_inv c (by omega) (by omega) rnd f (raster c.h c.w) hpx (raster_nodup _ _)
    (fun p _ => hr p.1 p.2) hn m k
  refine ⟨st, e, fun pre y x post hsp => hM pre (y, x) post hsp, fun s y x hne => ?_, fun hall => hI.fresh fun p hp => hall p ((raster_mem _ _ _).1 hp)⟩
  rcases hI.samples s y x with h | ⟨p, hp, h0, hn, hi, hv⟩
  · exact absurd h hne
  · rw [hself] at hv
    rw [hb, inner_iff] at hi
    exact ⟨p, (raster_mem _ _ _).1 hp, h0, hn, hi, by simpa using hv⟩

/-- C47, single-channel matching: a sample matches when it differs from the input by less than the threshold. -/
theorem vibe1_matched (thr rate : Nat) (img : Nat → Nat → BitVec 8) (y x : Nat) (v : BitVec 8) :
    (vibe1 thr rate img).matched y x v = true ↔ (((img y x).toNat : Int) - v.toNat).natAbs < thr := by
  unfold vibe1
  dsimp only
  rw [decide_eq_true_eq, Bits.l1distU_eq, Bits.Spec.dist]
  constructor <;> intro h <;> omega

/-- C47 for the single-channel mask, in terms of gray levels. -/
theorem vibe1_mask (c : Cfg) (hb : c.b = 0) (hh : 0 < c.h) (hw : 0 < c.w) (hn : 0 < c.n) (rnd : Nat → Nat) (thr rate : Nat) (hrate : 0 < rate)
    (img : Nat → Nat → BitVec 8) (m : Model (BitVec 8)) (k : Nat) :
    ∃ st, apply c rnd (vibe1 thr rate img) (raster c.h c.w) m k = some st ∧
      ∀ pre y x post, raster c.h c.w = pre ++ (y, x) :: post →
        ∃ before, apply c rnd (vibe1 thr rate img) pre m k = some before ∧
          st.mask y x = if count c.n (fun s => decide ((((img y x).toNat : Int) - (before.model s y x).toNat).natAbs < thr)) < c.req
            then 255 else 0 := by
  obtain ⟨st, e, h, -⟩ := apply_spec c hb hh hw hn rnd (vibe1 thr rate img) rfl (fun _ _ => hrate) m k
  refine ⟨st, e, fun pre y x post hsp => ?_⟩
  obtain ⟨before, hb, hm⟩ := h pre y x post hsp
  refine ⟨before, hb, ?_⟩
  rw [hm]
  have : (fun s => (vibe1 thr rate img).matched y x (before.model s y x)) =
      fun s => decide ((((img y x).toNat : Int) - (before.model s y x).toNat).natAbs < thr) := by
    funext s
    exact (Bool.eq_iff_iff.2 (by rw [vibe1_matched, decide_eq_true_eq]))
  rw [this]

/-- C47: with the fastest learning rate, a background pixel's current value is one of its samples as soon as the pixel has
been processed. -/
theorem learns {V : Type} (c : Cfg) (hb : c.b = 0) (hh : 0 < c.h) (hw : 0 < c.w) (hn : 0 < c.n) (rnd : Nat → Nat) (f : Frame V)
    (hrate : ∀ y x, f.rate y x = 1) (st : St V) (y x : Nat) (hi : InImg c.h c.w (y, x)) :
    ∃ st', step c rnd f st (y, x) = some st' ∧
      (c.req ≤ count c.n (fun s => f.matched y x (st.model s y x)) → ∃ s < c.n, st'.model s y x = f.img y x) := by
  unfold step
  dsimp only
  by_cases hg : goodLoop (fun s => f.matched y x (st.model s y x)) c.req c.n 0 0 < c.req
  · rw [if_pos hg]
    have := (goodLoop_count (fun s => f.matched y x (st.model s y x)) c.req c.n).1 hg
    exact ⟨_, rfl, fun h => by omega⟩
  · rw [if_neg hg, if_neg (by rw [hrate]; omega)]
    unfold updateOwn updateNeighbour
    simp only [hrate, Nat.mod_one, if_true, write_mod c hn, Option.map_some]
    obtain ⟨p, q, e1, e2, hq, hnear⟩ := neighbour_spec c (by omega) (by omega) (rnd (st.k + 2 + 1)) y x (by rw [hb, inner_iff]; exact hi)
    rw [e1]
    dsimp only
    rw [e2]
    obtain ⟨y1, x1⟩ := q
    refine ⟨_, rfl, fun _ => ⟨rnd (st.k + 1) % c.n, Nat.mod_lt _ hn, ?_⟩⟩
    dsimp only [Model.put]
    split
    · rename_i h
      obtain ⟨-, rfl, rfl⟩ := h
      split <;> rfl
    · simp

example : ∃ st', step ⟨1, 2, 2, 1, 0⟩ (fun _ => 3) (vibe1 20 1 (fun _ _ => 7)) ⟨fun _ _ _ => 9, fun _ _ => 0, 0⟩ (0, 1) = some st' ∧
    st'.model 1 0 1 = 7 ∧ st'.model 0 0 1 = 9 := by
  refine ⟨_, rfl, ?_, ?_⟩ <;> decide +kernel

/-- C47, static scenes: when every value of the initialization image and of the frames matches every frame pixel, no pixel
is ever labelled foreground. -/
theorem static_background {V : Type} (c : Cfg) (hb : c.b = 0) (hh : 0 < c.h) (hw : 0 < c.w) (hn : 0 < c.n) (hreq : c.req ≤ c.n) (zero : V)
    (rnd : Nat → Nat) (init : Nat → Nat → V) (fs : List (Frame V)) (hr : ∀ f ∈ fs, ∀ y x, 0 < f.rate y x)
    (S : V → Prop) (hi : ∀ y x, InImg c.h c.w (y, x) → S (init y x))
    (hf : ∀ f ∈ fs, ∀ y x, InImg c.h c.w (y, x) → S (f.img y x) ∧ ∀ v, S v → f.matched y x v = true) :
    ∃ m k masks, session c zero rnd init fs = some (m, k, masks) ∧ masks.length = fs.length ∧
      ∀ mask ∈ masks, ∀ y x, InImg c.h c.w (y, x) → mask y x = 0 := by
  obtain ⟨m, k, masks, e, -, hq⟩ := session_inv c hb hh hw hn zero rnd init fs hr
    (fun _ m => ∀ s < c.n, ∀ y < c.h, ∀ x < c.w, S (m s y x))
    (fun m hm s hs y hy x hx => by
      obtain ⟨q, hq, -, e⟩ := hm s hs y hy x hx
      rw [e]; exact hi _ _ hq) (fun _ mask => ∀ y x, InImg c.h c.w (y, x) → mask y x = 0)
    (fun pre f m st hff hP hI hM => by
      have key : ∀ px (st : St V), (∀ p ∈ px, InImg c.h c.w p) → Inv c f m px st → ∀ s < c.n, ∀ y < c.h, ∀ x < c.w, S (st.model s y x) := by
        intro px st hpx hI s hs y hy x hx
        rcases hI.samples s y x with h | ⟨p, hp, -, -, -, hv⟩
        · rw [h]; exact hP s hs y hy x hx
        · rw [hv]
          split
          · exact (hf f hff y x ⟨hy, hx⟩).1
          · exact (hf f hff p.1 p.2 (hpx p hp)).1
      refine ⟨key _ st (fun p hp => (raster_mem _ _ _).1 hp) hI, fun y x hyx => ?_⟩
      obtain ⟨pre', post, hsp⟩ := List.append_of_mem ((raster_mem c.h c.w (y, x)).2 hyx)
      obtain ⟨before, hIb, hmk⟩ := hM pre' (y, x) post hsp
      have hS := key pre' before (fun p hp => (raster_mem _ _ _).1 (by rw [hsp]; exact List.mem_append_left _ hp)) hIb
      rw [hmk, if_neg]
      have : count c.n (fun s => f.matched y x (before.model s y x)) = c.n := by
        unfold count
        rw [List.filter_eq_self.2, List.length_range]
        intro s hs
        exact (hf f hff y x hyx).2 _ (hS s (List.mem_range.1 hs) y hyx.1 x hyx.2)
      dsimp only
      omega)
  refine ⟨m, k, masks, e, (List.Forall₂.length_eq hq).symm, fun mask hmask => ?_⟩
  have : ∀ (fs : List (Frame V)) (masks : List (Nat → Nat → BitVec 8)),
      List.Forall₂ (fun _ mask => ∀ y x, InImg c.h c.w (y, x) → mask y x = 0) fs masks →
      ∀ mask ∈ masks, ∀ y x, InImg c.h c.w (y, x) → mask y x = 0 := by
    intro fs masks h
    induction h with
    | nil => intro mask hm; exact absurd hm (by simp)
    | cons h1 h2 ih =>
      intro mask hm
      rcases List.mem_cons.1 hm with rfl | hm
      · exact h1
      · exact ih mask hm
  exact this fs masks hq mask hmask

/-- The hypotheses of `static_background` for gray levels between 100 and 110 and threshold 20. -/
example (rnd : Nat → Nat) : ∃ m k masks, session ⟨4, 5, 20, 2, 0⟩ (0 : BitVec 8) rnd (fun y x => BitVec.ofNat 8 (100 + (x + y) % 10))
    [vibe1 20 16 (fun y x => BitVec.ofNat 8 (110 - (x + 2 * y) % 10)), vibe1 20 1 (fun _ _ => 105)] = some (m, k, masks) ∧
    masks.length = 2 ∧ ∀ mask ∈ masks, ∀ y x, InImg 4 5 (y, x) → mask y x = 0 := by
  refine static_background ⟨4, 5, 20, 2, 0⟩ rfl (by decide) (by decide) (by decide) (by decide) 0 rnd _ _ ?_
    (fun v => 100 ≤ v.toNat ∧ v.toNat ≤ 110) ?_ ?_
  · intro f hf y x
    simp only [List.mem_cons, List.not_mem_nil, or_false] at hf
    rcases hf with rfl | rfl
    · exact (by decide : 0 < 16)
    · exact (by decide : 0 < 1)
  · intro y x _
    rw [BitVec.toNat_ofNat]; omega
  · intro f hf y x _
    simp only [List.mem_cons, List.not_mem_nil, or_false] at hf
    rcases hf with rfl | rfl
    · refine ⟨?_, fun v hv => (vibe1_matched _ _ _ _ _ _).2 ?_⟩
      · show 100 ≤ (BitVec.ofNat 8 (110 - (x + 2 * y) % 10)).toNat ∧ (BitVec.ofNat 8 (110 - (x + 2 * y) % 10)).toNat ≤ 110
        rw [BitVec.toNat_ofNat]; omega
      · show (((BitVec.ofNat 8 (110 - (x + 2 * y) % 10)).toNat : Int) - v.toNat).natAbs < 20
        rw [BitVec.toNat_ofNat]; omega
    · refine ⟨?_, fun v hv => (vibe1_matched _ _ _ _ _ _).2 ?_⟩
      · show 100 ≤ (105#8).toNat ∧ (105#8).toNat ≤ 110
        decide
      · show (((105#8).toNat : Int) - v.toNat).natAbs < 20
        rw [show (105#8).toNat = 105 from rfl]; omega

/-! ## Three channels -/

/-- C47: what the three-channel matching computes: the squared colour distance modulo `2^16` is compared. -/
theorem vibe3_matched (thr rate : Nat) (img : Nat → Nat → Col) (y x : Nat) (v : Col) :
    (vibe3 thr rate img).matched y x v = true ↔ sqDist (img y x) v % 65536 < (thr * 3) ^ 2 := by
  have key : ∀ a b : BitVec 8, ((Bits.l2sqrdistU a b).getD 0) = BitVec.ofNat 16 (((a.toNat : Int) - b.toNat).natAbs ^ 2) := by
    intro a b
    obtain ⟨r, h1, h2, -⟩ := Bits.l2sqrdist8_spec a b
    rw [h1]
    apply BitVec.eq_of_toNat_eq
    have e : Bits.Spec.dist a.toNat b.toNat = ((a.toNat : Int) - b.toNat).natAbs := by rw [Bits.Spec.dist]; omega
    have hr : r.toNat < 2 ^ 16 := r.isLt
    rw [BitVec.toNat_ofNat, ← e, ← h2]
    exact (Nat.mod_eq_of_lt hr).symm
  unfold vibe3
  dsimp only
  rw [decide_eq_true_eq]
  have : (Bits.l2sqrdistArr8 16 (img y x).toList v.toList).toNat = sqDist (img y x) v % 65536 := by
    unfold Bits.l2sqrdistArr8 Col.toList sqDist
    simp only [List.zip_cons_cons, List.foldl_cons, List.foldl_nil, List.zip_nil_right, key]
    simp
  rw [this]

/-- C47 fails for three channels: with the default threshold 20, a pure black sample matches the input (255, 22, 6), whose
distance is 256 and not below 60, so the pixel is labelled background although no sample is within the threshold. -/
theorem vibe3_mask_refuted :
    ((session ⟨1, 1, 1, 1, 0⟩ (0, 0, 0) (fun _ => 1) (fun _ _ => (0, 0, 0)) [vibe3 20 16 (fun _ _ => (255, 22, 6))]).map
      fun r => r.2.2.map fun mk => mk 0 0) = some [0#8] ∧
    ¬ sqDist (255, 22, 6) (0, 0, 0) < (20 * 3) ^ 2 := by decide +kernel

/-- C47 (part) for three channels: the mask is right when the input and the samples (and the pixels of the frame, which
become samples) differ by at most 147 in every channel. Missing: larger differences, `vibe3_mask_refuted`. -/
theorem vibe3_mask_partial (c : Cfg) (hb : c.b = 0) (hh : 0 < c.h) (hw : 0 < c.w) (hn : 0 < c.n) (rnd : Nat → Nat) (thr rate : Nat) (hrate : 0 < rate)
    (img : Nat → Nat → Col) (m : Model Col) (k : Nat)
    (hclose : ∀ y x v, ((∃ s y' x', v = m s y' x') ∨ ∃ y' x', v = img y' x') →
      (((img y x).1.toNat : Int) - v.1.toNat).natAbs ≤ 147 ∧ (((img y x).2.1.toNat : Int) - v.2.1.toNat).natAbs ≤ 147 ∧
        (((img y x).2.2.toNat : Int) - v.2.2.toNat).natAbs ≤ 147) :
    ∃ st, apply c rnd (vibe3 thr rate img) (raster c.h c.w) m k = some st ∧
      ∀ pre y x post, raster c.h c.w = pre ++ (y, x) :: post →
        ∃ before, apply c rnd (vibe3 thr rate img) pre m k = some before ∧
          st.mask y x = if count c.n (fun s => decide (sqDist (img y x) (before.model s y x) < (thr * 3) ^ 2)) < c.req
            then 255 else 0 := by
  obtain ⟨st, e, h, -⟩ := apply_spec c hb hh hw hn rnd (vibe3 thr rate img) rfl (fun _ _ => hrate) m k
  refine ⟨st, e, fun pre y x post hsp => ?_⟩
  obtain ⟨before, hbef, hm⟩ := h pre y x post hsp
  refine ⟨before, hbef, ?_⟩
  have hpx : ∀ p ∈ raster c.h c.w, Inner c.b c.h c.w p := fun p hp => by rw [hb, inner_iff]; exact (raster_mem _ _ _).1 hp
  obtain ⟨b', e', hI', -⟩ := apply_inv c (by omega) (by omega) rnd (vibe3 thr rate img) pre
    (fun p hp => hpx p (by rw [hsp]; exact List.mem_append_left _ hp))
    ((List.nodup_append.1 (hsp ▸ raster_nodup c.h c.w)).1) (fun p _ => hrate) hn m k
  rw [e'] at hbef
  injection hbef with hbef
  subst hbef
  rw [hm]
  have : (fun s => (vibe3 thr rate img).matched y x (b'.model s y x)) =
      fun s => decide (sqDist (img y x) (b'.model s y x) < (thr * 3) ^ 2) := by
    funext s
    refine Bool.eq_iff_iff.2 ?_
    rw [vibe3_matched, decide_eq_true_eq, Nat.mod_eq_of_lt]
    have hv : (∃ s' y' x', b'.model s y x = m s' y' x') ∨ ∃ y' x', b'.model s y x = img y' x' := by
      rcases hI'.samples s y x with h | ⟨p, -, -, -, -, hv⟩
      · exact Or.inl ⟨_, _, _, h⟩
      · exact Or.inr ⟨_, _, hv⟩
    obtain ⟨h1, h2, h3⟩ := hclose y x _ hv
    have := Nat.pow_le_pow_left h1 2
    have := Nat.pow_le_pow_left h2 2
    have := Nat.pow_le_pow_left h3 2
    unfold sqDist
    omega
  rw [this]

example : ∀ (y x : Nat) (v : Col), ((∃ s y' x', v = (fun _ _ _ => (100, 20, 250) : Model Col) s y' x') ∨
      ∃ _ _ : Nat, v = (200, 100, 130)) →
    (((200#8).toNat : Int) - v.1.toNat).natAbs ≤ 147 ∧ (((100#8).toNat : Int) - v.2.1.toNat).natAbs ≤ 147 ∧
      (((130#8).toNat : Int) - v.2.2.toNat).natAbs ≤ 147 := by
  rintro y x v (⟨_, _, _, h⟩ | ⟨_, _, h⟩)
  · have h : v = (100, 20, 250) := h
    subst h; decide
  · subst h; decide

/-! ## PBAS -/

/-- C76: after any history, every sample PBAS stores for a pixel was observed at that very pixel in some frame, or in the
initialization image at most 3 rows and columns away; nothing is accessed out of range. -/
theorem pbas_observed {V : Type} (c : Cfg) (hb : c.b = 0) (hh : 0 < c.h) (hw : 0 < c.w) (hn : 0 < c.n) (zero : V) (rnd : Nat → Nat)
    (init : Nat → Nat → V) (fs : List ((Nat → Nat → V) × (Nat → Nat → V → Bool) × (Nat → Nat → Nat)))
    (hr : ∀ f ∈ fs, ∀ y x, 0 < f.2.2 y x) :
    ∃ m k masks, session c zero rnd init (fs.map fun f => pbas f.1 f.2.1 f.2.2) = some (m, k, masks) ∧
      masks.length = fs.length ∧ ∀ s < c.n, ∀ y < c.h, ∀ x < c.w,
        (∃ q, InImg c.h c.w q ∧ Near 3 (y, x) q ∧ m s y x = init q.1 q.2) ∨ (∃ f ∈ fs, m s y x = f.1 y x) := by
  obtain ⟨m, k, masks, e, hl, h⟩ := samples_observed c hb hh hw hn zero rnd init (fs.map fun f => pbas f.1 f.2.1 f.2.2) (by
    intro f hf y x
    obtain ⟨g, hg, rfl⟩ := List.mem_map.1 hf
    exact hr g hg y x)
  refine ⟨m, k, masks, e, by rw [hl, List.length_map], fun s hs y hy x hx => ?_⟩
  rcases h s hs y hy x hx with h | ⟨f, hf, q, -, -, hv, hself⟩
  · exact Or.inl h
  · obtain ⟨g, hg, rfl⟩ := List.mem_map.1 hf
    have hq := hself rfl
    subst hq
    exact Or.inr ⟨g, hg, hv⟩

example : (session ⟨1, 2, 1, 1, 0⟩ (0 : Nat) (fun k => [0, 0, 0, 0, 0, 4, 0, 0, 0, 0].getD k 0) (fun _ x => x)
      [pbas (fun _ x => 10 + x) (fun _ _ v => decide (v < 5)) (fun _ _ => 1)]).map
    (fun r => (r.1 0 0 0, r.1 0 0 1, r.2.2.map fun mk => (mk 0 0, mk 0 1))) = some (10, 11, [(0#8, 255#8)]) := by decide +kernel

/-- C76 fails for foreground pixels: with self-diffusion (the default) a background pixel makes its neighbour absorb its
own value, even though that neighbour is labelled foreground: here pixel (0,1) is foreground in the frame, and its only
sample is replaced with the frame's value 11. -/
theorem pbas_foreground_refuted :
    ∃ st, apply ⟨1, 2, 1, 1, 0⟩ (fun k => [0, 0, 0, 4, 0].getD k 0)
      (pbas (fun _ x => 10 + x) (fun _ _ v => decide (v < 5)) (fun _ _ => 1)) (raster 1 2) (fun _ _ x => if x = 0 then 0 else 1) 0 = some st ∧
      st.mask 0 1 = 255 ∧ st.model 0 0 1 = 11 := by
  refine ⟨_, rfl, ?_, ?_⟩ <;> decide +kernel

/-- C76: the linear index used with a continuous input image stays inside the model images and addresses the pixel. -/
theorem pbasIndex_spec (h w y x : Nat) (hy : y < h) (hx : x < w) :
    pbasIndex w y x < w * h ∧ pbasIndex w y x / w = y ∧ pbasIndex w y x % w = x := by
  have h1 : w * y + w ≤ w * h := by
    calc w * y + w = w * (y + 1) := by rw [Nat.mul_add, Nat.mul_one]
      _ ≤ w * h := Nat.mul_le_mul_left _ hy
  refine ⟨by unfold pbasIndex; omega, ?_, ?_⟩
  · unfold pbasIndex
    rw [Nat.add_comm, Nat.add_mul_div_left _ _ (by omega), Nat.div_eq_of_lt hx, Nat.zero_add]
  · unfold pbasIndex
    rw [Nat.add_comm, Nat.add_mul_mod_self_left, Nat.mod_eq_of_lt hx]

/-- C76 fails for input images with padded rows (accepted by `apply`): for every image of at least two rows, the index of the
last pixel lies outside the model images as soon as the input's row stride exceeds the width. -/
theorem pbasIndex_refuted (h w step : Nat) (hh : 2 ≤ h) (hw : 0 < w) (hs : w + 1 ≤ step) :
    w * h ≤ pbasIndex step (h - 1) (w - 1) := by
  unfold pbasIndex
  obtain ⟨h', rfl⟩ : ∃ h', h = h' + 1 := ⟨h - 1, by omega⟩
  have : (w + 1) * h' ≤ step * h' := Nat.mul_le_mul_right _ hs
  have e : (w + 1) * h' = w * h' + h' := by rw [Nat.add_mul, Nat.one_mul]
  have e2 : w * (h' + 1) = w * h' + w := by rw [Nat.mul_add, Nat.mul_one]
  rw [Nat.add_sub_cancel]
  omega

end Litiv.Consensus
