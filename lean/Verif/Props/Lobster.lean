import Verif.Lemmas.Lobster
import Verif.Props.BgUtils
import Verif.Props.Bits

/-!
# Property C77: LOBSTER

Histories: initialization, then any sequence of frames and model refreshes, with an arbitrary stream of random numbers and
an arbitrary median filter `blur`. `px` is the list of relevant pixels; `pixels_ok` shows that the list computed by the
library satisfies the hypotheses used below.
-/

namespace Litiv.Lobster
open Consensus Consensus.Spec BgUtils

/-- C77: the relevant pixels computed at initialization are distinct, and at least the border size away from the four
sides, so that every access to their neighbourhoods is inside the image. -/
theorem pixels_ok (b rows cols : Nat) (prev roi : Option Roi) (img : Nat → BitVec 8) (r : Common (BitVec 8))
    (h : initCommon b rows cols 0 prev roi img = some r) :
    (initPixels cols r).Nodup ∧ (∀ p ∈ initPixels cols r, Inner b rows cols p) ∧ 2 * b < rows ∧ 2 * b < cols := by
  obtain ⟨t1, t2, t3, -, -⟩ := tables b rows cols 0 prev roi img r h
  obtain ⟨h0, h1, r0, -, hv, hT⟩ := initCommon_inv b rows cols 0 prev roi img r h
  have hin : ∀ p ∈ initPixels cols r, Inner b rows cols p := by
    intro p hp
    obtain ⟨i, hi, rfl⟩ := List.mem_map.1 hp
    obtain ⟨g1, g2, g3⟩ := t3 i hi
    by_contra hn
    have := ((validateROI_spec b rows cols r0 h0 h1).2 r.roi hv).1 _ _ g2
    have hz := this.2 hn
    rw [← g3] at hi
    exact (t2 _ _ g2).1 hi hz
  refine ⟨?_, hin, ?_⟩
  · unfold initPixels
    refine (List.nodup_map_iff_inj_on (t1.imp fun h => Nat.ne_of_lt h)).2 fun i hi j hj e => ?_
    rw [← (t3 i hi).2.2, ← (t3 j hj).2.2, e]
  · have hne : initPixels cols r ≠ [] := by
      intro he
      have hl : r.lut = [] := List.map_eq_nil_iff.1 he
      have hz : countNonZero rows cols r.roi = 0 := by
        have := hT.len
        dsimp only at this
        rw [hl] at this
        exact this.symm
      unfold initCommon at h
      rw [if_neg (by omega)] at h
      split at h
      · exact absurd h (by simp)
      · split at h
        · exact absurd h (by simp)
        · split at h
          · exact absurd h (by simp)
          · split at h
            · exact absurd h (by simp)
            · rename_i r0' hc' _ r1 hv' hcn
              obtain ⟨t, et, -⟩ := tab_spec rows cols r1 img (0 : BitVec 8)
              rw [et] at h
              injection h with h
              subst h
              exact hcn hz
    obtain ⟨p, hp⟩ := List.exists_mem_of_ne_nil _ hne
    obtain ⟨i1, i2, i3, i4⟩ := hin p hp
    omega

/-- C77: the neighbours used for the descriptors are the bytes the library's lookup reads at a relevant pixel, in the same
order, for every image layout (row stride, channels). -/
theorem neighbours_are_lookup (m : LBSP.Img) (hm : LBSP.Spec.WF m) (img : Gray) (ch : Nat) (hch : ch < m.ch)
    (himg : ∀ y x, InImg m.rows m.cols (y, x) → LBSP.Spec.px m y x ch = some (img y x))
    (y x : Nat) (hin : Inner 2 m.rows m.cols (y, x)) : LBSP.lookup m x y ch = some (nb img y x) := by
  obtain ⟨i1, i2, i3, i4⟩ := hin
  dsimp only at i1 i2 i3 i4
  obtain ⟨vals, h1, h2⟩ := LBSP.lookup_in_bounds m hm x y ch hch (by refine ⟨?_, ?_, ?_, ?_⟩ <;> omega)
  rw [h1]
  congr 1
  funext n
  obtain ⟨g1, g2, g3, g4, g5⟩ := h2 n
  rw [himg _ _ ⟨by dsimp only; omega, by dsimp only; omega⟩] at g5
  injection g5 with g5
  exact g5.symm

/-! ## Histories -/

/-- C77: after any history nothing was accessed out of range, and every sample of every relevant pixel is what one image of
the history (the initial one or a processed frame) showed at one position at most 3 rows and columns away, inside the
border. For LOBSTER "what is shown" is the colour together with its descriptor (`frame1`, `frame3`), so the two halves of a
sample always come from the same image and position. -/
theorem history {V : Type} (c : Cfg) (hh : 2 * c.b < c.h) (hw : 2 * c.b < c.w) (hn0 : 0 < c.n) (rnd : Nat → Nat) (px : List (Nat × Nat))
    (hpx : ∀ p ∈ px, Inner c.b c.h c.w p) (hnd : px.Nodup) (blur : Gray → Gray) (zero : V) (last : Nat → Nat → V) (ops : List (Op V))
    (hops : ∀ f, Op.frame f ∈ ops → f.self = false ∧ ∀ y x, 0 < f.rate y x) :
    ∃ st, session c rnd px blur zero last ops = some st ∧ ∀ p ∈ px, ∀ s < c.n,
      ∃ q, Inner c.b c.h c.w q ∧ Near 3 p q ∧
        (st.model s p.1 p.2 = last q.1 q.2 ∨ ∃ f, Op.frame f ∈ ops ∧ st.model s p.1 p.2 = f.img q.1 q.2) := by
  obtain ⟨r, er, -, hfull⟩ := refreshModel_spec c hh hw hn0 rnd last (fun _ _ => 0) none true px hpx (fun _ _ _ => zero) 0
  have hs : start c rnd px zero last = some ⟨r.1, r.2, last, fun _ _ => 0⟩ := by
    unfold start; rw [er]; rfl
  unfold session
  rw [hs]
  dsimp only
  obtain ⟨st, e, h, -⟩ := foldlM_inv (run1 c rnd px blur) ops
    (fun pre st => (∀ p ∈ px, ∀ s < c.n, ∃ q, Inner c.b c.h c.w q ∧ Near 3 p q ∧
        (st.model s p.1 p.2 = last q.1 q.2 ∨ ∃ f, Op.frame f ∈ pre ∧ st.model s p.1 p.2 = f.img q.1 q.2)) ∧
      (st.last = last ∨ ∃ f, Op.frame f ∈ pre ∧ st.last = f.img))
    (fun pre op post st hl hP => by
      obtain ⟨hP, hlast⟩ := hP
      have keep : ∀ (v : V) (q : Nat × Nat), (v = last q.1 q.2 ∨ ∃ f, Op.frame f ∈ pre ∧ v = f.img q.1 q.2) →
          (v = last q.1 q.2 ∨ ∃ f, Op.frame f ∈ pre ++ [op] ∧ v = f.img q.1 q.2) := by
        rintro v q (h | ⟨f, h1, h2⟩)
        · exact Or.inl h
        · exact Or.inr ⟨f, List.mem_append_left _ h1, h2⟩
      cases op with
      | frame f =>
        obtain ⟨hself, hr⟩ := hops f (by rw [hl]; simp)
        obtain ⟨a, ea, hI, -⟩ := apply_inv c hh hw rnd f px hpx hnd (fun p _ => hr p.1 p.2) hn0 st.model st.k
        refine ⟨⟨a.model, a.k, f.img, blur a.mask⟩, by simp only [run1]; rw [ea]; rfl, fun p hp s hs => ?_, Or.inr ⟨f, by simp, rfl⟩⟩
        rcases hI.samples s p.1 p.2 with h | ⟨q, hq, -, hn, -, hv⟩
        · obtain ⟨q, h1, h2, h3⟩ := hP p hp s hs
          exact ⟨q, h1, h2, by dsimp only; rw [h]; exact keep _ q h3⟩
        · rw [hself] at hv
          refine ⟨q, hpx q hq, ?_, Or.inr ⟨f, by simp, by simpa using hv⟩⟩
          obtain ⟨n1, n2, n3, n4⟩ := hn
          dsimp only at n1 n2 n3 n4
          exact ⟨by omega, by omega, by omega, by omega⟩
      | refresh frac force =>
        obtain ⟨r, er, hR, -⟩ := refreshModel_spec c hh hw hn0 rnd st.last st.fg frac force px hpx st.model st.k
        refine ⟨{ st with model := r.1, k := r.2 }, by simp only [run1]; rw [er]; rfl, fun p hp s hs => ?_, ?_⟩
        · dsimp only
          rcases hR s p.1 p.2 with h | ⟨-, -, q, h1, h2, -, h4⟩
          · obtain ⟨q, h1, h2, h3⟩ := hP p hp s hs
            exact ⟨q, h1, h2, by rw [h]; exact keep _ q h3⟩
          · refine ⟨q, h1, h2, ?_⟩
            rw [h4]
            rcases hlast with h | ⟨f, hf, h⟩
            · exact Or.inl (by rw [h])
            · exact Or.inr ⟨f, List.mem_append_left _ hf, by rw [h]⟩
        · rcases hlast with h | ⟨f, hf, h⟩
          · exact Or.inl h
          · exact Or.inr ⟨f, List.mem_append_left _ hf, h⟩)
    ⟨r.1, r.2, last, fun _ _ => 0⟩ ⟨fun p hp s hs => by
      obtain ⟨q, h1, h2, h3⟩ := hfull rfl rfl p hp s hs
      exact ⟨q, h1, h2, Or.inl h3⟩, Or.inl rfl⟩
  exact ⟨st, e, h⟩

/-- The hypotheses are met by the pixels of a 7x8 image without a ROI. -/
example : ∃ r : Common (BitVec 8), initCommon 2 7 8 0 none none (fun i => BitVec.ofNat 8 (3 * i)) = some r ∧
    initPixels 8 r = [(2, 2), (2, 3), (2, 4), (2, 5), (3, 2), (3, 3), (3, 4), (3, 5), (4, 2), (4, 3), (4, 4), (4, 5)] := by
  have h : (initCommon 2 7 8 (0 : BitVec 8) none none (fun i => BitVec.ofNat 8 (3 * i))).map (initPixels 8) =
      some [(2, 2), (2, 3), (2, 4), (2, 5), (3, 2), (3, 3), (3, 4), (3, 5), (4, 2), (4, 3), (4, 4), (4, 5)] := by decide +kernel
  obtain ⟨r, h1, h2⟩ := Option.map_eq_some_iff.1 h
  exact ⟨r, h1, h2⟩

/-- C77, single channel: the history theorem in terms of images. -/
theorem history1 (c : Cfg) (hh : 2 * c.b < c.h) (hw : 2 * c.b < c.w) (hn0 : 0 < c.n) (rnd : Nat → Nat) (px : List (Nat × Nat))
    (hpx : ∀ p ∈ px, Inner c.b c.h c.w p) (hnd : px.Nodup) (blur : Gray → Gray) (impl : LBSP.Impl) (lut : BitVec 8 → BitVec 8)
    (colThr descThr rate : Nat) (hrate : 0 < rate) (init : Gray) (ops : List (Op Px))
    (hops : ∀ f, Op.frame f ∈ ops → ∃ img, f = frame1 impl lut colThr descThr rate img) :
    ∃ st, session c rnd px blur (0, 0) (obs impl lut init) ops = some st ∧ ∀ p ∈ px, ∀ s < c.n,
      ∃ q img, Inner c.b c.h c.w q ∧ Near 3 p q ∧ (img = init ∨ Op.frame (frame1 impl lut colThr descThr rate img) ∈ ops) ∧
        (st.model s p.1 p.2).1 = img q.1 q.2 ∧
        (st.model s p.1 p.2).2 = LBSP.threshold impl (nb img q.1 q.2) (img q.1 q.2) (lut (img q.1 q.2)) := by
  obtain ⟨st, e, h⟩ := history c hh hw hn0 rnd px hpx hnd blur (0, 0) (obs impl lut init) ops (by
    intro f hf
    obtain ⟨img, rfl⟩ := hops f hf
    exact ⟨rfl, fun _ _ => hrate⟩)
  refine ⟨st, e, fun p hp s hs => ?_⟩
  obtain ⟨q, h1, h2, h3⟩ := h p hp s hs
  rcases h3 with h3 | ⟨f, hf, h3⟩
  · exact ⟨q, init, h1, h2, Or.inl rfl, by rw [h3]; exact ⟨rfl, rfl⟩⟩
  · obtain ⟨img, rfl⟩ := hops f hf
    exact ⟨q, img, h1, h2, Or.inr hf, by rw [h3]; exact ⟨rfl, rfl⟩⟩

/-! ## One frame -/

/-- C77: a frame never fails; before the median filter, pixels outside the list are 0 and a relevant pixel is 255 when fewer
than the required number of samples match (in the model as it stands when the pixel is reached) and 0 otherwise; a sample
changes only to what this frame shows at a relevant pixel labelled background at most one row and column away; when all
relevant pixels are foreground the model is unchanged. -/
theorem frame_spec {V : Type} (c : Cfg) (hh : 2 * c.b < c.h) (hw : 2 * c.b < c.w) (hn0 : 0 < c.n) (rnd : Nat → Nat) (px : List (Nat × Nat))
    (hpx : ∀ p ∈ px, Inner c.b c.h c.w p) (hnd : px.Nodup) (f : Frame V) (hself : f.self = false) (hr : ∀ y x, 0 < f.rate y x)
    (m : Model V) (k : Nat) :
    ∃ st, apply c rnd f px m k = some st ∧ (∀ y x, (y, x) ∉ px → st.mask y x = 0) ∧
      (∀ pre y x post, px = pre ++ (y, x) :: post → ∃ before, apply c rnd f pre m k = some before ∧
        st.mask y x = if count c.n (fun s => f.matched y x (before.model s y x)) < c.req then 255 else 0) ∧
      (∀ s y x, st.model s y x ≠ m s y x →
        ∃ p ∈ px, st.mask p.1 p.2 = 0 ∧ Near 1 p (y, x) ∧ Inner c.b c.h c.w (y, x) ∧ st.model s y x = f.img p.1 p.2) ∧
      ((∀ p ∈ px, st.mask p.1 p.2 = 255) → st.model = m) := by
  obtain ⟨st, e, hI, hM⟩ := apply_inv c hh hw rnd f px hpx hnd (fun p _ => hr p.1 p.2) hn0 m k
  refine ⟨st, e, hI.mask0, fun pre y x post hsp => hM pre (y, x) post hsp, fun s y x hne => ?_, hI.fresh⟩
  rcases hI.samples s y x with h | ⟨p, hp, h0, hn, hi, hv⟩
  · exact absurd h hne
  · rw [hself] at hv
    exact ⟨p, hp, h0, hn, hi, by simpa using hv⟩

/-- A 5x6 image: the relevant pixels are (2,2) and (2,3); the second one is foreground. -/
example : (apply ⟨5, 6, 2, 1, 2⟩ (fun k => k) (frame1 .scalar (fun _ => 30) 30 4 16 (fun _ x => if x = 3 then 200 else 100))
      [(2, 2), (2, 3)] (fun _ _ _ => (100, BitVec.ofNat 16 0x2800)) 0).map (fun st => (st.mask 2 2, st.mask 2 3, st.mask 0 0, st.k)) =
    some (0, 255, 0, 3) := by decide +kernel

/-- Difference of the input's colour and a stored one. -/
def colDist (img : Gray) (y x : Nat) (v : Px) : Nat := (((img y x).toNat : Int) - v.1.toNat).natAbs

/-- Number of differing bits of the stored descriptor and the descriptor of the input around the pixel, computed with the
stored colour as reference. -/
def descDist (impl : LBSP.Impl) (lut : BitVec 8 → BitVec 8) (img : Gray) (y x : Nat) (v : Px) : Nat :=
  Bits.Spec.differing (LBSP.threshold impl (nb img y x) v.1 (lut v.1)) v.2

theorem dists_eq (impl : LBSP.Impl) (lut : BitVec 8 → BitVec 8) (img : Gray) (y x : Nat) (v : Px) :
    dists impl lut img y x v = (colDist img y x v, descDist impl lut img y x v) := by
  have h1 : (dists impl lut img y x v).1 = colDist img y x v := by
    unfold dists colDist
    dsimp only
    rw [Bits.l1distU_eq, Bits.Spec.dist]
    omega
  have h2 : (dists impl lut img y x v).2 = descDist impl lut img y x v := Bits.hdist_spec 64 (n := 2) _ _ (by decide)
  rw [← h1, ← h2]

/-- C77, single-channel matching: colour within half the colour threshold, descriptor within its threshold. -/
theorem matched1 (impl : LBSP.Impl) (lut : BitVec 8 → BitVec 8) (colThr descThr rate : Nat) (img : Gray) (y x : Nat) (v : Px) :
    (frame1 impl lut colThr descThr rate img).matched y x v = true ↔
      colDist img y x v ≤ colThr / 2 ∧ descDist impl lut img y x v ≤ descThr := by
  unfold frame1
  dsimp only
  rw [dists_eq]
  dsimp only
  split
  · exact ⟨fun h => absurd h (by simp), fun h => by omega⟩
  · split
    · exact ⟨fun h => absurd h (by simp), fun h => by omega⟩
    · exact ⟨fun _ => by omega, fun _ => rfl⟩

/-- C77, three-channel matching: every channel is within one and a half times the thresholds, and the sums over the channels
are within three times the thresholds. -/
theorem matched3 (impl : LBSP.Impl) (lut : BitVec 8 → BitVec 8) (colThr descThr rate : Nat) (img : Fin 3 → Gray) (y x : Nat)
    (v : Fin 3 → Px) :
    (frame3 impl lut colThr descThr rate img).matched y x v = true ↔
      (∀ ch, colDist (img ch) y x (v ch) ≤ colThr * 3 / 2 ∧ descDist impl lut (img ch) y x (v ch) ≤ descThr * 3 / 2) ∧
      colDist (img 0) y x (v 0) + colDist (img 1) y x (v 1) + colDist (img 2) y x (v 2) ≤ colThr * 3 ∧
      descDist impl lut (img 0) y x (v 0) + descDist impl lut (img 1) y x (v 1) + descDist impl lut (img 2) y x (v 2) ≤ descThr * 3 := by
  have hall : ∀ P : Fin 3 → Prop, (∀ ch, P ch) ↔ P 0 ∧ P 1 ∧ P 2 := by
    intro P
    constructor
    · intro h; exact ⟨h 0, h 1, h 2⟩
    · rintro ⟨a, b, c⟩ ch
      match ch with
      | 0 => exact a
      | 1 => exact b
      | 2 => exact c
  rw [hall]
  unfold frame3
  dsimp only
  simp only [dists_eq, chans]
  generalize colDist (img 0) y x (v 0) = a0
  generalize colDist (img 1) y x (v 1) = a1
  generalize colDist (img 2) y x (v 2) = a2
  generalize descDist impl lut (img 0) y x (v 0) = b0
  generalize descDist impl lut (img 1) y x (v 1) = b1
  generalize descDist impl lut (img 2) y x (v 2) = b2
  by_cases h1 : a0 > colThr * 3 / 2
  · rw [if_pos h1]; exact ⟨fun h => absurd h (by simp), fun h => by omega⟩
  rw [if_neg h1]
  by_cases h2 : b0 > descThr * 3 / 2
  · rw [if_pos h2]; exact ⟨fun h => absurd h (by simp), fun h => by omega⟩
  rw [if_neg h2]
  by_cases h3 : a1 > colThr * 3 / 2
  · rw [if_pos h3]; exact ⟨fun h => absurd h (by simp), fun h => by omega⟩
  rw [if_neg h3]
  by_cases h4 : b1 > descThr * 3 / 2
  · rw [if_pos h4]; exact ⟨fun h => absurd h (by simp), fun h => by omega⟩
  rw [if_neg h4]
  by_cases h5 : a2 > colThr * 3 / 2
  · rw [if_pos h5]; exact ⟨fun h => absurd h (by simp), fun h => by omega⟩
  rw [if_neg h5]
  by_cases h6 : b2 > descThr * 3 / 2
  · rw [if_pos h6]; exact ⟨fun h => absurd h (by simp), fun h => by omega⟩
  rw [if_neg h6]
  dsimp only
  rw [decide_eq_true_eq]
  constructor <;> intro h <;> omega

/-- C77: what a frame shows at a pixel matches itself, whatever the thresholds. -/
theorem self_match1 (impl : LBSP.Impl) (lut : BitVec 8 → BitVec 8) (colThr descThr rate : Nat) (img : Gray) (y x : Nat) :
    (frame1 impl lut colThr descThr rate img).matched y x (obs impl lut img y x) = true := by
  rw [matched1]
  unfold colDist descDist obs
  dsimp only
  rw [(Bits.differing_eq_zero _ _).2 rfl]
  omega

theorem self_match3 (impl : LBSP.Impl) (lut : BitVec 8 → BitVec 8) (colThr descThr rate : Nat) (img : Fin 3 → Gray) (y x : Nat) :
    (frame3 impl lut colThr descThr rate img).matched y x ((frame3 impl lut colThr descThr rate img).img y x) = true := by
  have h : ∀ ch, colDist (img ch) y x (obs impl lut (img ch) y x) = 0 ∧ descDist impl lut (img ch) y x (obs impl lut (img ch) y x) = 0 := by
    intro ch
    unfold colDist descDist obs
    dsimp only
    rw [(Bits.differing_eq_zero _ _).2 rfl]
    omega
  rw [matched3]
  unfold frame3
  dsimp only
  refine ⟨fun ch => ?_, ?_, ?_⟩
  · rw [(h ch).1, (h ch).2]; omega
  · rw [(h 0).1, (h 1).1, (h 2).1]; omega
  · rw [(h 0).2, (h 1).2, (h 2).2]; omega

/-! ## Refreshing the model -/

/-- C77: a refresh never fails. Unless it is forced, the samples of pixels labelled foreground in the last mask are untouched
and every changed sample is what was last seen at a background-labelled position at most 3 rows and columns away; a full
forced refresh replaces every sample of every relevant pixel with something last seen at such a position. -/
theorem refresh_spec {V : Type} (c : Cfg) (hh : 2 * c.b < c.h) (hw : 2 * c.b < c.w) (hn0 : 0 < c.n) (rnd : Nat → Nat)
    (px : List (Nat × Nat)) (hpx : ∀ p ∈ px, Inner c.b c.h c.w p) (blur : Gray → Gray) (st : St V) (frac : Option Nat) (force : Bool) :
    ∃ st', run1 c rnd px blur st (.refresh frac force) = some st' ∧ st'.last = st.last ∧ st'.fg = st.fg ∧
      (∀ s y x, st'.model s y x ≠ st.model s y x → (y, x) ∈ px ∧ (force = true ∨ st.fg y x = 0) ∧
        ∃ q, Inner c.b c.h c.w q ∧ Near 3 (y, x) q ∧ (force = true ∨ st.fg q.1 q.2 = 0) ∧ st'.model s y x = st.last q.1 q.2) ∧
      (force = true → frac = none → ∀ p ∈ px, ∀ s < c.n,
        ∃ q, Inner c.b c.h c.w q ∧ Near 3 p q ∧ st'.model s p.1 p.2 = st.last q.1 q.2) := by
  obtain ⟨r, er, hR, hf⟩ := refreshModel_spec c hh hw hn0 rnd st.last st.fg frac force px hpx st.model st.k
  refine ⟨{ st with model := r.1, k := r.2 }, by simp only [run1]; rw [er]; rfl, rfl, rfl, fun s y x hne => ?_, hf⟩
  rcases hR s y x with h | h
  · exact absurd h hne
  · exact h

example : (run1 ⟨5, 6, 3, 1, 2⟩ (fun k => 100 * k) [(2, 2), (2, 3)] id
      ⟨fun _ _ _ => (0 : Nat), 0, fun _ x => 10 + x, fun _ x => if x = 3 then 255 else 0⟩ (.refresh none false)).map
    (fun st => ([st.model 0 2 2, st.model 1 2 2, st.model 2 2 2], st.model 0 2 3, st.k)) = some ([12, 12, 12], 0, 3) := by
  decide +kernel

/-! ## Static scenes -/

/-- The hypotheses and the claim of C77 about static scenes: once every sample belongs to a set of values that match every
frame that follows, no pixel is labelled foreground. -/
theorem static_frames {V : Type} (c : Cfg) (hh : 2 * c.b < c.h) (hw : 2 * c.b < c.w) (hn0 : 0 < c.n) (hreq : c.req ≤ c.n) (rnd : Nat → Nat)
    (px : List (Nat × Nat)) (hpx : ∀ p ∈ px, Inner c.b c.h c.w p) (hnd : px.Nodup) (blur : Gray → Gray) (S : V → Prop) (fs : List (Frame V))
    (hf : ∀ f ∈ fs, f.self = false ∧ (∀ y x, 0 < f.rate y x) ∧ ∀ y x, Inner c.b c.h c.w (y, x) →
      S (f.img y x) ∧ ∀ v, S v → f.matched y x v = true)
    (st : St V) (hst : ∀ p ∈ px, ∀ s < c.n, S (st.model s p.1 p.2)) :
    ∃ st', (fs.map Op.frame).foldlM (run1 c rnd px blur) st = some st' ∧ (fs ≠ [] → st'.fg = blur (fun _ _ => 0)) ∧
      ∀ p ∈ px, ∀ s < c.n, S (st'.model s p.1 p.2) := by
  induction fs generalizing st with
  | nil => exact ⟨st, rfl, fun h => absurd rfl h, hst⟩
  | cons f fs ih =>
    obtain ⟨hself, hr, hm⟩ := hf f (by simp)
    have key : ∀ pre (a : Consensus.St V), (∀ p ∈ pre, p ∈ px) → Inv c f st.model pre a → ∀ p ∈ px, ∀ s < c.n, S (a.model s p.1 p.2) := by
      intro pre a hpre hI p hp s hs
      rcases hI.samples s p.1 p.2 with h | ⟨q, hq, -, -, -, hv⟩
      · rw [h]; exact hst p hp s hs
      · rw [hself] at hv
        rw [hv]
        exact (hm q.1 q.2 (hpx q (hpre q hq))).1
    obtain ⟨a, ea, hI, hM⟩ := apply_inv c hh hw rnd f px hpx hnd (fun p _ => hr p.1 p.2) hn0 st.model st.k
    have hmask : a.mask = fun _ _ => 0 := by
      funext y x
      by_cases hp : (y, x) ∈ px
      · obtain ⟨pre, post, hsp⟩ := List.append_of_mem hp
        obtain ⟨before, hb, hmk⟩ := hM pre (y, x) post hsp
        have hsub : ∀ p ∈ pre, p ∈ px := fun p hp => by rw [hsp]; exact List.mem_append_left _ hp
        obtain ⟨b', e', hI', -⟩ := apply_inv c hh hw rnd f pre (fun p hp => hpx p (hsub p hp))
          ((List.nodup_append.1 (hsp ▸ hnd)).1) (fun p _ => hr p.1 p.2) hn0 st.model st.k
        rw [e'] at hb
        injection hb with hb
        subst hb
        rw [hmk, if_neg]
        have : count c.n (fun s => f.matched y x (b'.model s y x)) = c.n := by
          unfold count
          rw [List.filter_eq_self.2, List.length_range]
          intro s hs
          exact (hm y x (hpx _ hp)).2 _ (key pre b' hsub hI' (y, x) hp s (List.mem_range.1 hs))
        dsimp only
        omega
      · exact hI.mask0 y x hp
    have e1 : run1 c rnd px blur st (Op.frame f) = some ⟨a.model, a.k, f.img, blur a.mask⟩ := by simp only [run1]; rw [ea]; rfl
    obtain ⟨st', e2, h1, h2⟩ := ih (fun g hg => hf g (List.mem_cons_of_mem _ hg)) ⟨a.model, a.k, f.img, blur a.mask⟩
      (key px a (fun p hp => hp) hI)
    refine ⟨st', ?_, fun _ => ?_, h2⟩
    · rw [List.map_cons, List.foldlM_cons, e1]
      exact e2
    · by_cases hfs : fs = []
      · subst hfs
        rw [List.map_nil, List.foldlM_nil] at e2
        injection e2 with e2
        rw [← e2, hmask]
      · exact h1 hfs

/-- C77 (part), static scenes: after a frame and a full forced refresh, when everything that frame and the following ones show
matches the following ones, no pixel is labelled foreground any more (the mask is the median filter of a zero mask).
Missing: the same right after initialization, which fails (`static_refuted`). -/
theorem static_partial {V : Type} (c : Cfg) (hh : 2 * c.b < c.h) (hw : 2 * c.b < c.w) (hn0 : 0 < c.n) (hreq : c.req ≤ c.n) (rnd : Nat → Nat)
    (px : List (Nat × Nat)) (hpx : ∀ p ∈ px, Inner c.b c.h c.w p) (hnd : px.Nodup) (blur : Gray → Gray) (S : V → Prop)
    (f0 : Frame V) (fs : List (Frame V)) (hfs : fs ≠ []) (h0 : f0.self = false ∧ (∀ y x, 0 < f0.rate y x) ∧
      ∀ y x, Inner c.b c.h c.w (y, x) → S (f0.img y x))
    (hf : ∀ f ∈ fs, f.self = false ∧ (∀ y x, 0 < f.rate y x) ∧ ∀ y x, Inner c.b c.h c.w (y, x) →
      S (f.img y x) ∧ ∀ v, S v → f.matched y x v = true) (st : St V) :
    ∃ st', (Op.frame f0 :: Op.refresh none true :: fs.map Op.frame).foldlM (run1 c rnd px blur) st = some st' ∧
      st'.fg = blur (fun _ _ => 0) := by
  obtain ⟨a, ea, -, -⟩ := apply_inv c hh hw rnd f0 px hpx hnd (fun p _ => h0.2.1 p.1 p.2) hn0 st.model st.k
  have e1 : run1 c rnd px blur st (Op.frame f0) = some ⟨a.model, a.k, f0.img, blur a.mask⟩ := by simp only [run1]; rw [ea]; rfl
  obtain ⟨st2, e2, -, -, -, hfull⟩ := refresh_spec c hh hw hn0 rnd px hpx blur ⟨a.model, a.k, f0.img, blur a.mask⟩ none true
  obtain ⟨st', e3, h1, -⟩ := static_frames c hh hw hn0 hreq rnd px hpx hnd blur S fs hf st2 (fun p hp s hs => by
    obtain ⟨q, hq, -, hv⟩ := hfull rfl rfl p hp s hs
    rw [hv]; exact h0.2.2 q.1 q.2 hq)
  refine ⟨st', ?_, h1 hfs⟩
  rw [List.foldlM_cons, e1]
  show (Op.refresh none true :: fs.map Op.frame).foldlM (run1 c rnd px blur) _ = some st'
  rw [List.foldlM_cons, e2]
  exact e3

/-- A uniform image meets the hypotheses: everything shown is the same colour with an empty descriptor. -/
example (rnd : Nat → Nat) (blur : Gray → Gray) (st : St Px) :
    ∃ st', (Op.frame (frame1 .scalar (fun _ => 30) 30 4 16 (fun _ _ => 100)) :: Op.refresh none true ::
        [frame1 .scalar (fun _ => 30) 30 4 16 (fun _ _ => 100)].map Op.frame).foldlM
          (run1 ⟨7, 7, 35, 2, 2⟩ rnd [(3, 3), (3, 4)] blur) st = some st' ∧ st'.fg = blur (fun _ _ => 0) := by
  have hS : ∀ y x, obs .scalar (fun _ => 30) (fun _ _ => 100) y x = (100, 0) := by
    intro y x
    have : nb (fun _ _ => (100 : BitVec 8)) y x = fun _ => 100 := rfl
    unfold obs
    rw [this]
    exact (by decide : ((100 : BitVec 8), LBSP.threshold .scalar (fun _ => 100) 100 30) = (100, 0))
  refine static_partial ⟨7, 7, 35, 2, 2⟩ (by decide) (by decide) (by decide) (by decide) rnd [(3, 3), (3, 4)] ?_ (by decide) blur
    (fun v => v = (100, 0)) _ _ (by simp) ⟨rfl, fun _ _ => (by decide : 0 < 16), fun y x _ => hS y x⟩ ?_ st
  · intro p hp
    simp only [List.mem_cons, List.not_mem_nil, or_false] at hp
    rcases hp with rfl | rfl <;> exact ⟨by decide, by decide, by decide, by decide⟩
  · intro f hf
    rw [List.mem_singleton] at hf
    subst hf
    refine ⟨rfl, fun _ _ => (by decide : 0 < 16), fun y x _ => ⟨hS y x, fun v hv => ?_⟩⟩
    subst hv
    have := self_match1 .scalar (fun _ => 30) 30 4 16 (fun _ _ => 100) y x
    rwa [hS y x] at this

/-- C77: a sample position whose 5x5 neighbourhood is entirely retained gives, at initialization, what the image shows. -/
theorem init_obs (rows cols : Nat) (prev roi : Option Roi) (img : Gray) (r : Common (BitVec 8))
    (h : initCommon 2 rows cols 0 prev roi (fun i => lin cols img i) = some r) (impl : LBSP.Impl) (lut : BitVec 8 → BitVec 8)
    (y x : Nat) (hin : Inner 2 rows cols (y, x)) (hret : ∀ q, Near 2 (y, x) q → r.roi q.1 q.2 ≠ 0) :
    obs impl lut (initLast cols r) y x = obs impl lut img y x := by
  obtain ⟨-, -, -, -, t5⟩ := tables 2 rows cols 0 prev roi _ r h
  obtain ⟨i1, i2, i3, i4⟩ := hin
  dsimp only at i1 i2 i3 i4
  have key : ∀ y' x', Near 2 (y, x) (y', x') → initLast cols r y' x' = img y' x' := by
    intro y' x' hn
    obtain ⟨n1, n2, n3, n4⟩ := id hn
    dsimp only at n1 n2 n3 n4
    have hi : InImg rows cols (y', x') := ⟨by dsimp only; omega, by dsimp only; omega⟩
    unfold initLast
    rw [(t5 y' x' hi).2, if_pos (hret _ hn)]
    exact (lin_px rows cols img y' x' hi).2
  have hoff : ∀ n : Fin 16, -2 ≤ LBSP.offX n ∧ LBSP.offX n ≤ 2 ∧ -2 ≤ LBSP.offY n ∧ LBSP.offY n ≤ 2 := by decide
  have hnb : nb (initLast cols r) y x = nb img y x := by
    funext n
    obtain ⟨o1, o2, o3, o4⟩ := hoff n
    exact key _ _ ⟨by dsimp only; omega, by dsimp only; omega, by dsimp only; omega, by dsimp only; omega⟩
  unfold obs
  rw [hnb, key y x ⟨by dsimp only; omega, by dsimp only; omega, by dsimp only; omega, by dsimp only; omega⟩]

/-- C77: a frame in which too few samples match at every relevant pixel is labelled foreground at all of them. -/
theorem foreground_frame {V : Type} (c : Cfg) (hh : 2 * c.b < c.h) (hw : 2 * c.b < c.w) (hn0 : 0 < c.n) (rnd : Nat → Nat)
    (px : List (Nat × Nat)) (hpx : ∀ p ∈ px, Inner c.b c.h c.w p) (f : Frame V) (hr : ∀ y x, 0 < f.rate y x) (m : Model V) (k : Nat)
    (hm : ∀ p ∈ px, count c.n (fun s => f.matched p.1 p.2 (m s p.1 p.2)) < c.req) :
    ∃ st, apply c rnd f px m k = some st ∧ st.model = m ∧ st.k = k ∧ ∀ p ∈ px, st.mask p.1 p.2 = 255 := by
  unfold apply
  refine foldlM_inv (step c rnd f) px (fun pre st => st.model = m ∧ st.k = k ∧ ∀ p ∈ pre, st.mask p.1 p.2 = 255)
    (fun pre p post st hl hP => ?_) _ ⟨rfl, rfl, by simp⟩
  have hp : p ∈ px := by rw [hl]; simp
  obtain ⟨st', e, h⟩ := step_spec c hh hw rnd f hn0 st p.1 p.2 (hpx p hp) (hr _ _)
  refine ⟨st', e, ?_⟩
  have := hm p hp
  rw [← hP.1] at this
  rcases h with ⟨-, h1, h2, h3⟩ | ⟨h, -⟩
  · refine ⟨h1.trans hP.1, h2.trans hP.2.1, fun q hq => ?_⟩
    rw [h3]
    dsimp only
    rw [List.mem_append, List.mem_singleton] at hq
    split
    · rfl
    · rename_i hne
      rcases hq with hq | rfl
      · exact hP.2.2 q hq
      · exact absurd ⟨rfl, rfl⟩ hne
  · omega

/-- C77 fails for static scenes right after initialization: the retained image is zero outside the retained ROI, which never
includes the two-pixel image border, so the initial descriptors near it are wrong. With the default parameters, no ROI and
a 7x7 image of constant value 100, processing that same image labels all nine relevant pixels foreground (before the
median filter), whatever the random numbers. -/
theorem static_refuted (rnd : Nat → Nat) : ∃ r : Common (BitVec 8), initCommon 2 7 7 0 none none (fun _ => 100) = some r ∧
    ∃ st, start ⟨7, 7, 35, 2, 2⟩ rnd (initPixels 7 r) (0, 0) (obs .scalar (fun _ => 30) (initLast 7 r)) = some st ∧
      ∃ a, apply ⟨7, 7, 35, 2, 2⟩ rnd (frame1 .scalar (fun _ => 30) 30 4 16 (fun _ _ => 100)) (initPixels 7 r) st.model st.k = some a ∧
        ∀ p ∈ initPixels 7 r, a.mask p.1 p.2 = 255 := by
  have hsome : (initCommon 2 7 7 (0 : BitVec 8) none none (fun _ => 100)).isSome := by decide +kernel
  obtain ⟨r, hr⟩ := Option.isSome_iff_exists.1 hsome
  refine ⟨r, hr, ?_⟩
  have hlast : ∀ y < 7, ∀ x < 7, initLast 7 r y x = if 2 ≤ y ∧ y < 5 ∧ 2 ≤ x ∧ x < 5 then 100 else 0 := by
    intro y hy x hx
    obtain ⟨-, -, -, -, t5⟩ := tables 2 7 7 (0 : BitVec 8) none none _ r hr
    obtain ⟨-, hroi⟩ := init_default 2 7 7 (0 : BitVec 8) none (fun p h => absurd h (by simp)) (fun _ => 100)
    have hi : InImg 7 7 (y, x) := ⟨hy, hx⟩
    unfold initLast
    rw [(t5 y x hi).2]
    by_cases hc : 2 ≤ y ∧ y < 5 ∧ 2 ≤ x ∧ x < 5
    · rw [if_pos hc, (hroi r hr y x hi).1 ⟨hc.1, by dsimp only; omega, hc.2.2.1, by dsimp only; omega⟩, if_pos (by decide)]
    · rw [if_neg hc, (hroi r hr y x hi).2 (fun h => hc ⟨h.1, by have := h.2.1; dsimp only at this; omega, h.2.2.1, by have := h.2.2.2; dsimp only at this; omega⟩),
        if_neg (by decide)]
  have hobs : ∀ y x, Inner 2 7 7 (y, x) → ∀ y' x',
      (frame1 .scalar (fun _ => 30) 30 4 16 (fun _ _ => 100)).matched y' x' (obs .scalar (fun _ => 30) (initLast 7 r) y x) = false := by
    intro y x hin y' x'
    have hnb : nb (initLast 7 r) y x = nb (fun y x => if 2 ≤ y ∧ y < 5 ∧ 2 ≤ x ∧ x < 5 then (100 : BitVec 8) else 0) y x := by
      obtain ⟨i1, i2, i3, i4⟩ := hin
      dsimp only at i1 i2 i3 i4
      have hoff : ∀ n : Fin 16, -2 ≤ LBSP.offX n ∧ LBSP.offX n ≤ 2 ∧ -2 ≤ LBSP.offY n ∧ LBSP.offY n ≤ 2 := by decide
      funext n
      obtain ⟨o1, o2, o3, o4⟩ := hoff n
      exact hlast _ (by omega) _ (by omega)
    obtain ⟨i1, i2, i3, i4⟩ := hin
    dsimp only at i1 i2 i3 i4
    have h100 : initLast 7 r y x = 100 := by rw [hlast y (by omega) x (by omega), if_pos (by omega)]
    have hfin : ∀ y < 5, ∀ x < 5, 2 ≤ y → 2 ≤ x →
        Bits.Spec.differing (LBSP.threshold .scalar (fun _ => 100) 100 30)
          (LBSP.threshold .scalar (nb (fun y x => if 2 ≤ y ∧ y < 5 ∧ 2 ≤ x ∧ x < 5 then (100 : BitVec 8) else 0) y x) 100 30) > 4 := by
      decide +kernel
    by_contra hc
    rw [Bool.not_eq_false, matched1] at hc
    have h2 := hc.2
    unfold descDist obs at h2
    dsimp only at h2
    rw [hnb, h100] at h2
    have := hfin y (by omega) x (by omega) i1 i3
    have e : nb (fun _ _ => (100 : BitVec 8)) y' x' = fun _ => 100 := rfl
    rw [e] at h2
    omega
  obtain ⟨hnd, hpx, hh, hw⟩ := pixels_ok 2 7 7 none none _ r hr
  obtain ⟨m, em, -, hfull⟩ := refreshModel_spec ⟨7, 7, 35, 2, 2⟩ hh hw (by decide) rnd (obs .scalar (fun _ => 30) (initLast 7 r))
    (fun _ _ => 0) none true (initPixels 7 r) hpx (fun _ _ _ => (0, 0)) 0
  refine ⟨_, by unfold start; rw [em]; rfl, ?_⟩
  obtain ⟨a, ea, -, -, h255⟩ := foreground_frame ⟨7, 7, 35, 2, 2⟩ hh hw (by decide) rnd (initPixels 7 r) hpx
    (frame1 .scalar (fun _ => 30) 30 4 16 (fun _ _ => 100)) (fun _ _ => (by decide : 0 < 16)) m.1 m.2 (by
      intro p hp
      have hz : count 35 (fun s => (frame1 .scalar (fun _ => 30) 30 4 16 (fun _ _ => 100)).matched p.1 p.2 (m.1 s p.1 p.2)) = 0 := by
        unfold count
        rw [List.length_eq_zero_iff, List.filter_eq_nil_iff]
        intro s hs
        obtain ⟨q, hq, -, hv⟩ := hfull rfl rfl p hp s (List.mem_range.1 hs)
        rw [hv, hobs q.1 q.2 hq]
        decide
      dsimp only
      omega)
  exact ⟨a, ea, h255⟩

end Litiv.Lobster
