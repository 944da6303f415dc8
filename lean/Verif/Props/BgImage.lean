import Verif.Lemmas.BgImage
import Verif.Props.Consensus

/-!
# Properties of background images
-/

namespace Litiv.BgImage
open IEEE Spec

/-! ## C131: the background image shows the samples -/

/-- C131 (part): in the background image of `n` samples, computed with `float` arithmetic, every value lies between the smallest and the largest sample of the
pixel and is the exact mean up to rounding. This holds for less than 32768 samples of 8 bits and for less than 128 samples of 16 bits (the
descriptors). Missing: more samples, where it can fail (`many_samples_refuted`). -/
theorem background_between_partial (bits h w ch : Nat) (smps : List Samples) (hn : smps ≠ []) (hsmall : smps.length * 2 ^ (bits + 1) < 2 ^ 24)
    (hs : ∀ s ∈ smps, s.size = h * w * ch ∧ ∀ a, s.at_ a < 2 ^ bits) :
    ∃ img, bgImage float32 bits h w ch (w * ch) smps = some img ∧ ∀ y < h, ∀ x < w, ∀ c < ch,
      (∃ v ∈ valuesAt w ch smps y x c, v ≤ img y x c) ∧ (∃ v ∈ valuesAt w ch smps y x c, img y x c ≤ v) ∧
      |(img y x c : ℚ) - mean (valuesAt w ch smps y x c)| ≤ 1 / 2 + smps.length * 2 ^ bits / 2 ^ 24 := by
  obtain ⟨img, e, hi⟩ := bgImage_spec float32 bits h w ch smps fun s hm => (hs s hm).1.ge
  refine ⟨img, e, fun y hy x hx c hc => ?_⟩
  have hp : 1 ≤ 2 ^ bits := Nat.one_le_two_pow
  set vs := valuesAt w ch smps y x c with hvs
  have hlen : vs.length = smps.length := by rw [hvs, valuesAt, List.length_map]
  have hn0 : 0 < smps.length := List.length_pos_of_ne_nil hn
  have hnat : ∀ v ∈ vs, ∃ k : Nat, v = k ∧ k < 2 ^ bits := by
    intro v hv
    obtain ⟨s, hm, rfl⟩ := List.mem_map.1 hv
    exact ⟨_, rfl, (hs s hm).2 _⟩
  have hv : ∀ v ∈ vs, 0 ≤ v ∧ v ≤ 2 ^ bits - 1 := by
    intro v hm
    obtain ⟨k, rfl, hk⟩ := hnat v hm
    have : (k : ℚ) + 1 ≤ ((2 ^ bits : Nat) : ℚ) := by exact_mod_cast hk
    push_cast at this
    exact ⟨Nat.cast_nonneg _, by linarith⟩
  obtain ⟨h1, h2⟩ := accum_half bits smps.length hn0 hsmall vs hlen hv
  have hne : vs ≠ [] := by intro h0; rw [h0] at hlen; simp at hlen; omega
  -- the smallest and the largest sample
  obtain ⟨lo, hlo, hlo'⟩ : ∃ v ∈ vs, ∀ u ∈ vs, v ≤ u := by
    have := vs.toFinset.exists_min_image id (by
      obtain ⟨a, ha⟩ := List.exists_mem_of_ne_nil _ hne
      exact ⟨a, List.mem_toFinset.2 ha⟩)
    obtain ⟨v, hv, h⟩ := this
    exact ⟨v, List.mem_toFinset.1 hv, fun u hu => h u (List.mem_toFinset.2 hu)⟩
  obtain ⟨hi', hhi, hhi'⟩ : ∃ v ∈ vs, ∀ u ∈ vs, u ≤ v := by
    have := vs.toFinset.exists_max_image id (by
      obtain ⟨a, ha⟩ := List.exists_mem_of_ne_nil _ hne
      exact ⟨a, List.mem_toFinset.2 ha⟩)
    obtain ⟨v, hv, h⟩ := this
    exact ⟨v, List.mem_toFinset.1 hv, fun u hu => h u (List.mem_toFinset.2 hu)⟩
  obtain ⟨l, rfl, hl⟩ := hnat lo hlo
  obtain ⟨g, rfl, hg⟩ := hnat hi' hhi
  have hlq : (0 : ℚ) < vs.length := by rw [hlen]; exact_mod_cast hn0
  have hm1 : (l : ℚ) ≤ mean vs := by
    unfold mean
    rw [le_div_iff₀ hlq, mul_comm, ← nsmul_eq_mul]
    exact List.card_nsmul_le_sum vs _ hlo'
  have hm2 : mean vs ≤ g := by
    unfold mean
    rw [div_le_iff₀ hlq, mul_comm, ← nsmul_eq_mul]
    exact List.sum_le_card_nsmul vs _ hhi'
  rw [hi y hy x hx c hc]
  obtain ⟨c1, c2, c3⟩ := convert_between bits l g (accum float32 smps.length vs) (mean vs) hm1 hm2 (by omega) (lt_of_le_of_lt h1 h2)
  refine ⟨⟨l, hlo, by exact_mod_cast c1⟩, ⟨g, hhi, by exact_mod_cast c2⟩, ?_⟩
  have hb := Lut.roundEven_bound (accum float32 smps.length vs)
  have hcast : ((convert bits (accum float32 smps.length vs) : Nat) : ℚ) = (Lut.roundEven (accum float32 smps.length vs) : ℚ) := by
    rw [← c3]; push_cast; rfl
  rw [hcast]
  have := abs_add_le ((Lut.roundEven (accum float32 smps.length vs) : ℚ) - accum float32 smps.length vs) (accum float32 smps.length vs - mean vs)
  rw [sub_add_sub_cancel] at this
  linarith

/-- Three samples of a 1 × 2 gray image. -/
def three : List Samples := [⟨2, fun a => [10, 200].getD a 0⟩, ⟨2, fun a => [11, 201].getD a 0⟩, ⟨2, fun a => [11, 0].getD a 0⟩]

example : three ≠ [] ∧ three.length * 2 ^ (8 + 1) < 2 ^ 24 ∧ (∀ s ∈ three, s.size = 1 * 2 * 1) ∧
    ((bgImage float32 8 1 2 1 2 three).map fun img => (img 0 0 0, img 0 1 0)) = some (11, 134) :=
  ⟨by decide, by decide, by decide, by decide +kernel⟩

/-- The accumulated value of `k` equal terms. -/
def repAcc (t : ℚ) : Nat → ℚ
  | 0 => 0
  | k + 1 => float32 (repAcc t k + t)

theorem accum_rep (n k : Nat) (v : ℚ) : accum float32 n (List.replicate k v) = repAcc (float32 (v / n)) k := by
  induction k with
  | zero => rfl
  | succ k ih =>
    rw [List.replicate_succ', accum, List.foldl_append]
    change float32 (accum float32 n (List.replicate k v) + _) = _
    rw [ih]
    rfl

/-- C131, refuted part: the background descriptor of 583 equal samples 65534 is 65535. -/
theorem many_samples_refuted : ¬ ∀ smps : List Samples, smps ≠ [] → (∀ s ∈ smps, s.size = 1 ∧ ∀ a, s.at_ a < 2 ^ 16) →
    ∃ img, bgImage float32 16 1 1 1 1 smps = some img ∧ ∃ v ∈ valuesAt 1 1 smps 0 0 0, (img 0 0 0 : ℚ) ≤ v := by
  intro h
  obtain ⟨K, hK⟩ : ∃ K : Nat, K = 583 := ⟨_, rfl⟩
  obtain ⟨img, e, v, hv, hle⟩ := h (List.replicate K ⟨1, fun _ => 65534⟩) (by intro h0; have := congrArg List.length h0; rw [List.length_replicate, List.length_nil] at this; omega) (by
    intro s hs
    rw [List.eq_of_mem_replicate hs]
    exact ⟨rfl, fun _ => by norm_num⟩)
  obtain ⟨img', e', hi⟩ := bgImage_spec float32 16 1 1 1 (List.replicate K ⟨1, fun _ => 65534⟩) (by
    intro s hs
    rw [List.eq_of_mem_replicate hs])
  have e2 : bgImage float32 16 1 1 1 1 (List.replicate K ⟨1, fun _ => 65534⟩) = some img' := e'
  rw [e] at e2
  cases Option.some.inj e2
  have hvals : valuesAt 1 1 (List.replicate K ⟨1, fun _ => 65534⟩) 0 0 0 = List.replicate K (65534 : ℚ) := by
    unfold valuesAt
    rw [List.map_replicate]
    norm_num
  have hval := hi 0 (by norm_num) 0 (by norm_num) 0 (by norm_num)
  rw [hvals, List.length_replicate, accum_rep, hK] at hval
  have : convert 16 (repAcc (float32 (65534 / (583 : Nat))) 583) = 65535 := by decide +kernel
  rw [this] at hval
  rw [hvals] at hv
  rw [List.eq_of_mem_replicate hv, hval] at hle
  norm_num at hle

/-- C131 for ViBe and PBAS on gray images: whatever the frames were, each pixel of the background image lies between two of the values that were
seen within 3 pixels of it at initialization or next to it in a frame; when the scene showed only one value around the pixel, it is that value. -/
theorem vibe_background (c : Consensus.Cfg) (hb : c.b = 0) (hh : 0 < c.h) (hw : 0 < c.w) (hn : 0 < c.n) (hN : c.n < 32768) (rnd : Nat → Nat)
    (init : Nat → Nat → BitVec 8) (fs : List (Consensus.Frame (BitVec 8))) (hr : ∀ f ∈ fs, ∀ y x, 0 < f.rate y x) :
    ∃ m k masks img, Consensus.session c 0 rnd init fs = some (m, k, masks) ∧
      bgImage float32 8 c.h c.w 1 c.w (graySamples c m) = some img ∧
      ∀ y < c.h, ∀ x < c.w, ∀ lo hi : Nat,
        (∀ q, Consensus.Spec.InImg c.h c.w q → Consensus.Spec.Near 3 (y, x) q → lo ≤ (init q.1 q.2).toNat ∧ (init q.1 q.2).toNat ≤ hi) →
        (∀ f ∈ fs, ∀ q, Consensus.Spec.InImg c.h c.w q → Consensus.Spec.Near 1 (y, x) q → lo ≤ (f.img q.1 q.2).toNat ∧ (f.img q.1 q.2).toNat ≤ hi) →
        lo ≤ img y x 0 ∧ img y x 0 ≤ hi := by
  obtain ⟨m, k, masks, e, -, h⟩ := Consensus.samples_observed c hb hh hw hn 0 rnd init fs hr
  obtain ⟨img, e2, h2⟩ := background_between_partial 8 c.h c.w 1 (graySamples c m) (by
      intro h0
      have := congrArg List.length h0
      simp [graySamples] at this
      omega) (by simp [graySamples]; omega) (by
      intro s hs
      obtain ⟨i, -, rfl⟩ := List.mem_map.1 hs
      exact ⟨(Nat.mul_one _).symm, fun a => BitVec.isLt _⟩)
  rw [Nat.mul_one] at e2
  refine ⟨m, k, masks, img, e, e2, fun y hy x hx lo hi h3 h4 => ?_⟩
  have key : ∀ v ∈ valuesAt c.w 1 (graySamples c m) y x 0, (lo : ℚ) ≤ v ∧ v ≤ hi := by
    intro v hv
    obtain ⟨s, hs, rfl⟩ := List.mem_map.1 hv
    obtain ⟨i, hi', rfl⟩ := List.mem_map.1 hs
    have hi' := List.mem_range.1 hi'
    have a1 : ((y * c.w + x) * 1 + 0) / c.w = y := by
      rw [Nat.mul_one, Nat.add_zero, Nat.mul_comm, Nat.mul_add_div (by omega), Nat.div_eq_of_lt hx, Nat.add_zero]
    have a2 : ((y * c.w + x) * 1 + 0) % c.w = x := by
      rw [Nat.mul_one, Nat.add_zero, Nat.mul_comm, Nat.mul_add_mod, Nat.mod_eq_of_lt hx]
    dsimp only
    rw [a1, a2]
    rcases h i hi' y hy x hx with ⟨q, q1, q2, q3⟩ | ⟨f, hf, q, q1, q2, q3, -⟩
    · rw [q3]; have := h3 q q1 q2; exact ⟨by exact_mod_cast this.1, by exact_mod_cast this.2⟩
    · rw [q3]; have := h4 f hf q q1 q2; exact ⟨by exact_mod_cast this.1, by exact_mod_cast this.2⟩
  obtain ⟨⟨v, hv, g1⟩, ⟨u, hu, g2⟩, -⟩ := h2 y hy x hx 0 (by norm_num)
  have := (key v hv).1
  have := (key u hu).2
  exact ⟨by exact_mod_cast (by linarith : (lo : ℚ) ≤ img y x 0), by exact_mod_cast (by linarith : (img y x 0 : ℚ) ≤ hi)⟩

/-- A 2 × 2 scene of gray level 77 with two samples, and one frame of it. -/
example : ∃ m k masks img, Consensus.session ⟨2, 2, 2, 1, 0⟩ 0 (fun _ => 3) (fun _ _ => 77) [Consensus.vibe1 20 16 (fun _ _ => 77)] = some (m, k, masks) ∧
    bgImage float32 8 2 2 1 2 (graySamples ⟨2, 2, 2, 1, 0⟩ m) = some img ∧ ∀ y < 2, ∀ x < 2, img y x 0 = 77 := by
  obtain ⟨m, k, masks, img, e, e2, h⟩ := vibe_background ⟨2, 2, 2, 1, 0⟩ rfl (by decide) (by decide) (by decide) (by decide) (fun _ => 3) (fun _ _ => 77)
    [Consensus.vibe1 20 16 (fun _ _ => 77)] (by intro f hf y x; rw [List.mem_singleton.1 hf]; show 0 < 16; decide)
  refine ⟨m, k, masks, img, e, e2, fun y hy x hx => ?_⟩
  have := h y hy x hx 77 77 (by intro q _ _; decide) (by
    intro f hf q _ _
    rw [List.mem_singleton.1 hf]
    show 77 ≤ (77 : BitVec 8).toNat ∧ (77 : BitVec 8).toNat ≤ 77
    decide)
  omega

end Litiv.BgImage
