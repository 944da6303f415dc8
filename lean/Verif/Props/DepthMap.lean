import Verif.Lemmas.DepthMap

/-!
# Depth images seen from the RGB camera
-/

namespace Litiv.DepthMap

/-- **Defined.** The depth image and the depth mask can be built exactly if no map entry lies in the last half pixel of
the depth image; otherwise pixels outside of the image are read. -/
theorem remap_defined_partial (rows cols : Nat) (raw : Img) (w h : Nat) (map : Nat → Pt) (flip : Bool) :
    ((depthInput rows cols raw w h map flip).isSome ↔ ∀ n < h * w, ¬ PastEdge rows cols (map n)) ∧
    ((depthGT rows cols raw w h map).isSome ↔ ∀ n < h * w, ¬ PastEdge rows cols (map n)) := by
  constructor
  · rw [depthInput, Option.isSome_map, remap_isSome]
  · rw [depthGT, remap_isSome]

/-- **Refuted.** With the sizes of the dataset, a map entry inside of the depth image makes the loop read outside of it. -/
theorem remap_refuted : ∃ p : Pt, Inside 424 512 p ∧ ∀ raw flip, depthInput 424 512 raw 1920 1080 (fun _ => p) flip = none ∧
    depthGT 424 512 raw 1920 1080 (fun _ => p) = none := by
  have hp : PastEdge 424 512 (some (511 + 1 / 2), some 0) := by
    refine ⟨511 + 1 / 2, 0, rfl, ⟨511 + 1 / 2, 0, rfl, ?_, ?_, ?_, ?_⟩, .inl ?_⟩ <;> norm_num
  refine ⟨(some (511 + 1 / 2), some 0), ?_, ?_⟩
  · obtain ⟨_, _, _, h, _⟩ := hp; exact h
  · intro raw flip
    have h1 := remap_defined_partial 424 512 raw 1920 1080 (fun _ => (some (511 + 1 / 2), some 0)) flip
    constructor
    · rw [← Option.not_isSome_iff_eq_none, h1.1]
      exact fun h => h 0 (by norm_num) hp
    · rw [← Option.not_isSome_iff_eq_none, h1.2]
      exact fun h => h 0 (by norm_num) hp

/-- **Values.** Each pixel of the depth image takes the value of the depth pixel closest to its map entry, or zero if this
entry is outside; if images are flipped, the entry is the one of the mirrored pixel. -/
theorem depth_values (rows cols : Nat) (raw : Img) (w h : Nat) (map : Nat → Pt) (flip : Bool) (out : List Nat)
    (ho : depthInput rows cols raw w h map flip = some out) :
    out.length = h * w ∧ ∀ r < h, ∀ k < w, ∃ v, out[r * w + k]? = some v ∧
      let p := map (r * w + if flip then w - 1 - k else k)
      (Inside rows cols p → Closest rows cols raw p v ∧ ∀ v', Closest rows cols raw p v' → v' = v) ∧
      (¬ Inside rows cols p → v = 0) := by
  have key : ∀ o, remap rows cols raw (h * w) map = some o → ∀ n < h * w, ∃ v, o[n]? = some v ∧
      (Inside rows cols (map n) → Closest rows cols raw (map n) v ∧ ∀ v', Closest rows cols raw (map n) v' → v' = v) ∧
      (¬ Inside rows cols (map n) → v = 0) := by
    intro o ho n hn
    have he := (remap_isSome rows cols raw (h * w) map).1 (by rw [ho]; rfl) n hn
    obtain ⟨-, h2⟩ := remap_get ho
    by_cases hi : Inside rows cols (map n)
    · obtain ⟨v, hv, hc⟩ := lookup_inside hi he raw
      exact ⟨v, by rw [h2 n hn, hv], fun _ => ⟨hc, fun v' hv' => closest_unique hi hv' hc⟩, fun hn => absurd hi hn⟩
    · exact ⟨0, by rw [h2 n hn, lookup_outside hi], fun h => absurd h hi, fun _ => rfl⟩
  rw [depthInput, Option.map_eq_some_iff] at ho
  obtain ⟨o, ho, rfl⟩ := ho
  have hl := (remap_get ho).1
  cases flip with
  | false =>
    refine ⟨by simpa using hl, fun r hr k hk => ?_⟩
    simpa using key o ho _ (index_lt hr hk)
  | true =>
    refine ⟨by simp [flipImg], fun r hr k hk => ?_⟩
    obtain ⟨v, hv, h2⟩ := key o ho (r * w + (w - 1 - k)) (index_lt hr (by omega))
    exact ⟨v, by simpa [flipImg_get hl hr hk] using hv, by simpa using h2⟩

/-- **Masks.** The ground truth mask is remapped in the same way as the depth image, but it is never flipped: it matches
the depth image only when this one is not flipped, and otherwise its mirror. -/
theorem mask_mirrored_partial (rows cols : Nat) (raw : Img) (w h : Nat) (map : Nat → Pt) :
    depthGT rows cols raw w h map = depthInput rows cols raw w h map false ∧
    ∀ out gt, depthInput rows cols raw w h map true = some out → depthGT rows cols raw w h map = some gt →
      ∀ r < h, ∀ k < w, gt[r * w + k]? = out[r * w + (w - 1 - k)]? := by
  refine ⟨by simp [depthGT, depthInput], ?_⟩
  intro out gt ho hg r hr k hk
  rw [depthGT] at hg
  rw [depthInput, hg] at ho
  cases ho
  have hl := (remap_get hg).1
  dsimp only
  rw [if_pos rfl, flipImg_get hl hr (by omega : w - 1 - k < w)]
  congr 2
  omega

/-- **Refuted.** With flipped images, a mask which marks a pixel of the raw depth image does not mark the same pixel in
the ground truth as in the depth image, whether the mask is stored like the depth image or mirrored. -/
theorem mask_refuted : ∃ (raw : Img) (map : Nat → Pt), ∃ out, depthInput 1 4 raw 4 1 map true = some out ∧
    depthGT 1 4 raw 4 1 map ≠ some out ∧ depthGT 1 4 (fun r k => raw r (3 - k)) 4 1 map ≠ some out := by
  refine ⟨fun _ k => if k = 2 then 1 else 0, fun n => if n = 3 then (some 2, some 0) else (none, none), [1, 0, 0, 0], ?_, ?_, ?_⟩ <;>
    decide +kernel

/-- Same sizes and the identity map. -/
example : depthInput 2 3 (fun r k => 10 * r + k) 3 2 (fun n => (some ((n % 3 : Nat) : ℚ), some ((n / 3 : Nat) : ℚ))) false =
    some [0, 1, 2, 10, 11, 12] := by decide +kernel

/-- Fractional entries, flipped; one entry is outside and one is no number. -/
example : depthInput 2 3 (fun r k => 10 * r + k + 1) 2 2 (fun n => [(some (3 / 2), some (2 / 5)), (some (-1 / 10), some 0),
    (none, some 1), (some 0, some (14 / 10))].getD n (none, none)) true = some [0, 3, 11, 0] := by decide +kernel

end Litiv.DepthMap
