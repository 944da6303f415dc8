import Verif.Spec.SlicShow
import Mathlib.Algebra.Order.Floor.Ring
import Mathlib.Algebra.Order.BigOperators.Group.Finset
import Mathlib.Algebra.BigOperators.Group.List.Basic
import Mathlib.Tactic.Linarith
import Mathlib.Tactic.NormNum
import Mathlib.Tactic.Ring
import Mathlib.Tactic.FieldSimp
import Mathlib.Tactic.Positivity

/-! # Lemmas on the drawing of superpixels -/
namespace Litiv.SlicShow

variable {w h : Nat}

theorem mem_frame {p : Nat × Nat} : p ∈ frame w h ↔ p.1 < w ∧ p.2 < h := by
  unfold frame; simp

theorem mem_pixels {p : Nat × Nat} : p ∈ pixels w h ↔ p ∈ frame w h := by
  unfold pixels
  rw [mem_frame]
  simp only [List.mem_flatMap, List.mem_range, List.mem_map]
  constructor
  · rintro ⟨i, hi, j, hj, rfl⟩; exact ⟨hj, hi⟩
  · rintro ⟨h1, h2⟩; exact ⟨p.2, h2, p.1, h1, rfl⟩

theorem pixels_sorted : (pixels w h).Pairwise Before := by
  unfold pixels
  rw [List.pairwise_flatMap]
  constructor
  · intro i _
    rw [List.pairwise_map]
    refine List.pairwise_lt_range.imp ?_
    intro a b hab
    exact Or.inr ⟨rfl, hab⟩
  · refine List.pairwise_lt_range.imp ?_
    intro a b hab x hx y hy
    simp only [List.mem_map] at hx hy
    obtain ⟨_, _, rfl⟩ := hx
    obtain ⟨_, _, rfl⟩ := hy
    exact Or.inl hab

theorem pixels_nodup : (pixels w h).Nodup := by
  refine pixels_sorted.imp ?_
  rintro a b hab rfl
  unfold Before at hab
  omega

theorem prefix_before {a b : List (Nat × Nat)} {p : Nat × Nat} (e : pixels w h = a ++ p :: b) (q : Nat × Nat) :
    q ∈ a ↔ q ∈ frame w h ∧ Before q p := by
  have hs := pixels_sorted (w := w) (h := h)
  rw [e, List.pairwise_append] at hs
  obtain ⟨-, h2, h3⟩ := hs
  constructor
  · intro hq
    exact ⟨mem_pixels.1 (by rw [e]; exact List.mem_append_left _ hq), h3 q hq p List.mem_cons_self⟩
  · rintro ⟨hf, hb⟩
    have := mem_pixels.2 hf
    rw [e] at this
    rcases List.mem_append.1 this with h | h
    · exact h
    · exfalso
      rcases List.mem_cons.1 h with rfl | h
      · unfold Before at hb; omega
      · have := (List.pairwise_cons.1 h2).1 q h
        unfold Before at hb this
        omega

/-! ## Mean colours -/

theorem maxLabel_spec (lab : Nat × Nat → ℤ) {l : List (Nat × Nat)} (hl : l ≠ []) :
    ∃ m, maxLabel lab l = some m ∧ (∃ p ∈ l, lab p = m) ∧ ∀ p ∈ l, lab p ≤ m := by
  cases l with
  | nil => exact absurd rfl hl
  | cons p ps =>
    refine ⟨_, rfl, ?_⟩
    have key : ∀ (ps : List (Nat × Nat)) (m : ℤ), let r := ps.foldl (fun m q => max m (lab q)) m
        m ≤ r ∧ (∀ q ∈ ps, lab q ≤ r) ∧ (r = m ∨ ∃ q ∈ ps, lab q = r) := by
      intro ps
      induction ps with
      | nil => intro m; simp
      | cons a ps ih =>
        intro m
        obtain ⟨h1, h2, h3⟩ := ih (max m (lab a))
        simp only [List.foldl_cons] at h1 h2 h3 ⊢
        refine ⟨(le_max_left _ _).trans h1, ?_, ?_⟩
        · intro q hq
          rcases List.mem_cons.1 hq with rfl | hq
          · exact (le_max_right _ _).trans h1
          · exact h2 q hq
        · rcases h3 with h3 | ⟨q, hq, h3⟩
          · rcases max_cases m (lab a) with ⟨hm, -⟩ | ⟨hm, -⟩
            · left; rw [h3, hm]
            · right; exact ⟨a, List.mem_cons_self, by rw [h3, hm]⟩
          · exact Or.inr ⟨q, List.mem_cons_of_mem _ hq, h3⟩
    obtain ⟨h1, h2, h3⟩ := key ps (lab p)
    refine ⟨?_, ?_⟩
    · rcases h3 with h3 | ⟨q, hq, h3⟩
      · exact ⟨p, List.mem_cons_self, h3.symm⟩
      · exact ⟨q, List.mem_cons_of_mem _ hq, h3⟩
    · intro q hq
      rcases List.mem_cons.1 hq with rfl | hq
      · exact h1
      · exact h2 q hq

theorem collectAll_spec (img : Nat × Nat → Color) (lab : Nat × Nat → ℤ) : ∀ (ps : List (Nat × Nat)) (v : Lists),
    (∀ p ∈ ps, lab p < v.size) →
    ∃ v', collectAll img lab ps v = some v' ∧ v'.size = v.size ∧
      ∀ l, v'.at' l = v.at' l ++ (ps.filter fun p => lab p = l).map fun p => (p, img p) := by
  intro ps
  induction ps with
  | nil => intro v _; exact ⟨v, rfl, rfl, fun l => by simp⟩
  | cons p ps ih =>
    intro v hb
    have hp := hb p List.mem_cons_self
    unfold collectAll collect
    by_cases h0 : lab p ≥ 0
    · rw [if_pos h0]
      dsimp only
      rw [if_pos (by omega)]
      simp only [Option.bind_some]
      obtain ⟨v', e, h1, h2⟩ := ih ⟨v.size, fun l => if l = (lab p).toNat then v.at' l ++ [(p, img p)] else v.at' l⟩
        (fun q hq => hb q (List.mem_cons_of_mem _ hq))
      refine ⟨v', e, h1, fun l => ?_⟩
      rw [h2 l]
      dsimp only
      by_cases hl : l = (lab p).toNat
      · have hl' : lab p = (l : ℤ) := by omega
        rw [if_pos hl, List.filter_cons_of_pos (by simpa using hl')]
        simp
      · have hl' : ¬ lab p = (l : ℤ) := by omega
        rw [if_neg hl, List.filter_cons_of_neg (by simpa using hl')]
    · rw [if_neg h0]
      simp only [Option.bind_some]
      obtain ⟨v', e, h1, h2⟩ := ih v (fun q hq => hb q (List.mem_cons_of_mem _ hq))
      refine ⟨v', e, h1, fun l => ?_⟩
      have hl' : ¬ lab p = (l : ℤ) := by omega
      rw [h2 l, List.filter_cons_of_neg (by simpa using hl')]

theorem fold_paint (c : Color) : ∀ (l : List ((Nat × Nat) × Color)) (o : Nat × Nat → Color) (q : Nat × Nat),
    (l.foldl (fun o d => fun q => if q = d.1 then c else o q) o) q = if q ∈ l.map Prod.fst then c else o q := by
  intro l
  induction l with
  | nil => intro o q; simp
  | cons d l ih =>
    intro o q
    rw [List.foldl_cons, ih]
    by_cases h1 : q ∈ l.map Prod.fst
    · rw [if_pos h1, if_pos (by simp only [List.map_cons, List.mem_cons]; exact Or.inr h1)]
    · rw [if_neg h1]
      by_cases h2 : q = d.1
      · rw [if_pos h2, if_pos (by rw [h2]; simp)]
      · rw [if_neg h2, if_neg (by simp only [List.map_cons, List.mem_cons]; tauto)]

theorem paint_spec {v : Lists} {lab : Nat × Nat → ℤ} (hv : ∀ i, ∀ c ∈ v.at' i, lab c.1 = i) (out : Nat × Nat → Color) (q : Nat × Nat) :
    ((∀ i < v.size, q ∉ (v.at' i).map Prod.fst) → paint v out q = out q) ∧
    ∀ i < v.size, q ∈ (v.at' i).map Prod.fst → paint v out q = meanColor (v.at' i) := by
  have key : ∀ n, let r := (List.range n).foldl (fun out i =>
      if (v.at' i).isEmpty then out
      else (v.at' i).foldl (fun o c => fun q => if q = c.1 then meanColor (v.at' i) else o q) out) out
      ((∀ i < n, q ∉ (v.at' i).map Prod.fst) → r q = out q) ∧
      ∀ i < n, q ∈ (v.at' i).map Prod.fst → r q = meanColor (v.at' i) := by
    intro n
    induction n with
    | zero => simp
    | succ n ih =>
      simp only [List.range_succ, List.foldl_append, List.foldl_cons, List.foldl_nil]
      obtain ⟨h1, h2⟩ := ih
      by_cases he : (v.at' n).isEmpty
      · rw [if_pos he]
        rw [List.isEmpty_iff] at he
        refine ⟨fun h => h1 fun i hi => h i (by omega), fun i hi hq => ?_⟩
        by_cases hin : i = n
        · subst hin; rw [he] at hq; simp at hq
        · exact h2 i (by omega) hq
      · rw [if_neg he]
        simp only [fold_paint]
        by_cases hq : q ∈ (v.at' n).map Prod.fst
        · rw [if_pos hq]
          refine ⟨fun h => absurd hq (h n (by omega)), fun i hi hqi => ?_⟩
          have e1 : lab q = n := by
            obtain ⟨c, hc, rfl⟩ := List.mem_map.1 hq
            exact hv n c hc
          have e2 : lab q = i := by
            obtain ⟨c, hc, rfl⟩ := List.mem_map.1 hqi
            exact hv i c hc
          have : i = n := by omega
          rw [this]
        · rw [if_neg hq]
          refine ⟨fun h => h1 fun i hi => h i (by omega), fun i hi hqi => ?_⟩
          by_cases hin : i = n
          · subst hin; exact absurd hqi hq
          · exact h2 i (by omega) hqi
  exact key v.size

theorem sum_colors : ∀ (l : List ((Nat × Nat) × Color)) (s : ℚ × ℚ × ℚ),
    l.foldl (fun (s : ℚ × ℚ × ℚ) c => (s.1 + c.2.b, s.2.1 + c.2.g, s.2.2 + c.2.r)) s =
      (s.1 + (l.map fun c => (c.2.b : ℚ)).sum, s.2.1 + (l.map fun c => (c.2.g : ℚ)).sum, s.2.2 + (l.map fun c => (c.2.r : ℚ)).sum) := by
  intro l
  induction l with
  | nil => intro s; simp
  | cons c l ih =>
    intro s
    rw [List.foldl_cons, ih]
    simp only [List.map_cons, List.sum_cons]
    refine Prod.ext (by dsimp only; ring) (Prod.ext (by dsimp only; ring) (by dsimp only; ring))

theorem cvRound_spec (q : ℚ) : |(cvRound q : ℚ) - q| ≤ 1 / 2 ∧ (|(cvRound q : ℚ) - q| = 1 / 2 → cvRound q % 2 = 0) := by
  have h1 := Int.floor_le q
  have h2 := Int.lt_floor_add_one q
  unfold cvRound
  dsimp only
  split
  · rename_i h
    rw [abs_sub_comm, abs_of_nonneg (by linarith)]
    exact ⟨h.le, fun e => by linarith⟩
  · rename_i h
    split
    · rename_i h'
      push_cast
      rw [abs_of_nonneg (by linarith)]
      exact ⟨by linarith, fun e => by linarith⟩
    · rename_i h'
      have he : q - ⌊q⌋ = 1 / 2 := by linarith [not_lt.1 h, not_lt.1 h']
      split
      · rename_i hz
        rw [abs_sub_comm, he, abs_of_nonneg (by norm_num)]
        exact ⟨le_refl _, fun _ => hz⟩
      · push_cast
        have : (⌊q⌋ : ℚ) + 1 - q = 1 / 2 := by linarith
        rw [this, abs_of_nonneg (by norm_num)]
        exact ⟨le_refl _, fun _ => by omega⟩

theorem saturate_spec {q : ℚ} (h0 : 0 ≤ q) (h1 : q ≤ 255) : Rounded (saturate q) q := by
  obtain ⟨a, b⟩ := cvRound_spec q
  have hr : 0 ≤ cvRound q ∧ cvRound q ≤ 255 := by
    rw [abs_le] at a
    constructor
    · have : (-1 : ℚ) < cvRound q := by linarith
      have : (-1 : ℤ) < cvRound q := by exact_mod_cast this
      omega
    · have : (cvRound q : ℚ) < 256 := by linarith
      have : cvRound q < 256 := by exact_mod_cast this
      omega
  have e : ((saturate q : Nat) : ℤ) = cvRound q := by unfold saturate; omega
  have e' : ((saturate q : Nat) : ℚ) = cvRound q := by exact_mod_cast e
  unfold Rounded
  rw [e']
  refine ⟨a, fun h => ?_⟩
  have := b h
  omega

theorem members_list (lab : Nat × Nat → ℤ) (l : ℤ) (f : Nat × Nat → ℚ) :
    (((pixels w h).filter fun p => lab p = l).map f).sum = ∑ p ∈ members w h lab l, f p ∧
    ((pixels w h).filter fun p => lab p = l).length = (members w h lab l).card := by
  have hn := (pixels_nodup (w := w) (h := h)).filter (fun p => decide (lab p = l))
  have e : (((pixels w h).filter fun p => lab p = l)).toFinset = members w h lab l := by
    ext p
    unfold members
    rw [List.mem_toFinset, List.mem_filter, Finset.mem_filter, mem_pixels]
    simp
  rw [← e, List.sum_toFinset f hn, List.toFinset_card_of_nodup hn]
  exact ⟨rfl, rfl⟩

theorem mean_bounds (lab : Nat × Nat → ℤ) (f : Nat × Nat → Nat) (hf : ∀ p, f p ≤ 255) (l : ℤ) :
    0 ≤ meanOf w h lab f l ∧ meanOf w h lab f l ≤ 255 := by
  unfold meanOf
  constructor
  · positivity
  · by_cases hc : (members w h lab l).card = 0
    · rw [hc]; norm_num
    · rw [div_le_iff₀ (by exact_mod_cast Nat.pos_of_ne_zero hc)]
      calc ∑ p ∈ members w h lab l, (f p : ℚ) ≤ ∑ _p ∈ members w h lab l, (255 : ℚ) :=
            Finset.sum_le_sum fun p _ => by exact_mod_cast hf p
        _ = _ := by rw [Finset.sum_const, nsmul_eq_mul]; ring

/-! ## Boundaries -/

theorem mem_others {lab : Nat × Nat → ℤ} {p q : Nat × Nat} {cond : Nat × Nat → Prop} :
    q ∈ others w h lab p cond ↔ q ∈ frame w h ∧ Touch p q ∧ lab q ≠ lab p ∧ cond q := by
  unfold others
  simp only [Finset.mem_filter]

theorem nbr8_some {p q : Nat × Nat} {d : ℤ × ℤ} (e : nbr8 w h p d = some q) :
    d.1 = q.1 - p.1 ∧ d.2 = q.2 - p.2 ∧ q.1 < w ∧ q.2 < h := by
  unfold nbr8 at e
  dsimp only at e
  split at e
  · cases e
    dsimp only
    omega
  · cases e

theorem nbr8_mem {p q : Nat × Nat} : q ∈ dirs8.filterMap (nbr8 w h p) ↔ q ∈ frame w h ∧ Touch p q := by
  rw [List.mem_filterMap, mem_frame]
  constructor
  · rintro ⟨d, hd, e⟩
    obtain ⟨h1, h2, h3, h4⟩ := nbr8_some e
    refine ⟨⟨h3, h4⟩, ?_⟩
    unfold dirs8 at hd
    simp only [List.mem_cons, List.not_mem_nil, or_false, Prod.ext_iff] at hd
    refine ⟨?_, ?_⟩
    · rintro rfl; omega
    · omega
  · rintro ⟨⟨h1, h2⟩, h3, h4⟩
    have hne : ¬ (p.1 = q.1 ∧ p.2 = q.2) := fun h => h3 (Prod.ext h.1 h.2)
    refine ⟨((q.1 : ℤ) - p.1, (q.2 : ℤ) - p.2), ?_, ?_⟩
    · unfold dirs8
      simp only [List.mem_cons, List.not_mem_nil, or_false, Prod.ext_iff]
      omega
    · unfold nbr8
      dsimp only
      rw [if_pos (by omega)]
      simp only [Option.some.injEq, Prod.ext_iff]
      omega

theorem nbr8_nodup (p : Nat × Nat) : (dirs8.filterMap (nbr8 w h p)).Nodup := by
  refine List.Nodup.filterMap ?_ (by decide)
  intro a a' b hb hb'
  have h1 := nbr8_some (Option.mem_def.1 hb)
  have h2 := nbr8_some (Option.mem_def.1 hb')
  exact Prod.ext (by omega) (by omega)

theorem count_fold (lab : Nat × Nat → ℤ) (p : Nat × Nat) : ∀ (l : List (ℤ × ℤ)) (mask : Nat × Nat → Nat),
    (∀ d ∈ l, nbr8 w h p d ≠ some p) →
    ∀ r, (l.foldl (countStep w h lab p) mask) r =
      if r = p then mask p + ((l.filterMap (nbr8 w h p)).filter fun q => lab p ≠ lab q ∧ mask q < 2).length else mask r := by
  intro l
  induction l with
  | nil =>
    intro mask _ r
    by_cases hr : r = p
    · subst hr; simp
    · simp [hr]
  | cons d l ih =>
    intro mask hd r
    have hd' : ∀ d ∈ l, nbr8 w h p d ≠ some p := fun d h => hd d (List.mem_cons_of_mem _ h)
    rw [List.foldl_cons]
    cases hn : nbr8 w h p d with
    | none =>
      have e : countStep w h lab p mask d = mask := by unfold countStep; rw [hn]
      rw [e, ih mask hd' r, List.filterMap_cons_none hn]
    | some q =>
      rw [List.filterMap_cons_some hn]
      have hqp : q ≠ p := by rintro rfl; exact hd d List.mem_cons_self hn
      by_cases hc : lab p ≠ lab q ∧ mask q < 2
      · have e : countStep w h lab p mask d = fun r => if r = p then mask p + 1 else mask r := by
          unfold countStep
          rw [hn]
          dsimp only
          rw [if_pos hc]
        rw [e, ih _ hd' r, List.filter_cons_of_pos (by simpa using hc)]
        by_cases hr : r = p
        · rw [if_pos hr, if_pos hr]
          rw [if_pos rfl, List.length_cons]
          have : ((l.filterMap (nbr8 w h p)).filter fun q => lab p ≠ lab q ∧ (if q = p then mask p + 1 else mask q) < 2) =
              (l.filterMap (nbr8 w h p)).filter fun q => lab p ≠ lab q ∧ mask q < 2 := by
            apply List.filter_congr
            intro x hx
            rw [List.mem_filterMap] at hx
            obtain ⟨d', hd1, hd2⟩ := hx
            have hxp : x ≠ p := by rintro rfl; exact hd' d' hd1 hd2
            rw [if_neg hxp]
          rw [this]
          omega
        · rw [if_neg hr, if_neg hr]
          rw [if_neg hr]
      · have e : countStep w h lab p mask d = mask := by
          unfold countStep
          rw [hn]
          dsimp only
          rw [if_neg hc]
        rw [e, ih mask hd' r, List.filter_cons_of_neg (by simpa using hc)]

/-- The state after the pixels of a list. -/
structure Bound (w h : Nat) (lab : Nat × Nat → ℤ) (done : List (Nat × Nat)) (m : Masks) : Prop where
  fresh : ∀ q, q ∉ done → m.mask q = 0
  seg : ∀ q, m.seg q = true ↔ q ∈ done ∧ 2 ≤ m.mask q

open Classical in
theorem boundStep_spec (lab : Nat × Nat → ℤ) {done : List (Nat × Nat)} {m : Masks} (b : Bound w h lab done m) {p : Nat × Nat}
    (hp : p ∉ done) :
    Bound w h lab (done ++ [p]) (boundStep w h lab m p) ∧
    (∀ q ∈ done, (boundStep w h lab m p).seg q = m.seg q) ∧
    ((boundStep w h lab m p).seg p = true ↔ 2 ≤ (others w h lab p fun q => ¬ (m.seg q = true)).card) := by
  have hd : ∀ d ∈ dirs8, nbr8 w h p d ≠ some p := by
    intro d hd e
    obtain ⟨h1, h2, -, -⟩ := nbr8_some e
    unfold dirs8 at hd
    simp only [List.mem_cons, List.not_mem_nil, or_false, Prod.ext_iff] at hd
    omega
  have hf := count_fold lab p dirs8 m.mask hd
  have hcard : ((dirs8.filterMap (nbr8 w h p)).filter fun q => lab p ≠ lab q ∧ m.mask q < 2).length =
      (others w h lab p fun q => ¬ (m.seg q = true)).card := by
    rw [← List.toFinset_card_of_nodup ((nbr8_nodup p).filter _)]
    congr 1
    ext q
    rw [List.mem_toFinset, List.mem_filter, mem_others, nbr8_mem]
    simp only [decide_eq_true_eq]
    have hs := b.seg q
    have hfr := b.fresh q
    constructor
    · rintro ⟨⟨h1, h2⟩, h3, h4⟩
      refine ⟨h1, h2, fun e => h3 e.symm, fun e => ?_⟩
      have := (hs.1 e).2
      omega
    · rintro ⟨h1, h2, h3, h4⟩
      refine ⟨⟨h1, h2⟩, fun e => h3 e.symm, ?_⟩
      by_contra hge
      by_cases hq : q ∈ done
      · exact h4 (hs.2 ⟨hq, by omega⟩)
      · rw [hfr hq] at hge; omega
  have hmp : (dirs8.foldl (countStep w h lab p) m.mask) p = (others w h lab p fun q => ¬ (m.seg q = true)).card := by
    rw [hf p, if_pos rfl, b.fresh p hp, hcard, Nat.zero_add]
  have hsp : m.seg p = false := by
    rw [Bool.eq_false_iff]
    intro e
    exact hp ((b.seg p).1 e).1
  have hmask : (boundStep w h lab m p).mask = dirs8.foldl (countStep w h lab p) m.mask := by
    unfold boundStep; dsimp only; split <;> rfl
  have hseg : ∀ q, (boundStep w h lab m p).seg q =
      if q = p then decide (2 ≤ (others w h lab p fun q => ¬ (m.seg q = true)).card) else m.seg q := by
    intro q
    unfold boundStep
    dsimp only
    rw [hmp]
    by_cases hq : q = p
    · rw [if_pos hq]
      split
      · rename_i h2; dsimp only; rw [if_pos hq]; exact (decide_eq_true h2).symm
      · rename_i h2; dsimp only; rw [hq, hsp]; exact (decide_eq_false h2).symm
    · rw [if_neg hq]
      split
      · dsimp only; rw [if_neg hq]
      · rfl
  have hne : ∀ q ∈ done, q ≠ p := fun q hq e => hp (e ▸ hq)
  refine ⟨⟨?_, ?_⟩, ?_, ?_⟩
  · intro q hq
    have hq1 : q ∉ done := fun h => hq (List.mem_append_left _ h)
    have hq2 : q ≠ p := fun h => hq (by rw [h]; simp)
    rw [hmask, hf q, if_neg hq2, b.fresh q hq1]
  · intro q
    rw [hseg q, hmask]
    by_cases hq : q = p
    · rw [if_pos hq, hq, hmp]
      simp
    · rw [if_neg hq, hf q, if_neg hq, b.seg q]
      simp [hq]
  · intro q hq
    rw [hseg q, if_neg (hne q hq)]
  · rw [hseg p, if_pos rfl]
    simp

theorem fold_bound (lab : Nat × Nat → ℤ) : ∀ (l done : List (Nat × Nat)) (m : Masks), (done ++ l).Nodup → Bound w h lab done m →
    Bound w h lab (done ++ l) (l.foldl (boundStep w h lab) m) ∧
    (∀ q ∈ done, (l.foldl (boundStep w h lab) m).seg q = m.seg q) ∧
    ∀ a p b, l = a ++ p :: b → ((l.foldl (boundStep w h lab) m).seg p = true ↔
      2 ≤ (others w h lab p fun q => ¬ (q ∈ done ++ a ∧ (l.foldl (boundStep w h lab) m).seg q = true)).card) := by
  intro l
  induction l with
  | nil =>
    intro done m _ b
    refine ⟨by rw [List.append_nil]; exact b, fun q _ => rfl, ?_⟩
    intro a p b e
    exact absurd e.symm (by simp)
  | cons s l ih =>
    intro done m hn b
    have hs : s ∉ done := by
      intro hs
      rw [List.nodup_append] at hn
      exact hn.2.2 s hs s List.mem_cons_self rfl
    obtain ⟨b1, k1, c1⟩ := boundStep_spec lab b hs
    obtain ⟨b2, k2, c2⟩ := ih (done ++ [s]) _ (by simpa using hn) b1
    rw [List.foldl_cons]
    refine ⟨by simpa using b2, ?_, ?_⟩
    · intro q hq
      rw [k2 q (List.mem_append_left _ hq), k1 q hq]
    · intro a p r e
      cases a with
      | nil =>
        rw [List.nil_append] at e
        cases e
        rw [k2 s (by simp), c1, List.append_nil]
        have : (others w h lab s fun q => ¬ (m.seg q = true)) = others w h lab s fun q =>
            ¬ (q ∈ done ∧ (List.foldl (boundStep w h lab) (boundStep w h lab m s) l).seg q = true) := by
          ext q
          simp only [mem_others]
          have : (m.seg q = true) ↔ (q ∈ done ∧ (List.foldl (boundStep w h lab) (boundStep w h lab m s) l).seg q = true) := by
            constructor
            · intro hq
              have hd := ((b.seg q).1 hq).1
              exact ⟨hd, by rw [k2 q (List.mem_append_left _ hd), k1 q hd]; exact hq⟩
            · rintro ⟨hd, hq⟩
              rw [k2 q (List.mem_append_left _ hd), k1 q hd] at hq
              exact hq
          rw [this]
        rw [this]
      | cons a0 a =>
        rw [List.cons_append] at e
        cases e
        have := c2 a p r rfl
        simpa using this

/-- The mask of boundary pixels, pixel by pixel. -/
theorem boundMask_spec (lab : Nat × Nat → ℤ) :
    (∀ p, boundMask w h lab p = true → p ∈ frame w h) ∧
    ∀ p ∈ frame w h, (boundMask w h lab p = true ↔
      2 ≤ (others w h lab p fun q => ¬ (Before q p ∧ boundMask w h lab q = true)).card) := by
  have b0 : Bound w h lab [] ⟨fun _ => 0, fun _ => false⟩ := ⟨fun _ _ => rfl, fun q => by simp⟩
  obtain ⟨b1, -, c⟩ := fold_bound lab (pixels w h) [] _ (by simpa using pixels_nodup) b0
  refine ⟨fun p hp => ?_, fun p hp => ?_⟩
  · have := ((b1.seg p).1 hp).1
    rw [List.nil_append] at this
    exact mem_pixels.1 this
  · obtain ⟨a, b, e⟩ := List.append_of_mem (mem_pixels.2 hp)
    have h1 := c a p b e
    rw [List.nil_append] at h1
    unfold boundMask
    rw [h1]
    have : (others w h lab p fun q => ¬ (q ∈ a ∧ ((pixels w h).foldl (boundStep w h lab) ⟨fun _ => 0, fun _ => false⟩).seg q = true)) =
        others w h lab p fun q => ¬ (Before q p ∧ ((pixels w h).foldl (boundStep w h lab) ⟨fun _ => 0, fun _ => false⟩).seg q = true) := by
      ext q
      simp only [mem_others]
      have := prefix_before e q
      tauto
    rw [this]

end Litiv.SlicShow
