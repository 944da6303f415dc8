import Verif.Model.Consensus
import Verif.Spec.Consensus
import Verif.Props.Sampling

namespace Litiv.Consensus
open Spec

theorem foldlM_inv {σ α : Type} (g : σ → α → Option σ) (l : List α) (P : List α → σ → Prop)
    (hP : ∀ pre a post s, l = pre ++ a :: post → P pre s → ∃ s', g s a = some s' ∧ P (pre ++ [a]) s')
    (s : σ) (h0 : P [] s) : ∃ s', l.foldlM g s = some s' ∧ P l s' := by
  have key : ∀ (rest pre : List α) (s : σ), l = pre ++ rest → P pre s → ∃ s', rest.foldlM g s = some s' ∧ P l s' := by
    intro rest
    induction rest with
    | nil =>
      intro pre s hl h
      rw [List.append_nil] at hl
      exact ⟨s, rfl, hl ▸ h⟩
    | cons a rest ih =>
      intro pre s hl h
      obtain ⟨s', e, h'⟩ := hP pre a rest s hl h
      obtain ⟨s'', e', h''⟩ := ih (pre ++ [a]) s' (by rw [hl, List.append_assoc]; rfl) h'
      refine ⟨s'', ?_, h''⟩
      rw [List.foldlM_cons, e]
      exact e'
  exact key l [] s rfl h0

theorem goodLoop_lt (good : Nat → Bool) (req : Nat) : ∀ rem idx cnt : Nat,
    goodLoop good req rem idx cnt < req ↔ cnt + ((List.range rem).filter fun i => good (idx + i)).length < req := by
  intro rem
  induction rem with
  | zero => intro idx cnt; simp [goodLoop]
  | succ rem ih =>
    intro idx cnt
    rw [goodLoop]
    have e : ((List.range (rem + 1)).filter fun i => good (idx + i)).length =
        (if good idx then 1 else 0) + ((List.range rem).filter fun i => good (idx + 1 + i)).length := by
      rw [List.range_succ_eq_map, List.filter_cons, List.filter_map, Nat.add_zero]
      have : ((fun i => good (idx + i)) ∘ Nat.succ) = fun i => good (idx + 1 + i) := by
        funext i; simp only [Function.comp]; congr 1; omega
      rw [this]
      by_cases hg : good idx = true <;> simp [hg]; omega
    rw [e]
    by_cases hc : cnt < req
    · rw [if_pos hc, ih]
      by_cases hg : good idx = true <;> simp [hg]; omega
    · rw [if_neg hc]; omega

theorem goodLoop_count (good : Nat → Bool) (req n : Nat) : goodLoop good req n 0 0 < req ↔ count n good < req := by
  rw [goodLoop_lt, count]; simp

theorem raster_mem (h w : Nat) (p : Nat × Nat) : p ∈ raster h w ↔ InImg h w p := by
  obtain ⟨y, x⟩ := p
  simp only [raster, InImg, List.mem_flatMap, List.mem_map, List.mem_range, Prod.mk.injEq]
  constructor
  · rintro ⟨y', hy, x', hx, rfl, rfl⟩; exact ⟨hy, hx⟩
  · rintro ⟨hy, hx⟩; exact ⟨y, hy, x, hx, rfl, rfl⟩

theorem raster_nodup (h w : Nat) : (raster h w).Nodup := by
  unfold raster
  rw [List.nodup_flatMap]
  refine ⟨fun y _ => ?_, ?_⟩
  · exact (List.nodup_range).map (fun a b e => by simpa using e)
  · refine (List.nodup_range (n := h)).imp ?_
    intro a b hab
    simp only [Function.onFun, List.disjoint_left, List.mem_map, not_exists, not_and]
    rintro p ⟨x, _, rfl⟩ x' _ e
    exact hab (Prod.mk.inj e).1.symm

theorem write_mod {V : Type} (c : Cfg) (hn : 0 < c.n) (m : Model V) (r y x : Nat) (v : V) :
    m.write c (r % c.n) y x v = some (m.put (r % c.n) y x v) := if_pos (Nat.mod_lt _ hn)

/-- A position computed by the 7x7 helper. -/
theorem samplePx_spec (c : Cfg) (hh : 2 * c.b < c.h) (hw : 2 * c.b < c.w) (r y x : Nat) :
    ∃ q, samplePx c r y x = some q ∧ Inner c.b c.h c.w q ∧ (Inner c.b c.h c.w (y, x) → Near 3 (y, x) q) := by
  obtain ⟨⟨h1, h2, h3, h4⟩, h5⟩ := Sampling.sample7_in_window r (x, y) c.b c.w c.h (by omega) (by omega)
  refine ⟨_, if_pos ⟨by omega, by omega, by omega, by omega⟩, ⟨?_, ?_, ?_, ?_⟩, ?_⟩ <;> (try dsimp only) <;> try omega
  rintro ⟨i1, i2, i3, i4⟩
  dsimp only at i1 i2 i3 i4
  obtain ⟨w1, w2, w3, w4⟩ := h5 ⟨by dsimp only; omega, by dsimp only; omega, by dsimp only; omega, by dsimp only; omega⟩
  dsimp only at w1 w2 w3 w4
  refine ⟨?_, ?_, ?_, ?_⟩ <;> dsimp only <;> omega

theorem neighbour_spec (c : Cfg) (hh : 2 * c.b < c.h) (hw : 2 * c.b < c.w) (r y x : Nat) (hi : Inner c.b c.h c.w (y, x)) :
    ∃ p q, Sampling.neighborPosition3 r (x, y) c.b c.w c.h = some p ∧ inImage c p = some q ∧ Inner c.b c.h c.w q ∧
      Near 1 (y, x) q := by
  obtain ⟨p, e, ⟨h1, h2, h3, h4⟩, h5⟩ := (Sampling.neighbor_in_window r ((x : Int), (y : Int)) c.b c.w c.h (by omega) (by omega)).1
  obtain ⟨i1, i2, i3, i4⟩ := hi
  dsimp only at i1 i2 i3 i4
  obtain ⟨w1, w2, w3, w4⟩ := h5 ⟨by dsimp only; omega, by dsimp only; omega, by dsimp only; omega, by dsimp only; omega⟩
  dsimp only at w1 w2 w3 w4
  refine ⟨p, _, e, if_pos ⟨by omega, by omega, by omega, by omega⟩, ⟨?_, ?_, ?_, ?_⟩, ⟨?_, ?_, ?_, ?_⟩⟩ <;> dsimp only <;> omega

/-- Everything about one pixel: the step is defined; either the pixel is foreground and nothing but its mask changes, or
it is background, the mask is unchanged and every changed sample is a sample of the pixel or a neighbour, written with
the value of this frame. -/
theorem step_spec {V : Type} (c : Cfg) (hh : 2 * c.b < c.h) (hw : 2 * c.b < c.w) (rnd : Nat → Nat) (f : Frame V)
    (hn0 : 0 < c.n) (st : St V) (y x : Nat) (hi : Inner c.b c.h c.w (y, x)) (hr : 0 < f.rate y x) :
    ∃ st', step c rnd f st (y, x) = some st' ∧
      ((count c.n (fun s => f.matched y x (st.model s y x)) < c.req ∧ st'.model = st.model ∧ st'.k = st.k ∧
        st'.mask = fun y' x' => if y' = y ∧ x' = x then 255 else st.mask y' x') ∨
       (c.req ≤ count c.n (fun s => f.matched y x (st.model s y x)) ∧ st'.mask = st.mask ∧
        ∀ s y' x', st'.model s y' x' = st.model s y' x' ∨
          (Near 1 (y, x) (y', x') ∧ Inner c.b c.h c.w (y', x') ∧ st'.model s y' x' = f.img y x ∧ (f.self = true → y' = y ∧ x' = x)) ∨
          (f.self = true ∧ Near 1 (y, x) (y', x') ∧ Inner c.b c.h c.w (y', x') ∧ st'.model s y' x' = f.img y' x'))) := by
  unfold step
  dsimp only
  by_cases hg : goodLoop (fun s => f.matched y x (st.model s y x)) c.req c.n 0 0 < c.req
  · rw [if_pos hg]
    exact ⟨_, rfl, Or.inl ⟨(goodLoop_count _ _ _).1 hg, rfl, rfl, rfl⟩⟩
  · rw [if_neg hg, if_neg (by omega)]
    have hge : c.req ≤ count c.n (fun s => f.matched y x (st.model s y x)) := by
      have := (not_congr (goodLoop_count (fun s => f.matched y x (st.model s y x)) c.req c.n)).1 hg
      omega
    have hself : Near 1 (y, x) (y, x) := ⟨by dsimp only; omega, by dsimp only; omega, by dsimp only; omega, by dsimp only; omega⟩
    have own : ∃ st1, updateOwn c rnd f st y x = some st1 ∧ st1.mask = st.mask ∧ ∀ s y' x', st1.model s y' x' = st.model s y' x' ∨
        (y' = y ∧ x' = x ∧ st1.model s y' x' = f.img y x) := by
      unfold updateOwn
      split
      · rw [write_mod c hn0]
        refine ⟨_, rfl, rfl, fun s y' x' => ?_⟩
        dsimp only [Model.put]
        split
        · rename_i h; exact Or.inr ⟨h.2.1, h.2.2, rfl⟩
        · exact Or.inl rfl
      · exact ⟨_, rfl, rfl, fun s y' x' => Or.inl rfl⟩
    obtain ⟨st1, e0, own⟩ := own
    rw [e0]
    dsimp only
    obtain ⟨om, ov⟩ := own
    obtain ⟨p, q, e1, e2, hq, hn⟩ := neighbour_spec c hh hw (rnd (st1.k + 1)) y x hi
    unfold updateNeighbour
    by_cases hr1 : rnd st1.k % f.rate y x = 0
    · rw [if_pos hr1, e1]
      dsimp only
      rw [e2]
      obtain ⟨y1, x1⟩ := q
      dsimp only
      rw [write_mod c hn0]
      refine ⟨_, rfl, Or.inr ⟨hge, om, fun s y' x' => ?_⟩⟩
      dsimp only [Model.put]
      by_cases hc : s = rnd (st1.k + 2) % c.n ∧ y' = y1 ∧ x' = x1
      · rw [if_pos hc]
        obtain ⟨-, rfl, rfl⟩ := hc
        cases hs : f.self
        · right; left
          exact ⟨hn, hq, by simp, by simp⟩
        · right; right
          exact ⟨rfl, hn, hq, by simp⟩
      · rw [if_neg hc]
        rcases ov s y' x' with h | ⟨rfl, rfl, h⟩
        · exact Or.inl h
        · exact Or.inr (Or.inl ⟨hself, hi, h, fun _ => ⟨rfl, rfl⟩⟩)
    · rw [if_neg hr1]
      refine ⟨_, rfl, Or.inr ⟨hge, om, fun s y' x' => ?_⟩⟩
      dsimp only
      rcases ov s y' x' with h | ⟨rfl, rfl, h⟩
      · exact Or.inl h
      · exact Or.inr (Or.inl ⟨hself, hi, h, fun _ => ⟨rfl, rfl⟩⟩)

/-- Invariant of the pixel loop after the pixels `pre`. -/
structure Inv {V : Type} (c : Cfg) (f : Frame V) (m : Model V) (pre : List (Nat × Nat)) (st : St V) : Prop where
  mask0 : ∀ y x, (y, x) ∉ pre → st.mask y x = 0
  mask : ∀ y x, st.mask y x = 0 ∨ st.mask y x = 255
  samples : ∀ s y x, st.model s y x = m s y x ∨
    ∃ p ∈ pre, st.mask p.1 p.2 = 0 ∧ Near 1 p (y, x) ∧ Inner c.b c.h c.w (y, x) ∧
      st.model s y x = (if f.self then f.img y x else f.img p.1 p.2)
  fresh : (∀ p ∈ pre, st.mask p.1 p.2 = 255) → st.model = m

theorem apply_inv {V : Type} (c : Cfg) (hh : 2 * c.b < c.h) (hw : 2 * c.b < c.w) (rnd : Nat → Nat) (f : Frame V)
    (px : List (Nat × Nat)) (hpx : ∀ p ∈ px, Inner c.b c.h c.w p) (hnd : px.Nodup) (hr : ∀ p ∈ px, 0 < f.rate p.1 p.2)
    (hn0 : 0 < c.n) (m : Model V) (k : Nat) : ∃ st, apply c rnd f px m k = some st ∧ Inv c f m px st ∧
      ∀ pre p post, px = pre ++ p :: post → ∃ before, apply c rnd f pre m k = some before ∧
        st.mask p.1 p.2 = if count c.n (fun s => f.matched p.1 p.2 (before.model s p.1 p.2)) < c.req then 255 else 0 := by
  have main := foldlM_inv (step c rnd f) px (fun pre st => apply c rnd f pre m k = some st ∧ Inv c f m pre st ∧
      ∀ pre' p post', pre = pre' ++ p :: post' → ∃ before, apply c rnd f pre' m k = some before ∧
        st.mask p.1 p.2 = if count c.n (fun s => f.matched p.1 p.2 (before.model s p.1 p.2)) < c.req then 255 else 0)
    (fun pre p post st hl hP => ?_) ⟨m, fun _ _ => 0, k⟩ ⟨rfl, ⟨fun _ _ _ => rfl, fun _ _ => Or.inl rfl, fun _ _ _ => Or.inl rfl, fun _ => rfl⟩, ?_⟩
  · obtain ⟨st, e, -, h⟩ := main
    exact ⟨st, e, h⟩
  · obtain ⟨ea, hI, hM⟩ := hP
    obtain ⟨y, x⟩ := p
    have hmem : (y, x) ∈ px := by rw [hl]; simp
    have hnot : (y, x) ∉ pre := by
      rw [hl, List.nodup_append] at hnd
      intro h
      exact hnd.2.2 _ h (y, x) (by simp) rfl
    obtain ⟨st', e, hs⟩ := step_spec c hh hw rnd f hn0 st y x (hpx _ hmem) (hr _ hmem)
    have ea' : apply c rnd f (pre ++ [(y, x)]) m k = some st' := by
      unfold apply at ea ⊢
      rw [List.foldlM_append, ea]
      show (List.foldlM (step c rnd f) st [(y, x)]) = some st'
      rw [List.foldlM_cons, e]
      rfl
    refine ⟨st', e, ea', ?_, ?_⟩
    · rcases hs with ⟨hc, h1, h2, h3⟩ | ⟨hc, h1, h2⟩
      · refine ⟨fun y' x' hn => ?_, fun y' x' => ?_, fun s y' x' => ?_, fun h => ?_⟩
        · rw [List.mem_append, List.mem_singleton, not_or] at hn
          rw [h3]; dsimp only
          rw [if_neg (fun h => hn.2 (by rw [h.1, h.2]))]
          exact hI.mask0 y' x' hn.1
        · rw [h3]; dsimp only
          split
          · exact Or.inr rfl
          · exact hI.mask y' x'
        · rw [h1]
          rcases hI.samples s y' x' with h | ⟨p, hp, hp0, hn, hi, hv⟩
          · exact Or.inl h
          · refine Or.inr ⟨p, List.mem_append_left _ hp, ?_, hn, hi, hv⟩
            rw [h3]; dsimp only
            rw [if_neg (fun h => hnot (by rw [← h.1, ← h.2]; exact hp))]
            exact hp0
        · rw [h1]
          refine hI.fresh fun p hp => ?_
          have := h p (List.mem_append_left _ hp)
          rw [h3] at this; dsimp only at this
          rwa [if_neg (fun h => hnot (by rw [← h.1, ← h.2]; exact hp))] at this
      · refine ⟨fun y' x' hn => ?_, fun y' x' => ?_, fun s y' x' => ?_, fun h => ?_⟩
        · rw [h1]; exact hI.mask0 y' x' (fun h => hn (List.mem_append_left _ h))
        · rw [h1]; exact hI.mask y' x'
        · rcases h2 s y' x' with h | ⟨hn, hi, hv, hsf⟩ | ⟨hsf, hn, hi, hv⟩
          · rw [h]
            rcases hI.samples s y' x' with h | ⟨p, hp, hp0, hn, hi, hv⟩
            · exact Or.inl h
            · exact Or.inr ⟨p, List.mem_append_left _ hp, by rw [h1]; exact hp0, hn, hi, hv⟩
          · refine Or.inr ⟨(y, x), by simp, by rw [h1]; exact hI.mask0 y x hnot, hn, hi, ?_⟩
            rw [hv]
            by_cases hsf' : f.self = true
            · obtain ⟨rfl, rfl⟩ := hsf hsf'
              simp
            · simp [hsf']
          · refine Or.inr ⟨(y, x), by simp, by rw [h1]; exact hI.mask0 y x hnot, hn, hi, ?_⟩
            rw [hv, if_pos hsf]
        · have := h (y, x) (by simp)
          rw [h1, hI.mask0 y x hnot] at this
          exact absurd this (by decide)
    · intro pre' p post' hsplit
      rcases List.eq_nil_or_concat post' with rfl | ⟨post'', z, rfl⟩
      · obtain ⟨rfl, hz⟩ := List.append_inj' hsplit rfl
        have : (y, x) = p := by simpa using hz
        subst this
        refine ⟨st, ea, ?_⟩
        rcases hs with ⟨hc, h1, h2, h3⟩ | ⟨hc, h1, h2⟩
        · rw [h3]; dsimp only; rw [if_pos ⟨rfl, rfl⟩, if_pos hc]
        · rw [h1]; dsimp only; rw [if_neg (by omega)]; exact hI.mask0 y x hnot
      · have hsplit' : pre ++ [(y, x)] = (pre' ++ p :: post'') ++ [z] := by rw [hsplit]; simp
        obtain ⟨hpre, hz⟩ := List.append_inj' hsplit' rfl
        obtain ⟨before, hb, hm⟩ := hM pre' p post'' hpre
        refine ⟨before, hb, ?_⟩
        rw [← hm]
        have hne : ¬ (p.1 = y ∧ p.2 = x) := fun h => hnot (by rw [hpre]; simp [← h.1, ← h.2])
        rcases hs with ⟨hc, h1, h2, h3⟩ | ⟨hc, h1, h2⟩
        · rw [h3]; dsimp only; rw [if_neg hne]
        · rw [h1]
  · intro pre' p post' h
    exact absurd h (by simp)

theorem initModel_spec {V : Type} (c : Cfg) (hb : c.b = 0) (hh : 0 < c.h) (hw : 0 < c.w) (zero : V) (rnd : Nat → Nat)
    (img : Nat → Nat → V) : ∃ m, initModel c zero rnd img = some (m, c.n * (c.h * c.w)) ∧
      ∀ s < c.n, ∀ y < c.h, ∀ x < c.w, ∃ q, InImg c.h c.w q ∧ Near 3 (y, x) q ∧ m s y x = img q.1 q.2 := by
  unfold initModel
  rw [if_neg (by omega)]
  generalize hl : ((List.range c.n).flatMap fun s => (raster c.h c.w).map fun p => (s, p)) = l
  have hmem : ∀ i, i ∈ l ↔ i.1 < c.n ∧ InImg c.h c.w i.2 := by
    intro i
    rw [← hl]
    simp only [List.mem_flatMap, List.mem_map, List.mem_range, raster_mem]
    constructor
    · rintro ⟨s, hs, p, hp, rfl⟩; exact ⟨hs, hp⟩
    · rintro ⟨h1, h2⟩; exact ⟨i.1, h1, i.2, h2, rfl⟩
  have hlen : l.length = c.n * (c.h * c.w) := by
    rw [← hl]
    have : (raster c.h c.w).length = c.h * c.w := by
      unfold raster
      simp [List.length_flatMap]
    simp [List.length_flatMap, this]
  obtain ⟨⟨m, k⟩, e, hk, hm⟩ := foldlM_inv (initStep c rnd img) l
    (fun pre st => st.2 = pre.length ∧ ∀ i ∈ pre, ∃ q, InImg c.h c.w q ∧ Near 3 i.2 q ∧ st.1 i.1 i.2.1 i.2.2 = img q.1 q.2)
    (fun pre a post st hl' hP => by
      obtain ⟨s, y, x⟩ := a
      have ha := (hmem (s, y, x)).1 (by rw [hl']; simp)
      obtain ⟨q, eq, hq, hnear⟩ := samplePx_spec c (by omega) (by omega) (rnd st.2) y x
      refine ⟨(st.1.put s y x (img q.1 q.2), st.2 + 1), ?_, ?_, fun i hi => ?_⟩
      · unfold initStep
        unfold samplePx at eq
        dsimp only
        rw [eq]
      · dsimp only; rw [hP.1, List.length_append]; rfl
      · have hqi : InImg c.h c.w q := ⟨by have := hq.2.1; omega, by have := hq.2.2.2; omega⟩
        have hn3 : Near 3 (y, x) q := hnear ⟨by omega, by have := ha.2.1; dsimp only at this ⊢; omega, by omega, by have := ha.2.2; dsimp only at this ⊢; omega⟩
        dsimp only [Model.put]
        by_cases hc : i.1 = s ∧ i.2.1 = y ∧ i.2.2 = x
        · refine ⟨q, hqi, ?_, if_pos hc⟩
          obtain ⟨i1, i2, i3⟩ := i
          obtain ⟨rfl, rfl, rfl⟩ := hc
          exact hn3
        · rw [if_neg hc]
          rw [List.mem_append, List.mem_singleton] at hi
          rcases hi with hi | rfl
          · exact hP.2 i hi
          · exact absurd ⟨rfl, rfl, rfl⟩ hc)
    (fun _ _ _ => zero, 0) ⟨rfl, by simp⟩
  refine ⟨m, ?_, fun s hs y hy x hx => hm (s, y, x) ((hmem _).2 ⟨hs, hy, hx⟩)⟩
  rw [e, ← hlen, ← hk]

end Litiv.Consensus
