import Verif.Model.Lobster
import Verif.Lemmas.BgUtils

namespace Litiv.Lobster
open Consensus Consensus.Spec

/-- Effect of a refresh on the samples: unchanged, or what was last seen at an inner position near the pixel (which is
background unless the refresh is forced), and only for relevant pixels (background ones unless forced). -/
def Refreshed {V : Type} (c : Cfg) (last : Nat → Nat → V) (fg : Nat → Nat → BitVec 8) (force : Bool) (px : List (Nat × Nat))
    (m m' : Model V) : Prop :=
  ∀ s y x, m' s y x = m s y x ∨
    ((y, x) ∈ px ∧ (force = true ∨ fg y x = 0) ∧
      ∃ q, Inner c.b c.h c.w q ∧ Near 3 (y, x) q ∧ (force = true ∨ fg q.1 q.2 = 0) ∧ m' s y x = last q.1 q.2)

theorem refreshPixel_spec {V : Type} (c : Cfg) (hh : 2 * c.b < c.h) (hw : 2 * c.b < c.w) (hn0 : 0 < c.n) (rnd : Nat → Nat) (last : Nat → Nat → V)
    (fg : Nat → Nat → BitVec 8) (force : Bool) (start cnt : Nat) (m : Model V) (k : Nat) (p : Nat × Nat)
    (hi : Inner c.b c.h c.w p) :
    ∃ r, refreshPixel c rnd last fg force start cnt (m, k) p = some r ∧ Refreshed c last fg force [p] m r.1 ∧
      (force = true → start = 0 → ∀ s < cnt, cnt ≤ c.n → ∃ q, Inner c.b c.h c.w q ∧ Near 3 p q ∧ r.1 s p.1 p.2 = last q.1 q.2) := by
  unfold refreshPixel
  by_cases hf : (force || fg p.1 p.2 == 0) = true
  · rw [if_pos hf]
    have hf' : force = true ∨ fg p.1 p.2 = 0 := by simpa using hf
    obtain ⟨r, e, h, hfull⟩ := foldlM_inv (refreshSample c rnd last fg force p) ((List.range cnt).map (start + ·))
      (fun pre r => Refreshed c last fg force [p] m r.1 ∧
        (force = true → start = 0 → cnt ≤ c.n → ∀ s ∈ pre, ∃ q, Inner c.b c.h c.w q ∧ Near 3 p q ∧ r.1 s p.1 p.2 = last q.1 q.2))
      (fun pre a post r hl hP => by
        obtain ⟨q, eq, hq, hn⟩ := samplePx_spec c hh hw (rnd r.2) p.1 p.2
        have hn := hn hi
        refine ⟨(if force || fg q.1 q.2 == 0 then r.1.put (a % c.n) p.1 p.2 (last q.1 q.2) else r.1, r.2 + 1), ?_, fun s y x => ?_, ?_⟩
        · unfold refreshSample
          rw [eq]
          dsimp only
          rw [write_mod c hn0]
          split <;> rfl
        · by_cases hg : (force || fg q.1 q.2 == 0) = true
          · simp only [hg, if_true, Model.put]
            by_cases hc : s = a % c.n ∧ y = p.1 ∧ x = p.2
            · rw [if_pos hc]
              obtain ⟨-, rfl, rfl⟩ := hc
              exact Or.inr ⟨by simp, hf', q, hq, hn, by simpa using hg, rfl⟩
            · rw [if_neg hc]; exact hP.1 s y x
          · simp only [Bool.not_eq_true] at hg
            simp only [hg]
            exact hP.1 s y x
        · intro hforce hs hcn s hsm
          simp only [hforce, Bool.true_or, if_true, Model.put]
          have ha : a < cnt := by
            have : a ∈ (List.range cnt).map (start + ·) := by rw [hl]; simp
            rw [hs] at this
            simpa using this
          rw [Nat.mod_eq_of_lt (by omega)]
          by_cases hc : s = a
          · rw [if_pos (by simp [hc])]
            exact ⟨q, hq, hn, rfl⟩
          · rw [if_neg (fun h => hc h.1)]
            rw [List.mem_append, List.mem_singleton] at hsm
            rcases hsm with hsm | hsm
            · exact hP.2 hforce hs hcn s hsm
            · exact absurd hsm hc)
      (m, k) ⟨fun s y x => Or.inl rfl, fun _ _ _ s hs => absurd hs (by simp)⟩
    refine ⟨r, e, h, fun h1 h2 s hs hn => hfull h1 h2 hn s ?_⟩
    rw [h2]; simpa using hs
  · rw [if_neg hf]
    refine ⟨_, rfl, fun s y x => Or.inl rfl, fun h => absurd (by simp [h]) hf⟩

theorem refreshFold_spec {V : Type} (c : Cfg) (hh : 2 * c.b < c.h) (hw : 2 * c.b < c.w) (hn0 : 0 < c.n) (rnd : Nat → Nat) (last : Nat → Nat → V)
    (fg : Nat → Nat → BitVec 8) (force : Bool) (start cnt : Nat) (px : List (Nat × Nat)) (hpx : ∀ p ∈ px, Inner c.b c.h c.w p)
    (m : Model V) (k : Nat) :
    ∃ r, px.foldlM (refreshPixel c rnd last fg force start cnt) (m, k) = some r ∧ Refreshed c last fg force px m r.1 ∧
      (force = true → start = 0 → cnt ≤ c.n → ∀ p ∈ px, ∀ s < cnt,
        ∃ q, Inner c.b c.h c.w q ∧ Near 3 p q ∧ r.1 s p.1 p.2 = last q.1 q.2) := by
  obtain ⟨r, e, h1, h2⟩ := foldlM_inv (refreshPixel c rnd last fg force start cnt) px
    (fun pre r => Refreshed c last fg force pre m r.1 ∧ (force = true → start = 0 → cnt ≤ c.n → ∀ p ∈ pre, ∀ s < cnt,
        ∃ q, Inner c.b c.h c.w q ∧ Near 3 p q ∧ r.1 s p.1 p.2 = last q.1 q.2))
    (fun pre p post r hl hP => by
      obtain ⟨r', e, hr, hfull⟩ := refreshPixel_spec c hh hw hn0 rnd last fg force start cnt r.1 r.2 p (hpx p (by rw [hl]; simp))
      refine ⟨r', e, fun s y x => ?_, fun hf hs hn p' hp' s hsc => ?_⟩
      · rcases hr s y x with h | ⟨h1, h2⟩
        · rw [h]
          rcases hP.1 s y x with h | ⟨h1, h2⟩
          · exact Or.inl h
          · exact Or.inr ⟨List.mem_append_left _ h1, h2⟩
        · exact Or.inr ⟨List.mem_append_right _ h1, h2⟩
      · rw [List.mem_append, List.mem_singleton] at hp'
        by_cases hpp : p' = p
        · subst hpp; exact hfull hf hs s hsc hn
        · have hp'' := hp'.resolve_right hpp
          obtain ⟨q, g1, g2, g3⟩ := hP.2 hf hs hn p' hp'' s hsc
          refine ⟨q, g1, g2, ?_⟩
          rcases hr s p'.1 p'.2 with h | ⟨h1, -⟩
          · rw [h]; exact g3
          · exact absurd (List.mem_singleton.1 h1) hpp)
    (m, k) ⟨fun s y x => Or.inl rfl, fun _ _ _ p hp => absurd hp (by simp)⟩
  exact ⟨r, e, h1, h2⟩

theorem refreshModel_spec {V : Type} (c : Cfg) (hh : 2 * c.b < c.h) (hw : 2 * c.b < c.w) (hn0 : 0 < c.n) (rnd : Nat → Nat) (last : Nat → Nat → V)
    (fg : Nat → Nat → BitVec 8) (frac : Option Nat) (force : Bool) (px : List (Nat × Nat)) (hpx : ∀ p ∈ px, Inner c.b c.h c.w p)
    (m : Model V) (k : Nat) :
    ∃ r, refreshModel c rnd last fg px frac force m k = some r ∧ Refreshed c last fg force px m r.1 ∧
      (force = true → frac = none → ∀ p ∈ px, ∀ s < c.n, ∃ q, Inner c.b c.h c.w q ∧ Near 3 p q ∧ r.1 s p.1 p.2 = last q.1 q.2) := by
  cases frac with
  | none =>
    obtain ⟨r, e, h1, h2⟩ := refreshFold_spec c hh hw hn0 rnd last fg force 0 c.n px hpx m k
    exact ⟨r, e, h1, fun hf _ => h2 hf rfl (by omega)⟩
  | some cnt =>
    obtain ⟨r, e, h1, -⟩ := refreshFold_spec c hh hw hn0 rnd last fg force (rnd k % c.n) cnt px hpx m (k + 1)
    exact ⟨r, e, h1, fun _ h => absurd h (by simp)⟩

end Litiv.Lobster
