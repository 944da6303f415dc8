import Verif.Model.RectEdit
import Verif.Spec.RectEdit

/-!
# Lemmas about the rectangle editor
-/

namespace Litiv.RectEdit

variable {P R : Type}

/-- What holds between two events. -/
structure Inv (s : St P R) : Prop where
  some_box : ∀ f a, s.boxes f a ≠ []
  sel_in : ∀ a k, s.sel = some (a, k) → k < (s.boxes s.cur a).length

theorem put_same (s : St P R) (tile : Nat) (l : List R) : s.put tile l s.cur tile = l := by simp [St.put]

theorem put_ne (s : St P R) (tile : Nat) (l : List R) (hl : l ≠ []) (h : ∀ f a, s.boxes f a ≠ []) (f a : Nat) :
    s.put tile l f a ≠ [] := by
  unfold St.put
  split
  · exact hl
  · exact h f a

theorem left_inv (g : Geo P R) (s : St P R) (tile : Nat) (p : P) (h : Inv s) : Inv (left g s tile p) := by
  unfold left
  split
  · split
    · exact h
    · rename_i n _ _
      split
      · refine ⟨h.some_box, fun a k hk => ?_⟩
        obtain ⟨rfl, rfl⟩ := Prod.mk.inj (Option.some.inj hk)
        dsimp only
        omega
      · exact h
  · split
    · exact ⟨h.some_box, h.sel_in⟩
    · exact h

theorem right_inv (g : Geo P R) (s s' : St P R) (tile : Nat) (p : P) (h : Inv s) (hs : right g s tile p = some s') :
    Inv s' := by
  unfold right at hs
  split at hs
  · obtain rfl := Option.some.inj hs
    refine ⟨fun f a => put_ne s tile _ (by simp) h.some_box f a, fun a k hk => ?_⟩
    obtain ⟨rfl, rfl⟩ := Prod.mk.inj (Option.some.inj hk)
    dsimp only
    rw [put_same]
    simp
  · split at hs
    · obtain rfl := Option.some.inj hs
      exact h
    · split at hs
      · rename_i hc
        split at hs
        · rename_i hk
          obtain rfl := Option.some.inj hs
          refine ⟨fun f a => put_ne s tile _ ?_ h.some_box f a, fun a k hk => by simp at hk⟩
          intro he
          have := congrArg List.length he
          rw [List.length_eraseIdx_of_lt hk] at this
          simp only [List.length_nil] at this
          omega
        · simp at hs
      · obtain rfl := Option.some.inj hs
        exact h

theorem finish_inv (g : Geo P R) (s s' : St P R) (tile k : Nat) (p : P) (h : Inv s)
    (hs : finish g s tile k p = some s') : Inv s' := by
  unfold finish at hs
  split at hs
  · simp at hs
  · split at hs
    · obtain rfl := Option.some.inj hs
      refine ⟨fun f a => put_ne s tile _ ?_ h.some_box f a, fun a k hk => by simp at hk⟩
      have := h.some_box s.cur tile
      simpa using this
    · simp at hs

theorem inv_start (s : St P R) (p : P) (h : Inv s) : Inv { s with start := p } := ⟨h.some_box, h.sel_in⟩

theorem click_inv (g : Geo P R) (s s' : St P R) (tile : Nat) (l : Bool) (p : P) (h : Inv s)
    (hs : click g s tile l p = some s') : Inv s' := by
  have other : ∀ s', (if l = true then some (left g { s with start := p } tile p)
      else right g { s with start := p } tile p) = some s' → Inv s' := by
    intro s' hs
    split at hs
    · obtain rfl := Option.some.inj hs
      exact left_inv g _ tile p (inv_start s p h)
    · exact right_inv g _ s' tile p (inv_start s p h) hs
  unfold click at hs
  split at hs
  · split at hs
    · exact finish_inv g s s' tile _ p h hs
    · exact other s' hs
  · exact other s' hs

theorem step_inv (g : Geo P R) (total : Nat) (s s' : St P R) (e : Ev P) (h : Inv s) (hs : step g total s e = some s') :
    Inv s' := by
  cases e with
  | click tile l p => exact click_inv g s s' tile l p h hs
  | leave b =>
    obtain rfl := Option.some.inj hs
    exact ⟨h.some_box, fun a k hk => by simp [leave] at hk⟩

theorem run_inv (g : Geo P R) (total : Nat) : ∀ (es : List (Ev P)) (s s' : St P R), Inv s → run g total s es = some s' →
    Inv s'
  | [], s, s', h, hs => by
    obtain rfl := Option.some.inj hs
    exact h
  | e :: t, s, s', h, hs => by
    unfold run at hs
    obtain ⟨u, hu, hr⟩ := Option.bind_eq_some_iff.mp hs
    exact run_inv g total t u s' (step_inv g total s u e h hu) hr

theorem loadFrom_save (l : List R) : ∀ (k i n : Nat), i + k = l.length → loadFrom (save l) (k + 1 + n) i = some (l.drop i)
  | 0, i, n, h => by
    have e : 0 + 1 + n = n + 1 := by omega
    rw [e]
    unfold loadFrom save
    rw [List.getElem?_eq_none (by omega), List.drop_eq_nil_of_le (by omega)]
  | k + 1, i, n, h => by
    have e : k + 1 + 1 + n = (k + 1 + n) + 1 := by omega
    rw [e]
    unfold loadFrom
    have hi : i < l.length := by omega
    have hg : save l i = some l[i] := by unfold save; exact List.getElem?_eq_getElem hi
    rw [hg]
    dsimp only
    rw [loadFrom_save l k (i + 1) n (by omega), List.drop_eq_getElem_cons hi]
    rfl

/-- What holds when all clicks are in one image. -/
structure One (t : Nat) (s : St P R) : Prop where
  inv : Inv s
  apart : s.drawing = true → s.selecting = false
  tile : ∀ a k, s.sel = some (a, k) → a = t
  chosen : s.drawing = true → s.sel ≠ none

theorem one_click (g : Geo P R) (t : Nat) (s : St P R) (l : Bool) (p : P) (h : One t s) :
    ∃ s', click g s t l p = some s' ∧ One t s' := by
  suffices hh : ∃ s', click g s t l p = some s' ∧ (s'.drawing = true → s'.selecting = false) ∧
      (∀ a k, s'.sel = some (a, k) → a = t) ∧ (s'.drawing = true → s'.sel ≠ none) by
    obtain ⟨s', hs, h1, h2, h3⟩ := hh
    exact ⟨s', hs, click_inv g s s' t l p h.inv hs, h1, h2, h3⟩
  obtain ⟨hi, ha, ht, hc⟩ := h
  cases hd : s.drawing with
  | true =>
    cases hsel : s.sel with
    | none => exact absurd hsel (hc hd)
    | some x =>
      obtain ⟨a, k⟩ := x
      obtain rfl := ht a k hsel
      unfold click
      rw [hd, hsel]
      dsimp only
      rw [if_pos rfl]
      unfold finish
      rw [if_neg (by simp [ha hd]), if_pos (hi.sel_in a k hsel)]
      exact ⟨_, rfl, by simp, by simp, by simp⟩
  | false =>
    unfold click
    rw [hd]
    dsimp only
    cases l with
    | true =>
      rw [if_pos rfl]
      refine ⟨_, rfl, ?_⟩
      unfold left
      dsimp only
      split
      · split
        · exact ⟨by simp [hd], ht, by simp [hd]⟩
        · split
          · refine ⟨by simp [hd], ?_, by simp [hd]⟩
            intro a k hk
            exact (Prod.mk.inj (Option.some.inj hk)).1.symm
          · exact ⟨by simp [hd], ht, by simp [hd]⟩
      · split
        · rename_i hm
          refine ⟨by simp, ht, fun _ hn => ?_⟩
          dsimp only at hn
          rw [hn] at hm
          simp at hm
        · exact ⟨by simp [hd], ht, by simp [hd]⟩
    | false =>
      rw [if_neg (by simp)]
      unfold right
      dsimp only
      split
      · rename_i hn
        refine ⟨_, rfl, by simp [hn], ?_, by simp⟩
        intro a k hk
        exact (Prod.mk.inj (Option.some.inj hk)).1.symm
      · cases hsel : s.sel with
        | none => exact ⟨_, rfl, by simp [hd], by simp [hsel], by simp [hd]⟩
        | some x =>
          obtain ⟨a, k⟩ := x
          dsimp only
          obtain rfl := ht a k hsel
          split
          · rw [if_pos (hi.sel_in a k hsel)]
            exact ⟨_, rfl, by simp, by simp, by simp [hd]⟩
          · refine ⟨_, rfl, by simp [hd], ?_, by simp [hd]⟩
            intro b j hb
            exact (Prod.mk.inj (Option.some.inj hb)).1.symm

theorem better_nearest (lim num dist : Nat) (cs : List (Nat × Nat)) (best : Option (Nat × Nat)) (h : Nearest lim cs best) :
    Nearest lim (cs ++ [(num, dist)]) (better lim dist num best) := by
  obtain ⟨h1, h2⟩ := h
  unfold better
  cases best with
  | none =>
    have h1 := h1 rfl
    by_cases hd : dist < lim
    · rw [if_pos ⟨hd, rfl⟩]
      refine ⟨by simp, fun b hb => ?_⟩
      obtain rfl := Option.some.inj hb
      refine ⟨by simp, hd, fun c hc => ?_⟩
      rcases List.mem_append.mp hc with hc | hc
      · have := h1 c hc; dsimp only; omega
      · rw [List.mem_singleton.mp hc]; exact Nat.le_refl _
    · rw [if_neg (fun hh => hd hh.1)]
      refine ⟨fun _ c hc => ?_, by simp⟩
      rcases List.mem_append.mp hc with hc | hc
      · exact h1 c hc
      · rw [List.mem_singleton.mp hc]; dsimp only; omega
  | some b =>
    obtain ⟨hm, hl, ha⟩ := h2 b rfl
    by_cases hd : dist < b.2
    · rw [if_pos ⟨by omega, by simpa using hd⟩]
      refine ⟨by simp, fun b' hb => ?_⟩
      obtain rfl := Option.some.inj hb
      refine ⟨by simp, by dsimp only; omega, fun c hc => ?_⟩
      rcases List.mem_append.mp hc with hc | hc
      · have := ha c hc; dsimp only; omega
      · rw [List.mem_singleton.mp hc]; exact Nat.le_refl _
    · rw [if_neg (fun hh => hd (by simpa using hh.2))]
      refine ⟨by simp, fun b' hb => ?_⟩
      obtain rfl := Option.some.inj hb
      refine ⟨by simp [hm], hl, fun c hc => ?_⟩
      rcases List.mem_append.mp hc with hc | hc
      · exact ha c hc
      · rw [List.mem_singleton.mp hc]; dsimp only; omega

theorem closest_nearest (g : Geo P R) (p : P) : ∀ (l : List R) (i : Nat) (cs : List (Nat × Nat))
    (best : Option (Nat × Nat)), Nearest g.lim cs best → Nearest g.lim (cs ++ corners g p l i) (closest g p l i best)
  | [], i, cs, best, h => by
    unfold corners closest
    rwa [List.append_nil]
  | r :: t, i, cs, best, h => by
    unfold corners closest
    have := closest_nearest g p t (i + 1) _ _ (better_nearest g.lim (2 * i + 1) (g.br p r) _ _
      (better_nearest g.lim (2 * i) (g.tl p r) cs best h))
    simpa [List.append_assoc] using this

theorem corners_lt (g : Geo P R) (p : P) : ∀ (l : List R) (i : Nat) (c : Nat × Nat), c ∈ corners g p l i →
    c.1 < 2 * (i + l.length)
  | [], i, c, h => by simp [corners] at h
  | r :: t, i, c, h => by
    unfold corners at h
    simp only [List.mem_cons] at h
    rw [List.length_cons]
    rcases h with rfl | rfl | h
    · dsimp only; omega
    · dsimp only; omega
    · have := corners_lt g p t (i + 1) c h
      omega

end Litiv.RectEdit
