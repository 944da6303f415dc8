import Verif.Spec.ChangeDet
import Mathlib.Data.List.Basic

namespace Litiv.ChangeDet

open Spec

theorem rate_promised {F S : Type} (e : Env F S) (i : Nat) : rate e i = promised e.dfltRate i := by
  unfold rate promised
  by_cases h : i ≤ 100
  · rw [if_pos h, if_pos (by omega)]
  · rw [if_neg h, if_neg (by omega)]

theorem pushed_append : ∀ (a b : List Ev), pushed (a ++ b) = pushed a ++ pushed b
  | [], b => rfl
  | .push i m :: t, b => by simp [pushed, pushed_append t b]
  | .start :: t, b => by simp [pushed, pushed_append t b]
  | .stop :: t, b => by simp [pushed, pushed_append t b]
  | .report :: t, b => by simp [pushed, pushed_append t b]

/-- Only pushes. -/
def OnlyPush (l : List Ev) : Prop := ∀ ev ∈ l, ∃ i m, ev = .push i m

theorem closed_push : ∀ (l t : List Ev), OnlyPush l → closed true (l ++ t) = closed true t
  | [], t, _ => rfl
  | .push i m :: l, t, h => by
    simp only [List.cons_append, closed, Bool.true_and]
    exact closed_push l t fun ev hev => h ev (by simp [hev])
  | .start :: l, t, h => by obtain ⟨_, _, hc⟩ := h .start (by simp); simp at hc
  | .stop :: l, t, h => by obtain ⟨_, _, hc⟩ := h .stop (by simp); simp at hc
  | .report :: l, t, h => by obtain ⟨_, _, hc⟩ := h .report (by simp); simp at hc

/-- The loop adds pushes only, and these are a prefix of the masks of the algorithm. -/
theorem loop_spec {F S : Type} (e : Env F S) : ∀ (rem i : Nat) (st : S) (log : List Ev),
    ∃ l, (loop e rem i st log).1 = log ++ l ∧ OnlyPush l ∧
      pushed l <+: (masks e.input e.apply (promised e.dfltRate) rem i st).map (fun p => (p.1, marked e p.2))
  | 0, i, st, log => ⟨[], by simp [loop], by simp [OnlyPush], by simp [pushed]⟩
  | rem + 1, i, st, log => by
    unfold loop masks
    cases hf : e.input i with
    | none => exact ⟨[], by simp, by simp [OnlyPush], by simp [pushed]⟩
    | some f =>
      dsimp only
      rw [Option.bind_some, ← rate_promised]
      cases ha : e.apply st f (rate e i) with
      | none => exact ⟨[], by simp, by simp [OnlyPush], by simp [pushed]⟩
      | some q =>
        obtain ⟨st', m⟩ := q
        dsimp only
        by_cases hq : (e.display && e.quit i) = true
        · rw [if_pos hq]
          exact ⟨[], by simp, by simp [OnlyPush], by simp [pushed]⟩
        · rw [if_neg hq]
          by_cases hp : e.pushOk i = true
          · rw [if_pos hp]
            obtain ⟨l, h1, h2, h3⟩ := loop_spec e rem (i + 1) st' (log ++ [.push i (marked e m)])
            refine ⟨.push i (marked e m) :: l, by rw [h1]; simp, ?_, ?_⟩
            · intro ev hev
              rcases List.mem_cons.mp hev with rfl | hev
              · exact ⟨_, _, rfl⟩
              · exact h2 ev hev
            · simp only [pushed, List.map_cons]
              exact (List.prefix_cons_inj _).mpr h3
          · rw [if_neg hp]
            exact ⟨[], by simp, by simp [OnlyPush], by simp [pushed]⟩

/-- Without any failure the loop pushes all the masks. -/
theorem loop_full {F S : Type} (e : Env F S) (hq : ∀ i, (e.display && e.quit i) = false)
    (hp : ∀ i, e.pushOk i = true) : ∀ (rem i : Nat) (st : S) (log : List Ev),
    (masks e.input e.apply (promised e.dfltRate) rem i st).length = rem →
    loop e rem i st log = (log ++
      ((masks e.input e.apply (promised e.dfltRate) rem i st).map fun p => Ev.push p.1 (marked e p.2)), true)
  | 0, i, st, log, _ => by simp [loop, masks]
  | rem + 1, i, st, log, h => by
    unfold masks at h ⊢
    unfold loop
    cases hf : e.input i with
    | none => rw [hf] at h; simp at h
    | some f =>
      rw [hf] at h
      rw [Option.bind_some, ← rate_promised] at h ⊢
      dsimp only
      cases ha : e.apply st f (rate e i) with
      | none => rw [ha] at h; simp at h
      | some q =>
        obtain ⟨st', m⟩ := q
        rw [ha] at h
        dsimp only at h ⊢
        rw [if_neg (by rw [hq i]; simp), if_pos (hp i),
          loop_full e hq hp rem (i + 1) st' _ (by simpa using h)]
        simp

theorem masks_index {F S : Type} (input : Nat → Option F) (apply : S → F → Nat → Option (S × List Nat))
    (rt : Nat → Nat) : ∀ (n i : Nat) (st : S),
    (masks input apply rt n i st).map (fun p => p.1) <+: (List.range' i n)
  | 0, i, st => by simp [masks]
  | n + 1, i, st => by
    unfold masks
    cases (input i).bind fun f => apply st f (rt i) with
    | none => simp
    | some q =>
      obtain ⟨st', m⟩ := q
      simp only [List.map_cons, List.range'_succ]
      exact (List.prefix_cons_inj _).mpr (masks_index input apply rt n (i + 1) st')

/-- The body in one form: nothing, or a start, pushes, and an end. -/
theorem body_form {F S : Type} (e : Env F S) :
    body e = ([], false) ∨
    ∃ f st l, e.input 0 = some f ∧ e.init f = some st ∧ OnlyPush l ∧
      pushed l <+: (masks e.input e.apply (promised e.dfltRate) e.frames 0 st).map (fun p => (p.1, marked e p.2)) ∧
      (body e = (.start :: l, true) ∨
        (e.stopOk = true ∧ (body e = (.start :: l ++ [.stop, .report], false) ∨ body e = (.start :: l ++ [.stop], false)))) := by
  unfold body
  by_cases h0 : (!(e.setupOk && decide (1 < e.frames))) = true
  · rw [if_pos h0]
    exact Or.inl rfl
  rw [if_neg h0]
  cases hf : e.input 0 with
  | none => exact Or.inl rfl
  | some f =>
    dsimp only
    cases hi : e.init f with
    | none => exact Or.inl rfl
    | some st =>
      obtain ⟨l, h1, h2, h3⟩ := loop_spec e e.frames 0 st [.start]
      right
      refine ⟨f, st, l, rfl, hi, h2, h3, ?_⟩
      dsimp only
      rw [h1]
      by_cases hr : (loop e e.frames 0 st [.start]).2 = true
      · rw [if_pos hr]
        by_cases hs : e.stopOk = true
        · rw [if_pos hs]
          right
          refine ⟨hs, ?_⟩
          by_cases hrep : e.reportOk = true
          · rw [if_pos hrep]
            exact Or.inl rfl
          · rw [if_neg hrep]
            exact Or.inr rfl
        · rw [if_neg hs]
          exact Or.inl rfl
      · rw [if_neg hr]
        exact Or.inl rfl

end Litiv.ChangeDet
