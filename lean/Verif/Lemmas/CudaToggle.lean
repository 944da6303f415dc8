import Verif.Spec.CudaToggle

/-!
# Lemmas on CUDA algorithms
-/

namespace Litiv.CudaToggle

theorem init_cases (env : Env) (f : Flags) (cur id : Int) :
    ((init env f cur id).2 = true ∧ (init env f cur id).1 = id ∧ Usable env id ∧ f.clear = true ∧ f.warm = true) ∨
    ((init env f cur id).2 = false ∧ ¬ (Usable env id ∧ f.clear = true ∧ f.warm = true) ∧
      ((init env f cur id).1 = cur ∨ (init env f cur id).1 = id)) := by
  unfold init Usable
  rcases f with ⟨c, wm⟩
  cases c
  · simp
  · by_cases h1 : env.count > 0
    · by_cases h2 : env.count > id
      · by_cases h3 : id < 0
        · have : ¬ 0 ≤ id := by omega
          simp [h1, h2, h3, this]
        · have h3' : 0 ≤ id := by omega
          cases h4 : env.caps id <;> cases wm <;> simp [h1, h2, h3, h3', h4]
      · have : ¬ id < env.count := by omega
        simp [h1, h2, this]
    · have : ¬ (0 ≤ id ∧ id < env.count) := by omega
      simp [h1]
      omega

theorem tryInit_cases (env : Env) (f : Flags) (cur id : Int) :
    (tryInit env f cur id = (id, ⟨true, true, id, some id⟩, true) ∧ Usable env id ∧ f.clear = true ∧ f.warm = true) ∨
    ((tryInit env f cur id).2 = (⟨false, false, -1, none⟩, false) ∧ ¬ (Usable env id ∧ f.clear = true ∧ f.warm = true) ∧
      ((tryInit env f cur id).1 = cur ∨ (tryInit env f cur id).1 = id)) := by
  have h := init_cases env f cur id
  unfold tryInit
  rcases hi : init env f cur id with ⟨c, ok⟩
  rw [hi] at h
  cases ok
  · rcases h with h | ⟨_, h1, h2⟩
    · simp at h
    · exact .inr ⟨rfl, h1, h2⟩
  · rcases h with ⟨_, h1, h2⟩ | h
    · simp only at h1; subst h1; exact .inl ⟨rfl, h2⟩
    · simp at h

theorem tryInit_state (env : Env) (f : Flags) (cur id : Int) :
    Ready env (tryInit env f cur id).2.1 ∨ Unset (tryInit env f cur id).2.1 := by
  rcases tryInit_cases env f cur id with ⟨h, hu, _⟩ | ⟨h, _⟩
  · rw [h]; exact .inl ⟨rfl, hu, rfl⟩
  · rw [h]; exact .inr ⟨rfl, rfl, rfl, rfl⟩

theorem construct_state (env : Env) (f : Flags) (cur : Int) (use : Bool) (id : Int) :
    Ready env (construct env f cur use id).2 ∨ Unset (construct env f cur use id).2 := by
  cases use
  · exact .inr ⟨rfl, rfl, rfl, rfl⟩
  · exact tryInit_state env f cur id

theorem enable_ready {env : Env} {a b : Algo} {v : Bool} (h : Ready env a) (he : enable a v = some b) : Ready env b := by
  unfold enable at he
  split at he
  · split at he
    · cases he; exact h
    · cases he
  · split at he <;> cases he <;> exact h

theorem enable_unset {a b : Algo} {v : Bool} (h : Unset a) (he : enable a v = some b) : b = a := by
  obtain ⟨h1, h2, -, -⟩ := h
  unfold enable at he
  rw [h1, h2] at he
  cases v <;> simp at he
  exact he.symm

/-- Invariant induction over calls. -/
theorem run_inv (env : Env) (cur : Int) (P : World → Prop) (Q : Flags × Call → Prop) (h0 : P ⟨cur, []⟩)
    (hs : ∀ w c, P w → Q c → P (step env w c.1 c.2)) (calls : List (Flags × Call)) (hq : ∀ c ∈ calls, Q c) :
    P (run env cur calls) := by
  unfold run
  generalize (⟨cur, []⟩ : World) = w at h0
  induction calls generalizing w with
  | nil => exact h0
  | cons c l ih =>
    exact ih (fun c hc => hq c (by simp [hc])) _ (hs w c h0 (hq c (by simp)))

theorem mem_set_or {l : List Algo} {i : Nat} {x a : Algo} (h : a ∈ l.set i x) : a = x ∨ a ∈ l := by
  rcases List.mem_or_eq_of_mem_set h with h | h
  · exact .inr h
  · exact .inl h

end Litiv.CudaToggle
