import Verif.Lemmas.CudaToggle

/-!
# CUDA algorithms
-/

namespace Litiv.CudaToggle

/-- **Safety.** After any calls, an object either has a usable device, known to it, or has none and is turned off; it is
parallel only in the first case, and says that it is a CUDA algorithm exactly when it is parallel. -/
theorem toggle_inv (env : Env) (cur : Int) (calls : List (Flags × Call)) :
    ∀ a ∈ (run env cur calls).objs, (Ready env a ∨ Unset a) ∧ (a.isParallel = true → Ready env a) ∧
      a.isCuda = a.isParallel := by
  have h := run_inv env cur (fun w => ∀ a ∈ w.objs, Ready env a ∨ Unset a) (fun _ => True) (by simp) ?_ calls (by simp)
  · intro a ha
    refine ⟨h a ha, fun hp => ?_, ?_⟩
    · rcases h a ha with h | ⟨_, h, _⟩
      · exact h
      · rw [Algo.isParallel, h] at hp; cases hp
    · unfold Algo.isCuda Algo.isParallel; cases a.use <;> rfl
  · rintro w ⟨f, c⟩ hw -
    intro a ha
    cases c with
    | construct use id =>
      rcases List.mem_append.1 ha with ha | ha
      · exact hw a ha
      · rw [List.mem_singleton.1 ha]; exact construct_state env f w.cur use id
    | tryInit i id =>
      simp only [step] at ha
      split at ha
      · rcases mem_set_or ha with ha | ha
        · rw [ha]; exact tryInit_state env f w.cur id
        · exact hw a ha
      · exact hw a ha
    | enable i v =>
      simp only [step] at ha
      split at ha
      · rename_i b hb
        rcases mem_set_or ha with ha | ha
        · have hbm := hw b (List.mem_of_getElem? hb)
          cases he : enable b v with
          | none => rw [ha, he]; exact hbm
          | some b' =>
            rw [ha, he]
            rcases hbm with h | h
            · exact .inl (enable_ready h he)
            · rw [Option.getD_some, enable_unset h he]; exact .inr h
        · exact hw a ha
      · exact hw a ha

/-- **Initialization.** An attempt succeeds exactly if the device is usable and the CUDA runtime works; then the object
has that device and is turned on, and otherwise it has none and is turned off. Other objects stay as they are. -/
theorem init_effect (env : Env) (w : World) (f : Flags) (i : Nat) (id : Int) (hi : i < w.objs.length) :
    let ok := (tryInit env f w.cur id).2.2
    (ok = true ↔ Usable env id ∧ f.clear = true ∧ f.warm = true) ∧
    (step env w f (.tryInit i id)).objs[i]? = some (if ok then ⟨true, true, id, some id⟩ else ⟨false, false, -1, none⟩) ∧
    (ok = true → (step env w f (.tryInit i id)).cur = id) ∧
    ∀ j ≠ i, (step env w f (.tryInit i id)).objs[j]? = w.objs[j]? := by
  intro ok
  have hs : step env w f (.tryInit i id) = ⟨(tryInit env f w.cur id).1, w.objs.set i (tryInit env f w.cur id).2.1⟩ := by
    simp only [step, if_pos hi]
  rw [hs]
  refine ⟨?_, ?_, ?_, fun j hj => by simp [List.getElem?_set, Ne.symm hj]⟩ <;>
    rcases tryInit_cases env f w.cur id with ⟨h, h1⟩ | ⟨h, h1, h2⟩
  · simp only [ok, h]; simpa using h1
  · simp only [ok, h]; simpa using h1
  · simp only [ok, h]; simp [hi]
  · simp only [ok, h]; simp [hi]
  · simp [h]
  · simp [ok, h]

/-- **Construction.** A new object that should not use CUDA has no device and leaves the current device; one that should
is as after an initialization. Other objects stay as they are. -/
theorem construct_effect (env : Env) (w : World) (f : Flags) (id : Int) :
    step env w f (.construct false id) = ⟨w.cur, w.objs ++ [⟨false, false, -1, none⟩]⟩ ∧
    step env w f (.construct true id) = ⟨(tryInit env f w.cur id).1, w.objs ++ [(tryInit env f w.cur id).2.1]⟩ := by
  constructor <;> simp [step, construct]

/-- **Toggle.** After any calls, turning an object on fails exactly if it has no device, and then changes nothing;
otherwise the object is on or off as asked and keeps its device. -/
theorem enable_effect (env : Env) (cur : Int) (calls : List (Flags × Call)) (i : Nat) (a : Algo)
    (ha : (run env cur calls).objs[i]? = some a) (v : Bool) :
    (enable a v = none ↔ v = true ∧ ¬ Ready env a) ∧
    (∀ b, enable a v = some b → b.isParallel = v ∧ b.inited = a.inited ∧ b.dev = a.dev ∧ b.info = a.info) ∧
    ∀ f, let w' := step env (run env cur calls) f (.enable i v)
      w'.cur = (run env cur calls).cur ∧ w'.objs[i]? = some ((enable a v).getD a) ∧
      ∀ j ≠ i, w'.objs[j]? = (run env cur calls).objs[j]? := by
  obtain ⟨hs, -⟩ := toggle_inv env cur calls a (List.mem_of_getElem? ha)
  have hlt : i < (run env cur calls).objs.length := (List.getElem?_eq_some_iff.1 ha).1
  refine ⟨?_, ?_, ?_⟩
  · rcases hs with h | h
    · have h1 := h.1
      constructor
      · intro he; unfold enable at he; rw [h1] at he; cases v <;> cases hu : a.use <;> simp [hu] at he
      · rintro ⟨_, hn⟩; exact absurd h hn
    · obtain ⟨h1, h2, -, -⟩ := h
      have hn : ¬ Ready env a := by intro h; rw [h.1] at h1; cases h1
      unfold enable; rw [h1, h2]; cases v <;> simp [hn]
  · intro b hb
    unfold enable at hb
    unfold Algo.isParallel
    cases v <;> cases hu : a.use <;> simp only [hu, Bool.not_true, Bool.not_false, Bool.and_true, Bool.and_false,
      if_true, Bool.false_eq_true, if_false, Option.some.injEq] at hb
    · subst hb; simp [hu]
    · subst hb; simp
    · split at hb
      · cases hb; simp
      · cases hb
    · subst hb; simp [hu]
  · intro f
    simp only [step, ha]
    refine ⟨trivial, by simp [hlt], fun j hj => by simp [Ne.symm hj]⟩

/-- **Device.** If all calls name the same device, it is the current one whenever an object has a device. -/
theorem device_partial (env : Env) (cur d : Int) (calls : List (Flags × Call))
    (hd : ∀ c ∈ calls, ∀ id, c.2.names = some id → id = d) :
    ∀ a ∈ (run env cur calls).objs, a.isParallel = true → a.dev = (run env cur calls).cur := by
  have h := run_inv env cur (fun w => ∀ a ∈ w.objs, a.inited = true → a.dev = d ∧ w.cur = d)
    (fun c => ∀ id, c.2.names = some id → id = d) (by simp) ?_ calls hd
  · intro a ha hp
    obtain ⟨h1, h2⟩ := h a ha ((toggle_inv env cur calls a ha).2.1 hp).1
    rw [h1, h2]
  · rintro w ⟨f, c⟩ hw hc
    have key : ∀ id, id = d → (∀ a ∈ w.objs, a.inited = true → a.dev = d ∧ (tryInit env f w.cur id).1 = d) ∧
        ((tryInit env f w.cur id).2.1.inited = true →
          (tryInit env f w.cur id).2.1.dev = d ∧ (tryInit env f w.cur id).1 = d) := by
      rintro id rfl
      rcases tryInit_cases env f w.cur id with ⟨h, _⟩ | ⟨h, _, h2⟩
      · rw [h]; exact ⟨fun a ha hi => ⟨(hw a ha hi).1, rfl⟩, fun _ => ⟨rfl, rfl⟩⟩
      · refine ⟨fun a ha hi => ⟨(hw a ha hi).1, ?_⟩, fun hi => ?_⟩
        · rcases h2 with h2 | h2
          · rw [h2]; exact (hw a ha hi).2
          · exact h2
        · rw [h] at hi; cases hi
    intro a ha
    cases c with
    | construct use id =>
      obtain ⟨k1, k2⟩ := key id (hc id rfl)
      cases use
      · rw [(construct_effect env w f id).1] at ha ⊢
        rcases List.mem_append.1 ha with ha | ha
        · exact hw a ha
        · rw [List.mem_singleton.1 ha]; intro h; cases h
      · rw [(construct_effect env w f id).2] at ha ⊢
        rcases List.mem_append.1 ha with ha | ha
        · exact k1 a ha
        · rw [List.mem_singleton.1 ha]; exact k2
    | tryInit i id =>
      obtain ⟨k1, k2⟩ := key id (hc id rfl)
      simp only [step] at ha ⊢
      split at ha
      · rename_i hi
        rw [if_pos hi]
        rcases mem_set_or ha with ha | ha
        · rw [ha]; exact k2
        · exact k1 a ha
      · rename_i hi
        rw [if_neg hi]
        exact hw a ha
    | enable i v =>
      cases hb : w.objs[i]? with
      | none =>
        simp only [step, hb] at ha ⊢
        exact hw a ha
      | some b =>
        simp only [step, hb] at ha ⊢
        rcases mem_set_or ha with ha | ha
        · cases he : enable b v with
          | none => rw [ha, he]; exact hw b (List.mem_of_getElem? hb)
          | some b' =>
            rw [ha, he, Option.getD_some]
            have : b'.inited = b.inited ∧ b'.dev = b.dev := by
              unfold enable at he
              split at he
              · split at he
                · cases he; exact ⟨rfl, rfl⟩
                · cases he
              · split at he <;> cases he <;> exact ⟨rfl, rfl⟩
            rw [this.1, this.2]
            exact hw b (List.mem_of_getElem? hb)
        · exact hw a ha

/-- **Refuted.** With two devices, a second object, even one whose initialization fails, changes the device on which the
first, which is turned on, runs. -/
theorem device_refuted : ∃ (env : Env) (f : Flags) (a b : Algo),
    run env 0 [(f, .construct true 0), (f, .construct true 1)] = ⟨1, [a, b]⟩ ∧
    a.isParallel = true ∧ a.dev = 0 ∧ b.isParallel = false := by
  refine ⟨⟨2, fun d => d == 0⟩, ⟨true, true⟩, ⟨true, true, 0, some 0⟩, ⟨false, false, -1, none⟩, ?_, rfl, rfl, rfl⟩
  simp [run, step, construct, tryInit, init]

/-- One object: initialized, turned off and on again; then an initialization fails, after which it cannot be turned on. -/
example : let env : Env := ⟨1, fun _ => true⟩
    let f : Flags := ⟨true, true⟩
    (run env 0 [(f, .construct false 0), (f, .enable 0 true)]).objs = [⟨false, false, -1, none⟩] ∧
    (run env 0 [(f, .construct false 0), (f, .tryInit 0 0), (f, .enable 0 false)]).objs = [⟨false, true, 0, some 0⟩] ∧
    (run env 0 [(f, .construct true 0), (f, .enable 0 false), (f, .enable 0 true)]).objs = [⟨true, true, 0, some 0⟩] ∧
    (run env 0 [(f, .construct true 0), (f, .tryInit 0 3), (f, .enable 0 true)]).objs = [⟨false, false, -1, none⟩] := by
  decide

end Litiv.CudaToggle
