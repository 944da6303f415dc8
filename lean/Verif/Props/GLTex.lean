import Verif.Lemmas.GLTex

/-!
# C241, C242: textures and pixel buffers
-/

namespace Litiv.GLTex

/-- C241, for calls which set and reset bindings: whatever is called in whichever order, the calls work, and textures and buffers behave
as containers: matrices read back are what was last written to that layer or buffer. Left out are copies of one layer of several into
a buffer without `glGetTextureSubImage`. -/
theorem containers_partial (c : Cfg) (s : GLS) (ops : List Op) (hs : Start c s) (hp : ProperAll c (store s) ops)
    (hr : ∀ op ∈ ops, Rebinds op) (hn : ∀ op ∈ ops, NoPart c op) :
    ∃ s', run c s ops = some (s', ((store s).run ops).2) ∧ store s' = ((store s).run ops).1 := by
  obtain ⟨s', h1, h2, _⟩ := run_refines c ops s hs hp hr hn
  exact ⟨s', h1, h2⟩

/-- Two textures of two layers of one row, three levels in the first; buffer 1 is for upload, 2 for download. -/
def demoCfg (sub : Bool) : Cfg :=
  ⟨fun _ => 1, fun _ => 2, fun t => if t = 1 then 3 else 1, fun p => decide (p = 1), fun p => if p = 2 ∧ sub = false then 2 else 1, sub⟩

/-- All layers and buffers hold zero. -/
def demoState : GLS := ⟨fun _ _ => [[0]], fun _ _ => [[0]], fun p => if p = 1 then some [[0]] else none, 0, 0, 0⟩

theorem demo_start (sub : Bool) : Start (demoCfg sub) demoState := by
  refine ⟨fun _ _ => rfl, ?_, rfl, rfl⟩
  intro p img h
  unfold demoState at h
  dsimp only at h
  by_cases hp : p = 1
  · rw [if_pos hp] at h
    obtain rfl := Option.some.inj h
    rw [hp]
    rfl
  · rw [if_neg hp] at h
    simp at h

def demoOps : List Op := [.bufFromMat 1 [[7]] true true true, .texFromBuf 1 1 1 true, .texFromMat 2 0 [[8]] true true,
  .bufFromTex 1 1 2 true, .matFromBuf 2 true true, .matFromTex 2 0, .matFromTex 1 0]

example : Start (demoCfg true) demoState ∧ ProperAll (demoCfg true) (store demoState) demoOps ∧ (∀ op ∈ demoOps, Rebinds op) ∧
    (∀ op ∈ demoOps, NoPart (demoCfg true) op) ∧
    (run (demoCfg true) demoState demoOps).map (·.2) =
      some [.done true, .done true, .done true, .done true, .image (some [[7]]), .image (some [[8]]), .image (some [[0]])] := by
  refine ⟨demo_start true, ?_, ?_, ?_, by decide⟩
  · simp [demoOps, ProperAll, Proper, demoCfg, store, Store.step]
  · simp [demoOps, Rebinds]
  · simp [demoOps, NoPart, demoCfg]

/-- C241 does not hold for the default arguments, which leave bindings alone: a matrix cannot be written to a texture after a buffer was,
even with rebinding. -/
theorem left_bound_refuted : ¬ ∀ (c : Cfg) (s : GLS) (ops : List Op), Start c s → ProperAll c (store s) ops →
    (∀ op ∈ ops, NoPart c op) → ∃ s', run c s ops = some (s', ((store s).run ops).2) := by
  intro h
  obtain ⟨s', h⟩ := h (demoCfg true) demoState [.texFromMat 1 0 [[5]] true false, .texFromBuf 1 0 1 false, .texFromMat 1 0 [[6]] true true]
    (demo_start true) (by simp [ProperAll, Proper, demoCfg, store, demoState, Store.step]) (by simp [NoPart])
  have : (run (demoCfg true) demoState [.texFromMat 1 0 [[5]] true false, .texFromBuf 1 0 1 false, .texFromMat 1 0 [[6]] true true]).isSome
      = false := by decide
  rw [h] at this
  simp at this

/-- C241 does not hold for the default arguments even without buffers: the other texture is written. -/
theorem other_written_refuted : ¬ ∀ (c : Cfg) (s s' : GLS) (ops : List Op) (os : List Out), Start c s → ProperAll c (store s) ops →
    run c s ops = some (s', os) → os = ((store s).run ops).2 := by
  intro h
  have e : (run (demoCfg true) demoState [.texFromMat 1 0 [[5]] true false, .texFromMat 2 0 [[6]] false false, .matFromTex 2 0]).map
      (·.2) = some [.done true, .done true, .image (some [[0]])] := by decide
  rw [Option.map_eq_some_iff] at e
  obtain ⟨⟨s', os⟩, e, rfl⟩ := e
  have := h _ _ _ _ _ (demo_start true) (by simp [ProperAll, Proper, demoCfg]) e
  simp [Store.run, Store.step, store, demoState] at this

/-- C241 does not hold for one layer of several copied into a buffer without `glGetTextureSubImage`: the buffer gets all layers. -/
theorem part_refuted : ¬ ∀ (c : Cfg) (s : GLS) (ops : List Op), Start c s → ProperAll c (store s) ops →
    (∀ op ∈ ops, Rebinds op) → ∃ s', run c s ops = some (s', ((store s).run ops).2) := by
  intro h
  obtain ⟨s', h⟩ := h (demoCfg false) demoState [.bufFromTex 1 1 2 true, .matFromBuf 2 true true]
    (demo_start false) (by simp [ProperAll, Proper, demoCfg]) (by simp [Rebinds])
  have e : (run (demoCfg false) demoState [.bufFromTex 1 1 2 true, .matFromBuf 2 true true]).map (·.2) =
      some [.done true, .image (some [[0], [0]])] := by decide
  rw [h] at e
  simp [Store.run, Store.step, store, demoState] at e

/-- C241: in that case each layer is found in the buffer below the layers before it. -/
theorem part_rows (c : Cfg) (s : GLS) (t layer p : Nat) (rebind : Bool) (hs : Start c s) (hsub : c.sub = false)
    (hp : Proper c (store s) (.bufFromTex t layer p rebind)) :
    ∃ s' img, bufFromTex c s t layer p rebind = some (s', .done true) ∧ s'.bufs p = some img ∧
      ∀ k < c.count t, (img.drop (c.height t * k)).take (c.height t) = s.texs t k := by
  obtain ⟨_, _, hl, hu, hrow⟩ := hp
  have hu' : ¬ c.unpack p = true := by rw [hu]; decide
  have hsub' : ¬ c.sub = true := by rw [hsub]; decide
  rw [if_neg hsub'] at hrow
  unfold bufFromTex
  dsimp only
  rw [if_pos ⟨hu', hl⟩, if_neg hsub', if_pos hrow]
  refine ⟨_, _, rfl, ?_, fun k hk => stack_part (s.texs t) (c.height t) (hs.tex t) (c.count t) k hk⟩
  cases rebind <;> simp [upd, stack]

example : Start (demoCfg false) demoState ∧ Proper (demoCfg false) (store demoState) (.bufFromTex 1 1 2 false) :=
  ⟨demo_start false, by simp [Proper, demoCfg]⟩

/-- C242: lower levels of all textures are made from what their layers hold, as long as matrices are written with rebinding and new
levels, and nothing is written from buffers. -/
theorem levels_partial (c : Cfg) (s s' : GLS) (ops : List Op) (os : List Out) (hr : ∀ op ∈ ops, Regens op)
    (h : run c s ops = some (s', os)) (hf : ∀ t, Fresh c s t) : ∀ t, Fresh c s' t := by
  induction ops generalizing s os with
  | nil =>
    unfold run at h
    injection h with h
    injection h with h _
    rw [← h]
    exact hf
  | cons op ops ih =>
    obtain ⟨s1, o, os1, e1, e2, _⟩ := run_cons h
    exact ih s1 os1 (fun o ho => hr o (by simp [ho])) e2 fun t => fresh_step (hr op (by simp)) e1 t (hf t)

example : (∀ t, Fresh (demoCfg true) demoState t) ∧ (∀ op ∈ [Op.texFromMat 1 1 [[4]] true true, .matFromTex 1 1], Regens op) ∧
    (run (demoCfg true) demoState [.texFromMat 1 1 [[4]] true true, .matFromTex 1 1]).map (·.2) =
      some [.done true, .image (some [[4]])] :=
  ⟨fun _ _ _ => rfl, by simp [Regens], by decide⟩

/-- C242: after any calls, a matrix written with rebinding and new levels sets the lower levels of that texture right. -/
theorem levels_restored (c : Cfg) (s s' : GLS) (ops : List Op) (os : List Out) (t layer : Nat) (img : Img)
    (h : run c s (ops ++ [.texFromMat t layer img true true]) = some (s', os)) : Fresh c s' t := by
  induction ops generalizing s os with
  | nil =>
    obtain ⟨s1, o, os1, e1, e2, _⟩ := run_cons h
    unfold run at e2
    injection e2 with e2
    injection e2 with e2 _
    rw [← e2]
    exact fresh_after e1
  | cons op ops ih =>
    obtain ⟨s1, o, os1, e1, e2, _⟩ := run_cons h
    exact ih s1 os1 e2

example : (run (demoCfg true) demoState ([.texFromBuf 1 0 1 true] ++ [.texFromMat 1 1 [[4]] true true])).isSome = true := by decide

/-- C242 does not hold for textures written from buffers: their lower levels stay as they were. -/
theorem levels_refuted : ¬ ∀ (c : Cfg) (s s' : GLS) (ops : List Op) (os : List Out), Start c s → (∀ op ∈ ops, Rebinds op) →
    (∀ t, Fresh c s t) → run c s ops = some (s', os) → ∀ t, Fresh c s' t := by
  intro h
  have e : (run (demoCfg true) demoState [.bufFromMat 1 [[7]] false true true, .texFromBuf 1 0 1 true]).map
      (fun r => (r.1.mips 1 0, r.1.texs 1 0)) = some ([[0]], [[7]]) := by decide
  rw [Option.map_eq_some_iff] at e
  obtain ⟨⟨s', os⟩, e, e'⟩ := e
  have hfr := h _ _ s' _ os (demo_start true) (by simp [Rebinds]) (fun _ _ _ => rfl) e 1 (by decide) 0
  injection e' with e1 e2
  dsimp only at e1 e2
  rw [e1, e2] at hfr
  exact absurd hfr (by decide)

end Litiv.GLTex
