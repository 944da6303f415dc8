import Verif.Lemmas.Report

/-!
# Property C186: evaluation reports
-/

namespace Litiv.Report
open Spec

variable {B M : Type}

/-- C186: for every dataset parsed from directories with different names, none of which is the name of the dataset, and
whatever has been processed, the output directory contains after `writeEvalReport` exactly the expected reports: for each processed
batch, each directory with processed batches and the dataset, at its own place and with one row for each processed
batch and directory below it, and nothing for the others. -/
theorem reports_partial (met : Node B → M) (skip : String → Bool) (work : String → String → Work B) (name : String) (dirs : List Dir)
    (m : Shown M) (hm : Shows met skip work name dirs m) (hd : Distinct name dirs) (dir : List String) (file : String) (f : File M) :
    onDisk ((datasetNode skip work name dirs).write met true) dir file = some f ↔
      Expected skip work m name dirs f ∧ f.dir = dir ∧ f.name = file := by
  unfold onDisk
  constructor
  · intro h
    have h1 := List.mem_of_find?_eq_some h
    have h2 := List.find?_some h
    rw [List.mem_reverse] at h1
    exact ⟨(mem_write met skip work name dirs m hm f).1 h1, by simpa using h2⟩
  · rintro ⟨he, h1, h2⟩
    have hmem := (mem_write met skip work name dirs m hm f).2 he
    rcases hx : ((datasetNode skip work name dirs).write met true).reverse.find? (fun f => decide (f.dir = dir ∧ f.name = file)) with _ | g
    · rw [List.find?_eq_none] at hx
      exact absurd (by simp [h1, h2]) (hx f (List.mem_reverse.2 hmem))
    · have g1 := (mem_write met skip work name dirs m hm g).1 (List.mem_reverse.1 (List.mem_of_find?_eq_some hx))
      have g2 := List.find?_some hx
      simp at g2
      rw [hx, expected_unique skip work m name dirs hd g f g1 he (g2.1.trans h1.symm) (g2.2.trans h2.symm)]

/-- Two directories: one with two batches, one being a batch itself. -/
def twoDirs : List Dir := [⟨"indoor", ["office", "corridor"]⟩, ⟨"highway", []⟩]

/-- Ten outputs everywhere but in the corridor. -/
def someWork (_ s : String) : Work Unit := ⟨if s = "corridor" then 0 else 10, 2, ()⟩

example : Distinct "set" twoDirs := by
  refine ⟨by decide, ?_⟩
  simp [twoDirs]

example : Shows (fun n => n.count) (fun _ => false) someWork "set" twoDirs ⟨fun g s => (someWork g s).outputs, fun d => if d.name = "indoor" then 10 else if d.name = "highway" then 10 else 0, 20⟩ := by
  refine ⟨?_, ?_, ?_, ?_⟩
  · intro d _ _ s; rfl
  · intro d _ _; rfl
  · intro d hd
    simp only [twoDirs, List.mem_cons, List.not_mem_nil, or_false] at hd
    rcases hd with rfl | rfl <;> decide
  · decide

example : ((datasetNode (fun _ => false) someWork "set" twoDirs).write (fun n => n.count) true).map
    (fun f => (f.dir, f.name, f.rows.map fun r => (r.indent, r.name, r.metrics), f.outputs)) =
    [(["indoor"], "office", [(0, "office", 10)], 10),
     ([], "indoor", [(1, "office", 10), (0, "indoor", 10)], 10),
     ([], "highway", [(0, "highway", 10)], 10),
     ([], "set", [(2, "office", 10), (1, "indoor", 10), (1, "highway", 10), (0, "set", 20)], 20)] := by rfl

/-- C186 fails for a directory named like the dataset: its report is overwritten by that of the dataset. -/
theorem reports_refuted :
    ∃ f, Expected (fun _ => false) someWork ⟨fun _ _ => 0, fun _ => 0, 0⟩ "highway" twoDirs f ∧
      onDisk ((datasetNode (fun _ => false) someWork "highway" twoDirs).write (fun _ => 0) true) f.dir f.name ≠ some f := by
  refine ⟨_, .alone ⟨"highway", []⟩ (by simp [twoDirs]) rfl (by decide), fun h => ?_⟩
  have := congrArg (Option.map fun f => f.outputs) h
  revert this
  decide

end Litiv.Report
