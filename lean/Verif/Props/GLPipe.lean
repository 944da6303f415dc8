import Verif.Lemmas.GLPipe

/-!
# C166-C168: the GPU image pipeline and its data consumer
-/

namespace Litiv.GLPipe
open Spec

variable {σ τ I O G : Type}

/-! ### C166: frames go through the pipeline in order -/

/-- C166: after an initialization with `x0` — of a new pipeline or of one used before, with any number of layers and with
or without double buffers — calls with the frames `x1, x2, …` produce, in this order, the results of the algorithm on
`x0, x1, …`, numbered from 0: what is fetched after a call belongs to the frame given one call earlier. -/
theorem in_order (o : Opts) (f : Shader σ I O) (g : σ → Nat → I → σ × O) (hL : 2 ≤ o.layers) (hf : Plain f g) (p : Pipe σ I O)
    (hp : Reached o f p) (hfetch : p.fetching = true) (x0 : I) (xs : List I) :
    fetches o f (xs.map some) (initGL p x0) =
      (((Spec.results g p.st 0 (x0 :: xs)).take xs.length).zipIdx).map (fun r => some (some r.1, r.2)) :=
  fetches_spec o f g hL hf xs x0 (initGL p x0) (ok_reached o f hL p hp) hfetch (init_next p x0)

/-- C166: with two layers (as built), a call without a new frame makes the following call take the frame processed by this
call's predecessor again; no frame is lost and none is taken from elsewhere. -/
theorem empty_repeats (o : Opts) (f : Shader σ I O) (g : σ → Nat → I → σ × O) (hL : o.layers = 2) (hf : Plain f g) (p : Pipe σ I O)
    (hp : Reached o f p) (hfetch : p.fetching = true) (x0 : I) (xs : List (Option I)) :
    fetches o f xs (initGL p x0) = ((Spec.results g p.st 0 (processed x0 x0 xs)).zipIdx).map (fun r => some (some r.1, r.2)) := by
  have hok := ok_reached o f (by omega) p hp
  refine fetches_two o f g hL hf xs x0 x0 (initGL p x0) hok hfetch (init_next p x0) ?_ ?_
  · simp [initGL, Function.update]
  · intro _
    refine ⟨pbo_reached o f hL p hp, ?_⟩
    obtain ⟨h1, h2, h3, h4⟩ := hok
    have hc : (p.curr = 0 ∧ p.next = 1) ∨ (p.curr = 1 ∧ p.next = 0) := by rw [hL] at h4 h1 h3; omega
    rcases hc with ⟨e1, e2⟩ | ⟨e1, e2⟩ <;> simp [initGL, Function.update, e1, e2]

/-- C166: the layer announced to the shaders as the last one holds, among the outputs, the result of the call before. -/
theorem last_output (o : Opts) (f : Shader σ I O) (hL : 2 ≤ o.layers) (p : Pipe σ I O) (hp : Reached o f p) (x y : Option I) :
    (seen o y (applyGL o f x p)).lastOut = (f p.st (seen o x p)).2 := by
  rw [← (apply_spec o f x p hL (ok_reached o f hL p hp)).2.2.2.2.1]
  generalize applyGL o f x p = q
  cases y <;> simp [seen, viewOf, upload, rotate] <;> split <;> rfl

/-- C166, partial: among the inputs it holds the frame of the call before — if there are input buffers or at least three
layers. Missing: the setup as built, see `last_input_refuted`. -/
theorem last_input_partial (o : Opts) (f : Shader σ I O) (hL : 2 ≤ o.layers) (ho : o.pboIn = true ∨ 3 ≤ o.layers) (p : Pipe σ I O)
    (hp : Reached o f p) (x y : Option I) : (seen o y (applyGL o f x p)).last = (seen o x p).cur := by
  obtain ⟨h1, h2, h3, h4⟩ := ok_reached o f hL p hp
  rw [(apply_spec o f x p hL ⟨h1, h2, h3, h4⟩).1]
  have hne : p.next ≠ (p.next + 1) % o.layers := (succ_mod_ne _ _ hL h1).symm
  have hne2 : 3 ≤ o.layers → p.next ≠ ((p.next + 1) % o.layers + 1) % o.layers := by
    intro h3
    rw [Nat.mod_add_mod]
    by_cases e : p.next + 1 + 1 < o.layers
    · rw [Nat.mod_eq_of_lt e]; omega
    · rw [Nat.mod_eq_sub_mod (by omega), Nat.mod_eq_of_lt (by omega)]; omega
  rcases p with ⟨next, curr, last, currPBO, nextPBO, inL, outL, inP, outP, lastOut, frame, lastIdx, fetching, st⟩
  rcases o with ⟨L, pi, po⟩
  dsimp only at *
  cases pi
  · have hn2 := hne2 (by simpa using ho)
    rw [Nat.mod_add_mod] at hn2
    cases x <;> cases y <;> cases po <;> cases fetching <;>
      simp [applyGL, fetchStep, transfer, runShader, upload, rotate, seen, viewOf, Function.update, hne, hn2]
  · cases x <;> cases y <;> cases po <;> cases fetching <;>
      simp [applyGL, fetchStep, transfer, runShader, upload, rotate, seen, viewOf, Function.update, hne]

/-- C166, refuted for the setup as built (two layers, no input buffers): the last input layer is the one the next frame was
just loaded into, so that shaders reading it see the frame to come. -/
theorem last_input_refuted (o : Opts) (f : Shader σ I O) (hL : o.layers = 2) (hb : o.pboIn = false) (p : Pipe σ I O)
    (hp : Reached o f p) (x : Option I) (y : I) : (seen o (some y) (applyGL o f x p)).last = y := by
  obtain ⟨h1, h2, h3, h4⟩ := ok_reached o f (by omega) p hp
  rcases p with ⟨next, curr, last, currPBO, nextPBO, inL, outL, inP, outP, lastOut, frame, lastIdx, fetching, st⟩
  rcases o with ⟨L, pi, po⟩
  dsimp only at *
  subst hL hb
  have hc : next = 0 ∨ next = 1 := by omega
  rcases hc with rfl | rfl <;> cases x <;> cases po <;> cases fetching <;>
    simp [applyGL, fetchStep, transfer, runShader, upload, rotate, seen, viewOf, Function.update]

/-- A shader adding up all frames: an example of `Plain`. -/
def sumShader : Shader Nat Nat (Nat × Nat) := fun st v => (st + v.cur, (v.frame, st + v.cur))

/-- The pipeline as built: two layers, no input buffers, output buffers; it is being fetched from. -/
def samplePipe : Pipe Nat Nat (Nat × Nat) :=
  runOps ⟨2, false, true⟩ sumShader (0, 0) [.fetching true, .init 3, .apply (some 4)] (create ⟨2, false, true⟩ 0 (fun _ => 0) (fun _ => (0, 0)))

theorem samplePipe_reached : Reached ⟨2, false, true⟩ sumShader samplePipe := ⟨0, fun _ => 0, fun _ => (0, 0), (0, 0), _, rfl⟩

example : Plain sumShader (fun st k x => (st + x, (k, st + x))) ∧ samplePipe.fetching = true ∧
    fetches ⟨2, false, true⟩ sumShader ([10, 20, 30].map some) (initGL samplePipe 5) =
      [some (some (0, 8), 0), some (some (1, 18), 1), some (some (2, 38), 2)] :=
  ⟨fun _ _ => rfl, rfl, by decide +kernel⟩

example : fetches ⟨2, false, true⟩ sumShader [some 10, none, some 30, some 40] (initGL samplePipe 5) =
      [some (some (0, 8), 0), some (some (1, 18), 1), some (some (2, 23), 2), some (some (3, 53), 3)] ∧
    processed 5 5 [some 10, none, some 30, some 40] = [5, 10, 5, 30] := by decide +kernel

example : (seen ⟨2, false, true⟩ (some 20) (applyGL ⟨2, false, true⟩ sumShader (some 10) (initGL samplePipe 5))).last = 20 ∧
    (seen ⟨2, false, true⟩ (some 20) (applyGL ⟨2, false, true⟩ sumShader (some 10) (initGL samplePipe 5))).cur = 10 ∧
    (seen ⟨3, false, true⟩ (some 20) (applyGL ⟨3, false, true⟩ sumShader (some 10) (initGL samplePipe 5))).last = 5 := by decide +kernel

/-! ### C167: masks returned by background subtractors and edge detectors -/

/-- C167, partial: the masks returned by calls with `x1, x2, …` after an initialization with `x0` are the results on `x0, x1, …`,
except perhaps the first; it is correct too if fetching was enabled before. Missing: see `mask_refuted`. -/
theorem mask_partial (o : Opts) (f : Shader σ I O) (g : σ → Nat → I → σ × O) (zero : O) (hL : 2 ≤ o.layers) (hf : Plain f g) (p : Pipe σ I O)
    (hp : Reached o f p) (x0 : I) (xs : List I) (i : Nat) (hi : i < xs.length) (h : p.fetching = true ∨ 1 ≤ i) :
    (applyMasks o f zero xs (initGL p x0)).2[i]? = some ((Spec.results g p.st 0 (x0 :: xs))[i]?) := by
  have hlen : ∀ (xs : List I) (st : σ) (k : Nat), (Spec.results g st k xs).length = xs.length := by
    intro xs
    induction xs with
    | nil => intro st k; rfl
    | cons x xs ih => intro st k; simp [Spec.results, ih]
  have hok := ok_reached o f hL p hp
  by_cases hfe : p.fetching = true
  · rw [masks_spec o f g zero hL hf xs x0 (initGL p x0) hok hfe (init_next p x0)]
    rw [List.getElem?_map, List.getElem?_take, if_pos hi]
    have hl : i < (Spec.results g p.st 0 (x0 :: xs)).length := by rw [hlen]; simp; omega
    show Option.map some ((Spec.results g p.st 0 (x0 :: xs))[i]?) = _
    rw [List.getElem?_eq_getElem hl]; rfl
  · have h1 : 1 ≤ i := by rcases h with h | h; exact absurd h hfe; exact h
    cases xs with
    | nil => simp at hi
    | cons x xs =>
      obtain ⟨j, rfl⟩ : ∃ j, i = j + 1 := ⟨i - 1, by omega⟩
      obtain ⟨a1, a2, a3, a4, a5, a6, a7, a8, a9⟩ := apply_spec o f (some x) (initGL p x0) hL hok
      have e : f (initGL p x0).st (seen o (some x) (initGL p x0)) = g p.st 0 x0 := by
        rw [hf, a1, a2, init_next]; rfl
      rw [e] at a3
      rw [applyMasks]
      have hfe2 : (applyGL o f (some x) (initGL p x0)).fetching = false := by
        rw [a6]; show p.fetching = false; simpa using hfe
      have em : (applyMask o f zero x (initGL p x0)).1 = setFetching true (applyGL o f (some x) (initGL p x0)) := by
        unfold applyMask latestMask
        simp [hfe2]
      dsimp only
      rw [List.getElem?_cons_succ, em,
        masks_spec o f g zero hL hf xs x (setFetching true (applyGL o f (some x) (initGL p x0))) (ok_apply o f _ _ hL hok) rfl (a7 x rfl)]
      have e3 : (setFetching true (applyGL o f (some x) (initGL p x0))).st = (g p.st 0 x0).1 := a3
      have e4 : (setFetching true (applyGL o f (some x) (initGL p x0))).frame = 1 := a4
      rw [e3, e4, Spec.results.eq_def g p.st 0 (x0 :: x :: xs)]
      dsimp only
      rw [List.getElem?_cons_succ, List.getElem?_map, List.getElem?_take, if_pos (by simpa using hi)]
      have hl : j < (Spec.results g (g p.st 0 x0).1 1 (x :: xs)).length := by rw [hlen]; simp at hi ⊢; omega
      rw [List.getElem?_eq_getElem hl]; rfl

/-- C167, refuted: without a previous request for fetching, the first mask is read from a buffer that nothing was ever
written to (the output of that call was not fetched). -/
theorem mask_refuted (o : Opts) (f : Shader σ I O) (zero : O) (hL : 2 ≤ o.layers) (p : Pipe σ I O)
    (hp : Reached o f p) (hfe : p.fetching = false) (x0 x : I) (xs : List I) :
    (applyMasks o f zero (x :: xs) (initGL p x0)).2[0]? = some none := by
  have hok := ok_reached o f hL p hp
  rw [applyMasks]
  dsimp only
  rw [List.getElem?_cons_zero]
  rcases p with ⟨next, curr, last, currPBO, nextPBO, inL, outL, inP, outP, lastOut, frame, lastIdx, fetching, st⟩
  rcases o with ⟨L, pi, po⟩
  dsimp only at *
  subst hfe
  cases pi <;> cases po <;>
    simp [applyMask, latestMask, setFetching, applyGL, fetchStep, transfer, runShader, upload, rotate, fetchLast, initGL]

example : (create ⟨2, false, true⟩ 0 (fun _ => 0) (fun _ => (0, 0)) : Pipe Nat Nat (Nat × Nat)).fetching = false ∧
    (applyMasks ⟨2, false, true⟩ sumShader (0, 0) [10, 20, 30] (initGL (create ⟨2, false, true⟩ 0 (fun _ => 0) (fun _ => (0, 0))) 5)).2 =
      [none, some (1, 15), some (2, 35)] ∧
    Spec.results (fun st k x => (st + x, (k, st + x))) 0 0 [5, 10, 20, 30] = [(0, 5), (1, 15), (2, 35), (3, 65)] := by decide +kernel

/-! ### C168: the asynchronous data consumer -/

/-- C168: a consumer given the packet numbers `ns` (the first packet is 0) counts, saves, passes on and evaluates the packets
`0, n₁, n₂, …` — all given but the last — each with its own result, input, ground truth and number. -/
theorem consumer_packets (o : Opts) (f : Shader σ I O) (g : σ → Nat → I → σ × O) (h : EvalFn τ G O) (w : Batch I G) (hL : 2 ≤ o.layers)
    (hf : Plain f g) (hgt : w.gtCount = w.count) (h2 : 2 ≤ w.count) (p : Pipe σ I O) (hp : Reached o f p) (e0 : Evaluator τ G) (g0 : G)
    (ns : List Nat) (hv : Valid w.count 0 ns) (hn : w.evaluating = true → ns.length ≤ w.count) :
    ∃ c, (consumerInit w p e0 g0).bind (consumeAll o f h w ns) = some c ∧
      c.counted = (0 :: ns).take ns.length ∧
      c.saved = (if w.saving then ((0 :: ns).take ns.length).zip ((Spec.results g p.st 0 (((0 :: ns).take ns.length).map w.input)).map some) else []) ∧
      c.called = (if w.evaluating && w.validate then (((0 :: ns).take ns.length).zip (Spec.results g p.st 0 (((0 :: ns).take ns.length).map w.input))).map
        (fun r => (w.input r.1, some r.2, w.gt r.1, r.1)) else []) ∧
      (w.evaluating = true → c.eval.st = evalAll h e0.st 0 ((((0 :: ns).take ns.length).map w.gt).zip
        (Spec.results g p.st 0 (((0 :: ns).take ns.length).map w.input)))) := by
  obtain ⟨c, e1, hr, s1, s2, s3, s4, s5⟩ := init_ready o w p e0 g0 hL (ok_reached o f hL p hp) hgt h2
  obtain ⟨c', e2, t1, t2, t3, t4⟩ := consumeAll_spec o f g h w hL hf hgt ns c 0 0 hr hv (fun he => by have := hn he; omega)
  refine ⟨c', by rw [e1]; exact e2, ?_, ?_, ?_, ?_⟩
  · rw [t1, s3]; rfl
  · rw [t2, s4, s1]; rfl
  · rw [t3, s5, s1]; rfl
  · intro he; rw [t4, if_pos he, s1, s2]

theorem valid_upto (count : Nat) : ∀ (m prev : Nat), prev + m = count → Valid count prev ((List.range m).map (fun j => prev + 1 + j))
  | 0, _, _ => trivial
  | 1, prev, _ => Or.inr rfl
  | m + 2, prev, h => by
    rw [List.range_succ_eq_map, List.map_cons, List.map_map]
    have ih := valid_upto count (m + 1) (prev + 1) (by omega)
    have e : (List.range (m + 1)).map ((fun j => prev + 1 + j) ∘ Nat.succ) = (List.range (m + 1)).map (fun j => prev + 1 + 1 + j) :=
      List.map_congr_left (fun j _ => by simp only [Function.comp_apply]; omega)
    rw [e]
    rw [List.range_succ_eq_map, List.map_cons] at ih ⊢
    exact ⟨by omega, ih⟩

/-- C168: with the numbers `1, 2, …, n` — as the applications give them — every one of the `n` packets is counted, saved and
evaluated exactly once, in order and with its own result. -/
theorem consumer_sequence (o : Opts) (f : Shader σ I O) (g : σ → Nat → I → σ × O) (h : EvalFn τ G O) (w : Batch I G) (hL : 2 ≤ o.layers)
    (hf : Plain f g) (hgt : w.gtCount = w.count) (h2 : 2 ≤ w.count) (p : Pipe σ I O) (hp : Reached o f p) (e0 : Evaluator τ G) (g0 : G) :
    ∃ c, (consumerInit w p e0 g0).bind (consumeAll o f h w ((List.range w.count).map (· + 1))) = some c ∧
      c.counted = List.range w.count ∧
      (w.saving = true → c.saved = (List.range w.count).zip ((Spec.results g p.st 0 ((List.range w.count).map w.input)).map some)) ∧
      (w.evaluating = true → c.eval.st = evalAll h e0.st 0 (((List.range w.count).map w.gt).zip
        (Spec.results g p.st 0 ((List.range w.count).map w.input)))) := by
  have hv := valid_upto w.count w.count 0 (by omega)
  have e : (List.range w.count).map (fun j => 0 + 1 + j) = (List.range w.count).map (· + 1) :=
    List.map_congr_left (fun j _ => by omega)
  rw [e] at hv
  have et : (0 :: (List.range w.count).map (· + 1)).take ((List.range w.count).map (· + 1)).length = List.range w.count := by
    have : (0 :: (List.range w.count).map (· + 1)) = List.range (w.count + 1) := (List.range_succ_eq_map).symm
    rw [this, List.length_map, List.length_range, List.take_range]
    congr 1; omega
  obtain ⟨c, e1, s1, s2, s3, s4⟩ := consumer_packets o f g h w hL hf hgt h2 p hp e0 g0 _ hv (fun _ => by simp)
  rw [et] at s1 s2 s4
  exact ⟨c, e1, s1, fun hs => by rw [s2, if_pos hs], s4⟩

/-- A batch of four packets. -/
def sampleBatch : Batch Nat Nat := ⟨4, 4, fun i => 10 * (i + 1), fun i => i + 1, true, false, true, true⟩

example : Valid 4 0 [1, 3, 2] ∧ Valid 4 0 [1, 2, 3, 4] :=
  ⟨⟨by decide, by decide, Or.inl (by decide)⟩, ⟨by decide, by decide, by decide, Or.inr rfl⟩⟩

example : (((consumerInit sampleBatch samplePipe ⟨0, 0, fun _ => 0, 0, ([] : List (Nat × Nat × Nat × Nat))⟩ 0).bind
      (consumeAll ⟨2, false, true⟩ sumShader (fun st k gt out => st ++ [(k, gt, out)]) sampleBatch [1, 3, 2])).map
      (fun c => (c.counted, c.saved, c.called, c.eval.st))) =
    some ([0, 1, 3], [(0, some (0, 13)), (1, some (1, 33)), (3, some (2, 73))],
      [(10, some (0, 13), 1, 0), (20, some (1, 33), 2, 1), (40, some (2, 73), 4, 3)], [(0, 1, 0, 13), (1, 2, 1, 33), (2, 4, 2, 73)]) := rfl

end Litiv.GLPipe
