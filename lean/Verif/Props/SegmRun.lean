import Verif.Lemmas.SegmRun

/-!
# C148, C149: sequences of frames, and the loops of the inference
-/

namespace Litiv.SegmRun
open Spec

variable {F X S M G H : Type}

/-! ## C148: what a frame of a sequence sees -/

/-- After any calls, layer `l` holds the `l`-th latest frame given since the last reset, or the first one of the sequence
if there are not that many; the frames are counted. -/
theorem window (o : Oracle F X S M G H) (c : Cfg) (hv : Valid c) (s : State F X S M) (h0 : s.frames = 0)
    (calls : List (Call F X)) :
    (after o c s calls).frames = (recent calls []).length ∧
    ∀ l, l < c.layers → ∀ x, (recent calls [])[min l ((recent calls []).length - 1)]? = some x →
      (after o c s calls).inputs l = x :=
  window_calls o c (by have := hv.1; omega) calls s [] ⟨h0, fun l _ x hx => by
    exact absurd hx (by rw [List.getElem?_nil]; exact fun h => nomatch h)⟩

/-- No memory beyond a reset: two matchers without frames, whatever they did before, give the same outputs for the same
calls, and the same answers about their layers. -/
theorem reset_forgets (o : Oracle F X S M G H) (c : Cfg) (hv : Valid c) (s t : State F X S M) (hs : s.frames = 0)
    (ht : t.frames = 0) (hl : s.loaded = t.loaded) (calls : List (Call F X)) :
    outputs o c s calls = outputs o c t calls ∧
    ∀ l, getOutput c (after o c s calls) l = getOutput c (after o c t calls) l := by
  obtain ⟨h1, h2⟩ := calls_congr o c hv calls s t ⟨by rw [hs, ht], hl, fun h => absurd h (by omega),
    fun h => absurd h (by omega), fun h => absurd h (by omega), fun h => absurd h (by omega)⟩
  refine ⟨h2, fun l => ?_⟩
  unfold getOutput
  rw [h1.frames]
  by_cases h : (after o c t calls).frames > 0 ∧ l < c.layers
  · rw [if_pos h, if_pos h, h1.stereo (by rw [h1.frames]; exact h.1) l h.2, h1.segm (by rw [h1.frames]; exact h.1) l h.2]
  · rw [if_neg h, if_neg h]

/-- Features computed for the next frame and given back give the same result as no features at all. -/
theorem precalc_same (o : Oracle F X S M G H) (c : Cfg) (hv : Valid c) (s : State F X S M) (hn : s.loaded = none) (x : F) :
    apply o c (setNextFeatures s (calcFeatures o c s x)) x = apply o c s x := by
  have := load_given o c (by have := hv.1; omega) s x
  have e : given o c s x = calcFeatures o c s x := by
    unfold given
    rw [hn]
    rfl
  rw [e] at this
  unfold apply setNextFeatures
  rw [this]

/-- What is computed for a frame: relative to the latest frame since the last reset, to nothing for the first frame. -/
theorem features_relative (o : Oracle F X S M G H) (c : Cfg) (hv : Valid c) (s : State F X S M) (h0 : s.frames = 0)
    (calls : List (Call F X)) (x : F) :
    calcFeatures o c (after o c s calls) x = o.feat (recent calls []).head? x := by
  obtain ⟨h1, h2⟩ := window o c hv s h0 calls
  unfold calcFeatures
  congr 1
  have hv1 := hv.1
  cases hr : recent calls [] with
  | nil =>
    rw [hr] at h1
    rw [if_neg (by rw [h1]; exact fun h => Nat.lt_irrefl 0 h.2)]
    rfl
  | cons y ys =>
    rw [hr] at h1 h2
    rw [if_pos ⟨hv1, by rw [h1]; exact Nat.succ_pos _⟩]
    congr 1
    exact h2 0 (by omega) y (by rw [Nat.zero_min]; rfl)

/-- The output of a frame is the one of layer 0 until the next call. -/
theorem latest_output (o : Oracle F X S M G H) (c : Cfg) (hv : Valid c) (s : State F X S M) (x : F) :
    getOutput c (apply o c s x).1 0 = some (apply o c s x).2 := by
  unfold getOutput
  rw [if_pos]
  · rfl
  · exact ⟨Nat.succ_pos _, by have := hv.1; omega⟩

/-- The disparities of past layers are the ones given for past frames: a frame moves them by one layer and changes none
of them (from the second frame of a sequence on). -/
theorem past_disparities (o : Oracle F X S M G H) (c : Cfg) (hv : Valid c) (s : State F X S M) (hf : 0 < s.frames) (x : F)
    (l : Nat) (hl : l + 1 < c.layers) :
    (getOutput c (apply o c s x).1 (l + 1)).map Prod.fst = (getOutput c s l).map Prod.fst := by
  obtain ⟨a1, -, -, -, -, a6, -⟩ := load_spec o c (by have := hv.1; omega) s x
  unfold getOutput
  rw [if_pos ⟨Nat.succ_pos _, hl⟩, if_pos ⟨hf, by omega⟩]
  show some ((infer o c (load o c s x)).stereo (l + 1)) = some (s.stereo l)
  rw [infer_stereo o c _ (by rw [a1]; exact hf) (l + 1) (by omega), a6 (l + 1) (by omega) hl]
  rfl

/-! An oracle that keeps what it is given: features are the previous and the current frame; stereo labels are the
features and the labels they come from. -/

/-- features: previous frame and frame; labels: numbers; a move for foreground changes nothing, a move for background
clears all masks -/
def demo : Oracle Nat (Option Nat × Nat) Nat Nat Unit Nat where
  feat p x := (p, x)
  firstMask x := x
  initStereo f m p := (f.2 + 10 * (f.1.getD 0) + 100 * (p.getD 0), m)
  stereoMove k _ _ s := (s, if k = 0 then 1 else 0)
  project s := s
  resegmMove fg _ _ _ _ _ ms :=
    if fg then (fun l => ms.getD l 0, fun _ => 0, ())
    else (fun _ => 0, fun l => if ms.getD l 0 = 0 then 0 else 1, ())
  shapeDist _ f := f
  shapeFeat _ f := f
  refresh h _ _ s := (s + 1000, h)
  few4 a b := a == b
  few3 a b := a == b
  lastStereo s := s
  lastMask m := m

/-- two layers, three labels -/
def demoCfg : Cfg := ⟨2, 3, 9, 30⟩

/-- before the first frame; `k` is what the memory holds -/
def blank (k : Nat) : State Nat (Option Nat × Nat) Nat Nat :=
  ⟨fun _ => k, fun _ => (none, k), fun _ => k, fun _ => k, 0, none⟩

theorem demo_valid : Valid demoCfg := by
  unfold Valid demoCfg
  decide

theorem demo_honest : Honest demo demoCfg := by
  intro a t g fs xs ss f h l hl
  have h' := h l hl
  revert h'
  unfold demo
  dsimp only
  split_ifs with h1
  · intro _
    exact view_getD _ f 0 l hl
  · dsimp only
    split_ifs with h2
    · intro _
      rw [← h2]
      exact view_getD _ f 0 l hl
    · intro h3
      exact absurd h3 (by decide)

example : recent (X := Nat) [Call.frame 1, .ahead 9, .frame 2, .reset, .frame 3, .frame 4, .frame 5]
    ([] : List Nat) = [5, 4, (3 : Nat)] ∧
    (after demo demoCfg (blank 7) [Call.frame 1, .ahead 9, .frame 2, .reset, .frame 3]).inputs 1 = 3 ∧
    (after demo demoCfg (blank 7) [Call.frame 1, .ahead 9, .frame 2, .reset, .frame 3, .frame 4, .frame 5]).inputs 1 = 4 := by
  decide +kernel
example : outputs demo demoCfg (blank 7) [Call.frame 1, .frame 2] = outputs demo demoCfg (blank 5) [Call.frame 1, .frame 2] := by
  decide +kernel
example : (getOutput demoCfg (after demo demoCfg (blank 7) [Call.frame 1, .frame 2]) 1).map Prod.fst = some 1 ∧
    (getOutput demoCfg (after demo demoCfg (blank 7) [Call.frame 1]) 0).map Prod.fst = some 1 := by decide +kernel

/-- Features computed for two frames ahead of time do not give the result of the frames alone: those of the second frame
do not know the first one. -/
theorem precalc_ahead_refuted :
    ¬∀ (o : Oracle Nat (Option Nat × Nat) Nat Nat Unit Nat) (c : Cfg), Valid c →
      ∀ (s : State Nat (Option Nat × Nat) Nat Nat), s.frames = 0 → s.loaded = none → ∀ x y,
        (apply o c (setNextFeatures (apply o c (setNextFeatures s (calcFeatures o c s x)) x).1 (calcFeatures o c s y)) y).2 =
        (apply o c (apply o c s x).1 y).2 := by
  intro h
  have := h demo demoCfg demo_valid (blank 7) rfl rfl 1 2
  revert this
  decide +kernel

/-- A packet of features given before a reset is used after it. -/
theorem reset_keeps_packet_refuted :
    ¬∀ (o : Oracle Nat (Option Nat × Nat) Nat Nat Unit Nat) (c : Cfg), Valid c →
      ∀ (s : State Nat (Option Nat × Nat) Nat Nat), s.frames = 0 → s.loaded = none → ∀ (p : Option Nat × Nat) x,
        (apply o c (resetTemporal (setNextFeatures s p)) x).2 = (apply o c s x).2 := by
  intro h
  have := h demo demoCfg demo_valid (blank 7) rfl rfl (some 5, 6) 2
  revert this
  decide +kernel

/-! ## C149: the loops -/

/-- The loops end by their own conditions, whatever the moves do: given more turns than the configured numbers, they take
none of them. At most `maxStereo` stereo moves are made, and at most `maxResegm` moves in a pass. -/
theorem loops_end (o : Oracle F X S M G H) (c : Cfg) (frames : Nat) (f : Nat → F) (t : Bool) (st : Nat → S) (extra : Nat) :
    (∀ i : Inf X S M H, i.iter = 0 →
      infLoop o c frames f (c.maxStereo + extra) i = infLoop o c frames f c.maxStereo i ∧
      (infLoop o c frames f c.maxStereo i).iter ≤ c.maxStereo) ∧
    (∀ p : Pass X M G, passLoop o c t f st p.iter (c.maxResegm + extra) p = passLoop o c t f st p.iter c.maxResegm p ∧
      (passLoop o c t f st p.iter c.maxResegm p).iter ≤ p.iter + c.maxResegm + 1) := by
  refine ⟨fun i hi => ⟨infLoop_fuel o c frames f c.maxStereo extra i (by omega), ?_⟩, fun p => ⟨?_, ?_⟩⟩
  · exact (infLoop_iter o c frames f c.maxStereo i).2 (by omega)
  · exact loop_fuel o c t f st p.iter c.maxResegm extra p (Nat.le_refl _) (by omega)
  · have := (loop_iter o c t f st p.iter c.maxResegm p (Nat.le_refl _) (by omega)).2
    omega

/-- Stereo labels are tried in turn: after any number of turns of the loop, the next label in the ordering is the number
of moves made, modulo the number of labels. -/
theorem labels_in_turn (o : Oracle F X S M G H) (c : Cfg) (frames : Nat) (f : Nat → F) (turns : Nat) (i : Inf X S M H)
    (h : i.iter = 0) (h' : i.order = 0) :
    (infLoop o c frames f turns i).order = (infLoop o c frames f turns i).iter % c.nLabels :=
  infLoop_order o c frames f turns i (by rw [h, h', Nat.zero_mod])

/-- A pass that changes the masks does not always report a change, although every move counts its changes: only the
second move of each pair is counted. The stereo model is then not updated for the new masks. -/
theorem pass_notices_refuted :
    ¬∀ (o : Oracle Nat (Option Nat × Nat) Nat Nat Unit Nat) (c : Cfg), Valid c → Honest o c →
      ∀ (t : Bool) (f : Nat → Nat) (st : Nat → Nat) (iter : Nat) (fe : Nat → Option Nat × Nat) (m : Nat → Nat) (pre : List Nat),
        (∃ l, l < c.layers ∧ (pass o c t f st iter fe m pre).segm l ≠ m l) → 0 < (pass o c t f st iter fe m pre).tot := by
  intro h
  have := h demo demoCfg demo_valid demo_honest false (fun _ => 0) (fun _ => 0) 0 (fun _ => (none, 0)) (fun _ => 1) []
    ⟨0, by decide, by decide +kernel⟩
  revert this
  decide +kernel

/-- Partial: a pass that reports no change made at most two moves, and its masks are the result of the first one. Missing:
that this move changed nothing either (false). -/
theorem pass_notices_partial (o : Oracle F X S M G H) (c : Cfg) (ho : Honest o c) (h2 : 2 ≤ c.maxResegm) (t : Bool)
    (f : Nat → F) (st : Nat → S) (iter : Nat) (fe : Nat → X) (m : Nat → M) (pre : List M)
    (ht : (pass o c t f st iter fe m pre).tot = 0) :
    (pass o c t f st iter fe m pre).iter ≤ iter + 3 ∧
    ∀ l, l < c.layers → (pass o c t f st iter fe m pre).segm l =
      (o.resegmMove ((iter + 1) % 2 == 0) t none (view c.layers f) (view c.layers fe) (view c.layers st)
        (view c.layers m)).1 l :=
  pass_quiet o c ho h2 t f st iter fe m pre ht

example : (pass demo demoCfg false (fun _ => 0) (fun _ => 0) 0 (fun _ => (none, 0)) (fun _ => 1) []).tot = 0 ∧
    (pass demo demoCfg false (fun _ => 0) (fun _ => 0) 0 (fun _ => (none, 0)) (fun _ => 1) []).iter = 3 := by decide +kernel
example : (pass demo demoCfg false (fun _ => 0) (fun _ => 0) 1 (fun _ => (none, 0)) (fun _ => 1) []).tot = 2 := by
  decide +kernel

end Litiv.SegmRun
