import Verif.Lemmas.RectEdit

/-!
# Properties of the rectangle editor
-/

namespace Litiv.RectEdit

variable {P R : Type}

/-- The editor when it starts: rectangles `boxes`, from the file or by default, and nothing selected. -/
def opened (boxes : Nat → Nat → List R) (p : P) : St P R := ⟨boxes, 0, false, false, none, p⟩

/-- Whatever the user does, every image of every frame keeps a rectangle, and the rectangle being edited exists. -/
theorem kept (g : Geo P R) (total : Nat) (boxes : Nat → Nat → List R) (hb : ∀ f a, boxes f a ≠ []) (p : P)
    (es : List (Ev P)) (s : St P R) (h : run g total (opened boxes p) es = some s) :
    (∀ f a, s.boxes f a ≠ []) ∧ ∀ a k, s.sel = some (a, k) → k < (s.boxes s.cur a).length := by
  have := run_inv g total es _ s ⟨hb, fun a k hk => by simp [opened] at hk⟩ h
  exact ⟨this.some_box, this.sel_in⟩

/-- Whatever the user did, the file that is written is read back as the same rectangles, in the same order. -/
theorem reload (g : Geo P R) (total : Nat) (boxes : Nat → Nat → List R) (hb : ∀ f a, boxes f a ≠ []) (p : P)
    (es : List (Ev P)) (s : St P R) (h : run g total (opened boxes p) es = some s) (f a fuel : Nat)
    (hf : (s.boxes f a).length < fuel) : load (save (s.boxes f a)) fuel = some (s.boxes f a) := by
  have hk := (kept g total boxes hb p es s h).1 f a
  have h0 : (save (s.boxes f a) 0).isSome = true := by
    unfold save
    cases hl : s.boxes f a with
    | nil => exact absurd hl hk
    | cons x t => rfl
  unfold load
  rw [if_pos h0]
  have := loadFrom_save (s.boxes f a) (s.boxes f a).length 0 (fuel - ((s.boxes f a).length + 1)) (by omega)
  have e : (s.boxes f a).length + 1 + (fuel - ((s.boxes f a).length + 1)) = fuel := by omega
  rw [e] at this
  exact this

/-- Full statement: no click makes the editor fail. Missing: clicks must all be in the same image. -/
theorem safe_partial (g : Geo P R) (total t : Nat) (boxes : Nat → Nat → List R) (hb : ∀ f a, boxes f a ≠ []) (p : P)
    (es : List (Ev P)) (hes : ∀ tile l q, Ev.click tile l q ∈ es → tile = t) :
    ∃ s, run g total (opened boxes p) es = some s := by
  have main : ∀ (es : List (Ev P)) (s : St P R), One t s → (∀ tile l q, Ev.click tile l q ∈ es → tile = t) →
      ∃ s', run g total s es = some s' := by
    intro es
    induction es with
    | nil => exact fun s _ _ => ⟨s, rfl⟩
    | cons e r ih =>
      intro s hs he
      have hr : ∀ tile l q, Ev.click tile l q ∈ r → tile = t := fun a b c hm => he a b c (List.mem_cons_of_mem _ hm)
      unfold run
      cases e with
      | click tile l q =>
        obtain rfl := he tile l q List.mem_cons_self
        obtain ⟨u, hu, ho⟩ := one_click g tile s l q hs
        unfold step
        dsimp only
        rw [hu]
        exact ih u ho hr
      | leave b =>
        refine ih (leave total s b) ⟨⟨hs.inv.some_box, ?_⟩, ?_, ?_, ?_⟩ hr <;> simp [leave]
  exact main es _ ⟨⟨hb, by simp [opened]⟩, by simp [opened], by simp [opened], by simp [opened]⟩ hes

/-- With nothing being edited, a left click selects the rectangle of the corner closest to it, and nothing when no corner
is close enough; rectangles do not change. -/
theorem selects_nearest (g : Geo P R) (s : St P R) (tile : Nat) (p : P) (hd : s.drawing = false)
    (hs : s.selecting = false) : ∃ best, Nearest g.lim (corners g p (s.boxes s.cur tile) 0) best ∧
    click g s tile true p = some { s with
      start := p
      selecting := best.isSome
      sel := if best.isSome then best.map fun b => (tile, b.1 / 2) else s.sel } := by
  have hn := closest_nearest g p (s.boxes s.cur tile) 0 [] none ⟨by simp, by simp⟩
  rw [List.nil_append] at hn
  refine ⟨_, hn, ?_⟩
  unfold click
  rw [hd]
  dsimp only
  rw [if_pos rfl]
  unfold left
  rw [if_pos hs]
  dsimp only
  cases hc : closest g p (s.boxes s.cur tile) 0 none with
  | none => simp [hs]
  | some b =>
    rw [hc] at hn
    have := corners_lt g p _ 0 b (hn.2 b rfl).1
    dsimp only
    rw [if_pos (by omega)]
    simp

/-- A rectangle being edited gets the two points clicked as its corners; the other rectangles stay. -/
theorem drawn (g : Geo P R) (s : St P R) (tile k : Nat) (l : Bool) (p : P) (hd : s.drawing = true)
    (hs : s.selecting = false) (hk : s.sel = some (tile, k)) (hin : k < (s.boxes s.cur tile).length) :
    ∃ s', click g s tile l p = some s' ∧ s'.drawing = false ∧ s'.sel = none ∧
      (∀ i, (s'.boxes s.cur tile)[i]? = if i = k then some (g.rect s.start p) else (s.boxes s.cur tile)[i]?) ∧
      ∀ f a, ¬ (f = s.cur ∧ a = tile) → s'.boxes f a = s.boxes f a := by
  unfold click
  rw [hd, hk]
  dsimp only
  rw [if_pos rfl]
  unfold finish
  rw [if_neg (by simp [hs]), if_pos hin]
  refine ⟨_, rfl, rfl, rfl, fun i => ?_, fun f a hn => ?_⟩
  · dsimp only
    rw [put_same, List.getElem?_set]
    by_cases hi : k = i
    · subst hi
      rw [if_pos rfl, if_pos rfl, if_pos hin]
    · rw [if_neg hi, if_neg (fun h => hi h.symm)]
  · dsimp only
    unfold St.put
    rw [if_neg hn]

/-- While a rectangle is selected, clicks in the other image change no rectangle and no selection. -/
theorem other_image (g : Geo P R) (s : St P R) (tile a k : Nat) (l : Bool) (p : P) (hs : s.selecting = true)
    (hk : s.sel = some (a, k)) (ha : a ≠ tile) : click g s tile l p = some { s with start := p } := by
  obtain ⟨boxes, cur, drawing, selecting, sel, start⟩ := s
  dsimp only at hs hk
  subst hs hk
  cases drawing <;> cases l <;> simp [click, left, right, ha]

/-- A right click in the image of the selected rectangle removes it, and no other, unless it is the only one. -/
theorem removed (g : Geo P R) (s : St P R) (tile k : Nat) (p : P) (hd : s.drawing = false) (hs : s.selecting = true)
    (hk : s.sel = some (tile, k)) (hin : k < (s.boxes s.cur tile).length) :
    ∃ s', click g s tile false p = some s' ∧
      (∀ f a, s'.boxes f a = if f = s.cur ∧ a = tile ∧ 1 < (s.boxes s.cur tile).length
        then (s.boxes s.cur tile).take k ++ (s.boxes s.cur tile).drop (k + 1) else s.boxes f a) := by
  unfold click
  rw [hd]
  dsimp only
  rw [if_neg (by simp)]
  unfold right
  dsimp only
  rw [if_neg (by simp [hs]), hk]
  dsimp only
  by_cases h1 : 1 < (s.boxes s.cur tile).length
  · rw [if_pos ⟨rfl, h1⟩, if_pos hin]
    refine ⟨_, rfl, fun f a => ?_⟩
    dsimp only
    unfold St.put
    dsimp only
    rw [List.eraseIdx_eq_take_drop_succ]
    by_cases hfa : f = s.cur ∧ a = tile
    · rw [if_pos hfa, if_pos ⟨hfa.1, hfa.2, h1⟩]
    · rw [if_neg hfa, if_neg (fun h => hfa ⟨h.1, h.2.1⟩)]
  · rw [if_neg (fun h => h1 h.2)]
    refine ⟨_, rfl, fun f a => ?_⟩
    rw [if_neg (fun h => h1 h.2.2)]

/-- The editor stays within the frames of the batch. -/
theorem in_range (g : Geo P R) (total : Nat) (ht : 0 < total) (boxes : Nat → Nat → List R) (p : P)
    (es : List (Ev P)) (s : St P R) (h : run g total (opened boxes p) es = some s) : s.cur < total := by
  have cur_click : ∀ (s s' : St P R) tile l q, click g s tile l q = some s' → s'.cur = s.cur := by
    intro s s' tile l q hs
    have hl : (left g { s with start := q } tile q).cur = s.cur := by
      unfold left
      split
      · split
        · rfl
        · split <;> rfl
      · split <;> rfl
    have hr : ∀ s', right g { s with start := q } tile q = some s' → s'.cur = s.cur := by
      intro s' hs
      unfold right at hs
      split at hs
      · obtain rfl := Option.some.inj hs
        rfl
      · split at hs
        · obtain rfl := Option.some.inj hs
          rfl
        · split at hs
          · split at hs
            · obtain rfl := Option.some.inj hs
              rfl
            · simp at hs
          · obtain rfl := Option.some.inj hs
            rfl
    have other : ∀ s', (if l = true then some (left g { s with start := q } tile q)
        else right g { s with start := q } tile q) = some s' → s'.cur = s.cur := by
      intro s' hs
      split at hs
      · obtain rfl := Option.some.inj hs
        exact hl
      · exact hr s' hs
    unfold click at hs
    split at hs
    · split at hs
      · unfold finish at hs
        split at hs
        · simp at hs
        · split at hs
          · obtain rfl := Option.some.inj hs
            rfl
          · simp at hs
      · exact other s' hs
    · exact other s' hs
  have main : ∀ (es : List (Ev P)) (s s' : St P R), s.cur < total → run g total s es = some s' → s'.cur < total := by
    intro es
    induction es with
    | nil =>
      intro s s' hc hs
      obtain rfl := Option.some.inj hs
      exact hc
    | cons e r ih =>
      intro s s' hc hs
      unfold run at hs
      obtain ⟨u, hu, hr⟩ := Option.bind_eq_some_iff.mp hs
      refine ih u s' ?_ hr
      cases e with
      | click tile l q => rw [cur_click s u tile l q hu]; exact hc
      | leave b =>
        obtain rfl := Option.some.inj hu
        unfold leave
        dsimp only
        split
        · split <;> omega
        · split <;> omega
  exact main es _ s ht h

/-- Points and rectangles on a line. -/
def line : Geo Nat (Nat × Nat) := ⟨fun p q => (min p q, max p q), fun p r => (p - r.1) + (r.1 - p),
  fun p r => (p - r.2) + (r.2 - p), 10⟩

/-- Three clicks make the editor fail: a rectangle is begun in the first image, then a corner is clicked in the second
image, then any point of the second image. -/
theorem safe_refuted (boxes : Nat → Nat → List (Nat × Nat)) (hb : ∀ f a, boxes f a = [(100, 300)]) :
    run line 5 (opened boxes 0) [.click 0 false 50, .click 1 true 103, .click 1 true 200] = none := by
  simp [run, step, click, left, right, finish, opened, closest, better, line, hb, St.put]

/-- A rectangle is drawn beside the first one, which is then removed. -/
example : (run line 5 (opened (fun _ _ => [(100, 300)]) 0)
    [.click 0 false 50, .click 0 true 20, .click 0 true 103, .click 0 false 0, .leave false]).map
    (fun s => (s.boxes 0 0, s.boxes 0 1, s.cur)) = some ([(20, 50)], [(100, 300)], 1) := by decide +kernel

end Litiv.RectEdit
