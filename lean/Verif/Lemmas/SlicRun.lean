import Verif.Lemmas.Slic

/-! Helper lemmas about the execution of the kernels of superpixels. -/
namespace Litiv.Slic

/-- What an operation adds to an accumulator. -/
noncomputable def contrib (q : Nat) : Act → ℝ
  | .label _ _ _ => 0
  | .add i v => if (q : ℤ) = i then v else 0

theorem runActs_ok (g : Geo) : ∀ (acts : List Act) (dev : Dev),
    (∀ i v, Act.add i v ∈ acts → 0 ≤ i ∧ i < 6 * (g.nbSpx : ℤ)) →
    ∃ dev', runActs g acts dev = some dev' ∧ dev'.lab = dev.lab ∧ dev'.clusters = dev.clusters ∧
      (∀ q, dev'.acc q = dev.acc q + (acts.map (contrib q)).sum) ∧
      (∀ x y v, (∃ v', Act.label x y v' ∈ acts) → (∀ v', Act.label x y v' ∈ acts → v' = v) → dev'.labels x y = v) ∧
      (∀ x y, (∀ v, Act.label x y v ∉ acts) → dev'.labels x y = dev.labels x y)
  | [], dev, _ => ⟨dev, rfl, rfl, rfl, by simp, by simp, by simp⟩
  | .label x y v :: as, dev, h => by
    obtain ⟨dev', h1, h2, h3, h4, h5, h6⟩ := runActs_ok g as
      { dev with labels := fun x' y' => if x' = x ∧ y' = y then v else dev.labels x' y' }
      (fun i v hi => h i v (List.mem_cons_of_mem _ hi))
    refine ⟨dev', h1, h2, h3, fun q => ?_, fun x' y' v' hex hall => ?_, fun x' y' hno => ?_⟩
    · rw [h4]; simp [contrib]
    · by_cases hin : ∃ v', Act.label x' y' v' ∈ as
      · exact h5 x' y' v' hin fun w hw => hall w (List.mem_cons_of_mem _ hw)
      · rw [h6 x' y' fun w hw => hin ⟨w, hw⟩]
        obtain ⟨w, hw⟩ := hex
        rcases List.mem_cons.1 hw with he | he
        · cases he
          simp only [and_self, if_true]
          exact hall v List.mem_cons_self
        · exact absurd ⟨w, he⟩ hin
    · rw [h6 x' y' fun w hw => hno w (List.mem_cons_of_mem _ hw)]
      simp only
      rw [if_neg]
      rintro ⟨rfl, rfl⟩
      exact hno v List.mem_cons_self
  | .add i v :: as, dev, h => by
    obtain ⟨hi0, hi1⟩ := h i v List.mem_cons_self
    obtain ⟨dev', h1, h2, h3, h4, h5, h6⟩ := runActs_ok g as
      { dev with acc := fun q => if q = i.toNat then dev.acc q + v else dev.acc q }
      (fun i v hi => h i v (List.mem_cons_of_mem _ hi))
    refine ⟨dev', ?_, h2, h3, fun q => ?_, fun x' y' v' hex hall => ?_, fun x' y' hno => ?_⟩
    · show (if 0 ≤ i ∧ i < 6 * (g.nbSpx : ℤ) then some _ else none).bind (runActs g as) = some dev'
      rw [if_pos ⟨hi0, hi1⟩]
      exact h1
    · rw [h4]
      simp only [List.map_cons, List.sum_cons, contrib]
      by_cases hq : q = i.toNat
      · rw [if_pos hq, if_pos (by omega)]; ring
      · rw [if_neg hq, if_neg (by omega)]; ring
    · obtain ⟨w, hw⟩ := hex
      rcases List.mem_cons.1 hw with he | he
      · cases he
      · exact h5 x' y' v' ⟨w, he⟩ fun w hw => hall w (List.mem_cons_of_mem _ hw)
    · exact h6 x' y' fun w hw => hno w (List.mem_cons_of_mem _ hw)

theorem runActs_fail (g : Geo) : ∀ (acts : List Act) (dev : Dev) (i : ℤ) (v : ℝ),
    Act.add i v ∈ acts → ¬ (0 ≤ i ∧ i < 6 * (g.nbSpx : ℤ)) → runActs g acts dev = none
  | [], _, _, _, h, _ => by cases h
  | a :: as, dev, i, v, h, hi => by
    unfold runActs
    rcases List.mem_cons.1 h with rfl | h
    · show (if 0 ≤ i ∧ i < 6 * (g.nbSpx : ℤ) then some _ else none).bind (runActs g as) = none
      rw [if_neg hi]; rfl
    · cases hr : runAct g dev a with
      | none => rfl
      | some dev' => exact runActs_fail g as dev' i v h hi

/-- The label found for a pixel. -/
noncomputable def labelOf (g : Geo) (wc : ℝ) (dev : Dev) (x y : Nat) : ℤ :=
  search (fitLaunch g) g (wc * wc) dev.clusters (threadOf g x y) x y (dev.lab x y)

theorem assignActs_fit (g : Geo) (wc : ℝ) (dev : Dev) (x y : Nat) :
    assignActs (fitLaunch g) g (wc * wc) dev (threadOf g x y) =
      if y < g.height ∧ x < g.width then
        [.label x y (labelOf g wc dev x y), .add (labelOf g wc dev x y) (dev.lab x y).l,
          .add (labelOf g wc dev x y + g.nbSpx) (dev.lab x y).a, .add (labelOf g wc dev x y + 2 * g.nbSpx) (dev.lab x y).b,
          .add (labelOf g wc dev x y + 3 * g.nbSpx) x, .add (labelOf g wc dev x y + 4 * g.nbSpx) y,
          .add (labelOf g wc dev x y + 5 * g.nbSpx) 1]
      else [] := by
  unfold assignActs
  rw [threadOf_px, threadOf_py]
  rfl

theorem mem_acts {g : Geo} (ok : g.Ok) {wc : ℝ} {dev : Dev} {a : Act} :
    a ∈ (fitLaunch g).threads.flatMap (assignActs (fitLaunch g) g (wc * wc) dev) ↔
      ∃ x y, x < g.width ∧ y < g.height ∧ a ∈ assignActs (fitLaunch g) g (wc * wc) dev (threadOf g x y) := by
  rw [List.mem_flatMap]
  constructor
  · rintro ⟨t, ht, ha⟩
    have he := thread_unique ht
    refine ⟨pxOf (fitLaunch g) t, pyOf (fitLaunch g) t, ?_, ?_, by rw [← he]; exact ha⟩
    · unfold assignActs at ha
      dsimp only at ha
      split at ha
      · rename_i h; exact h.2
      · cases ha
    · unfold assignActs at ha
      dsimp only at ha
      split at ha
      · rename_i h; exact h.1
      · cases ha
  · rintro ⟨x, y, hx, hy, ha⟩
    exact ⟨_, threadOf_mem ok hx hy, ha⟩

/-- The sum of the contributions to an accumulator, over pixels. -/
theorem acts_sum {g : Geo} (ok : g.Ok) (wc : ℝ) (dev : Dev) (q : Nat) :
    (((fitLaunch g).threads.flatMap (assignActs (fitLaunch g) g (wc * wc) dev)).map (contrib q)).sum =
      ∑ p ∈ Finset.range g.width ×ˢ Finset.range g.height,
        ((assignActs (fitLaunch g) g (wc * wc) dev (threadOf g p.1 p.2)).map (contrib q)).sum := by
  rw [sum_flatMap, sum_fit ok]
  intro t h
  unfold assignActs
  dsimp only
  rw [if_neg h]
  rfl

/-- The values added for a pixel. -/
noncomputable def part (dev : Dev) (x y : Nat) : Nat → ℝ
  | 0 => (pixel dev x y).l
  | 1 => (pixel dev x y).a
  | 2 => (pixel dev x y).b
  | 3 => (pixel dev x y).x
  | 4 => (pixel dev x y).y
  | _ => 1

theorem pixel_sum {g : Geo} {wc : ℝ} {dev : Dev} {x y k c : Nat} (hx : x < g.width) (hy : y < g.height)
    (hk : k < g.nbSpx) (hc : c < 6) (h0 : 0 ≤ labelOf g wc dev x y) (h1 : labelOf g wc dev x y < g.nbSpx) :
    ((assignActs (fitLaunch g) g (wc * wc) dev (threadOf g x y)).map (contrib (k + c * g.nbSpx))).sum =
      if labelOf g wc dev x y = k then part dev x y c else 0 := by
  rw [assignActs_fit, if_pos ⟨hy, hx⟩]
  simp only [List.map_cons, List.map_nil, List.sum_cons, List.sum_nil, contrib]
  generalize labelOf g wc dev x y = v at *
  by_cases hv : v = k
  · rw [if_pos hv]
    subst hv
    interval_cases c <;> simp only [part, pixel]
    · rw [if_pos (by omega), if_neg (by omega), if_neg (by omega), if_neg (by omega), if_neg (by omega), if_neg (by omega)]; ring
    · rw [if_neg (by omega), if_pos (by omega), if_neg (by omega), if_neg (by omega), if_neg (by omega), if_neg (by omega)]; ring
    · rw [if_neg (by omega), if_neg (by omega), if_pos (by omega), if_neg (by omega), if_neg (by omega), if_neg (by omega)]; ring
    · rw [if_neg (by omega), if_neg (by omega), if_neg (by omega), if_pos (by omega), if_neg (by omega), if_neg (by omega)]; ring
    · rw [if_neg (by omega), if_neg (by omega), if_neg (by omega), if_neg (by omega), if_pos (by omega), if_neg (by omega)]; ring
    · rw [if_neg (by omega), if_neg (by omega), if_neg (by omega), if_neg (by omega), if_neg (by omega), if_pos (by omega)]; ring
  · rw [if_neg hv]
    interval_cases c <;>
    · rw [if_neg (by omega), if_neg (by omega), if_neg (by omega), if_neg (by omega), if_neg (by omega), if_neg (by omega)]; ring

/-- The assignment, when every pixel finds a cluster. -/
theorem assignment_spec {g : Geo} (ok : g.Ok) (s : Sched) {m : Nat} {wc : ℝ} {dev : Dev}
    (h3 : 3 ≤ g.diam) (hm : g.diam * g.diam ≤ m)
    (hl : ∀ x < g.width, ∀ y < g.height, 0 ≤ labelOf g wc dev x y ∧ labelOf g wc dev x y < g.nbSpx) :
    ∃ dev', assignment s m g wc dev = some dev' ∧ dev'.lab = dev.lab ∧ dev'.clusters = dev.clusters ∧
      (∀ x y, dev'.labels x y = if x < g.width ∧ y < g.height then labelOf g wc dev x y else dev.labels x y) ∧
      (∀ k < g.nbSpx, ∀ c < 6, dev'.acc (k + c * g.nbSpx) = dev.acc (k + c * g.nbSpx) +
        ∑ p ∈ members g (labelOf g wc dev) k, part dev p.1 p.2 c) := by
  unfold assignment
  rw [assignLaunch_fit h3 hm]
  simp only [Option.bind_some]
  have hp := s.acts_perm ((fitLaunch g).threads.flatMap (assignActs (fitLaunch g) g (wc * wc) dev))
  obtain ⟨dev', h1, h2, h3', h4, h5, h6⟩ := runActs_ok g
    (s.acts ((fitLaunch g).threads.flatMap (assignActs (fitLaunch g) g (wc * wc) dev))) dev (by
    intro i v hi
    obtain ⟨x, y, hx, hy, ha⟩ := (mem_acts ok).1 (hp.mem_iff.1 hi)
    rw [assignActs_fit, if_pos ⟨hy, hx⟩] at ha
    have := hl x hx y hy
    simp only [List.mem_cons, Act.add.injEq, List.not_mem_nil, or_false, reduceCtorEq, false_or] at ha
    omega)
  refine ⟨dev', h1, h2, h3', fun x y => ?_, fun k hk c hc => ?_⟩
  · by_cases hxy : x < g.width ∧ y < g.height
    · rw [if_pos hxy]
      apply h5
      · refine ⟨labelOf g wc dev x y, hp.mem_iff.2 ((mem_acts ok).2 ⟨x, y, hxy.1, hxy.2, ?_⟩)⟩
        rw [assignActs_fit, if_pos ⟨hxy.2, hxy.1⟩]
        exact List.mem_cons_self
      · intro v' hv'
        obtain ⟨x', y', hx, hy, ha⟩ := (mem_acts ok).1 (hp.mem_iff.1 hv')
        rw [assignActs_fit, if_pos ⟨hy, hx⟩] at ha
        simp only [List.mem_cons, Act.label.injEq, List.not_mem_nil, or_false, reduceCtorEq] at ha
        obtain ⟨rfl, rfl, rfl⟩ := ha
        rfl
    · rw [if_neg hxy]
      apply h6
      intro v hv
      obtain ⟨x', y', hx, hy, ha⟩ := (mem_acts ok).1 (hp.mem_iff.1 hv)
      rw [assignActs_fit, if_pos ⟨hy, hx⟩] at ha
      simp only [List.mem_cons, Act.label.injEq, List.not_mem_nil, or_false, reduceCtorEq] at ha
      obtain ⟨rfl, rfl, rfl⟩ := ha
      exact hxy ⟨hx, hy⟩
  · rw [h4, (hp.map _).sum_eq, acts_sum ok]
    congr 1
    unfold members
    rw [Finset.sum_filter]
    refine Finset.sum_congr rfl fun p hp => ?_
    simp only [Finset.mem_product, Finset.mem_range] at hp
    exact pixel_sum hp.1 hp.2 hk hc (hl _ hp.1 _ hp.2).1 (hl _ hp.1 _ hp.2).2

/-! ## The update -/

theorem updateThread_other {l : Launch} {g : Geo} {t : Thread} {dev : Dev} {k : Nat} (hk : k < g.nbSpx)
    (h : k ≠ t.ix * l.bx + t.tx) :
    (∀ c < 5, (updateThread l g t dev).clusters (k + c * g.nbSpx) = dev.clusters (k + c * g.nbSpx)) ∧
    (∀ c < 6, (updateThread l g t dev).acc (k + c * g.nbSpx) = dev.acc (k + c * g.nbSpx)) := by
  unfold updateThread
  dsimp only
  generalize t.ix * l.bx + t.tx = k' at *
  split
  · rename_i hk'
    split
    · constructor
      · intro c hc
        dsimp only
        interval_cases c <;>
          rw [if_neg (by omega), if_neg (by omega), if_neg (by omega), if_neg (by omega), if_neg (by omega)]
      · intro c hc
        dsimp only
        interval_cases c <;> rw [if_neg (by omega)]
    · exact ⟨fun _ _ => rfl, fun _ _ => rfl⟩
  · exact ⟨fun _ _ => rfl, fun _ _ => rfl⟩

theorem updateThread_own {l : Launch} {g : Geo} {t : Thread} {dev : Dev} {k : Nat} (hk : k < g.nbSpx)
    (h : k = t.ix * l.bx + t.tx) :
    (∀ c < 5, (updateThread l g t dev).clusters (k + c * g.nbSpx) =
      if dev.acc (k + 5 * g.nbSpx) ≠ 0 then dev.acc (k + c * g.nbSpx) / dev.acc (k + 5 * g.nbSpx)
      else dev.clusters (k + c * g.nbSpx)) ∧
    (∀ c < 6, (updateThread l g t dev).acc (k + c * g.nbSpx) =
      if dev.acc (k + 5 * g.nbSpx) ≠ 0 then 0 else dev.acc (k + c * g.nbSpx)) := by
  unfold updateThread
  dsimp only
  rw [← h, if_pos hk]
  rw [Nat.mul_comm g.nbSpx 5, Nat.mul_comm g.nbSpx 4, Nat.mul_comm g.nbSpx 3, Nat.mul_comm g.nbSpx 2]
  by_cases hz : dev.acc (k + 5 * g.nbSpx) ≠ 0
  · rw [if_pos hz]
    simp only [if_pos hz]
    constructor
    · intro c hc
      interval_cases c
      · rw [if_neg (by omega), if_neg (by omega), if_neg (by omega), if_neg (by omega), if_pos (by omega)]; simp
      · rw [if_neg (by omega), if_neg (by omega), if_neg (by omega), if_pos (by omega)]; simp
      · rw [if_neg (by omega), if_neg (by omega), if_pos (by omega)]
      · rw [if_neg (by omega), if_pos (by omega)]
      · rw [if_pos (by omega)]
    · intro c hc
      interval_cases c <;> rw [if_pos (by omega)]
  · rw [if_neg hz]
    simp only [if_neg hz]
    exact ⟨fun _ _ => trivial, fun _ _ => trivial⟩

theorem updateThread_rest {l : Launch} {g : Geo} {t : Thread} {dev : Dev} :
    (updateThread l g t dev).lab = dev.lab ∧ (updateThread l g t dev).labels = dev.labels := by
  unfold updateThread
  dsimp only
  split
  · split <;> exact ⟨rfl, rfl⟩
  · exact ⟨rfl, rfl⟩

theorem fold_update (l : Launch) (g : Geo) : ∀ (ts : List Thread) (dev : Dev), ts.Nodup →
    (∀ t ∈ ts, ∀ t' ∈ ts, t.ix * l.bx + t.tx = t'.ix * l.bx + t'.tx → t = t') →
    (ts.foldl (fun d t => updateThread l g t d) dev).lab = dev.lab ∧
    (ts.foldl (fun d t => updateThread l g t d) dev).labels = dev.labels ∧
    ∀ k < g.nbSpx,
      ((∀ t ∈ ts, k ≠ t.ix * l.bx + t.tx) →
        (∀ c < 5, (ts.foldl (fun d t => updateThread l g t d) dev).clusters (k + c * g.nbSpx) = dev.clusters (k + c * g.nbSpx)) ∧
        (∀ c < 6, (ts.foldl (fun d t => updateThread l g t d) dev).acc (k + c * g.nbSpx) = dev.acc (k + c * g.nbSpx))) ∧
      ((∃ t ∈ ts, k = t.ix * l.bx + t.tx) →
        (∀ c < 5, (ts.foldl (fun d t => updateThread l g t d) dev).clusters (k + c * g.nbSpx) =
          if dev.acc (k + 5 * g.nbSpx) ≠ 0 then dev.acc (k + c * g.nbSpx) / dev.acc (k + 5 * g.nbSpx)
          else dev.clusters (k + c * g.nbSpx)) ∧
        (∀ c < 6, (ts.foldl (fun d t => updateThread l g t d) dev).acc (k + c * g.nbSpx) =
          if dev.acc (k + 5 * g.nbSpx) ≠ 0 then 0 else dev.acc (k + c * g.nbSpx)))
  | [], dev, _, _ => ⟨rfl, rfl, fun k _ => ⟨fun _ => ⟨fun _ _ => rfl, fun _ _ => rfl⟩, by rintro ⟨t, ht, _⟩; cases ht⟩⟩
  | t :: ts, dev, hn, hu => by
    rw [List.foldl_cons]
    rw [List.nodup_cons] at hn
    obtain ⟨i1, i2, i3⟩ := fold_update l g ts (updateThread l g t dev) hn.2
      (fun a ha b hb => hu a (List.mem_cons_of_mem _ ha) b (List.mem_cons_of_mem _ hb))
    obtain ⟨r1, r2⟩ := updateThread_rest (l := l) (g := g) (t := t) (dev := dev)
    refine ⟨i1.trans r1, i2.trans r2, fun k hk => ⟨fun hno => ?_, fun hex => ?_⟩⟩
    · obtain ⟨o1, o2⟩ := updateThread_other (dev := dev) hk (hno t List.mem_cons_self)
      obtain ⟨j1, j2⟩ := (i3 k hk).1 fun a ha => hno a (List.mem_cons_of_mem _ ha)
      exact ⟨fun c hc => (j1 c hc).trans (o1 c hc), fun c hc => (j2 c hc).trans (o2 c hc)⟩
    · by_cases ht : k = t.ix * l.bx + t.tx
      · obtain ⟨o1, o2⟩ := updateThread_own (dev := dev) hk ht
        obtain ⟨j1, j2⟩ := (i3 k hk).1 fun a ha he => by
          have := hu t List.mem_cons_self a (List.mem_cons_of_mem _ ha) (ht.symm.trans he)
          rw [this] at hn
          exact hn.1 ha
        exact ⟨fun c hc => (j1 c hc).trans (o1 c hc), fun c hc => (j2 c hc).trans (o2 c hc)⟩
      · obtain ⟨a, ha, hka⟩ := hex
        have ha' : a ∈ ts := by
          rcases List.mem_cons.1 ha with rfl | ha
          · exact absurd hka ht
          · exact ha
        obtain ⟨o1, o2⟩ := updateThread_other (dev := dev) hk ht
        obtain ⟨j1, j2⟩ := (i3 k hk).2 ⟨a, ha', hka⟩
        have e5 := o2 5 (by omega)
        rw [e5] at j1 j2
        refine ⟨fun c hc => ?_, fun c hc => ?_⟩
        · rw [j1 c hc, o1 c hc, o2 c (by omega)]
        · rw [j2 c hc, o2 c hc]

/-- One-dimensional launches number their threads. -/
theorem flat_unique {l : Launch} (hy : l.gy = 1) (hz : l.gz = 1) (hb : l.by' = 1) :
    ∀ t ∈ l.threads, ∀ t' ∈ l.threads, t.ix * l.bx + t.tx = t'.ix * l.bx + t'.tx → t = t' := by
  rintro ⟨a, b, c, u, v⟩ ht ⟨a', b', c', u', v'⟩ ht' he
  rw [mem_threads] at ht ht'
  simp only at *
  have hu : u < l.bx := ht.2.2.2.1
  have hu' : u' < l.bx := ht'.2.2.2.1
  have h2 : a = a' ∧ u = u' := by
    have h0 : 0 < l.bx := by omega
    have e1 : (a * l.bx + u) / l.bx = a := by
      rw [Nat.mul_comm, Nat.mul_add_div h0, Nat.div_eq_of_lt hu]; omega
    have e2 : (a' * l.bx + u') / l.bx = a' := by
      rw [Nat.mul_comm, Nat.mul_add_div h0, Nat.div_eq_of_lt hu']; omega
    rw [he, e2] at e1
    subst e1
    exact ⟨rfl, by omega⟩
  obtain ⟨rfl, rfl⟩ := h2
  congr 1 <;> omega

theorem flat_cover {l : Launch} (hy : l.gy = 1) (hz : l.gz = 1) (hb : l.by' = 1) {k : Nat} (hk : k < l.gx * l.bx) :
    ∃ t ∈ l.threads, k = t.ix * l.bx + t.tx := by
  have h0 : 0 < l.bx := by
    by_contra h; have : l.bx = 0 := by omega
    rw [this] at hk; omega
  refine ⟨⟨k / l.bx, 0, 0, k % l.bx, 0⟩, ?_, ?_⟩
  · rw [mem_threads]
    exact ⟨(Nat.div_lt_iff_lt_mul h0).2 hk, by simp [hy], by simp [hz], Nat.mod_lt _ h0, by simp [hb]⟩
  · simp only
    rw [Nat.mul_comm]; exact (Nat.div_add_mod _ _).symm

theorem update_spec {g : Geo} (s : Sched) {m : Nat} (hm : 0 < m) (dev : Dev) :
    ∃ dev', update s m g dev = some dev' ∧ dev'.lab = dev.lab ∧ dev'.labels = dev.labels ∧
      ∀ k < g.nbSpx,
        (∀ c < 5, dev'.clusters (k + c * g.nbSpx) =
          if dev.acc (k + 5 * g.nbSpx) ≠ 0 then dev.acc (k + c * g.nbSpx) / dev.acc (k + 5 * g.nbSpx)
          else dev.clusters (k + c * g.nbSpx)) ∧
        (∀ c < 6, dev'.acc (k + c * g.nbSpx) =
          if dev.acc (k + 5 * g.nbSpx) ≠ 0 then 0 else dev.acc (k + c * g.nbSpx)) := by
  obtain ⟨q, hq, hq1, _⟩ := iDivUp_some (a := g.nbSpx) hm
  unfold update updateLaunch
  rw [hq]
  simp only [Option.bind_some]
  refine ⟨_, rfl, ?_⟩
  have hp := s.thr_perm (Launch.threads ⟨q, 1, 1, m, 1⟩)
  obtain ⟨h1, h2, h3⟩ := fold_update ⟨q, 1, 1, m, 1⟩ g (s.thr (Launch.threads ⟨q, 1, 1, m, 1⟩)) dev
    (hp.nodup_iff.2 (nodup_threads _)) (fun t ht t' ht' =>
      flat_unique (l := ⟨q, 1, 1, m, 1⟩) rfl rfl rfl t (hp.mem_iff.1 ht) t' (hp.mem_iff.1 ht'))
  refine ⟨h1, h2, fun k hk => (h3 k hk).2 ?_⟩
  obtain ⟨t, ht, hk'⟩ := flat_cover (l := ⟨q, 1, 1, m, 1⟩) rfl rfl rfl (lt_of_lt_of_le hk hq1)
  exact ⟨t, hp.mem_iff.2 ht, hk'⟩

end Litiv.Slic
