import Verif.Lemmas.SlicSeg

/-! # Properties of superpixels -/
namespace Litiv.Slic

/-! ## C114: the grid of clusters -/

/-- **C114 (initialization).** It only fails (with a division by zero or an undefined conversion) for a diameter of zero, a count of zero, or
more superpixels than pixels. -/
theorem init_fails_iff (w h arg : Nat) (t : InitType) :
    initialize' w h arg t = none ↔ arg = 0 ∨ (t = .nspx ∧ w * h < arg) := by
  have hi : ∀ d, ((iDivUp w d).bind fun pr => (iDivUp h d).bind fun pc => some (⟨w, h, d, pr, pc, pr * pc⟩ : Geo)) = none ↔ d = 0 := by
    intro d
    constructor
    · intro e
      by_contra hd
      obtain ⟨a, ha, _⟩ := iDivUp_some (a := w) (b := d) (by omega)
      obtain ⟨b, hb, _⟩ := iDivUp_some (a := h) (b := d) (by omega)
      rw [ha, hb] at e
      cases e
    · rintro rfl
      rw [(iDivUp_none w 0).2 rfl]; rfl
  unfold initialize' diamOf
  cases t with
  | size =>
    show ((iDivUp w arg).bind _) = none ↔ _
    rw [hi]
    simp
  | nspx =>
    by_cases ha : arg = 0
    · simp [ha]
    · rw [if_neg ha]
      show ((iDivUp w _).bind _) = none ↔ _
      rw [hi, Nat.sqrt_eq_zero, Nat.div_eq_zero_iff]
      simp [ha]

example : (initialize' 640 480 15 .size).isSome ∧ (initialize' 640 480 1000 .nspx).isSome ∧ initialize' 4 4 17 .nspx = none :=
  ⟨rfl, by decide +kernel, by rw [init_fails_iff]; simp⟩

/-- **C114 (grid).** The cells of the grid cover the frame, every cell has a pixel, and there is one superpixel for each cell. -/
theorem init_grid (w h arg : Nat) (t : InitType) (g : Geo) (e : initialize' w h arg t = some g) :
    g.width = w ∧ g.height = h ∧ g.nbSpx = g.perRow * g.perCol ∧ (t = .size → g.diam = arg) ∧
    (∀ x < w, x / g.diam < g.perRow) ∧ (∀ y < h, y / g.diam < g.perCol) ∧
    (∀ i < g.perRow, ∃ x < w, x / g.diam = i) ∧ (∀ j < g.perCol, ∃ y < h, y / g.diam = j) := by
  obtain ⟨ok, rfl, rfl, hd⟩ := initialize_ok e
  refine ⟨rfl, rfl, ok.nb, ?_, fun x hx => cell_lt ok hx, fun y hy => cell_lt' ok hy,
    fun i hi => ⟨i * g.diam, ok.row' i hi, Nat.mul_div_cancel _ ok.diam_pos⟩,
    fun j hj => ⟨j * g.diam, ok.col' j hj, Nat.mul_div_cancel _ ok.diam_pos⟩⟩
  rintro rfl
  exact (Option.some.inj hd).symm

/-- **C114 (count).** With a requested number of superpixels, the diameter is the truncated square root of the pixels per superpixel, and there
are at least as many superpixels as requested. -/
theorem init_count (w h arg : Nat) (g : Geo) (e : initialize' w h arg .nspx = some g) :
    g.diam = ⌊Real.sqrt (((w * h : Nat) : ℝ) / arg)⌋₊ ∧ arg ≤ g.nbSpx := by
  obtain ⟨ok, rfl, rfl, hd⟩ := initialize_ok e
  have ha : arg ≠ 0 := by rintro rfl; cases hd
  have hd' : g.diam = Nat.sqrt (g.width * g.height / arg) := by
    unfold diamOf at hd
    rw [if_neg ha] at hd
    exact (Option.some.inj hd).symm
  refine ⟨by rw [hd']; exact sqrt_real _ _, ?_⟩
  have h1 : g.diam * g.diam * arg ≤ g.width * g.height := by
    rw [hd']
    exact (Nat.mul_le_mul_right _ (Nat.sqrt_le _)).trans (Nat.div_mul_le_self _ _)
  have h2 : g.width * g.height ≤ (g.perRow * g.diam) * (g.perCol * g.diam) := Nat.mul_le_mul ok.row ok.col
  have h3 : g.diam * g.diam * arg ≤ g.diam * g.diam * g.nbSpx := by
    rw [ok.nb]
    calc _ ≤ _ := h1
      _ ≤ _ := h2
      _ = _ := by ring
  exact Nat.le_of_mul_le_mul_left h3 (Nat.mul_pos ok.diam_pos ok.diam_pos)

/-- **C114 (first centres).** Before the first iteration, in whatever order threads are executed and whatever earlier frames left behind, the
colours are those of the frame and the centre of every cluster is a pixel of its cell: the one at the middle, or the last one of a cut cell. -/
theorem init_centres (w h arg : Nat) (t : InitType) (g : Geo) (e : initialize' w h arg t = some g) (s₀ : Sched) (s : Nat → Sched) (m : Nat)
    (wc : ℝ) (img : Nat → Nat → Nat × Nat × Nat) (dev : Dev) :
    ∃ a, segment s₀ s m g wc 0 img dev = some a ∧ a.labels = dev.labels ∧
      (∀ x < w, ∀ y < h, a.lab x y = toLab (img x y).1 (img x y).2.1 (img x y).2.2) ∧
      ∀ k < g.nbSpx, ∃ x y, x < w ∧ y < h ∧ x / g.diam = k % g.perRow ∧ y / g.diam = k / g.perRow ∧
        centre g a k = pixel a x y ∧
        (x = k % g.perRow * g.diam + g.diam / 2 ∨ (x = w - 1 ∧ w ≤ k % g.perRow * g.diam + g.diam / 2)) ∧
        (y = k / g.perRow * g.diam + g.diam / 2 ∨ (y = h - 1 ∧ h ≤ k / g.perRow * g.diam + g.diam / 2)) := by
  obtain ⟨ok, rfl, rfl, hd⟩ := initialize_ok e
  obtain ⟨a, e, h1, h2, h3, h4⟩ := prepare_spec ok s₀ img dev
  refine ⟨a, by unfold segment; rw [e]; rfl, h1, h3, fun k hk => ?_⟩
  have hr : 0 < g.perRow := by
    by_contra h; have : g.perRow = 0 := by omega
    rw [ok.nb, this] at hk; omega
  have c1 := ok.row' (k % g.perRow) (Nat.mod_lt _ hr)
  have c2 := ok.col' (k / g.perRow) (by rw [Nat.div_lt_iff_lt_mul hr, Nat.mul_comm, ← ok.nb]; exact hk)
  have hd := ok.diam_pos
  have hh : g.diam / 2 < g.diam := by omega
  refine ⟨startX g k, startY g k, ?_, ?_, ?_, ?_, h4 k hk, ?_, ?_⟩ <;> simp only [startX, startY]
  · omega
  · omega
  · rw [Nat.div_eq_iff hd]; omega
  · rw [Nat.div_eq_iff hd]; omega
  · omega
  · omega

/-! ## C115: labels -/

/-- **C115 (threads).** If the pixels of a cell fit in one block, every pixel has exactly one thread of the assignment, and this thread is in the
block of the cell of the pixel. -/
theorem assign_cover (w h arg : Nat) (t : InitType) (g : Geo) (e : initialize' w h arg t = some g) (m : Nat) (h3 : 3 ≤ g.diam)
    (hm : g.diam * g.diam ≤ m) :
    ∃ l, assignLaunch m g = some l ∧ l.threads.Nodup ∧ ∀ x < w, ∀ y < h, ∃ t ∈ l.threads,
      pxOf l t = x ∧ pyOf l t = y ∧ t.ix = x / g.diam ∧ t.iy = y / g.diam ∧
      ∀ t' ∈ l.threads, pxOf l t' = x → pyOf l t' = y → t' = t := by
  obtain ⟨ok, rfl, rfl, -⟩ := initialize_ok e
  refine ⟨fitLaunch g, assignLaunch_fit h3 hm, nodup_threads _, fun x hx y hy => ⟨threadOf g x y, threadOf_mem ok hx hy, threadOf_px x y,
    threadOf_py x y, rfl, rfl, fun t' ht' hx' hy' => ?_⟩⟩
  rw [thread_unique ht', hx', hy']

/-- **C115 and C116 (iterations).** For cells that fit in one block and compactness up to 20000, in whatever order threads are executed: every
iteration succeeds without any access out of bounds, gives every pixel the nearest cluster of those in the nine cells around it, then moves
every cluster that has pixels to their mean and keeps the others, and leaves the accumulators empty for the next iteration or frame. -/
theorem segment_step (w h arg : Nat) (t : InitType) (g : Geo) (e : initialize' w h arg t = some g) (m : Nat) (h3 : 3 ≤ g.diam)
    (hm : g.diam * g.diam ≤ m) (wc : ℝ) (hw : |wc| ≤ 20000) (s₀ : Sched) (s : Nat → Sched) (img : Nat → Nat → Nat × Nat × Nat)
    (himg : ∀ x y, (img x y).1 ≤ 255 ∧ (img x y).2.1 ≤ 255 ∧ (img x y).2.2 ≤ 255) (dev : Dev) (hi : Idle g dev) (n : Nat) :
    ∃ a b, segment s₀ s m g wc n img dev = some a ∧ segment s₀ s m g wc (n + 1) img dev = some b ∧
      (∀ x < w, ∀ y < h, ∃ k : Nat, b.labels x y = k ∧ Nearest g wc a x y k) ∧
      (∀ k < g.nbSpx, (members g b.labels k = ∅ → centre g b k = centre g a k) ∧
        (members g b.labels k ≠ ∅ → centre g b k = mean a (members g b.labels k))) ∧
      b.lab = a.lab ∧ Idle g a ∧ Idle g b := by
  obtain ⟨ok, rfl, rfl, -⟩ := initialize_ok e
  obtain ⟨a, e1, h1, h2, -⟩ := segment_good ok hw h3 hm s₀ s himg hi n
  obtain ⟨b, e2, hb⟩ := step_spec ok hw h3 hm s n h1 h2
  refine ⟨a, b, e1, by rw [segment_succ, e1]; exact e2, hb.label, fun k hk => ?_, hb.lab, h2, hb.idle⟩
  rw [hb.mean k hk]
  exact ⟨fun h => by rw [if_pos h], fun h => by rw [if_neg h]⟩

/-- The hypotheses are met by the defaults of the library on a device with 1024 threads per block. -/
example : ∃ g, initialize' 640 480 15 .size = some g ∧ 3 ≤ g.diam ∧ g.diam * g.diam ≤ 1024 ∧ |(35 : ℝ)| ≤ 20000 ∧
    Idle g (fresh (fun _ _ => ⟨0, 0, 0⟩) fun _ _ => 0) :=
  ⟨_, rfl, by norm_num, by norm_num, by norm_num, fun _ _ => rfl⟩

/-- What a successful assignment does, for any launch. -/
theorem assignment_inv {s : Sched} {m : Nat} {g : Geo} {wc : ℝ} {dev dev' : Dev} {l : Launch} (hl : assignLaunch m g = some l)
    (e : assignment s m g wc dev = some dev') :
    (∀ x y v, (∃ v', Act.label x y v' ∈ l.threads.flatMap (assignActs l g (wc * wc) dev)) →
      (∀ v', Act.label x y v' ∈ l.threads.flatMap (assignActs l g (wc * wc) dev) → v' = v) → dev'.labels x y = v) ∧
    (∀ x y, (∀ v, Act.label x y v ∉ l.threads.flatMap (assignActs l g (wc * wc) dev)) → dev'.labels x y = dev.labels x y) ∧
    ∀ i v, Act.add i v ∈ l.threads.flatMap (assignActs l g (wc * wc) dev) → 0 ≤ i ∧ i < 6 * (g.nbSpx : ℤ) := by
  unfold assignment at e
  rw [hl] at e
  simp only [Option.bind_some] at e
  have hp := s.acts_perm (l.threads.flatMap (assignActs l g (wc * wc) dev))
  have hb : ∀ i v, Act.add i v ∈ s.acts (l.threads.flatMap (assignActs l g (wc * wc) dev)) → 0 ≤ i ∧ i < 6 * (g.nbSpx : ℤ) := by
    intro i v hi
    by_contra h
    rw [runActs_fail g _ dev i v hi h] at e
    cases e
  obtain ⟨d, h1, -, -, -, h5, h6⟩ := runActs_ok g _ dev hb
  rw [e] at h1
  cases h1
  exact ⟨fun x y v ⟨v', hv'⟩ h => h5 x y v ⟨v', hp.mem_iff.2 hv'⟩ fun w hw => h w (hp.mem_iff.1 hw),
    fun x y h => h6 x y fun v hv => h v (hp.mem_iff.1 hv), fun i v hi => hb i v (hp.mem_iff.2 hi)⟩

/-- **C115 (refuted for large cells: pixels without label).** With 1024 threads per block and a diameter of 45, the last row of a cell has no
thread: the assignment leaves whatever its label was. -/
theorem assign_cover_refuted : ∃ g, initialize' 45 45 45 .size = some g ∧
    (∀ s wc dev dev', assignment s 1024 g wc dev = some dev' → dev'.labels 0 44 = dev.labels 0 44) ∧
    ∀ s, ∃ dev', assignment s 1024 g 0 (fresh (fun _ _ => ⟨0, 0, 0⟩) fun _ _ => 77) = some dev' := by
  refine ⟨⟨45, 45, 45, 1, 1, 1⟩, rfl, ?_, ?_⟩
  · intro s wc dev dev' e
    have hl : assignLaunch 1024 ⟨45, 45, 45, 1, 1, 1⟩ = some ⟨1, 1, 2, 45, 22⟩ := rfl
    refine (assignment_inv hl e).2.1 0 44 fun v hv => ?_
    rw [List.mem_flatMap] at hv
    obtain ⟨⟨a, b, c, u, w⟩, ht, hv⟩ := hv
    rw [mem_threads] at ht
    unfold assignActs at hv
    dsimp only at hv ht
    split at hv
    · simp only [List.mem_cons, Act.label.injEq, List.not_mem_nil, or_false, reduceCtorEq] at hv
      unfold pyOf at hv
      dsimp only at hv
      omega
    · cases hv
  · intro s
    have hl : assignLaunch 1024 ⟨45, 45, 45, 1, 1, 1⟩ = some ⟨1, 1, 2, 45, 22⟩ := rfl
    have ok : Geo.Ok ⟨45, 45, 45, 1, 1, 1⟩ := (initialize_ok (w := 45) (h := 45) (arg := 45) (t := .size) rfl).1
    unfold assignment
    rw [hl]
    simp only [Option.bind_some]
    obtain ⟨d, hd, -⟩ := runActs_ok ⟨45, 45, 45, 1, 1, 1⟩ (s.acts ((Launch.threads ⟨1, 1, 2, 45, 22⟩).flatMap
      (assignActs ⟨1, 1, 2, 45, 22⟩ ⟨45, 45, 45, 1, 1, 1⟩ (0 * 0) (fresh (fun _ _ => ⟨0, 0, 0⟩) fun _ _ => 77))))
      (fresh (fun _ _ => ⟨0, 0, 0⟩) fun _ _ => 77) (by
      intro i v hi
      rw [(s.acts_perm _).mem_iff, List.mem_flatMap] at hi
      obtain ⟨t, ht, hv⟩ := hi
      rw [mem_threads] at ht
      have hk := search_gen ok (l := ⟨1, 1, 2, 45, 22⟩) rfl (wc := 0) (dev := fresh (fun _ _ => ⟨0, 0, 0⟩) fun _ _ => 77)
        (x := pxOf ⟨1, 1, 2, 45, 22⟩ t) (y := pyOf ⟨1, 1, 2, 45, 22⟩ t) t (fun k _ => by unfold centre fresh; norm_num)
      have hr : 0 ≤ search ⟨1, 1, 2, 45, 22⟩ ⟨45, 45, 45, 1, 1, 1⟩ (0 * 0) (fresh (fun _ _ => ⟨0, 0, 0⟩) fun _ _ => 77).clusters t
          (pxOf ⟨1, 1, 2, 45, 22⟩ t) (pyOf ⟨1, 1, 2, 45, 22⟩ t) ⟨0, 0, 0⟩ ∧
          search ⟨1, 1, 2, 45, 22⟩ ⟨45, 45, 45, 1, 1, 1⟩ (0 * 0) (fresh (fun _ _ => ⟨0, 0, 0⟩) fun _ _ => 77).clusters t
          (pxOf ⟨1, 1, 2, 45, 22⟩ t) (pyOf ⟨1, 1, 2, 45, 22⟩ t) ⟨0, 0, 0⟩ < 1 := by
        rcases hk with ⟨-, h2⟩ | ⟨ij, -, hin, h2, -⟩
        · exfalso
          have := h2 (1, 1) (by simp [neigh]) (by
            rw [neighIn_iff ok]; dsimp only at ht ⊢; omega)
          have h0 : sqDist 45 0 (pixel (fresh (fun _ _ => ⟨0, 0, 0⟩) fun _ _ => 77) (pxOf ⟨1, 1, 2, 45, 22⟩ t) (pyOf ⟨1, 1, 2, 45, 22⟩ t))
              (centre ⟨45, 45, 45, 1, 1, 1⟩ (fresh (fun _ _ => ⟨0, 0, 0⟩) fun _ _ => 77)
                (neighLin ⟨45, 45, 45, 1, 1, 1⟩ t.ix t.iy (1, 1)).toNat) = 0 := by
            unfold sqDist centre pixel fresh
            norm_num
          rw [h0, Real.sqrt_zero] at this
          norm_num at this
        · have h5 := hin.2.2
          rw [← h2] at h5
          exact_mod_cast h5
      unfold assignActs at hv
      dsimp only at hv
      split at hv
      · simp only [List.mem_cons, Act.add.injEq, List.not_mem_nil, or_false, reduceCtorEq, false_or] at hv
        change 0 ≤ i ∧ i < 6 * ((1 : Nat) : ℤ)
        have e0 : (fresh (fun _ _ => ⟨0, 0, 0⟩) fun _ _ => 77).lab (pxOf ⟨1, 1, 2, 45, 22⟩ t) (pyOf ⟨1, 1, 2, 45, 22⟩ t) = ⟨0, 0, 0⟩ := rfl
        rw [e0] at hv
        push_cast at hv ⊢
        omega
      · cases hv)
    exact ⟨d, hd⟩

/-- **C115 (refuted for large cells: far clusters).** With 1024 threads per block and a diameter of 33, blocks and cells do not coincide: pixel
300 of the first column, whose neighbouring clusters are 8 and 9, only ever gets label 3, 4 or 5. -/
theorem assign_cell_refuted : ∃ g, initialize' 33 330 33 .size = some g ∧ (∀ k, Near g 0 300 k ↔ k = 8 ∨ k = 9) ∧
    ∀ s wc dev dev', (∀ k < g.nbSpx, (centre g dev k).x ≠ -1) → assignment s 1024 g wc dev = some dev' →
      dev'.labels 0 300 = 3 ∨ dev'.labels 0 300 = 4 ∨ dev'.labels 0 300 = 5 := by
  refine ⟨⟨33, 330, 33, 1, 10, 10⟩, rfl, ?_, ?_⟩
  · intro k
    unfold Near
    dsimp only
    rw [Nat.mod_one, Nat.div_one]
    omega
  · intro s wc dev dev' hx e
    have hl : assignLaunch 1024 ⟨33, 330, 33, 1, 10, 10⟩ = some ⟨1, 10, 2, 33, 31⟩ := rfl
    have ok : Geo.Ok ⟨33, 330, 33, 1, 10, 10⟩ := (initialize_ok (w := 33) (h := 330) (arg := 33) (t := .size) rfl).1
    obtain ⟨h1, -, h3⟩ := assignment_inv hl e
    have hacts : assignActs ⟨1, 10, 2, 33, 31⟩ ⟨33, 330, 33, 1, 10, 10⟩ (wc * wc) dev ⟨0, 4, 1, 0, 21⟩ =
        let k := search ⟨1, 10, 2, 33, 31⟩ ⟨33, 330, 33, 1, 10, 10⟩ (wc * wc) dev.clusters ⟨0, 4, 1, 0, 21⟩ 0 300 (dev.lab 0 300)
        [.label 0 300 k, .add k (dev.lab 0 300).l, .add (k + (10 : Nat)) (dev.lab 0 300).a, .add (k + 2 * (10 : Nat)) (dev.lab 0 300).b,
          .add (k + 3 * (10 : Nat)) (0 : Nat), .add (k + 4 * (10 : Nat)) (300 : Nat), .add (k + 5 * (10 : Nat)) 1] := by
      unfold assignActs
      have e1 : pxOf ⟨1, 10, 2, 33, 31⟩ ⟨0, 4, 1, 0, 21⟩ = 0 := rfl
      have e2 : pyOf ⟨1, 10, 2, 33, 31⟩ ⟨0, 4, 1, 0, 21⟩ = 300 := rfl
      rw [e1, e2]
      dsimp only
      rw [if_pos (by norm_num)]
    have hmem : (⟨0, 4, 1, 0, 21⟩ : Thread) ∈ Launch.threads ⟨1, 10, 2, 33, 31⟩ := by rw [mem_threads]; norm_num
    have hlab : dev'.labels 0 300 = search ⟨1, 10, 2, 33, 31⟩ ⟨33, 330, 33, 1, 10, 10⟩ (wc * wc) dev.clusters ⟨0, 4, 1, 0, 21⟩ 0 300 (dev.lab 0 300) := by
      apply h1
      · refine ⟨search ⟨1, 10, 2, 33, 31⟩ ⟨33, 330, 33, 1, 10, 10⟩ (wc * wc) dev.clusters ⟨0, 4, 1, 0, 21⟩ 0 300 (dev.lab 0 300),
          List.mem_flatMap.2 ⟨_, hmem, ?_⟩⟩
        rw [hacts]
        exact List.mem_cons_self
      · intro v' hv'
        rw [List.mem_flatMap] at hv'
        obtain ⟨⟨a, b, c, u, w⟩, ht, hv⟩ := hv'
        rw [mem_threads] at ht
        have hpos : pxOf ⟨1, 10, 2, 33, 31⟩ ⟨a, b, c, u, w⟩ = 0 ∧ pyOf ⟨1, 10, 2, 33, 31⟩ ⟨a, b, c, u, w⟩ = 300 := by
          unfold assignActs at hv
          dsimp only at hv
          split at hv
          · simp only [List.mem_cons, Act.label.injEq, List.not_mem_nil, or_false, reduceCtorEq] at hv
            exact ⟨hv.1.symm, hv.2.1.symm⟩
          · cases hv
        unfold pxOf pyOf at hpos
        dsimp only at hpos ht
        obtain rfl : a = 0 := by omega
        obtain rfl : b = 4 := by omega
        obtain rfl : c = 1 := by omega
        obtain rfl : u = 0 := by omega
        obtain rfl : w = 21 := by omega
        rw [hacts] at hv
        simp only [List.mem_cons, Act.label.injEq, List.not_mem_nil, or_false, reduceCtorEq, true_and] at hv
        exact hv
    have hbound := h3 (search ⟨1, 10, 2, 33, 31⟩ ⟨33, 330, 33, 1, 10, 10⟩ (wc * wc) dev.clusters ⟨0, 4, 1, 0, 21⟩ 0 300 (dev.lab 0 300))
      (dev.lab 0 300).l (List.mem_flatMap.2 ⟨_, hmem, by rw [hacts]; exact List.mem_cons_of_mem _ List.mem_cons_self⟩)
    rw [hlab]
    rcases search_gen ok (l := ⟨1, 10, 2, 33, 31⟩) rfl (wc := wc) (dev := dev) (x := 0) (y := 300) ⟨0, 4, 1, 0, 21⟩ hx with
      ⟨h5, -⟩ | ⟨ij, hm, hin, h5, -⟩
    · rw [h5] at hbound; omega
    · rw [h5]
      rw [neigh_mem] at hm
      rw [neighIn_iff ok] at hin
      unfold neighLin
      dsimp only at hin ⊢
      push_cast at hin ⊢
      omega

/-! ## C116: iterations -/

/-- **C116 (energy).** The total squared distance of pixels to the centres of their clusters never increases from one iteration to the next. -/
theorem segment_energy (w h arg : Nat) (t : InitType) (g : Geo) (e : initialize' w h arg t = some g) (m : Nat) (h3 : 3 ≤ g.diam)
    (hm : g.diam * g.diam ≤ m) (wc : ℝ) (hw : |wc| ≤ 20000) (s₀ : Sched) (s : Nat → Sched) (img : Nat → Nat → Nat × Nat × Nat)
    (himg : ∀ x y, (img x y).1 ≤ 255 ∧ (img x y).2.1 ≤ 255 ∧ (img x y).2.2 ≤ 255) (dev : Dev) (hi : Idle g dev) (n : Nat) (a b : Dev)
    (ha : segment s₀ s m g wc (n + 1) img dev = some a) (hb : segment s₀ s m g wc (n + 2) img dev = some b) :
    energy g wc b ≤ energy g wc a := by
  obtain ⟨ok, rfl, rfl, -⟩ := initialize_ok e
  obtain ⟨a0, e0, h1, h2, -⟩ := segment_good ok hw h3 hm s₀ s himg hi n
  obtain ⟨a1, e1, s1⟩ := step_spec ok hw h3 hm s n h1 h2
  obtain ⟨a2, e2, s2⟩ := step_spec ok hw h3 hm s (n + 1) s1.good s1.idle
  have ha1 : segment s₀ s m g wc (n + 1) img dev = some a1 := by rw [segment_succ, e0]; exact e1
  have ha2 : segment s₀ s m g wc (n + 2) img dev = some a2 := by rw [segment_succ, ha1]; exact e2
  rw [ha1] at ha; rw [ha2] at hb
  cases ha; cases hb
  exact energy_step s1 s2

/-- **C116 (history and order).** The labels, colours and centres found for a frame depend neither on the order in which threads are executed nor
on frames segmented before. -/
theorem segment_history (w h arg : Nat) (t : InitType) (g : Geo) (e : initialize' w h arg t = some g) (m : Nat) (h3 : 3 ≤ g.diam)
    (hm : g.diam * g.diam ≤ m) (wc : ℝ) (hw : |wc| ≤ 20000) (img : Nat → Nat → Nat × Nat × Nat)
    (himg : ∀ x y, (img x y).1 ≤ 255 ∧ (img x y).2.1 ≤ 255 ∧ (img x y).2.2 ≤ 255)
    (s₀ s₀' : Sched) (s s' : Nat → Sched) (dev dev' : Dev) (hi : Idle g dev) (hi' : Idle g dev') (n : Nat) (a b : Dev)
    (ha : segment s₀ s m g wc (n + 1) img dev = some a) (hb : segment s₀' s' m g wc (n + 1) img dev' = some b) :
    (∀ x < w, ∀ y < h, a.labels x y = b.labels x y ∧ a.lab x y = b.lab x y) ∧ ∀ k < g.nbSpx, centre g a k = centre g b k := by
  obtain ⟨ok, rfl, rfl, -⟩ := initialize_ok e
  have key : ∀ n a b, segment s₀ s m g wc n img dev = some a → segment s₀' s' m g wc n img dev' = some b → Same g a b := by
    intro n
    induction n with
    | zero =>
      intro a b ha hb
      obtain ⟨a', ea, -, -, la, ca⟩ := prepare_good ok s₀ himg hi
      obtain ⟨b', eb, -, -, lb, cb⟩ := prepare_good ok s₀' himg hi'
      unfold segment at ha hb
      rw [ea] at ha; rw [eb] at hb
      cases ha; cases hb
      refine ⟨fun x hx y hy => by rw [la x hx y hy, lb x hx y hy], fun k hk => ?_⟩
      rw [(ca k hk).2.2.2.2, (cb k hk).2.2.2.2]
      unfold pixel
      rw [la _ (ca k hk).1 _ (ca k hk).2.1, lb _ (ca k hk).1 _ (ca k hk).2.1]
    | succ n ih =>
      intro a b ha hb
      obtain ⟨a0, e0, h1, h2, -⟩ := segment_good ok hw h3 hm s₀ s himg hi n
      obtain ⟨b0, f0, k1, k2, -⟩ := segment_good ok hw h3 hm s₀' s' himg hi' n
      obtain ⟨a1, e1, s1⟩ := step_spec ok hw h3 hm s n h1 h2
      obtain ⟨b1, f1, t1⟩ := step_spec ok hw h3 hm s' n k1 k2
      rw [segment_succ, e0] at ha
      rw [segment_succ, f0] at hb
      have ha' := e1.symm.trans ha
      have hb' := f1.symm.trans hb
      cases ha'; cases hb'
      exact (step_same (ih a0 b0 e0 f0) s1 t1).1
  obtain ⟨a0, e0, h1, h2, -⟩ := segment_good ok hw h3 hm s₀ s himg hi n
  obtain ⟨b0, f0, k1, k2, -⟩ := segment_good ok hw h3 hm s₀' s' himg hi' n
  obtain ⟨a1, e1, s1⟩ := step_spec ok hw h3 hm s n h1 h2
  obtain ⟨b1, f1, t1⟩ := step_spec ok hw h3 hm s' n k1 k2
  rw [segment_succ, e0] at ha
  rw [segment_succ, f0] at hb
  have ha' := e1.symm.trans ha
  have hb' := f1.symm.trans hb
  cases ha'; cases hb'
  obtain ⟨r1, r2⟩ := step_same (key n a0 b0 e0 f0) s1 t1
  exact ⟨fun x hx y hy => ⟨r2 x hx y hy, r1.lab x hx y hy⟩, r1.centre⟩

/-- **C116 (refuted for large compactness).** With a compactness of one million, pixels are farther than the largest distance considered, get
label -1, and the accumulators are written out of bounds. -/
theorem segment_wc_refuted : ∃ g, initialize' 3 3 3 .size = some g ∧
    ∀ s₀ s img dev, segment s₀ s 1024 g 1000000 1 img dev = none := by
  refine ⟨⟨3, 3, 3, 1, 1, 1⟩, rfl, fun s₀ s img dev => ?_⟩
  have ok : Geo.Ok ⟨3, 3, 3, 1, 1, 1⟩ := (initialize_ok (w := 3) (h := 3) (arg := 3) (t := .size) rfl).1
  obtain ⟨a, e, -, -, -, h4⟩ := prepare_spec ok s₀ img dev
  have hc := h4 0 (by norm_num)
  have hxy : startX ⟨3, 3, 3, 1, 1, 1⟩ 0 = 1 ∧ startY ⟨3, 3, 3, 1, 1, 1⟩ 0 = 1 := ⟨rfl, rfl⟩
  rw [hxy.1, hxy.2] at hc
  have hcx : (centre ⟨3, 3, 3, 1, 1, 1⟩ a 0).x = 1 := by rw [hc]; unfold pixel; norm_num
  have hcy : (centre ⟨3, 3, 3, 1, 1, 1⟩ a 0).y = 1 := by rw [hc]; unfold pixel; norm_num
  rw [segment_succ]
  have h0 : segment s₀ s 1024 ⟨3, 3, 3, 1, 1, 1⟩ 1000000 0 img dev = some a := by unfold segment; rw [e]; rfl
  rw [h0]
  show step s 1024 ⟨3, 3, 3, 1, 1, 1⟩ 1000000 0 a = none
  have hl : assignLaunch 1024 ⟨3, 3, 3, 1, 1, 1⟩ = some (fitLaunch ⟨3, 3, 3, 1, 1, 1⟩) := rfl
  have hlab : labelOf ⟨3, 3, 3, 1, 1, 1⟩ 1000000 a 0 0 = -1 := by
    rcases search_gen ok (l := fitLaunch ⟨3, 3, 3, 1, 1, 1⟩) rfl (wc := 1000000) (dev := a) (x := 0) (y := 0)
      (threadOf ⟨3, 3, 3, 1, 1, 1⟩ 0 0) (fun k hk => by
        obtain rfl : k = 0 := by dsimp only at hk; omega
        rw [hcx]; norm_num) with ⟨h5, -⟩ | ⟨ij, hm, hin, -, h5, -⟩
    · exact h5
    · exfalso
      have hz : (neighLin ⟨3, 3, 3, 1, 1, 1⟩ (threadOf ⟨3, 3, 3, 1, 1, 1⟩ 0 0).ix (threadOf ⟨3, 3, 3, 1, 1, 1⟩ 0 0).iy ij).toNat = 0 := by
        have := hin.2.2
        dsimp only at this
        omega
      rw [hz, Real.sqrt_lt' (by norm_num)] at h5
      unfold sqDist at h5
      rw [hcx, hcy] at h5
      unfold pixel at h5
      dsimp only at h5
      norm_num at h5
      have q1 := sq_nonneg ((a.lab 0 0).l - (centre ⟨3, 3, 3, 1, 1, 1⟩ a 0).l)
      have q2 := sq_nonneg ((a.lab 0 0).a - (centre ⟨3, 3, 3, 1, 1, 1⟩ a 0).a)
      have q3 := sq_nonneg ((a.lab 0 0).b - (centre ⟨3, 3, 3, 1, 1, 1⟩ a 0).b)
      linarith
  unfold step assignment
  rw [hl]
  simp only [Option.bind_some]
  rw [runActs_fail _ _ a (-1) (a.lab 0 0).l]
  · rfl
  · rw [((s (2 * 0)).acts_perm _).mem_iff]
    refine (mem_acts ok).2 ⟨0, 0, by norm_num, by norm_num, ?_⟩
    rw [assignActs_fit, if_pos (by norm_num), hlab]
    exact List.mem_cons_of_mem _ List.mem_cons_self
  · norm_num

/-! ## C117: colours -/

/-- **C117 (colours, partial).** The second coordinate is CIE `a`, and so is the first CIE `L` of pixels that are not nearly black; missing: the
lightness of dark pixels and CIE `b`, both refuted below. -/
theorem lab_cie_partial (b g r : Nat) (hb : b ≤ 255) (hg : g ≤ 255) (hr : r ≤ 255) :
    (toLab b g r).a = cieA b g r ∧ (cieY b g r > 8856 / 1000000 → (toLab b g r).l = cieL b g r) := by
  have hresp : ∀ v, resp v = cieF v := by
    intro v
    unfold resp cieF
    split
    · rename_i h; exact cbrt_eq (lt_trans (by norm_num) h)
    · rfl
  rw [toLab_eq hb hg hr]
  constructor
  · dsimp only
    rw [hresp, hresp, cieA]; ring
  · intro h
    dsimp only
    rw [cieL, if_pos h, cbrt_eq (lt_trans (by norm_num) h)]

/-- **C117 (range).** Colours of pixels are bounded. -/
theorem lab_range (b g r : Nat) (hb : b ≤ 255) (hg : g ≤ 255) (hr : r ≤ 255) :
    -16 ≤ (toLab b g r).l ∧ (toLab b g r).l ≤ 100 ∧ |(toLab b g r).a| ≤ 500 ∧ |(toLab b g r).b| ≤ 200 := toLab_ok hb hg hr

/-- **C117 (refuted: lightness).** Black has lightness -16 instead of 0. -/
theorem lab_lightness_refuted : (toLab 0 0 0).l = -16 ∧ cieL 0 0 0 = 0 := by
  have hy : cieY 0 0 0 = 0 := by unfold cieY; norm_num
  constructor
  · rw [toLab_eq (by norm_num) (by norm_num) (by norm_num), hy]
    unfold cbrt
    norm_num
  · unfold cieL
    rw [hy, if_neg (by norm_num)]
    norm_num

/-- **C117 (refuted: third coordinate).** The third coordinate of a bright pixel that is not white uses the square of the cube root of `Z`
instead of the cube root, so it is larger than CIE `b`; for pure blue in particular. -/
theorem lab_b_refuted : (∀ b g r : Nat, b ≤ 255 → g ≤ 255 → r ≤ 255 → cieZ b g r > 8856 / 1000000 →
      (toLab b g r).b = 200 * (cieF (cieY b g r) - cieF (cieZ b g r) ^ 2)) ∧ cieB 255 0 0 < (toLab 255 0 0).b := by
  have hresp : ∀ v, resp v = cieF v := by
    intro v
    unfold resp cieF
    split
    · rename_i h; exact cbrt_eq (lt_trans (by norm_num) h)
    · rfl
  have h1 : ∀ b g r : Nat, b ≤ 255 → g ≤ 255 → r ≤ 255 → cieZ b g r > 8856 / 1000000 →
      (toLab b g r).b = 200 * (cieF (cieY b g r) - cieF (cieZ b g r) ^ 2) := by
    intro b g r hb hg hr hz
    have hz0 : 0 < cieZ b g r := lt_trans (by norm_num) hz
    rw [toLab_eq hb hg hr]
    dsimp only
    rw [hresp]
    have : resp3 (cieZ b g r) = cieF (cieZ b g r) ^ 2 := by
      unfold resp3 cieF
      rw [if_pos hz, if_pos hz, cbrt_eq hz0, div_eq_iff (Real.rpow_pos_of_pos hz0 _).ne', ← Real.rpow_natCast, ← Real.rpow_mul hz0.le,
        ← Real.rpow_add hz0]
      norm_num
    rw [this]; ring
  refine ⟨h1, ?_⟩
  have hz : cieZ 255 0 0 = 950227 / 1088754 := by unfold cieZ; norm_num
  have hz' : cieZ 255 0 0 > 8856 / 1000000 := by rw [hz]; norm_num
  rw [h1 255 0 0 (by norm_num) (by norm_num) (by norm_num) hz']
  unfold cieB
  have hf : 0 < cieF (cieZ 255 0 0) ∧ cieF (cieZ 255 0 0) < 1 := by
    unfold cieF
    rw [if_pos hz', hz]
    exact ⟨Real.rpow_pos_of_pos (by norm_num) _, Real.rpow_lt_one (by norm_num) (by norm_num) (by norm_num)⟩
  nlinarith [hf.1, hf.2]

end Litiv.Slic
