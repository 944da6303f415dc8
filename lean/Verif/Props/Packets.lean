import Verif.Lemmas.Packets

/-!
# Properties of packet counting, naming and saving (C31, C32, C65, C67)
-/

namespace Litiv.Packets

/-! ### C31: distinct packets -/

/-- The packet indices accepted since the counter was last cleared, with repetitions, read off the log of calls. -/
def acceptedSince (log : List (Op × Res)) : List Nat :=
  log.foldl (fun l e => match e with
    | (_, .cleared) => []
    | (.push i, .ok) => l ++ [i]
    | _ => l) []

/-- The log update of `acceptedSince`. -/
def acceptStep (l : List Nat) (e : Op × Res) : List Nat :=
  match e with
  | (_, .cleared) => []
  | (.push i, .ok) => l ++ [i]
  | _ => l

theorem step_accept (c : Counter) (o : Op) (l : List Nat) (h : ∀ i, i ∈ c.seen ↔ i ∈ l) (hn : c.seen.Nodup) :
    (∀ i, i ∈ (c.step o).1.seen ↔ i ∈ acceptStep l (o, (c.step o).2)) ∧ (c.step o).1.seen.Nodup := by
  cases o with
  | start =>
    simp only [Counter.step, Counter.start]
    split
    · exact ⟨h, hn⟩
    · cases hr : c.resetCount with
      | none => exact ⟨h, hn⟩
      | some d =>
        obtain ⟨-, rfl⟩ := resetCount_some c d hr
        exact ⟨by simp [acceptStep], by simp⟩
  | stop =>
    simp only [Counter.step, Counter.stop]
    split
    · unfold Counter.setFinal Counter.setPromise
      cases c.promise <;> exact ⟨h, hn⟩
    · exact ⟨h, hn⟩
  | push i =>
    simp only [Counter.step, Counter.push]
    split
    · refine ⟨fun j => ?_, insertIdx_nodup _ _ hn⟩
      rw [Counter.countOutput, insertIdx_mem, h, acceptStep, List.mem_append, List.mem_singleton]
    · exact ⟨h, hn⟩
  | reset =>
    simp only [Counter.step, Counter.reset]
    cases hr : c.resetCount with
    | none => exact ⟨h, hn⟩
    | some d =>
      obtain ⟨-, rfl⟩ := resetCount_some c d hr
      exact ⟨by simp [acceptStep], by simp⟩
  | getFinal =>
    simp only [Counter.step, Counter.getFinal]
    split
    · cases c.promise <;> exact ⟨h, hn⟩
    · exact ⟨h, hn⟩

theorem run_accept (ops : List Op) (c : Counter) (l : List Nat) (h : ∀ i, i ∈ c.seen ↔ i ∈ l) (hn : c.seen.Nodup) :
    (∀ i, i ∈ (c.run ops).1.seen ↔ i ∈ (c.run ops).2.foldl acceptStep l) ∧ (c.run ops).1.seen.Nodup := by
  induction ops generalizing c l with
  | nil => exact ⟨h, hn⟩
  | cons o ops ih =>
    obtain ⟨h1, h2⟩ := step_accept c o l h hn
    exact ih _ _ h1 h2

/-- The batch is created without error. -/
theorem init_ok : ∃ c, Counter.init = some c ∧ c.processing = false ∧ c.seen = [] := ⟨_, rfl, rfl, rfl⟩

/-- C31. After any history of calls on a new batch the output count is the number of distinct indices accepted since the
counter was last cleared. -/
theorem count_distinct (c : Counter) (hc : Counter.init = some c) (ops : List Op) :
    (c.run ops).1.current = (acceptedSince (c.run ops).2).toFinset.card := by
  have hs : c.seen = [] := by cases hc; rfl
  obtain ⟨h1, h2⟩ := run_accept ops c [] (by simp [hs]) (by simp [hs])
  have he : acceptedSince ((c.run ops).2) = (c.run ops).2.foldl acceptStep [] := rfl
  rw [he, Counter.current, ← List.toFinset_card_of_nodup h2]
  congr 1
  ext i
  rw [List.mem_toFinset, List.mem_toFinset, h1]

/-- C31. Within processing every push is accepted, outside none is. -/
theorem push_accepted (c : Counter) (i : Nat) : (c.step (.push i)).2 = if c.processing then .ok else .assertFailed := by
  simp only [Counter.step, Counter.push]; split <;> simp_all

/-- C31. Starting a batch that is already processing changes nothing; the counter is cleared by `resetMetrics` and by
starting an idle batch only. -/
theorem start_twice (c : Counter) (hp : c.processing = true) : c.step .start = (c, .ok) := by
  simp [Counter.step, Counter.start, hp]

/-- C31. Which calls clear the counter. -/
theorem cleared_iff (c : Counter) (o : Op) :
    (c.step o).2 = .cleared ↔ c.promise = none ∧ (o = .reset ∨ (o = .start ∧ c.processing = false)) := by
  cases o <;> simp only [Counter.step, Counter.start, Counter.stop, Counter.push, Counter.reset, Counter.getFinal,
    Counter.resetCount, Counter.setFinal, Counter.setPromise] <;> cases c.promise <;> cases c.processing <;>
    cases c.futureValid <;> simp

example : ∃ c, Counter.init = some c ∧ (c.run [.start, .push 4, .start, .push 5]).1.current = 2 := ⟨_, rfl, by decide⟩

/-- C31. The order and repetition of pushes within a session do not matter. -/
theorem count_order_free (c : Counter) (hc : Counter.init = some c) (a b : List Nat) (h : ∀ i, i ∈ a ↔ i ∈ b) :
    (c.run (.start :: a.map .push)).1.current = (c.run (.start :: b.map .push)).1.current := by
  have key : ∀ (l : List Nat) (c : Counter), c.processing = true →
      (c.run (l.map Op.push)).2 = l.map fun i => (Op.push i, Res.ok) := by
    intro l
    induction l with
    | nil => intro c _; rfl
    | cons i l ih =>
      intro c hp
      simp only [List.map_cons, Counter.run, Counter.step, Counter.push, hp, if_true]
      rw [ih]; exact hp
  have fold : ∀ (l acc : List Nat), (l.map fun i => (Op.push i, Res.ok)).foldl acceptStep acc = acc ++ l := by
    intro l
    induction l with
    | nil => simp
    | cons i l ih => intro acc; rw [List.map_cons, List.foldl_cons, ih]; simp [acceptStep]
  have tot : ∀ l : List Nat, acceptedSince (c.run (.start :: l.map .push)).2 = l := by
    intro l
    cases hc
    show ((Op.start, Res.cleared) :: (Counter.run _ (l.map Op.push)).2).foldl acceptStep [] = l
    rw [key _ _ rfl, List.foldl_cons, fold]; rfl
  rw [count_distinct c hc, count_distinct c hc, tot, tot]
  congr 1
  ext i
  rw [List.mem_toFinset, List.mem_toFinset, h]

example : ∃ c, Counter.init = some c ∧ (c.run [.start, .push 4, .push 2, .push 4, .reset, .push 7, .push 7]).1.current = 1 :=
  ⟨_, rfl, by decide⟩

/-! ### C65: processing sessions -/

/-- C65, partial: until the first `stopProcessing` no call throws `future_error`; the stop succeeds and the final count
is then the number of distinct packets. Missing: any later session, see `restart_fails`. -/
theorem first_session_partial (c : Counter) (hc : Counter.init = some c) (ops : List Op) (hs : Op.stop ∉ ops) :
    (∀ e ∈ (c.run ops).2, e.2 ≠ .futureError) ∧
    ((c.run ops).1.processing = true →
      ((c.run (ops ++ [.stop, .getFinal])).2).drop ops.length =
        [(.stop, .ok), (.getFinal, .value (c.run ops).1.current)]) := by
  have inv : ∀ (ops : List Op) (c : Counter), Op.stop ∉ ops → c.promise = none → c.futureValid = true →
      (∀ e ∈ (c.run ops).2, e.2 ≠ .futureError) ∧ (c.run ops).1.promise = none ∧ (c.run ops).1.futureValid = true := by
    intro ops
    induction ops with
    | nil => intro c _ hp hf; exact ⟨by simp [Counter.run], hp, hf⟩
    | cons o ops ih =>
      intro c hs hp hf
      have hs' : Op.stop ∉ ops := fun h => hs (List.mem_cons_of_mem _ h)
      have hr : c.resetCount = some { c with seen := [], promise := none, futureValid := true, final := 0 } := by
        unfold Counter.resetCount Counter.setPromise; rw [hp]; rfl
      have st : (c.step o).2 ≠ .futureError ∧ (c.step o).1.promise = none ∧ (c.step o).1.futureValid = true := by
        cases o with
        | start => simp only [Counter.step, Counter.start, hr]; split <;> simp [hp, hf]
        | stop => exact absurd (by simp) hs
        | push i => simp only [Counter.step, Counter.push]; split <;> simp [hp, hf, Counter.countOutput]
        | reset => simp only [Counter.step, Counter.reset, hr]; simp
        | getFinal => simp [Counter.step, Counter.getFinal, hp, hf]
      obtain ⟨h1, h2, h3⟩ := ih _ hs' st.2.1 st.2.2
      refine ⟨?_, h2, h3⟩
      intro e he
      rcases List.mem_cons.1 he with rfl | he
      · exact st.1
      · exact h1 e he
  have len : ∀ (ops : List Op) (c : Counter), (c.run ops).2.length = ops.length := by
    intro ops
    induction ops with
    | nil => intro c; rfl
    | cons o ops ih => intro c; simp [Counter.run, ih]
  obtain ⟨h1, h2, h3⟩ := inv ops c hs (by cases hc; rfl) (by cases hc; rfl)
  refine ⟨h1, fun hp => ?_⟩
  rw [run_append, ← len ops, List.drop_left]
  simp [Counter.run, Counter.step, Counter.stop, Counter.setFinal, Counter.setPromise, hp, h2, Counter.getFinal, h3,
    Counter.current]

example : Op.stop ∉ [Op.start, .push 3, .push 4] := by decide
example : ∃ c, Counter.init = some c ∧ (c.run [.start, .push 3, .push 4]).1.processing = true := ⟨_, rfl, by decide⟩

/-- C65, refuted: once a processed batch is stopped, every later `startProcessing` and `resetMetrics` throws
`future_error`, every later push is refused and the count never changes. -/
theorem restart_fails (c : Counter) (hp : c.processing = true) (hf : (c.step .stop).2 = .ok) (ops : List Op) :
    ((c.step .stop).1.run ops).1.current = c.current ∧
    ∀ e ∈ ((c.step .stop).1.run ops).2,
      (e.1 = .start ∨ e.1 = .reset → e.2 = .futureError) ∧ ((∃ i, e.1 = .push i) → e.2 = .assertFailed) := by
  have inv : ∀ (ops : List Op) (c : Counter), c.processing = false → c.promise ≠ none →
      (c.run ops).1.current = c.current ∧ ∀ e ∈ (c.run ops).2,
        (e.1 = .start ∨ e.1 = .reset → e.2 = .futureError) ∧ ((∃ i, e.1 = .push i) → e.2 = .assertFailed) := by
    intro ops
    induction ops with
    | nil => intro c _ _; exact ⟨rfl, by simp [Counter.run]⟩
    | cons o ops ih =>
      intro c hp hn
      have hr := (resetCount_none c).2 hn
      obtain ⟨n, hn'⟩ := Option.ne_none_iff_exists'.1 hn
      have st : (c.step o).1.processing = false ∧ (c.step o).1.promise ≠ none ∧ (c.step o).1.current = c.current ∧
          (o = .start ∨ o = .reset → (c.step o).2 = .futureError) ∧ ((∃ i, o = .push i) → (c.step o).2 = .assertFailed) := by
        cases o with
        | start => simp [Counter.step, Counter.start, hr, hp, hn]
        | stop => simp [Counter.step, Counter.stop, hp, hn]
        | push i => simp [Counter.step, Counter.push, hp, hn]
        | reset => simp [Counter.step, Counter.reset, hr, hp, hn]
        | getFinal =>
          simp only [Counter.step, Counter.getFinal, hn']
          split <;> simp [hp, hn', Counter.current]
      obtain ⟨h1, h2⟩ := ih _ st.1 st.2.1
      refine ⟨by rw [← st.2.2.1]; exact h1, ?_⟩
      intro e he
      rcases List.mem_cons.1 he with rfl | he
      · exact st.2.2.2
      · exact h2 e he
  have hs : (c.step .stop).1.processing = false ∧ (c.step .stop).1.promise ≠ none ∧
      (c.step .stop).1.current = c.current := by
    simp only [Counter.step, Counter.stop, hp, if_true] at hf ⊢
    unfold Counter.setFinal Counter.setPromise at hf ⊢
    cases hc : c.promise with
    | none => simp [Counter.current]
    | some n => rw [hc] at hf; simp at hf
  obtain ⟨h1, h2⟩ := inv ops _ hs.1 hs.2.1
  exact ⟨by rw [h1, hs.2.2], h2⟩

/-- The history start, push, stop, start of a new batch ends with `future_error`. -/
example : ∃ c, Counter.init = some c ∧
    (c.run [.start, .push 0, .stop, .start]).2.getLast? = some (.start, .futureError) := ⟨_, rfl, by decide⟩

/-! ### C32: names -/

theorem packetName_full (count idx : Nat) (h : idx < 2^64) :
    packetName count idx = padded (if count < 10^7 then 6 else 9) idx := by
  unfold packetName snprintf32
  rw [List.take_of_length_le]
  have := padded_le (if count < 10^7 then 6 else 9) idx h (by split <;> decide)
  omega

theorem featuresName_full (idx : Nat) (h : idx < 2^64) : featuresName idx = padded (if idx < 10^7 then 6 else 9) idx := by
  unfold featuresName snprintf32
  rw [List.take_of_length_le]
  have := padded_le (if idx < 10^7 then 6 else 9) idx h (by split <;> decide)
  omega

/-- C32. Packet names are pairwise distinct, for every packet count. -/
theorem packetName_injective (count i j : Nat) (hi : i < 2^64) (hj : j < 2^64) (h : packetName count i = packetName count j) :
    i = j := by
  rw [packetName_full _ _ hi, packetName_full _ _ hj] at h
  rw [← val_padded (if count < 10^7 then 6 else 9) i, h, val_padded]

/-- C32. Feature file names are pairwise distinct. -/
theorem featuresName_injective (i j : Nat) (hi : i < 2^64) (hj : j < 2^64) (h : featuresName i = featuresName j) : i = j := by
  rw [featuresName_full _ hi, featuresName_full _ hj] at h
  rw [← val_padded (if i < 10^7 then 6 else 9) i, h, val_padded]

/-- C32. File names of the streams of array packets are pairwise distinct. -/
theorem streamName_injective (count streams i j s t : Nat) (hi : i < 2^64) (hj : j < 2^64) (hs : s < streams)
    (ht : t < streams) (h : streamName (packetName count) streams i s = streamName (packetName count) streams j t) :
    i = j ∧ s = t := by
  unfold streamName at h
  split at h
  · rw [packetName_full _ _ hi, packetName_full _ _ hj] at h
    obtain ⟨h1, h2⟩ := split_underscore (padded_no_underscore _ _) (padded_no_underscore _ _) h
    refine ⟨?_, by rw [← val_toDigits s, h2, val_toDigits]⟩
    rw [← val_padded (if count < 10^7 then 6 else 9) i, h1, val_padded]
  · exact ⟨packetName_injective _ _ _ hi hj h, by omega⟩

/-- C32, partial: names sort in packet order in a batch of at most 10^6 packets, and of 10^7 up to 10^9 packets.
Missing: the counts between 10^6 and 10^7 and beyond 10^9, see `names_unsorted`. -/
theorem names_sorted_partial (count i j : Nat) (hc : count ≤ 10^6 ∨ (10^7 ≤ count ∧ count ≤ 10^9)) (hj : j < count)
    (h : i < j) : packetName count i < packetName count j := by
  rw [packetName_full _ _ (by omega), packetName_full _ _ (by omega)]
  rcases hc with hc | ⟨h1, h2⟩
  · rw [if_pos (by omega)]; exact padded_lt 6 i j (by norm_num) (by omega) h
  · rw [if_neg (by omega)]; exact padded_lt 9 i j (by norm_num) (by omega) h

example : packetName 50 3 = "000003".toList := by decide
example : packetName 20000000 3 = "000000003".toList := by decide

/-- C32, refuted: in every batch with more than 10^6 and fewer than 10^7 packets, some packets sort in the wrong order
(packet 10^6 before packet 999999). -/
theorem names_unsorted (count : Nat) (h1 : 10^6 < count) (h2 : count < 10^7) :
    ∃ i j, i < j ∧ j < count ∧ packetName count j < packetName count i := by
  refine ⟨999999, 10^6, by decide, h1, ?_⟩
  unfold packetName
  rw [if_pos h2]
  decide

/-- C32. A listed image file lends its base name to the output: two files which differ by their extension only get one
output name, so that the second output overwrites the first. -/
theorem image_names_collide : imageName "in/a.png".toList = imageName "in/a.jpg".toList := by decide

theorem dropFromLast_ext (p : Char → Bool) (b e : List Char) (d : Char) (hd : p d = true) (he : ∀ c ∈ e, p c = false) :
    dropFromLast p (b ++ d :: e) = b := by
  unfold dropFromLast
  have ha : (b ++ d :: e).any p = true := by simp [hd]
  rw [if_pos ha, List.reverse_append, List.reverse_cons, List.append_assoc]
  have hdw : ∀ (x y : List Char), (∀ c ∈ x, p c = false) → (x ++ d :: y).dropWhile (fun c => !p c) = d :: y := by
    intro x y hx
    induction x with
    | nil => simp [hd]
    | cons a x ih =>
      rw [List.cons_append, List.dropWhile_cons_of_pos (by simp [hx a (by simp)])]
      exact ih fun c hc => hx c (by simp [hc])
  rw [List.singleton_append, hdw e.reverse b.reverse (fun c hc => he c (by simpa using hc))]
  simp

theorem takeAfterLast_name (p : Char → Bool) (d n : List Char) (s : Char) (hs : p s = true) (hn : ∀ c ∈ n, p c = false) :
    takeAfterLast p (d ++ s :: n) = n := by
  unfold takeAfterLast
  have : ∀ (x y : List Char), (∀ c ∈ x, p c = false) → (x ++ s :: y).takeWhile (fun c => !p c) = x := by
    intro x y hx
    induction x with
    | nil => simp [hs]
    | cons a x ih =>
      rw [List.cons_append, List.takeWhile_cons_of_pos (by simp [hx a (by simp)])]
      rw [ih fun c hc => hx c (by simp [hc])]
  rw [List.reverse_append, List.reverse_cons, List.append_assoc, List.singleton_append,
    this n.reverse d.reverse (fun c hc => hn c (by simpa using hc)), List.reverse_reverse]

/-- C32. The name of an image packet is the file's base name: `dir/base.ext` gives `base`. -/
theorem imageName_base (dir base ext : List Char) (hb : ∀ c ∈ base, c ≠ '/' ∧ c ≠ '\\')
    (he : ∀ c ∈ ext, c ≠ '/' ∧ c ≠ '\\' ∧ c ≠ '.') : imageName (dir ++ '/' :: (base ++ '.' :: ext)) = base := by
  unfold imageName
  rw [takeAfterLast_name _ _ _ _ (by decide), dropFromLast_ext _ _ _ _ (by decide)]
  · intro c hc; simpa using (he c hc).2.2
  · intro c hc
    rw [List.mem_append, List.mem_cons] at hc
    rcases hc with hc | rfl | hc
    · simpa using hb c hc
    · decide
    · simpa using ⟨(he c hc).1, (he c hc).2.1⟩

example : imageName "data/b/frame.01.png".toList = "frame.01".toList := by decide

/-! ### C67: saved masks -/

/-- C67. A binary mask is saved with 127 at the pixels outside the region of interest and unchanged inside. -/
theorem grayOut_spec (out roi : List UInt8) (hb : ∀ o ∈ out, o = 0 ∨ o = 255) (hl : roi.length = out.length)
    (i : Nat) (o r : UInt8) (ho : out[i]? = some o) (hr : roi[i]? = some r) :
    (grayOut out roi)[i]? = some (if r = 0 then 127 else o) := by
  have hc : out.countP (· = 255) + out.countP (· = 0) = out.length := by
    clear ho hl
    induction out with
    | nil => rfl
    | cons a out ih =>
      have := ih fun o ho => hb o (by simp [ho])
      rcases hb a (by simp) with rfl | rfl
      · simp only [List.countP_cons, List.length_cons]; simp; omega
      · simp only [List.countP_cons, List.length_cons]; simp; omega
  unfold grayOut
  have hne : roi ≠ [] := by rintro rfl; simp at hr
  rw [if_pos ⟨hc, hne, hl⟩, List.getElem?_zipWith_eq_some]
  refine ⟨o, r, ho, hr, ?_⟩
  have : (o ||| 127) &&& 127 = 127 := by
    rcases hb o (List.mem_of_getElem? ho) with rfl | rfl <;> decide
  rw [this]

/-- C67. An output with any other value is saved unchanged. -/
theorem grayOut_other (out roi : List UInt8) (h : ∃ o ∈ out, o ≠ 0 ∧ o ≠ 255) : grayOut out roi = out := by
  have hc : ∀ l : List UInt8, l.countP (· = 255) + l.countP (· = 0) ≤ l.length ∧
      ((∃ o ∈ l, o ≠ 0 ∧ o ≠ 255) → l.countP (· = 255) + l.countP (· = 0) < l.length) := by
    intro l
    induction l with
    | nil => simp
    | cons a l ih =>
      simp only [List.countP_cons, List.length_cons]
      have h0 : (if decide (a = 255) = true then 1 else 0) + (if decide (a = 0) = true then 1 else 0) ≤ 1 := by
        by_cases h1 : a = 255
        · subst h1; decide
        · simp [h1]; split <;> omega
      refine ⟨by omega, ?_⟩
      rintro ⟨o, ho, h1, h2⟩
      rcases List.mem_cons.1 ho with rfl | ho
      · simp [h1, h2]; omega
      · have := ih.2 ⟨o, ho, h1, h2⟩
        omega
  unfold grayOut
  rw [if_neg]
  rintro ⟨h1, -⟩
  have := (hc out).2 h
  omega

example : grayOut [0, 255, 255, 0] [255, 0, 255, 0] = [0, 127, 255, 127] := by decide
example : ∃ o ∈ [0, 3, (255 : UInt8)], o ≠ 0 ∧ o ≠ 255 := by decide

end Litiv.Packets
