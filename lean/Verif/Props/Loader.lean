import Verif.Lemmas.Loader

/-!
# C174-C178: the data loaders
-/

namespace Litiv.Loader

open Spec

/-! ### C174: what is delivered for a packet -/

/-- C174: a packet is delivered exactly if it can be; otherwise the call fails. -/
theorem packet_delivered_iff (K : Conv) (pol : Policy) (raw : Img) (i : Info) :
    (∃ m, redirect K pol raw i = some m) ↔ CanDeliver pol raw i := by
  constructor
  · rintro ⟨m, hm⟩
    by_contra hc
    rw [redirect_cannot K pol raw i hc] at hm
    simp at hm
  · intro h
    obtain ⟨m, hm, _⟩ := redirect_can K pol raw i h
    exact ⟨m, hm⟩

/-- C174: what is delivered has the declared size and type, and shows the raw image. -/
theorem packet_as_declared (K : Conv) (pol : Policy) (raw : Img) (i : Info) (m : Img) (h : redirect K pol raw i = some m) :
    StreamOut K pol raw i m := by
  obtain ⟨m', hm, hs⟩ := redirect_can K pol raw i ((packet_delivered_iff K pol raw i).1 ⟨m, h⟩)
  rw [h] at hm
  rw [Option.some.inj hm]; exact hs

/-- C174: an image that already is as declared is delivered as it is. -/
theorem packet_unchanged (K : Conv) (raw : Img) (i : Info) (hm : ¬ NoPixels raw.rows raw.cols) (h : raw.info = i) :
    redirect K .image raw i = some raw := by
  subst h
  unfold redirect
  rw [if_pos ((empty_false raw).2 hm)]
  have ht : transform K raw raw.info = some raw := by
    have hc : cvtChannels K raw raw.info = raw := if_neg (fun hh => hh.2 rfl)
    unfold transform
    dsimp only
    rw [hc]
    exact if_pos ⟨rfl, rfl⟩
  simp only [Option.bind_eq_bind, ht, Option.bind_some]
  rw [if_pos ⟨rfl, rfl, rfl, rfl⟩]

/-- C174: resizing invents no label: without channel conversion every pixel delivered is a pixel of the raw image. -/
theorem packet_labels (K : Conv) (raw : Img) (i : Info) (m : Img) (hc : raw.ch = i.ch) (hm : ¬ NoPixels raw.rows raw.cols)
    (h : redirect K .image raw i = some m) (r c : Nat) (hr : r < m.rows) (hcc : c < m.cols) :
    ∃ sr sc, sr < raw.rows ∧ sc < raw.cols ∧ m.px r c = raw.px sr sc := by
  rcases packet_as_declared K .image raw i m h with ⟨h1, _, _⟩ | ⟨_, _, h2⟩
  · exact absurd h1 hm
  · have hd : Delivered K raw i m := by
      rcases h2 with ⟨_, h2⟩ | ⟨h2, _⟩
      · exact h2
      · exact absurd h2 (by decide)
    obtain ⟨_, _, h3, h4, h5⟩ := hd
    obtain ⟨sr, sc, a, b, e⟩ := h5 r c (h3 ▸ hr) (h4 ▸ hcc)
    refine ⟨sr, sc, a.1, b.1, ?_⟩
    rw [e, convPx, if_pos hc]

/-- A raw colour image of two rows and four columns, and the declaration of a scaled and aligned one. -/
def sampleRaw : Img := ⟨0, 3, 2, 4, fun r c => [r, c, r + c]⟩

def sampleInfo : Info := ⟨0, 4, 1, 2⟩

def sampleConv : Conv := ⟨fun _ => 255, fun _ p => p.sum / 3⟩

example : CanDeliver .image sampleRaw sampleInfo := by
  refine Or.inr ⟨?_, ?_, Or.inl ⟨rfl, rfl, Or.inr ⟨rfl, Or.inl rfl⟩⟩⟩ <;> simp [NoPixels, sampleRaw, sampleInfo]

example : (redirect sampleConv .image sampleRaw sampleInfo).map (fun m => (m.px 0 0, m.px 0 1)) = some ([0, 0, 0, 255], [0, 2, 2, 255]) := by
  decide +kernel

example : ¬ CanDeliver .image sampleRaw ⟨5, 3, 2, 4⟩ := by
  simp [CanDeliver, Suitable, NoPixels, sampleRaw]

/-! ### C175: arrays -/

/-- C175: in every sequence of requests, the arrays returned for a packet are those of that packet, one matrix per stream as declared;
if they cannot be delivered the request fails. Packing and unpacking are inverse to each other (C25). -/
theorem arrays_history {P : Type} (K : Conv) (pol : Policy) (streams : Nat) (raws : Nat → List Img) (infos : Nat → List Info)
    (pack : List Img → P) (unpack : P → List Info → Option (List Img))
    (hpu : ∀ ms is, List.Forall₂ Agree ms is → unpack (pack ms) is = some ms) (ns : List Nat) :
    List.Forall₂ (ArrayOut K pol streams raws infos) ns
      (runArray streams infos (fun n => (redirectArray K pol streams (raws n) (infos n)).map pack) unpack Cache.new ns) := by
  by_cases hz : streams = 0
  · have : ∀ (c : Cache P Img) (ns : List Nat), List.Forall₂ (ArrayOut K pol streams raws infos) ns
        (runArray streams infos (fun n => (redirectArray K pol streams (raws n) (infos n)).map pack) unpack c ns) := by
      intro c ns
      induction ns generalizing c with
      | nil => exact List.Forall₂.nil
      | cons n ns ih =>
        rw [runArray]
        refine List.Forall₂.cons ?_ (ih _)
        unfold getArray
        rw [if_pos hz]
        exact Or.inl ⟨hz, rfl⟩
    exact this _ ns
  set load : Nat → Option P := fun n => (redirectArray K pol streams (raws n) (infos n)).map pack with hload
  have hval : ∀ n p, load n = some p → ∃ ms, redirectArray K pol streams (raws n) (infos n) = some ms ∧ p = pack ms ∧
      unpack p (infos n) = some ms := by
    intro n p hp
    change (redirectArray K pol streams (raws n) (infos n)).map pack = some p at hp
    cases hr : redirectArray K pol streams (raws n) (infos n) with
    | none => rw [hr] at hp; simp at hp
    | some ms =>
      rw [hr] at hp
      have hp : pack ms = p := by simpa using hp
      refine ⟨ms, rfl, hp.symm, ?_⟩
      rw [← hp]
      obtain ⟨h1, h2, h3, h4⟩ := redirectArray_some K pol streams _ _ _ hr
      refine hpu ms (infos n) (forall₂_index _ _ _ (h3.trans h2.symm) (fun k m i hm hi => ?_))
      obtain ⟨raw, hraw⟩ : ∃ raw, (raws n)[k]? = some raw := by
        have : k < ms.length := by
          by_contra hh
          rw [List.getElem?_eq_none (by omega)] at hm
          simp at hm
        exact ⟨_, List.getElem?_eq_getElem (by omega)⟩
      exact streamOut_agree K pol raw i m (h4 k raw i m hraw hi hm)
  have hgo : ∀ (c : Cache P Img) (ns : List Nat), Sync load unpack infos c →
      List.Forall₂ (ArrayOut K pol streams raws infos) ns (runArray streams infos load unpack c ns) := by
    intro c ns hs
    induction ns generalizing c with
    | nil => exact List.Forall₂.nil
    | cons n ns ih =>
      rw [runArray]
      by_cases hn : c.last = some n
      · have hg : getArray streams infos load unpack c n = (c.out, c) := by
          unfold getArray
          rw [if_neg hz, if_neg (by simp [hn])]
        rw [hg]
        obtain ⟨p, vs, h1, _, h3, h4, h5⟩ := hs n hn
        obtain ⟨ms, e1, _, e3⟩ := hval n p h1
        refine List.Forall₂.cons ?_ (ih c hs)
        rw [out_sync c h5, h4]
        rw [e3] at h3
        rw [← Option.some.inj h3]
        exact Or.inr (redirectArray_some K pol streams _ _ _ e1)
      · by_cases hl : (infos n).length = streams
        · have hg : getArray streams infos load unpack c n = refresh load unpack (infos n) c n := by
            unfold getArray
            rw [if_neg hz, if_pos hn, if_pos hl]
          rw [hg]
          obtain ⟨r1, r2, _⟩ := refresh_sync load unpack infos c n hn hs (fun p hp => by
            obtain ⟨ms, _, _, h3⟩ := hval n p hp
            exact ⟨ms, h3⟩)
          refine List.Forall₂.cons ?_ (ih _ r1)
          rw [r2]
          cases hld : load n with
          | none =>
            refine ⟨hz, redirectArray_none K pol streams _ _ ?_⟩
            rw [hload] at hld
            simpa using hld
          | some p =>
            obtain ⟨ms, e1, _, e3⟩ := hval n p hld
            dsimp only
            rw [e3]
            exact Or.inr (redirectArray_some K pol streams _ _ _ e1)
        · have hg : getArray streams infos load unpack c n = (.error, c) := by
            unfold getArray
            rw [if_neg hz, if_pos hn, if_neg hl]
          rw [hg]
          refine List.Forall₂.cons ⟨hz, fun h => hl h.2.1⟩ (ih c hs)
  exact hgo Cache.new ns (fun n hn => by simp [Cache.new] at hn)

/-- Packing in the simplest way: keeping the list. It satisfies the hypothesis, and a history with two packets of two streams returns them. -/
def keepUnpack (ms : List Img) (is : List Info) : Option (List Img) := if ms.length = is.length then some ms else none

example : ∀ ms is, List.Forall₂ Agree ms is → keepUnpack (id ms) is = some ms := by
  intro ms is h
  unfold keepUnpack
  rw [id, if_pos h.length_eq]

def sampleStreams (n : Nat) : List Img := if n < 2 then [⟨0, 1, 1, 1, fun _ _ => [n]⟩, ⟨0, 1, 1, 1, fun _ _ => [n + 10]⟩] else [Img.none, Img.none]

def sampleInfos (n : Nat) : List Info := if n < 2 then [⟨0, 1, 1, 1⟩, ⟨0, 1, 1, 1⟩] else [Info.none, Info.none]

example : (runArray 2 sampleInfos (fun n => redirectArray sampleConv .image 2 (sampleStreams n) (sampleInfos n)) keepUnpack Cache.new [0, 1, 1, 0, 5]).map
    (fun o => match o with
      | .ok ms => ms.map (fun m => m.px 0 0)
      | _ => []) = [[[0], [10]], [[1], [11]], [[1], [11]], [[0], [10]], [[], []]] := by
  decide +kernel

/-! ### C176: features -/

/-- C176, for sequences of array loads and saves in which the information given depends on the index only, the files can be unpacked with
it and the packet last loaded is not overwritten: every load gives what is on the disk. -/
theorem features_arrays_partial {P V ι : Type} (e : P) (unpack : P → ι → Option (List V)) (infos : Nat → ι) (disk : Nat → Option P)
    (ops : List (FOp P ι)) (h : ArraysOnly e unpack infos disk none ops) :
    runF e unpack (disk, Cache.new) ops = wantF e unpack disk ops := by
  have key : ∀ (ops : List (FOp P ι)) (disk : Nat → Option P) (c : Cache P V), Sync (fun k => some ((disk k).getD e)) unpack infos c →
      ArraysOnly e unpack infos disk c.last ops → runF e unpack (disk, c) ops = wantF e unpack disk ops := by
    intro ops
    induction ops with
    | nil => intro disk c _ _; rfl
    | cons o ops ih =>
      intro disk c hs hg
      cases o with
      | load n => exact hg.elim
      | loadArray n i =>
        obtain ⟨rfl, h2, h3⟩ := hg
        obtain ⟨vs, hv⟩ := Option.ne_none_iff_exists'.1 h2
        rw [runF, wantF, hv]
        dsimp only
        by_cases hn : c.last = some n
        · have hstep : stepF e unpack (disk, c) (.loadArray n (infos n)) = (.array c.out, (disk, c)) := by
            unfold stepF
            dsimp only
            rw [if_neg (by simp [hn])]
          rw [hstep]
          obtain ⟨p, vs', a1, _, a3, a4, a5⟩ := hs n hn
          have a1 : (disk n).getD e = p := by simpa using a1
          rw [a1, a3] at hv
          rw [out_sync c a5, a4, Option.some.inj hv]
          dsimp only
          rw [ih disk c hs (by rw [hn]; exact h3)]
        · have hstep : stepF e unpack (disk, c) (.loadArray n (infos n)) =
              (.array (refresh (fun k => some ((disk k).getD e)) unpack (infos n) c n).1,
                (disk, (refresh (fun k => some ((disk k).getD e)) unpack (infos n) c n).2)) := by
            unfold stepF
            dsimp only
            rw [if_pos hn]
          rw [hstep]
          obtain ⟨r1, r2, r3⟩ := refresh_sync (fun k => some ((disk k).getD e)) unpack infos c n hn hs (fun p hp => by
            have hp : (disk n).getD e = p := by simpa using hp
            exact ⟨vs, by rw [← hp]; exact hv⟩)
          rw [r2]
          dsimp only
          rw [hv]
          dsimp only
          rw [ih disk _ r1 (by rw [r3 (by simp)]; exact h3)]
      | save n p =>
        obtain ⟨h1, h2⟩ := hg
        rw [runF, wantF]
        dsimp only [stepF]
        rw [ih _ c ?_ h2]
        intro k hk
        obtain ⟨q, vs, a1, a2⟩ := hs k hk
        refine ⟨q, vs, ?_, a2⟩
        rw [← a1]
        have : k ≠ n := by
          rintro rfl
          exact h1 hk
        dsimp only
        rw [if_neg this]
  exact key ops disk Cache.new (fun n hn => by simp [Cache.new] at hn) h

/-- C176, for sequences of packet loads and saves in which the packet last loaded is not overwritten. -/
theorem features_packets_partial {P V ι : Type} (e : P) (unpack : P → ι → Option (List V)) (disk : Nat → Option P)
    (ops : List (FOp P ι)) (h : PacketsOnly none ops) :
    runF e unpack (disk, Cache.new) ops = wantF e unpack disk ops := by
  have key : ∀ (ops : List (FOp P ι)) (disk : Nat → Option P) (c : Cache P V),
      (∀ n, c.last = some n → c.held = some ((disk n).getD e)) →
      PacketsOnly c.last ops → runF e unpack (disk, c) ops = wantF e unpack disk ops := by
    intro ops
    induction ops with
    | nil => intro disk c _ _; rfl
    | cons o ops ih =>
      intro disk c hs hg
      cases o with
      | loadArray n i => exact hg.elim
      | load n =>
        rw [runF, wantF]
        dsimp only [stepF, getPacket]
        by_cases hn : c.last = some n
        · rw [if_pos hn]
          dsimp only
          rw [hs n hn, ih disk c hs (by rw [hn]; exact hg)]
        · rw [if_neg hn]
          dsimp only
          rw [ih disk _ ?_ hg]
          intro k hk
          have hk : n = k := by simpa using hk
          subst hk
          rfl
      | save n p =>
        obtain ⟨h1, h2⟩ := hg
        rw [runF, wantF]
        dsimp only [stepF]
        rw [ih _ c ?_ h2]
        intro k hk
        have : k ≠ n := by
          rintro rfl
          exact h1 hk
        rw [if_neg this]
        exact hs k hk
  exact key ops disk Cache.new (fun n hn => by simp [Cache.new] at hn) h

/-- A disk with two feature files of two and three values; unpacking cuts them into pieces of the given lengths. -/
def featDisk : Nat → Option (List Nat)
  | 0 => some [1, 2]
  | 1 => some [3, 4, 5]
  | _ => none

def cutUp (p : List Nat) (lens : List Nat) : Option (List (List Nat)) :=
  if lens.sum = p.length then some ((lens.foldl (fun (s : List (List Nat) × List Nat) n => (s.1 ++ [s.2.take n], s.2.drop n)) ([], p)).1) else none

example : ArraysOnly [] cutUp (fun n => if n = 0 then [1, 1] else [2, 1]) featDisk none
    [.loadArray 0 [1, 1], .save 1 [7, 8, 9], .loadArray 1 [2, 1], .loadArray 1 [2, 1], .save 0 [5, 6], .loadArray 0 [1, 1]] := by
  simp only [ArraysOnly]
  decide +kernel

example : PacketsOnly (P := List Nat) (ι := List Nat) none [.load 0, .save 1 [7, 8, 9], .load 1, .load 5] := by
  simp [PacketsOnly]

/-- C176, refuted: loading the packed features first, the arrays of the same packet are not there. -/
theorem features_mixed_refuted : runF [] cutUp (featDisk, Cache.new) [.load 0, .loadArray 0 [1, 1]] =
      [.packet (some [1, 2]), .array (.ok [])] ∧
    wantF [] cutUp featDisk [.load 0, .loadArray 0 [1, 1]] = [.packet (some [1, 2]), .array (.ok [[1], [2]])] := by
  decide +kernel

/-- C176, refuted: saving new features for the packet last loaded, the old ones are still returned, packed or not. -/
theorem features_saved_refuted :
    runF (V := List Nat) [] cutUp (featDisk, Cache.new) [.load 0, .save 0 [8, 9], .load 0] =
      [.packet (some [1, 2]), .saved, .packet (some [1, 2])] ∧
    wantF (V := List Nat) [] cutUp featDisk [.load 0, .save 0 [8, 9], .load 0] = [.packet (some [1, 2]), .saved, .packet (some [8, 9])] ∧
    runF [] cutUp (featDisk, Cache.new) [.loadArray 0 [1, 1], .save 0 [8, 9], .loadArray 0 [1, 1]] =
      [.array (.ok [[1], [2]]), .saved, .array (.ok [[1], [2]])] := by
  decide +kernel

/-- C176, refuted: other packing information for the packet last loaded is ignored. -/
theorem features_info_refuted :
    runF [] cutUp (featDisk, Cache.new) [.loadArray 0 [1, 1], .loadArray 0 [2]] = [.array (.ok [[1], [2]]), .array (.ok [[1], [2]])] ∧
    wantF [] cutUp featDisk [.loadArray 0 [1, 1], .loadArray 0 [2]] = [.array (.ok [[1], [2]]), .array (.ok [[1, 2]])] := by
  decide +kernel

/-- C176, refuted: asking twice for features that were never saved, the first call fails and the second returns views of a packet that
was released. -/
theorem features_missing_refuted :
    runF [] cutUp (featDisk, Cache.new) [.loadArray 0 [1, 1], .loadArray 5 [1, 1], .loadArray 5 [1, 1]] =
      [.array (.ok [[1], [2]]), .array .error, .array .dangling] ∧
    wantF [] cutUp featDisk [.loadArray 0 [1, 1], .loadArray 5 [1, 1], .loadArray 5 [1, 1]] =
      [.array (.ok [[1], [2]]), .array .error, .array .error] := by
  decide +kernel

/-! ### C177: directories of images -/

/-- C177: parsing keeps the readable files in their order, declares each of them, and says whether the declarations are all the same. -/
theorem images_parsed {φ : Type} (disk : φ → Img) (scale : ℚ) (align : Bool) (files : List φ) (st : Parsed φ)
    (h : parseImages disk scale align files = some st) :
    st.paths = files.filter (fun p => decide (¬ (disk p).rows * (disk p).cols = 0)) ∧ st.paths ≠ [] ∧
      List.Forall₂ (fun p i => DeclaredFor scale align (disk p) i) st.paths st.infos ∧
      (st.const = true ↔ ∀ i ∈ st.infos, ∀ j ∈ st.infos, i = j) := by
  unfold parseImages at h
  by_cases hf : files = []
  · rw [if_pos hf] at h; simp at h
  rw [if_neg hf] at h
  have key := parseLoop_spec disk scale align (files.length + 1) [] files [] true Info.none (by omega) (by simp) List.Forall₂.nil (by simp)
    (Or.inl ⟨rfl, rfl⟩)
  have e0 : parseLoop disk scale align (files.length + 1) ([] : List φ).length ⟨[] ++ files, [], true⟩ Info.none =
      parseLoop disk scale align (files.length + 1) 0 ⟨files, [], true⟩ Info.none := rfl
  rw [e0] at key
  cases hp : parseLoop disk scale align (files.length + 1) 0 ⟨files, [], true⟩ Info.none with
  | none => rw [hp] at h; simp at h
  | some st' =>
    rw [hp] at h key
    simp only [Option.bind_eq_bind, Option.bind_some] at h
    obtain ⟨k1, k2, k3⟩ := key
    by_cases hi : st'.infos = []
    · rw [if_pos hi] at h; simp at h
    rw [if_neg hi] at h
    obtain rfl := Option.some.inj h
    have hfil : st'.paths = files.filter (fun p => decide (¬ (disk p).rows * (disk p).cols = 0)) := by
      rw [k1, List.nil_append]
      apply List.filter_congr
      intro p _
      unfold Img.empty
      generalize (disk p).rows * (disk p).cols = k
      cases k <;> simp
    refine ⟨hfil, ?_, ?_, k3⟩
    · intro he
      rw [he] at k2
      exact hi (List.forall₂_nil_left_iff.1 k2)
    · have hmem : ∀ p ∈ st'.paths, ¬ NoPixels (disk p).rows (disk p).cols := by
        intro p hp
        rw [hfil, List.mem_filter] at hp
        have := hp.2
        simp only [decide_eq_true_eq, Nat.mul_eq_zero] at this
        exact this
      clear hfil k1 k3 hp h
      generalize st'.paths = ps at k2 hmem
      generalize st'.infos = is at k2
      induction k2 with
      | nil => exact List.Forall₂.nil
      | cons hd _ ih =>
        exact List.Forall₂.cons (declare_some scale align _ _ (hmem _ (by simp)) hd) (ih (fun p hp => hmem p (List.mem_cons_of_mem _ hp)))

/-- C177: parsing fails exactly if no file is readable or scaling leaves nothing of one. -/
theorem images_parse_fails_iff {φ : Type} (disk : φ → Img) (scale : ℚ) (align : Bool) (files : List φ) :
    parseImages disk scale align files = none ↔
      ((∀ p ∈ files, NoPixels (disk p).rows (disk p).cols) ∨
        ∃ p ∈ files, ¬ NoPixels (disk p).rows (disk p).cols ∧ Vanishes scale (disk p)) := by
  have key := parseLoop_spec disk scale align (files.length + 1) [] files [] true Info.none (by omega) (by simp) List.Forall₂.nil (by simp)
    (Or.inl ⟨rfl, rfl⟩)
  have e0 : parseLoop disk scale align (files.length + 1) ([] : List φ).length ⟨[] ++ files, [], true⟩ Info.none =
      parseLoop disk scale align (files.length + 1) 0 ⟨files, [], true⟩ Info.none := rfl
  rw [e0] at key
  unfold parseImages
  by_cases hf : files = []
  · rw [if_pos hf]; simp [hf]
  rw [if_neg hf]
  cases hp : parseLoop disk scale align (files.length + 1) 0 ⟨files, [], true⟩ Info.none with
  | none =>
    rw [hp] at key
    obtain ⟨p, h1, h2, h3⟩ := key
    simp only [Option.bind_eq_bind, Option.bind_none, true_iff]
    exact Or.inr ⟨p, h1, (empty_false _).1 h2, (declare_none scale align _).1 h3⟩
  | some st =>
    rw [hp] at key
    obtain ⟨k1, k2, _⟩ := key
    simp only [Option.bind_eq_bind, Option.bind_some]
    rw [List.nil_append] at k1
    have hgood : ∀ p ∈ st.paths, declare scale align (disk p) ≠ none := by
      clear k1 hp
      generalize st.paths = ps at k2
      generalize st.infos = is at k2
      induction k2 with
      | nil => intro p hp; simp at hp
      | cons hd _ ih =>
        intro q hq
        rcases List.mem_cons.1 hq with rfl | hq
        · rw [hd]; simp
        · exact ih q hq
    by_cases hi : st.infos = []
    · rw [if_pos hi]
      simp only [true_iff]
      left
      rw [hi] at k2
      have := List.forall₂_nil_right_iff.1 k2
      rw [this] at k1
      intro p hp'
      have h3 := List.filter_eq_nil_iff.1 k1.symm p hp'
      rw [← empty_iff]
      simpa using h3
    · rw [if_neg hi]
      simp only [reduceCtorEq, false_iff]
      rintro (h1 | ⟨p, h1, h2, h3⟩)
      · have h4 : st.paths = [] := by
          rw [k1, List.filter_eq_nil_iff]
          intro p hp'
          have := (empty_iff (disk p)).2 (h1 p hp')
          simp [this]
        rw [h4] at k2
        exact hi (List.forall₂_nil_left_iff.1 k2)
      · have h4 : p ∈ st.paths := by
          rw [k1, List.mem_filter]
          exact ⟨h1, by rw [(empty_false (disk p)).2 h2]; rfl⟩
        exact hgood p h4 ((declare_none scale align _).2 h3)

/-- C177: after parsing, every packet with an index below the count is delivered as declared, and the others are empty; no call fails. -/
theorem images_delivered {φ : Type} (K : Conv) (disk : φ → Img) (scale : ℚ) (align : Bool) (files : List φ) (st : Parsed φ)
    (h : parseImages disk scale align files = some st) (n : Nat) :
    match st.paths[n]?, st.infos[n]? with
    | some p, some i => imageInfo st n = i ∧ ∃ m, imageGet K disk st n = some m ∧ Delivered K (disk p) i m
    | none, none => imageInfo st n = Info.none ∧ imageGet K disk st n = some Img.none
    | _, _ => False := by
  obtain ⟨h1, _, h3, _⟩ := images_parsed disk scale align files st h
  have hl := h3.length_eq
  by_cases hn : n < st.paths.length
  · have hn2 : n < st.infos.length := by omega
    have ep : st.paths[n]? = some st.paths[n] := List.getElem?_eq_getElem hn
    have ei : st.infos[n]? = some st.infos[n] := List.getElem?_eq_getElem hn2
    have hinfo : imageInfo st n = st.infos[n] := by
      unfold imageInfo
      rw [if_neg (by omega), ei]; rfl
    have hraw : imageRaw disk st n = disk st.paths[n] := by
      unfold imageRaw
      rw [ep]
    have hd : DeclaredFor scale align (disk st.paths[n]) st.infos[n] := (List.forall₂_iff_get.1 h3).2 n hn hn2
    rw [ep, ei]
    dsimp only
    refine ⟨hinfo, ?_⟩
    unfold imageGet
    rw [hinfo, hraw]
    have hall : ∀ p ∈ st.paths, ¬ NoPixels (disk p).rows (disk p).cols := by
      intro p hp
      rw [h1, List.mem_filter] at hp
      have := hp.2
      simp only [decide_eq_true_eq, Nat.mul_eq_zero] at this
      exact this
    have hm : ¬ NoPixels (disk st.paths[n]).rows (disk st.paths[n]).cols := hall _ (List.getElem_mem hn)
    have hs : Suitable (disk st.paths[n]) st.infos[n] := by
      refine ⟨hd.1.symm, ?_⟩
      rw [hd.2.1]
      by_cases hc : (disk st.paths[n]).ch = 3 ∧ align = true
      · rw [if_pos hc]; exact Or.inr ⟨hc.1, Or.inl rfl⟩
      · rw [if_neg hc]; exact Or.inl rfl
    obtain ⟨m, e1, e2⟩ := redirect_can K .image _ _ (Or.inr ⟨hm, hd.2.2.1, Or.inl ⟨rfl, hs⟩⟩)
    refine ⟨m, e1, ?_⟩
    rcases e2 with ⟨e2, _⟩ | ⟨_, _, e2⟩
    · exact absurd e2 hm
    · rcases e2 with ⟨_, e2⟩ | ⟨e2, _⟩
      · exact e2
      · exact absurd e2 (by decide)
  · have ep : st.paths[n]? = none := List.getElem?_eq_none (by omega)
    have ei : st.infos[n]? = none := List.getElem?_eq_none (by omega)
    have hinfo : imageInfo st n = Info.none := by
      unfold imageInfo
      rw [if_pos (by omega)]
    rw [ep, ei]
    dsimp only
    refine ⟨hinfo, ?_⟩
    unfold imageGet imageRaw
    rw [hinfo, ep]
    rfl

/-- Four files, the first and the third unreadable. -/
def sampleFiles : Nat → Img
  | 1 => ⟨0, 3, 4, 6, fun r c => [r, c, 7]⟩
  | 3 => ⟨0, 1, 2, 2, fun r c => [r + c]⟩
  | _ => Img.none

example : parseImages sampleFiles (1 / 2) true [0, 1, 2, 3] = some ⟨[1, 3], [⟨0, 4, 2, 3⟩, ⟨0, 1, 1, 1⟩], false⟩ := by
  decide +kernel

example : (imageGet sampleConv sampleFiles ⟨[1, 3], [⟨0, 4, 2, 3⟩, ⟨0, 1, 1, 1⟩], false⟩ 0).map (fun m => m.px 1 2) = some [2, 4, 7, 255] := by
  decide +kernel

/-! ### C178: videos and ground truth -/

/-- C178: whatever packets were read before, packet `n` of a video is frame `n`, converted and resized as declared; beyond the end packets
are empty. A call fails only for a frame that cannot be read or is of another type than the first one. -/
theorem video_history {φ : Type} (K : Conv) (disk : φ → Img) (open' : φ → Option (List Img)) (scale : ℚ) (align : Bool)
    (self : Option (List Img)) (files : List φ) (v : Video φ) (h : parseVideo disk open' scale align self files = some v) (ns : List Nat) :
    v.count = (source disk open' self files).length ∧
      (∃ f, (source disk open' self files)[0]? = some f ∧ DeclaredFor scale align f v.info) ∧
      List.Forall₂ (SourceOut K (source disk open' self files) v.info) ns (runVideo K disk v ns) := by
  have hred : ∀ (src : List Img) (i : Info) (n : Nat), ¬ NoPixels i.rows i.cols → SourceOut K src i n
      (redirect K .image ((src[n]?).getD Img.none) (if n ≥ src.length then Info.none else i)) := by
    intro src i n hi
    unfold SourceOut
    cases hn : src[n]? with
    | none =>
      have : src.length ≤ n := by simpa using hn
      rw [if_pos this]
      rfl
    | some f =>
      have : ¬ n ≥ src.length := by
        intro hh
        rw [List.getElem?_eq_none hh] at hn
        simp at hn
      rw [if_neg this]
      dsimp only
      rw [Option.getD_some]
      by_cases hf : NoPixels f.rows f.cols
      · right
        refine ⟨Or.inl hf, redirect_cannot K .image f i ?_⟩
        rintro (⟨_, h2⟩ | ⟨h1, _⟩)
        · exact hi h2
        · exact h1 hf
      · by_cases hs : Suitable f i
        · left
          obtain ⟨m, e1, e2⟩ := redirect_can K .image f i (Or.inr ⟨hf, hi, Or.inl ⟨rfl, hs⟩⟩)
          refine ⟨hf, hs, m, e1, ?_⟩
          rcases e2 with ⟨e2, _⟩ | ⟨_, _, e2⟩
          · exact absurd e2 hf
          · rcases e2 with ⟨_, e2⟩ | ⟨e2, _⟩
            · exact e2
            · exact absurd e2 (by decide)
        · right
          refine ⟨Or.inr hs, redirect_cannot K .image f i ?_⟩
          rintro (⟨h1, _⟩ | ⟨_, _, h2⟩)
          · exact hf h1
          · rcases h2 with ⟨_, h2⟩ | ⟨h2, _⟩
            · exact hs h2
            · exact absurd h2 (by decide)
  -- reading from an opened video
  have hread : ∀ (src : List Img) (ns : List Nat) (w : Video φ) (r : Reader), w.reader = some r → InStep src r w.expected →
      w.count = src.length → ¬ NoPixels w.info.rows w.info.cols → List.Forall₂ (SourceOut K src w.info) ns (runVideo K disk w ns) := by
    intro src ns
    induction ns with
    | nil => intro w r _ _ _ _; exact List.Forall₂.nil
    | cons n ns ih =>
      intro w r hr hst hc hi
      rw [runVideo]
      dsimp only [videoGet]
      obtain ⟨r', hraw⟩ : ∃ r', videoRaw disk w n = ((src[n]?).getD Img.none, { w with reader := some r', expected := n + 1 }) ∧
          InStep src r' (n + 1) := by
        unfold videoRaw
        rw [hr]
        dsimp only
        by_cases he : w.expected = n
        · rw [if_neg (by simp [he])]
          obtain ⟨q1, q2⟩ := read_step src r n (he ▸ hst)
          refine ⟨r.read.2, ?_, q2⟩
          rw [q1, he]
        · rw [if_pos he]
          obtain ⟨q1, q2⟩ := read_step src (r.seek n) n (seek_step src r n hst.1)
          exact ⟨_, by rw [q1], q2⟩
      rw [hraw.1]
      dsimp only
      refine List.Forall₂.cons ?_ (ih { w with reader := some r', expected := n + 1 } r' rfl hraw.2 hc hi)
      unfold videoInfo
      rw [hc]
      exact hred src w.info n hi
  -- reading files
  have hfile : ∀ (ps : List φ) (ns : List Nat) (w : Video φ), w.reader = none → w.paths = ps → w.count = ps.length →
      ¬ NoPixels w.info.rows w.info.cols → List.Forall₂ (SourceOut K (ps.map disk) w.info) ns (runVideo K disk w ns) := by
    intro ps ns w hr hp hc hi
    induction ns with
    | nil => exact List.Forall₂.nil
    | cons n ns ih =>
      rw [runVideo]
      dsimp only [videoGet]
      have hraw : videoRaw disk w n = (((ps.map disk)[n]?).getD Img.none, w) := by
        unfold videoRaw
        rw [hr]
        dsimp only
        rw [hp, List.getElem?_map]
        cases ps[n]? <;> rfl
      rw [hraw]
      dsimp only
      refine List.Forall₂.cons ?_ ih
      unfold videoInfo
      rw [hc, ← List.length_map (f := disk)]
      exact hred _ _ n hi
  -- an opened video
  have hopened : ∀ (fs : List Img) (ps : List φ) (i : Info), ((fs[0]?).getD Img.none).empty = false →
      declare scale align ((fs[0]?).getD Img.none) = some i →
      v = ⟨some ((((⟨fs, 0⟩ : Reader).seek 0).read).2.seek 0), ps, 0, fs.length, i⟩ →
      v.count = fs.length ∧ (∃ f, fs[0]? = some f ∧ DeclaredFor scale align f v.info) ∧
        List.Forall₂ (SourceOut K fs v.info) ns (runVideo K disk v ns) := by
    intro fs ps i h1 h2 h3
    have hd := declare_some scale align _ i ((empty_false _).1 h1) h2
    subst h3
    refine ⟨rfl, ?_, ?_⟩
    · cases hf : fs[0]? with
      | none => rw [hf] at h1; simp [Img.none, Img.empty] at h1
      | some f =>
        rw [hf] at hd
        exact ⟨f, rfl, hd⟩
    · refine hread fs ns _ _ rfl (seek_step fs _ 0 ?_) rfl hd.2.2.1
      exact (read_step fs _ 0 (seek_step fs _ 0 rfl)).2.1
  have hfin : ∀ (fs : List Img) (ps : List φ), finishVideo disk scale align (some fs) ps = some v →
      v.count = fs.length ∧ (∃ f, fs[0]? = some f ∧ DeclaredFor scale align f v.info) ∧
        List.Forall₂ (SourceOut K fs v.info) ns (runVideo K disk v ns) := by
    intro fs ps hv
    unfold finishVideo firstFrame frameCount at hv
    dsimp only at hv
    by_cases h1 : ((fs[0]?).getD Img.none).empty = true
    · rw [if_pos h1] at hv; simp at hv
    rw [if_neg h1] at hv
    cases hd : declare scale align ((fs[0]?).getD Img.none) with
    | none => rw [hd] at hv; simp at hv
    | some i =>
      rw [hd] at hv
      simp only [Option.bind_eq_bind, Option.bind_some] at hv
      by_cases h2 : fs.length > 0
      · rw [if_pos h2] at hv
        exact hopened fs ps i (by simpa using h1) hd (Option.some.inj hv).symm
      · rw [if_neg h2] at hv; simp at hv
  unfold parseVideo at h
  cases self with
  | some fs => exact hfin fs _ h
  | none =>
    match files, h with
    | [], h => simp [finishVideo, firstFrame, openVideo, Img.none, Img.empty] at h
    | [f], h =>
      change finishVideo disk scale align (open' f) [f] = some v at h
      simp only [source]
      cases ho : open' f with
      | none => rw [ho] at h; simp [finishVideo, firstFrame, Img.none, Img.empty] at h
      | some fs =>
        rw [ho] at h
        exact hfin fs _ h
    | p :: q :: t, h =>
      change finishVideo disk scale align none (p :: q :: t) = some v at h
      unfold finishVideo firstFrame frameCount at h
      dsimp only at h
      have hlen : (p :: q :: t).length > 1 := by simp
      rw [if_pos hlen, if_pos hlen] at h
      by_cases h1 : (disk p).empty = true
      · rw [if_pos h1] at h; simp at h
      rw [if_neg h1] at h
      have h1 : (disk p).empty = false := by simpa using h1
      cases hd : declare scale align (disk p) with
      | none => rw [hd] at h; simp at h
      | some i =>
        rw [hd] at h
        simp only [Option.bind_eq_bind, Option.bind_some] at h
        rw [if_pos (by simp)] at h
        obtain rfl := (Option.some.inj h).symm
        have hdd := declare_some scale align _ i ((empty_false _).1 h1) hd
        simp only [source]
        refine ⟨by simp, ⟨disk p, by simp, hdd⟩, ?_⟩
        exact hfile (p :: q :: t) ns ⟨none, p :: q :: t, 0, (p :: q :: t).length, i⟩ rfl rfl rfl hdd.2.2.1

/-- C178: the ground truth of a packet is the mapped file as declared; without a mapping, or with one beyond the files, it is empty. -/
theorem gt_delivered {φ : Type} (K : Conv) (disk : φ → Img) (lut : List (Nat × Nat)) (paths : List φ) (infos : List Info)
    (hl : paths.length = infos.length) (n : Nat) :
    match lut.lookup n with
    | none => gtGet K disk lut paths infos n = some Img.none
    | some g => match paths[g]?, infos[g]? with
      | some p, some i => (∀ m, gtGet K disk lut paths infos n = some m → StreamOut K .image (disk p) i m) ∧
          ((gtGet K disk lut paths infos n).isSome ↔ CanDeliver .image (disk p) i)
      | _, _ => gtGet K disk lut paths infos n = some Img.none := by
  unfold gtGet gtRaw gtInfo
  cases lut.lookup n with
  | none => rfl
  | some g =>
    dsimp only
    by_cases hg : g < paths.length
    · rw [List.getElem?_eq_getElem hg, List.getElem?_eq_getElem (hl ▸ hg)]
      dsimp only [Option.getD_some]
      refine ⟨fun m hm => packet_as_declared K .image _ _ m hm, ?_⟩
      rw [← packet_delivered_iff K, Option.isSome_iff_exists]
    · rw [List.getElem?_eq_none (by omega), List.getElem?_eq_none (by omega)]
      rfl

/-- A video of three frames, the second of another size. -/
def sampleVideo : List Img := [⟨0, 1, 2, 2, fun r c => [r, c]⟩, ⟨0, 1, 4, 4, fun r c => [10 + r, c]⟩, ⟨0, 1, 2, 2, fun r c => [20 + r, c]⟩]

example : (parseVideo (φ := Nat) (fun _ => Img.none) (fun _ => none) 1 true (some sampleVideo) []).map (fun v => (v.count, v.info, v.expected)) =
    some (3, ⟨0, 1, 2, 2⟩, 0) := by
  decide +kernel

example : (parseVideo (φ := Nat) (fun _ => Img.none) (fun _ => none) 1 true (some sampleVideo) []).map (fun v =>
    (runVideo sampleConv (fun _ => Img.none) v [0, 1, 2, 3, 1, 0, 7, 8, 2]).map (fun o => o.map (fun m => m.px 1 1))) =
      some [some [1, 1], some [12, 2], some [21, 1], some [], some [12, 2], some [1, 1], some [], some [], some [21, 1]] := by
  decide +kernel

example : (gtGet sampleConv sampleFiles [(5, 0), (7, 9)] [3] [⟨0, 1, 2, 2⟩] 5).map (fun m => m.px 1 1) = some [2] := by
  decide +kernel

end Litiv.Loader
