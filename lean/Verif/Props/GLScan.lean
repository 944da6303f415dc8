import Verif.Lemmas.GLScan
import Mathlib.Data.BitVec

/-!
# Properties of the prefix sum and transpose shaders (C154-C156)
-/

namespace Litiv.GLScan

variable {α : Type}

/-- A schedule with the invocations of each section interleaved one operation at a time, last one first. -/
def roundRobin (k : Nat) (_ : Nat) : List Nat := (List.replicate 5 (List.range k).reverse).flatten

theorem roundRobin_fair (k : Nat) : Fair k (roundRobin k) := by
  intro p
  constructor
  · intro t ht
    simp [roundRobin] at ht
    omega
  · intro t ht
    have : (List.range k).reverse.count t = 1 := by
      rw [List.count_reverse]
      exact List.count_eq_one_of_mem List.nodup_range (List.mem_range.mpr ht)
    unfold roundRobin
    generalize (List.range k).reverse = l at this
    rw [show (List.replicate 5 l).flatten = l ++ (l ++ (l ++ (l ++ (l ++ [])))) from rfl]
    simp [List.count_append, this]

/-- C154: with a power of two as block size a work group never leaves its shared array and computes the exclusive prefix
sums of its columns, for every interleaving of the memory operations of its invocations between the barriers. -/
theorem block_scan_partial [AddCommMonoid α] (k : Nat) (hk : 0 < k) (input : Nat → α) (sched : Nat → List Nat) (m₀ : Mem α)
    (hs : Fair (2 ^ k / 2) sched) :
    ∃ m, groupScan (2 ^ k) input sched m₀ = some m ∧ ∀ i < 2 ^ k, m i = exclusive input i :=
  groupScan_spec k hk input sched m₀ hs

example : ((groupScan 4 (fun i => (3000000000 + i : BitVec 32)) (roundRobin 2) (fun _ => 7)).map
    fun m => (m 0, m 1, m 2, m 3)) = some (0, 3000000000, 1705032705, 410065411) := by decide +kernel

example : Fair (2 ^ 3 / 2) (roundRobin 4) := roundRobin_fair 4

/-- C154: the block sizes which are not powers of two are accepted, but make the shader access its shared array out of
its bounds, whatever the data and the schedule. -/
theorem block_scan_sizes [AddCommMonoid α] (n : Nat) (input : Nat → α) (sched : Nat → List Nat) (m₀ : Mem α)
    (hs : Fair ((n + 1) / 2) sched) :
    (∃ m, groupScan n input sched m₀ = some m) ↔ ∃ k, 0 < k ∧ n = 2 ^ k := by
  constructor
  · rintro ⟨m, h⟩
    exact groupScan_pow n input sched m₀ m h
  · rintro ⟨k, hk, rfl⟩
    have : (2 ^ k + 1) / 2 = 2 ^ k / 2 := by
      obtain ⟨d, rfl⟩ : ∃ d, k = d + 1 := ⟨k - 1, by omega⟩
      rw [pow_succ]
      omega
    rw [this] at hs
    obtain ⟨m, h, _⟩ := groupScan_spec k hk input sched m₀ hs
    exact ⟨m, h⟩

/-- C154 does not hold for every accepted block size. -/
theorem block_scan_refuted (input : Nat → BitVec 32) (sched : Nat → List Nat) (m₀ : Mem (BitVec 32)) :
    groupScan 6 input sched m₀ = none := by
  cases h : groupScan 6 input sched m₀ with
  | none => rfl
  | some m =>
    obtain ⟨k, _, hk⟩ := groupScan_pow 6 input sched m₀ m h
    have h3 : k < 3 := by
      by_contra hc
      have : 2 ^ 3 ≤ 2 ^ k := Nat.pow_le_pow_right (by omega) (by omega)
      omega
    have : k = 0 ∨ k = 1 ∨ k = 2 := by omega
    rcases this with rfl | rfl | rfl <;> omega

/-- C155: a row which fits in one block gets its exclusive prefix sums, also with the documented number of work groups. -/
theorem short_row_partial [AddCommMonoid α] (k : Nat) (hk : 0 < k) (w : Nat) (hw : 0 < w) (hwn : w ≤ 2 ^ k)
    (input out : Mem α) (sched : Nat → Nat → List Nat) (m₀ : Mem α) (hs : ∀ b, Fair (2 ^ k / 2) (sched b)) :
    ∃ out', rowScan w (2 ^ k) (documentedGroups w (2 ^ k)) input out sched m₀ = some out' ∧
      (∀ c < w, out' c = exclusive input c) ∧ ∀ c, w ≤ c → out' c = out c := by
  have hg : documentedGroups w (2 ^ k) = 1 := by
    unfold documentedGroups
    have hn : 0 < 2 ^ k := by positivity
    rw [Nat.div_eq_iff hn]
    omega
  obtain ⟨o, e, h⟩ := rowScan_spec k hk w 1 input out sched m₀ hs
  rw [hg]
  refine ⟨o, e, fun c hc => ?_, fun c hc => ?_⟩
  · rw [h c, if_pos (by omega), Nat.mod_eq_of_lt (by omega), Nat.div_eq_of_lt (by omega)]
    unfold exclusive
    refine Finset.sum_congr rfl fun j hj => ?_
    rw [Finset.mem_range] at hj
    dsimp only [loadCol]
    rw [if_pos (by omega), Nat.zero_mul, Nat.zero_add]
  · rw [h c, if_neg (by omega)]

/-- C155: what a longer row gets: one work group per block and then the merge leave in every column the sum of the
elements before it, without the last element of every block. -/
theorem long_row_value [AddCommMonoid α] (k : Nat) (hk : 0 < k) (w : Nat) (input out : Mem α)
    (sched : Nat → Nat → List Nat) (m₀ : Mem α) (hs : ∀ b, Fair (2 ^ k / 2) (sched b)) :
    ∃ out', rowScan w (2 ^ k) ((w + 2 ^ k - 1) / 2 ^ k) input out sched m₀ = some out' ∧
      ∀ c < w, mergeRow w (2 ^ k) out' c = ∑ j ∈ (Finset.range c).filter (fun j => ¬ 2 ^ k ∣ j + 1), input j := by
  have hn : 0 < 2 ^ k := by positivity
  obtain ⟨o, e, h⟩ := rowScan_spec k hk w ((w + 2 ^ k - 1) / 2 ^ k) input out sched m₀ hs
  refine ⟨o, e, fun c hc => ?_⟩
  refine mergeRow_spec w (2 ^ k) hn input o (fun c hc => ?_) c hc
  have hB2 := Nat.lt_div_mul_add (a := w + 2 ^ k - 1) hn
  rw [h c, if_pos (by omega)]
  unfold exclusive
  refine Finset.sum_congr rfl fun j hj => ?_
  rw [Finset.mem_range] at hj
  have hdm := Nat.div_add_mod c (2 ^ k)
  rw [Nat.mul_comm] at hdm
  dsimp only [loadCol]
  rw [if_pos (by omega)]

/-- The row of ones, scanned and merged with blocks of two columns. -/
def onesRow (g w : Nat) : Option (Mem (BitVec 32)) :=
  rowScan w 2 g (fun _ => 1) (fun _ => 77) (fun _ => roundRobin 1) (fun _ => 0)

/-- C155 does not hold for longer rows: the result is neither the exclusive nor the inclusive prefix sum. -/
theorem long_row_refuted :
    (onesRow 2 3).map (fun o => (mergeRow 3 2 o 0, mergeRow 3 2 o 2)) = some (0, 1) ∧
    exclusive (fun _ => (1 : BitVec 32)) 2 = 2 ∧ inclusive (fun _ => (1 : BitVec 32)) 0 = 1 := by
  refine ⟨by decide +kernel, ?_, ?_⟩ <;> decide +kernel

/-- C155 does not hold with the documented number of work groups, which leaves half of a longer row as it was. -/
theorem documented_dispatch_refuted :
    documentedGroups 4 2 = 1 ∧ (onesRow (documentedGroups 4 2) 4).map (fun o => (o 1, o 2, o 3)) = some (1, 77, 77) := by
  decide +kernel

example : (onesRow 2 4).map (fun o => (o 0, o 1, o 2, o 3)) = some (0, 1, 0, 1) := by decide +kernel

/-- C156: the transpose shader, with the documented number of work groups in any order and any order of the invocations of
each section, writes every pixel of the input to its transposed position, for every image and block size. -/
theorem transposed [Zero α] (bs : Nat) (hbs : 0 < bs) (input out : Img α) (groups : List (Nat × Nat))
    (ord₁ ord₂ : Nat × Nat → List (Nat × Nat)) (tile : Nat → Nat → α)
    (hc : out.cols = input.rows) (hr : out.rows = input.cols)
    (hg : ∀ g, g ∈ groups ↔ g.1 < (input.cols + bs - 1) / bs ∧ g.2 < (input.rows + bs - 1) / bs)
    (h₁ : ∀ g p, p ∈ ord₁ g ↔ p.1 < bs ∧ p.2 < bs) (h₂ : ∀ g p, p ∈ ord₂ g ↔ p.1 < bs ∧ p.2 < bs) :
    (transpose bs input out groups ord₁ ord₂ tile).cols = input.rows ∧
    (transpose bs input out groups ord₁ ord₂ tile).rows = input.cols ∧
    ∀ x < input.cols, ∀ y < input.rows,
      (transpose bs input out groups ord₁ ord₂ tile).at_ y x = input.at_ x y := by
  obtain ⟨s1, s2, s3⟩ := transpose_at bs input out groups ord₁ ord₂ tile
    (fun g _ p hp => (h₁ g p).mpr ((h₂ g p).mp hp))
  refine ⟨s1.trans hc, s2.trans hr, fun x hx y hy => ?_⟩
  rw [s3 y x (by omega) (by omega), if_pos, Img.load, if_pos ⟨hx, hy⟩]
  have hdiv : ∀ a n, a < n → a / bs < (n + bs - 1) / bs := by
    intro a n h
    rw [Nat.div_lt_iff_lt_mul hbs]
    have := Nat.lt_div_mul_add (a := n + bs - 1) hbs
    omega
  refine ⟨(x / bs, y / bs), (hg _).mpr ⟨hdiv x _ hx, hdiv y _ hy⟩, (x % bs, y % bs),
    (h₂ _ _).mpr ⟨Nat.mod_lt _ hbs, Nat.mod_lt _ hbs⟩, ?_, ?_⟩
  · have := Nat.div_add_mod y bs
    rw [Nat.mul_comm] at this
    exact this.symm
  · have := Nat.div_add_mod x bs
    rw [Nat.mul_comm] at this
    exact this.symm

/-- A 3x2 image with blocks of two, all orders reversed. -/
def demoOut : Img Nat :=
  transpose 2 ⟨3, 2, fun x y => 10 * x + y + 1⟩ ⟨2, 3, fun _ _ => 0⟩ [(1, 0), (0, 0)]
    (fun _ => [(1, 1), (0, 1), (1, 0), (0, 0)]) (fun _ => [(0, 0), (1, 1), (1, 0), (0, 1)]) (fun _ _ => 99)

example : (List.range 2).map (fun y => (List.range 3).map fun x => demoOut.at_ y x) = [[1, 11, 21], [2, 12, 22]] := by
  decide +kernel

example : ∀ g : Nat × Nat, g ∈ [(1, 0), (0, 0)] ↔ g.1 < (3 + 2 - 1) / 2 ∧ g.2 < (2 + 2 - 1) / 2 := by
  rintro ⟨a, b⟩
  simp
  omega

end Litiv.GLScan
