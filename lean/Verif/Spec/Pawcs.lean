import Verif.Model.Pawcs
import Verif.Spec.Consensus

/-!
# Specification vocabulary for the word dictionaries of PAWCS
-/

namespace Litiv.Pawcs.Spec
open Consensus Consensus.Spec

variable {F : Type}

/-- The geometry after `initialize_common`: distinct relevant pixels inside of the border, a border of at least one pixel, and
at least one local and one global word. -/
structure Setup (c : Cfg) (ng : Nat) (px : List (Nat × Nat)) : Prop where
  rows : 2 * c.b < c.h
  cols : 2 * c.b < c.w
  border : 1 ≤ c.b
  words : 0 < c.n
  globals : 0 < ng
  inner : ∀ p ∈ px, Inner c.b c.h c.w p
  nodup : px.Nodup

/-- The dictionaries are complete: each of the `np` pixels has `n` words of its own, shared neither within the pixel nor with
another pixel; every word of the list is in use; the same for the global dictionary; each global word has a location map;
each pixel ranks every global word exactly once. -/
structure Complete (c : Cfg) (ng np : Nat) (m : Mdl F) : Prop where
  own : ∀ p < np, ∀ i < c.n, ∃ a, m.loc.addr (p * c.n + i) = some a
  distinct : ∀ j j' a, m.loc.addr j = some a → m.loc.addr j' = some a → j = j'
  count : m.loc.cap = np * c.n
  used : m.loc.iter = m.loc.cap
  gown : ∀ i < ng, ∃ a, m.glo.addr i = some a
  gdistinct : ∀ j j' a, m.glo.addr j = some a → m.glo.addr j' = some a → j = j'
  gcount : m.glo.cap = ng
  gused : m.glo.iter = m.glo.cap
  maps : ∀ a < ng, (m.glo.mem a).map.isSome
  rankRange : ∀ p < np, ∀ j < ng, m.ranks p j < ng
  rankInj : ∀ p < np, ∀ j < ng, ∀ j' < ng, m.ranks p j = m.ranks p j' → j = j'

/-- The word of pixel `p` in slot `i`. -/
def wordAt (c : Cfg) (m : Mdl F) (p i : Nat) : Option (Word F) := (m.loc.addr (p * c.n + i)).map m.loc.mem

/-- What a frame needs so that no remainder by zero is computed: positive 64-bit update rates other than 2^63, whose double wraps to
zero. -/
def Callable (f : Frame F) : Prop := ∀ y x, 0 < f.rate y x ∧ f.rate y x < 2 ^ 64 ∧ f.rate y x ≠ 2 ^ 63 ∧ ∀ i, 0 < f.irate y x i

/-- The weight of a word at time `t`: its occurrences over the time between its first and last occurrence, twice the time since,
and an offset. -/
def weightOf (rd : ℚ → ℚ) (t off : Nat) (w : Word F) : ℚ := rd (rd (w.occ : ℚ) / rd (((w.last - w.first) + (t - w.last) * 2 + off : Nat) : ℚ))

/-- The running sum of the weights of the words that match at pixel (y, x), in the order of the slots: before slot `i`. -/
def runSum (rd : ℚ → ℚ) (f : Frame F) (t y x : Nat) (words : Nat → Option (Word F)) : Nat → ℚ
  | 0 => 0
  | i + 1 =>
    match words i with
    | some w => if f.near y x w.feat then rd (runSum rd f t y x words i + weightOf rd t f.off w) else runSum rd f t y x words i
    | none => runSum rd f t y x words i

/-- The running sum of the weights of the words in the slots that `hit` selects: before slot `i`. -/
def gain (rd : ℚ → ℚ) (t off : Nat) (words : Nat → Option (Word F)) (hit : Nat → Bool) : Nat → ℚ
  | 0 => 0
  | i + 1 =>
    match words i with
    | some w => if hit i then rd (gain rd t off words hit i + weightOf rd t off w) else gain rd t off words hit i
    | none => gain rd t off words hit i

/-- The weight that the matching words of a pixel must reach: that of its first word over twice the distance factor. -/
def needed (rd : ℚ → ℚ) (f : Frame F) (t y x : Nat) (words : Nat → Option (Word F)) : ℚ :=
  match words 0 with
  | some w => rd (weightOf rd t f.off w / rd (f.R y x * 2))
  | none => 0

/-- The weight of a new word. -/
def newWeight (rd : ℚ → ℚ) (f : Frame F) : ℚ := rd (1 / rd (f.off : ℚ))

/-- Occurrences added for an observation: one more than the reset cooldown, doubled in flat regions and during bootstrapping. -/
def bonus (f : Frame F) (y x : Nat) : Nat := if f.flat y x || f.boot then (1 + f.cooldown) * 2 else 1 + f.cooldown

/-- A new word for the observation at (y, x). -/
def observed (f : Frame F) (t y x : Nat) : Word F := ⟨t, t, bonus f y x, f.cur y x⟩

/-- What the visit of its pixel does to a word: if it matches it is dated, and gains occurrences if it is light and the pixel was
background (or the camera moves); its feature stays, or becomes the observation if the conditions of an illumination update hold
and a random number is a multiple of its rate. -/
structure Visited (rd : ℚ → ℚ) (rnd : Nat → Nat) (f : Frame F) (t y x i : Nat) (w w' : Word F) : Prop where
  first : w'.first = w.first
  last : w'.last = if f.near y x w.feat then t else w.last
  occ : w'.occ = if f.near y x w.feat ∧ (f.lastFG y x = false ∨ f.moving = true) ∧ weightOf rd t f.off w < 1 then w.occ + bonus f y x else w.occ
  feat : w'.feat = w.feat ∨ (f.illum y x w.feat = true ∧ (∃ k, rnd k % f.irate y x i = 0) ∧ w'.feat = f.cur y x)

/-- What happens to the `n` words of a pixel when it is processed: they are visited in order until the needed weight is reached, the
others stay; the slots are permuted such that the lightest word is last and the first is not lighter than the first before; that word is replaced by the observation if the pixel
is not at the border of the region, the needed weight is not reached, and what was reached is less than the weight of a new word. -/
def Own (rd : ℚ → ℚ) (rnd : Nat → Nat) (n : Nat) (f : Frame F) (t y x : Nat) (before after : Nat → Option (Word F)) : Prop :=
  ∃ σ : Nat → Nat, (∀ i < n, σ i < n) ∧ (∀ i < n, ∀ i' < n, σ i = σ i' → i = i') ∧
    (∀ i < n, ∃ w w', before i = some w ∧ after (σ i) = some w' ∧
      if σ i = n - 1 ∧ runSum rd f t y x before n < needed rd f t y x before ∧ f.border y x = false ∧ runSum rd f t y x before n < newWeight rd f
      then w' = observed f t y x
      else if runSum rd f t y x before i < needed rd f t y x before then Visited rd rnd f t y x i w w' else w' = w) ∧
    (∀ i < n, σ i = n - 1 → ∀ i' < n, ∀ w w', before i = some w → before i' = some w' → weightOf rd t f.off w ≤ weightOf rd t f.off w') ∧
    (∀ i < n, σ i = 0 → ∀ w w', before 0 = some w → before i = some w' → weightOf rd t f.off w ≤ weightOf rd t f.off w')

/-- What happens to a word of a neighbour that the observation of (y, x) matches or adapts: nothing if the words are copied, otherwise
it is dated and gains occurrences if it is light, twice as many if its descriptor is flat. -/
structure Reinforced (rd : ℚ → ℚ) (f : Frame F) (t y x : Nat) (q : Nat × Nat) (w w' : Word F) : Prop where
  copy : f.byRef = false → w' = w
  first : w'.first = w.first
  last : f.byRef = true → w'.last = t
  occ : f.byRef = true → w'.occ = if weightOf rd t f.off w < 1 then w.occ + bonus f y x * (if f.nflat w.feat then 2 else 1) else w.occ
  feat : w'.feat = w.feat ∨ (f.nnear y x w.feat = false ∧ f.nupd y x q w.feat = some w'.feat)

/-- What the observation of (y, x) does to the `n` words of a neighbour `q` (labelled `qfg` so far): its words are compared in order until
the weight `thr` is reached; if the weights found are less than the weight of a new word, its last word is replaced. -/
def Passed (rd : ℚ → ℚ) (n : Nat) (f : Frame F) (t y x : Nat) (q : Nat × Nat) (qfg : Bool) (thr : ℚ) (before after : Nat → Option (Word F)) : Prop :=
  ∃ hit j, j ≤ n ∧ (∀ l < j, gain rd t f.off before hit l < thr) ∧ (j < n → thr ≤ gain rd t f.off before hit j) ∧
    ∀ l < n, ∃ w w', before l = some w ∧ after l = some w' ∧
      (l < j → f.nnear y x w.feat = true → hit l = true) ∧
      (l < j → hit l = true → f.nnear y x w.feat = false → qfg = false ∧ f.flat y x = true ∧ (f.nupd y x q w.feat).isSome = true) ∧
      if l = n - 1 ∧ gain rd t f.off before hit j < newWeight rd f then w' = observed f t y x
      else if l < j ∧ hit l = true then Reinforced rd f t y x q w w' else w' = w

/-- The pixel is background: its matching words have the needed weight, or it is at the border of the region, or, when the global words
are consulted (always in flat regions, otherwise when the random number `r` says so), the first global word by rank that is close
has a value at the pixel that makes up for the rest. -/
def Background (rd : ℚ → ℚ) (c : Cfg) (ng : Nat) (f : Frame F) (t y x : Nat) (r : Nat) (m : Mdl F) (p : Nat) : Prop :=
  needed rd f t y x (wordAt c m p) ≤ runSum rd f t y x (wordAt c m p) c.n ∨ f.border y x = true ∨
    (f.flat y x = true ∨ r % f.rate y x = 0) ∧ ∃ j < ng, f.gnear y x (m.glo.mem (m.ranks p j)) = true ∧
      (∀ j' < j, f.gnear y x (m.glo.mem (m.ranks p j')) = false) ∧
      ∃ v, (m.glo.mem (m.ranks p j)).map = some v ∧
        needed rd f t y x (wordAt c m p) ≤ rd (runSum rd f t y x (wordAt c m p) c.n + rd (v (y / 2 * (c.w / 2) + x / 2) / (if f.flat y x then 2 else 4)))

/-- One pixel `p` at (y, x) of a frame, from state `l` to state `l'`. -/
structure PixelStep (rd : ℚ → ℚ) (c : Cfg) (ng : Nat) (px : List (Nat × Nat)) (rnd : Nat → Nat) (f : Frame F) (t p y x : Nat) (l l' : Loop F) : Prop where
  label : ∃ k, l'.mask y x = false ↔ Background rd c ng f t y x (rnd k) l.m p
  mask : ∀ y' x', (y', x') ≠ (y, x) → l'.mask y' x' = l.mask y' x'
  words : ∃ mid : Nat → Nat → Option (Word F), Own rd rnd c.n f t y x (wordAt c l.m p) (mid p) ∧
    (∀ q < px.length, q ≠ p → ∀ i < c.n, mid q i = wordAt c l.m q i) ∧
    ((∀ q < px.length, ∀ i < c.n, wordAt c l'.m q i = mid q i) ∨
      ∃ q p' k, px[p']? = some q ∧ Near (if f.flat y x || f.border y x || f.moving then 2 else 1) (y, x) q ∧
        ((l'.mask y x = false ∧ rnd k % f.rate y x = 0) ∨ f.border y x = true ∨ f.moving = true) ∧
        (∀ r < px.length, r ≠ p' → ∀ i < c.n, wordAt c l'.m r i = mid r i) ∧
        Passed rd c.n f t y x q (l'.mask q.1 q.2) (needed rd f t y x (wordAt c l.m p)) (mid p') (wordAt c l'.m p'))

/-- A global word after the observation of weight `v` at the location `i`: if the value there is less than `v` it is raised by `v`, and so is
the total; nothing else changes. -/
structure Raised (rd : ℚ → ℚ) (i : Nat) (v : ℚ) (g g' : GWord F) : Prop where
  feat : g'.feat = g.feat
  bits : g'.bits = g.bits
  map : ∃ f f', g.map = some f ∧ g'.map = some f' ∧ (∀ j, j ≠ i → f' j = f j) ∧ f' i = (if f i < v then rd (f i + v) else f i) ∧
    g'.weight = if f i < v then rd (g.weight + v) else g.weight

/-- A feature that initialization can give to the words of pixel (y, x): one observed within three pixels, or one derived from such a
feature by jitter. -/
inductive Derived (c : Cfg) (r : Refresh F) (y x : Nat) : F → Prop
  | seen (q : Nat × Nat) (h : Inner c.b c.h c.w q) (n : Near 3 (y, x) q) : Derived c r y x (r.last q.1 q.2)
  | jitter (k : Nat) (f : F) (h : Derived c r y x f) : Derived c r y x (r.jitter y x k f)

/-- A feature that the words of pixel `q` can have after a history: an observation within three pixels of it at initialization or in a
refresh, an observation within two pixels of it in a frame, or what jitter or the update of a neighbour makes of such a feature. -/
inductive Known (c : Cfg) (px : List (Nat × Nat)) (r0 : Refresh F) (ops : List (Op F)) (q : Nat × Nat) : F → Prop
  | init (p : Nat × Nat) (h : Inner c.b c.h c.w p) (n : Near 3 q p) : Known c px r0 ops q (r0.last p.1 p.2)
  | jitter0 (k : Nat) (f : F) (h : Known c px r0 ops q f) : Known c px r0 ops q (r0.jitter q.1 q.2 k f)
  | refresh (r : Refresh F) (o : Op.refresh r ∈ ops) (p : Nat × Nat) (h : Inner c.b c.h c.w p) (n : Near 3 q p) : Known c px r0 ops q (r.last p.1 p.2)
  | jitter (r : Refresh F) (o : Op.refresh r ∈ ops) (k : Nat) (f : F) (h : Known c px r0 ops q f) : Known c px r0 ops q (r.jitter q.1 q.2 k f)
  | frame (f : Frame F) (o : Op.frame f ∈ ops) (y x : Nat) (h : (y, x) ∈ px) (n : Near 2 (y, x) q) : Known c px r0 ops q (f.cur y x)
  | update (f : Frame F) (o : Op.frame f ∈ ops) (y x : Nat) (h : (y, x) ∈ px) (n : Near 2 (y, x) q) (g g' : F) (k : Known c px r0 ops q g)
      (u : f.nupd y x q g = some g') : Known c px r0 ops q g'

end Litiv.Pawcs.Spec
