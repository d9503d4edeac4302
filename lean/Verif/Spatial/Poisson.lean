import Mathlib.Analysis.SpecialFunctions.Trigonometric.Basic
import Mathlib.Analysis.Real.Sqrt
import Mathlib.Algebra.Order.Floor.Semiring
import Mathlib.Data.Finset.Prod

/-!
# `PoissonDiskSample` (C194)

`/repo/include/bss-util/RandomQueue.h:60-138` in exact arithmetic over the real numbers. The random numbers are arbitrary functions.
The queue is the list of its elements (C16 shows that `RandomQueue` behaves like that). `none` is undefined behaviour: an access outside the grid or the queue.
-/

namespace Verif.Spatial.Poisson

open Real

/-! ## Code -/

abbrev Pt := ℝ × ℝ

/-- The arguments `rect`, `mindist` and `pointsPerIteration`. `s` is the size of a grid element (two numbers) in units of `uint64_t`: 1 for `float`, 2 for
`double`. -/
structure Cfg where
  r0 : ℝ
  r1 : ℝ
  r2 : ℝ
  r3 : ℝ
  md : ℝ
  n : ℕ
  s : ℕ

/-- The random numbers: the index popped by the k-th `Pop` of a queue with the given length, and the i-th radius and angle afterwards. -/
structure Draws where
  index : ℕ → ℕ → ℕ
  rad : ℕ → ℕ → ℝ
  ang : ℕ → ℕ → ℝ

/-- The grid (`none`: all bits set), the queue, and the points given to `f` so far. -/
structure St where
  grid : List (Option Pt)
  list : List Pt
  out : List Pt

/-- `cell`, `RandomQueue.h:74`. -/
noncomputable def cell (c : Cfg) : ℝ := c.md / √2

/-- `gw`, `RandomQueue.h:75-77`. -/
noncomputable def gw (c : Cfg) : ℕ := ⌈(c.r2 - c.r0) / cell c⌉₊ + 4

/-- `gh`, `RandomQueue.h:76-78`. -/
noncomputable def gh (c : Cfg) : ℕ := ⌈(c.r3 - c.r1) / cell c⌉₊ + 4

/-- `_PDS_imageToGrid`, `RandomQueue.h:61-65`. -/
noncomputable def toGrid (c : Cfg) (p : Pt) : ℕ :=
  ⌊(p.1 - c.r0) / cell c⌋₊ + gw c * ⌊(p.2 - c.r1) / cell c⌋₊ + 2 + gw c + gw c

/-- `~ig[k] != 0`, `RandomQueue.h:80, 112`: `ig` is the grid as an array of `uint64_t`. -/
def used (c : Cfg) (g : List (Option Pt)) (k : ℕ) : Option Bool := g[k / c.s]?.map Option.isSome

/-- `DistSqr`, `bss_util.h:668-671`. -/
noncomputable def distSqr (q p : Pt) : ℝ := (q.1 - p.1) * (q.1 - p.1) + (q.2 - p.2) * (q.2 - p.2)

/-- `POISSONSAMPLE_CHECK(k)`, `RandomQueue.h:112`: whether the point is skipped. The distance to an element with all bits set is not a number, and not less. -/
noncomputable def check (c : Cfg) (g : List (Option Pt)) (p : Pt) (k : ℕ) : Option Bool :=
  (used c g k).bind fun u =>
    if u then g[k]?.map fun
      | some q => decide (distSqr q p < c.md * c.md)
      | none => false
    else some false

/-- `~(ig[edge - 1] & ig[edge] & ig[edge + 1])`, `RandomQueue.h:117`. -/
def row (c : Cfg) (g : List (Option Pt)) (edge : ℕ) : Option Bool :=
  (used c g (edge - 1)).bind fun x => (used c g edge).bind fun y => (used c g (edge + 1)).map fun z => x || y || z

/-- Tests one after the other, until one skips the point. -/
def tests : List (Option Bool) → Option Bool
  | [] => some false
  | none :: _ => none
  | some true :: _ => some true
  | some false :: l => tests l

/-- `RandomQueue.h:110-131`: whether the point is skipped. (`edge - 2` does not wrap: `toGrid` adds two rows and two columns.) -/
noncomputable def skip (c : Cfg) (g : List (Option Pt)) (p : Pt) (center : ℕ) : Option Bool :=
  let e0 := center - gw c - gw c
  let e1 := e0 + gw c
  let e2 := e1 + gw c
  let e3 := e2 + gw c
  let e4 := e3 + gw c
  tests [check c g p (e0 - 1), check c g p e0, check c g p (e0 + 1),
    row c g e1, check c g p (e1 - 2), check c g p (e1 + 2),
    row c g e2, check c g p (e2 - 2), check c g p (e2 + 2),
    row c g e3, check c g p (e3 - 2), check c g p (e3 + 2),
    check c g p (e4 - 1), check c g p e4, check c g p (e4 + 1)]

/-- `list.Push(pt); f(pt); grid[center] = pt`, `RandomQueue.h:88-90, 132-134`. -/
def accept (st : St) (p : Pt) (center : ℕ) : Option St :=
  if center < st.grid.length then some ⟨st.grid.set center (some p), st.list ++ [p], st.out ++ [p]⟩ else none

/-- The body of the inner loop, `RandomQueue.h:102-135`. -/
noncomputable def trial (c : Cfg) (point : Pt) (radius angle : ℝ) (st : St) : Option St :=
  let r := c.md * radius
  let p : Pt := (point.1 + r * cos angle, point.2 + r * sin angle)
  if p.1 > c.r0 ∧ p.1 < c.r2 ∧ p.2 > c.r1 ∧ p.2 < c.r3 then
    (skip c st.grid p (toGrid c p)).bind fun b => if b then some st else accept st p (toGrid c p)
  else some st

/-- The inner loop, `RandomQueue.h:100-136`, from `i` on with `m` rounds left. -/
noncomputable def trials (c : Cfg) (d : Draws) (k : ℕ) (point : Pt) : ℕ → ℕ → St → Option St
  | 0, _, st => some st
  | m + 1, i, st => (trial c point (d.rad k i) (d.ang k i) st).bind (trials c d k point m (i + 1))

/-- `RandomQueue::Pop`, `RandomQueue.h:29-38`. -/
def qPop (l : List Pt) (i : ℕ) : Option (Pt × List Pt) :=
  l[i]?.bind fun r => l.getLast?.map fun z => (r, (l.set i z).dropLast)

/-- The outer loop, `RandomQueue.h:96-137`, at most `fuel` rounds; `k` is the number of the round. -/
noncomputable def run (c : Cfg) (d : Draws) : ℕ → ℕ → St → Option St
  | 0, _, st => some st
  | fuel + 1, k, st =>
    if st.list = [] then some st
    else (qPop st.list (d.index k st.list.length)).bind fun r => (trials c d k r.1 c.n 0 { st with list := r.2 }).bind (run c d fuel (k + 1))

/-- The start, `RandomQueue.h:79-90`; `p` is the first random point. -/
noncomputable def start (c : Cfg) (p : Pt) : Option St :=
  accept ⟨List.replicate (gw c * gh c) none, [], []⟩ p (toGrid c p)

/-! ## Specification -/

/-- The distance of two points. -/
noncomputable def eDist (p q : Pt) : ℝ := √((p.1 - q.1) ^ 2 + (p.2 - q.2) ^ 2)

/-- The points of the rectangle, without the right and the lower side. -/
def InRect (c : Cfg) (p : Pt) : Prop := c.r0 ≤ p.1 ∧ p.1 < c.r2 ∧ c.r1 ≤ p.2 ∧ p.2 < c.r3

/-- What the random generator promises: indices within the queue, and radii in [1, 2). -/
def Draws.Valid (d : Draws) : Prop := (∀ k len, 0 < len → d.index k len < len) ∧ ∀ k i, 1 ≤ d.rad k i ∧ d.rad k i < 2

/-! ## Proofs -/

theorem le_eDist {m : ℝ} (hm : 0 < m) {p q : Pt} : m ≤ eDist p q ↔ m * m ≤ distSqr p q := by
  unfold eDist distSqr
  rw [Real.le_sqrt' hm, sq, sq, sq]

theorem eDist_comm (p q : Pt) : eDist p q = eDist q p := by
  unfold eDist
  congr 1
  ring

theorem cell_pos {c : Cfg} (h : 0 < c.md) : 0 < cell c := div_pos h (by positivity)

theorem cell_sq {c : Cfg} : 2 * (cell c * cell c) = c.md * c.md := by
  unfold cell
  rw [div_mul_div_comm, Real.mul_self_sqrt (by norm_num)]
  ring

section
variable {c : Cfg} (hmd : 0 < c.md)
include hmd

theorem col_lt {p : Pt} (h : InRect c p) : ⌊(p.1 - c.r0) / cell c⌋₊ + 4 < gw c := by
  have hc := cell_pos hmd
  unfold gw
  have : ⌊(p.1 - c.r0) / cell c⌋₊ < ⌈(c.r2 - c.r0) / cell c⌉₊ := by
    rw [Nat.floor_lt (div_nonneg (by linarith [h.1]) hc.le)]
    exact lt_of_lt_of_le (div_lt_div_of_pos_right (by linarith [h.2.1]) hc) (Nat.le_ceil _)
  omega

theorem row_lt {p : Pt} (h : InRect c p) : ⌊(p.2 - c.r1) / cell c⌋₊ + 4 < gh c := by
  have hc := cell_pos hmd
  unfold gh
  have : ⌊(p.2 - c.r1) / cell c⌋₊ < ⌈(c.r3 - c.r1) / cell c⌉₊ := by
    rw [Nat.floor_lt (div_nonneg (by linarith [h.2.2.1]) hc.le)]
    exact lt_of_lt_of_le (div_lt_div_of_pos_right (by linarith [h.2.2.2]) hc) (Nat.le_ceil _)
  omega

/-- The whole neighbourhood is inside the grid. -/
theorem grid_bound {p : Pt} (h : InRect c p) : toGrid c p + gw c + gw c + 2 < gw c * gh c := by
  have h1 := col_lt hmd h
  have h2 := row_lt hmd h
  unfold toGrid
  have := Nat.mul_le_mul_left (gw c) (show ⌊(p.2 - c.r1) / cell c⌋₊ + 5 ≤ gh c by omega)
  rw [Nat.mul_add] at this
  omega

theorem floor_close {a b m : ℝ} (ha : 0 ≤ a) (hb : 0 ≤ b) (h : a - b < m) (hm : m ≤ 2) : ⌊a⌋₊ ≤ ⌊b⌋₊ + 2 := by
  have h1 := Nat.floor_le ha
  have h2 := Nat.lt_floor_add_one b
  have : (⌊a⌋₊ : ℝ) < ⌊b⌋₊ + 3 := by linarith
  have : ⌊a⌋₊ < ⌊b⌋₊ + 3 := by exact_mod_cast this
  omega

theorem floor_far {a b : ℝ} (ha : 0 ≤ a) (h : ⌊a⌋₊ = ⌊b⌋₊ + 2) : 1 < a - b := by
  have h1 := Nat.floor_le ha
  have h2 := Nat.lt_floor_add_one b
  have : (⌊a⌋₊ : ℝ) = ⌊b⌋₊ + 2 := by exact_mod_cast h
  linarith

/-- Points closer than the distance are in neighbouring cells: at most two apart, and not two in both directions. -/
theorem near {p q : Pt} (hp : InRect c p) (hq : InRect c q) (h : distSqr q p < c.md * c.md) :
    ∃ x y x' y' : ℕ, toGrid c p = x + gw c * y + 2 + gw c + gw c ∧ toGrid c q = x' + gw c * y' + 2 + gw c + gw c ∧
      x' ≤ x + 2 ∧ x ≤ x' + 2 ∧ y' ≤ y + 2 ∧ y ≤ y' + 2 ∧ ¬ ((x' = x + 2 ∨ x = x' + 2) ∧ (y' = y + 2 ∨ y = y' + 2)) := by
  have hc := cell_pos hmd
  refine ⟨_, _, _, _, rfl, rfl, ?_⟩
  have hpx : 0 ≤ (p.1 - c.r0) / cell c := div_nonneg (by linarith [hp.1]) hc.le
  have hpy : 0 ≤ (p.2 - c.r1) / cell c := div_nonneg (by linarith [hp.2.2.1]) hc.le
  have hqx : 0 ≤ (q.1 - c.r0) / cell c := div_nonneg (by linarith [hq.1]) hc.le
  have hqy : 0 ≤ (q.2 - c.r1) / cell c := div_nonneg (by linarith [hq.2.2.1]) hc.le
  have hd : ((q.1 - c.r0) / cell c - (p.1 - c.r0) / cell c) ^ 2 + ((q.2 - c.r1) / cell c - (p.2 - c.r1) / cell c) ^ 2 < 2 := by
    have e : ((q.1 - c.r0) / cell c - (p.1 - c.r0) / cell c) ^ 2 + ((q.2 - c.r1) / cell c - (p.2 - c.r1) / cell c) ^ 2
        = distSqr q p / (cell c * cell c) := by
      unfold distSqr
      field_simp
      ring
    rw [e, div_lt_iff₀ (mul_pos hc hc), cell_sq]
    exact h
  generalize (p.1 - c.r0) / cell c = a at *
  generalize (q.1 - c.r0) / cell c = a' at *
  generalize (p.2 - c.r1) / cell c = b at *
  generalize (q.2 - c.r1) / cell c = b' at *
  have far : ∀ {u v : ℝ}, 1 < u ^ 2 → 1 < v ^ 2 → ¬ u ^ 2 + v ^ 2 < 2 := by
    intro u v h1 h2 h3
    linarith
  have one : ∀ {u : ℝ}, 1 < u → 1 < u ^ 2 := fun {u} hu => by nlinarith
  have close : ∀ {u v : ℝ}, u ^ 2 + v ^ 2 < 2 → u < 2 := fun {u v} hu => by nlinarith [sq_nonneg v, sq_nonneg (u - 2)]
  refine ⟨floor_close hmd hqx hpx (close hd) le_rfl, floor_close hmd hpx hqx (m := 2) ?_ le_rfl,
    floor_close hmd hqy hpy (close ((add_comm _ _).trans_lt hd)) le_rfl, floor_close hmd hpy hqy (m := 2) ?_ le_rfl, ?_⟩
  · apply close (v := b' - b); rw [← neg_sq (a - a')]; simpa using hd
  · apply close (v := a' - a); rw [← neg_sq (b - b')]; rw [add_comm]; simpa using hd
  · rintro ⟨hx, hy⟩
    refine far ?_ ?_ hd
    · rcases hx with hx | hx
      · exact one (floor_far hmd hqx hx)
      · rw [← neg_sq, neg_sub]
        exact one (floor_far hmd hpx hx)
    · rcases hy with hy | hy
      · exact one (floor_far hmd hqy hy)
      · rw [← neg_sq, neg_sub]
        exact one (floor_far hmd hpy hy)

end

theorem tests_false : ∀ {l : List (Option Bool)}, tests l = some false → ∀ x ∈ l, x = some false
  | [], _, _, h => by cases h
  | none :: _, h, _, _ => by cases h
  | some true :: _, h, _, _ => by cases h
  | some false :: l, h, x, hx => by
    rcases List.mem_cons.1 hx with rfl | hx
    · rfl
    · exact tests_false (l := l) h x hx

theorem tests_total : ∀ {l : List (Option Bool)}, (∀ x ∈ l, x.isSome = true) → ∃ b, tests l = some b
  | [], _ => ⟨_, rfl⟩
  | none :: _, h => by cases h none (by simp)
  | some true :: _, _ => ⟨_, rfl⟩
  | some false :: l, h => tests_total (l := l) fun x hx => h x (by simp [hx])

variable {c : Cfg} {g : List (Option Pt)} {p : Pt}

theorem used_total (hs : c.s = 1) {k : ℕ} (h : k < g.length) : ∃ b, used c g k = some b := by
  unfold used
  rw [hs, Nat.div_one, List.getElem?_eq_getElem h]
  exact ⟨_, rfl⟩

theorem used_true (hs : c.s = 1) {k : ℕ} {q : Pt} (h : g[k]? = some (some q)) : used c g k = some true := by
  unfold used
  rw [hs, Nat.div_one, h]
  rfl

theorem check_total (hs : c.s = 1) {k : ℕ} (h : k < g.length) : (check c g p k).isSome = true := by
  unfold check
  obtain ⟨b, hb⟩ := used_total hs h
  rw [hb]
  cases b
  · rfl
  · simp [h]

theorem row_total (hs : c.s = 1) {k : ℕ} (h : k + 1 < g.length) : (row c g k).isSome = true := by
  unfold row
  obtain ⟨b, hb⟩ := used_total (c := c) (g := g) hs (k := k - 1) (by omega)
  obtain ⟨b1, hb1⟩ := used_total (c := c) (g := g) hs (k := k) (by omega)
  obtain ⟨b2, hb2⟩ := used_total (c := c) (g := g) hs (k := k + 1) (by omega)
  rw [hb, hb1, hb2]
  rfl

theorem check_false (hs : c.s = 1) {k : ℕ} {q : Pt} (h : g[k]? = some (some q)) (hc : check c g p k = some false) :
    c.md * c.md ≤ distSqr q p := by
  unfold check at hc
  rw [used_true hs h] at hc
  simpa [h] using hc

theorem row_false (hs : c.s = 1) {k : ℕ} (hk : k + 1 < g.length) (hc : row c g k = some false) {j : ℕ} (hj : j = k - 1 ∨ j = k ∨ j = k + 1) {q : Pt} :
    g[j]? ≠ some (some q) := by
  intro h
  unfold row at hc
  have hu := used_true hs h
  obtain ⟨b, hb⟩ := used_total (c := c) (g := g) hs (k := k - 1) (by omega)
  obtain ⟨b1, hb1⟩ := used_total (c := c) (g := g) hs (k := k) (by omega)
  obtain ⟨b2, hb2⟩ := used_total (c := c) (g := g) hs (k := k + 1) (by omega)
  rw [hb, hb1, hb2] at hc
  rcases hj with rfl | rfl | rfl
  · rw [hu] at hb; cases hb; simp at hc
  · rw [hu] at hb1; cases hb1; simp at hc
  · rw [hu] at hb2; cases hb2; simp at hc

theorem skip_total (hmd : 0 < c.md) (hs : c.s = 1) (hg : g.length = gw c * gh c) (hp : InRect c p) : ∃ b, skip c g p (toGrid c p) = some b := by
  have hb := grid_bound hmd hp
  have h2 : gw c + gw c + 2 ≤ toGrid c p := by unfold toGrid; omega
  have hw : 4 ≤ gw c := by unfold gw; omega
  apply tests_total
  intro x hx
  simp only [List.mem_cons, List.not_mem_nil, or_false] at hx
  rcases hx with rfl | rfl | rfl | rfl | rfl | rfl | rfl | rfl | rfl | rfl | rfl | rfl | rfl | rfl | rfl
  all_goals first
    | exact check_total hs (by omega)
    | exact row_total hs (by omega)

/-- A point that is not skipped has the distance from all the points of the grid, and its cell is free. -/
theorem skip_false (hmd : 0 < c.md) (hs : c.s = 1) (hg : g.length = gw c * gh c) (hp : InRect c p) (h : skip c g p (toGrid c p) = some false) :
    (∀ q, InRect c q → g[toGrid c q]? = some (some q) → c.md * c.md ≤ distSqr q p) ∧ ∀ q, g[toGrid c p]? ≠ some (some q) := by
  have hb := grid_bound hmd hp
  have h2 : gw c + gw c + 2 ≤ toGrid c p := by unfold toGrid; omega
  have hw : 4 ≤ gw c := by unfold gw; omega
  have ht := tests_false h
  simp only [List.mem_cons, List.not_mem_nil, or_false, forall_eq_or_imp, forall_eq] at ht
  obtain ⟨t1, t2, t3, t4, t5, t6, t7, t8, t9, t10, t11, t12, t13, t14, t15⟩ := ht
  refine ⟨fun q hq hgq => ?_, fun q => row_false hs (by omega) t7 (by omega)⟩
  by_contra hlt
  push Not at hlt
  obtain ⟨x, y, x', y', e, e', k1, k2, k3, k4, k5⟩ := near hmd hp hq hlt
  have ey : y' = y ∨ y' = y + 1 ∨ y' = y + 2 ∨ y = y' + 1 ∨ y = y' + 2 := by omega
  have cf : ∀ {k}, check c g p k = some false → toGrid c q ≠ k := by
    intro k hk hkk
    rw [hkk] at hgq
    exact absurd hlt (not_lt.2 (check_false hs hgq hk))
  have rf : ∀ {k}, k + 1 < g.length → row c g k = some false → ¬ (toGrid c q = k - 1 ∨ toGrid c q = k ∨ toGrid c q = k + 1) := by
    intro k hk hr hj
    exact row_false hs hk hr hj hgq
  replace t1 := cf t1
  replace t2 := cf t2
  replace t3 := cf t3
  replace t4 := rf (by omega) t4
  replace t5 := cf t5
  replace t6 := cf t6
  replace t7 := rf (by omega) t7
  replace t8 := cf t8
  replace t9 := cf t9
  replace t10 := rf (by omega) t10
  replace t11 := cf t11
  replace t12 := cf t12
  replace t13 := cf t13
  replace t14 := cf t14
  replace t15 := cf t15
  clear hgq cf rf hlt h
  rcases ey with rfl | rfl | rfl | rfl | rfl
  · omega
  · rw [Nat.mul_add] at e'; omega
  · rw [Nat.mul_add] at e'; omega
  · rw [Nat.mul_add] at e; omega
  · rw [Nat.mul_add] at e; omega

/-- The invariant after `pops` rounds. -/
structure Inv (c : Cfg) (st : St) (pops : ℕ) : Prop where
  glen : st.grid.length = gw c * gh c
  count : st.out.length = pops + st.list.length
  sub : ∀ p ∈ st.list, p ∈ st.out
  rect : ∀ p ∈ st.out, InRect c p
  grid : ∀ k q, st.grid[k]? = some (some q) ↔ q ∈ st.out ∧ toGrid c q = k
  pair : st.out.Pairwise fun p q => c.md ≤ eDist p q
  ring : ∀ i p, st.out[i + 1]? = some p → ∃ j ≤ i, ∃ q, st.out[j]? = some q ∧ c.md ≤ eDist p q ∧ eDist p q < 2 * c.md

/-- The number of cells of the rectangle. -/
noncomputable def cells (c : Cfg) : ℕ := ⌈(c.r2 - c.r0) / cell c⌉₊ * ⌈(c.r3 - c.r1) / cell c⌉₊

theorem Inv.bound (hmd : 0 < c.md) {st : St} {n : ℕ} (h : Inv c st n) : st.out.length ≤ cells c := by
  classical
  have hnd : st.out.Nodup := by
    refine h.pair.imp ?_
    rintro a b hab rfl
    have : eDist a a = 0 := by simp [eDist]
    linarith
  rw [← List.toFinset_card_of_nodup hnd]
  unfold cells
  rw [← Finset.card_range (⌈(c.r2 - c.r0) / cell c⌉₊), ← Finset.card_range (⌈(c.r3 - c.r1) / cell c⌉₊), ← Finset.card_product]
  apply Finset.card_le_card_of_injOn fun p : Pt => (⌊(p.1 - c.r0) / cell c⌋₊, ⌊(p.2 - c.r1) / cell c⌋₊)
  · intro p hp
    have hp := h.rect p (by simpa using hp)
    have h1 := col_lt hmd hp
    have h2 := row_lt hmd hp
    unfold gw at h1
    unfold gh at h2
    simp only [Finset.coe_product, Finset.coe_range, Set.mem_prod, Set.mem_Iio]
    omega
  · intro p hp q hq heq
    have hp' : p ∈ st.out := by simpa using hp
    have hq' : q ∈ st.out := by simpa using hq
    have e : toGrid c p = toGrid c q := by
      simp only [Prod.mk.injEq] at heq
      unfold toGrid
      rw [heq.1, heq.2]
    have h1 := (h.grid _ p).2 ⟨hp', e⟩
    have h2 := (h.grid _ q).2 ⟨hq', rfl⟩
    rw [h1] at h2
    simpa using h2

/-- Accepting a point that has been tested. -/
theorem Inv.accept (hmd : 0 < c.md) {st : St} {n : ℕ} (h : Inv c st n) {p : Pt} (hp : InRect c p)
    (hfar : ∀ q ∈ st.out, c.md ≤ eDist q p) (hfree : ∀ q, st.grid[toGrid c p]? ≠ some (some q))
    (hring : st.out ≠ [] → ∃ q ∈ st.out, c.md ≤ eDist p q ∧ eDist p q < 2 * c.md) :
    ∃ st', accept st p (toGrid c p) = some st' ∧ Inv c st' n ∧ st'.out = st.out ++ [p] := by
  have hb := grid_bound hmd hp
  unfold Poisson.accept
  rw [if_pos (by rw [h.glen]; omega)]
  refine ⟨_, rfl, ⟨by simp [h.glen], by simp [h.count]; omega, ?_, ?_, ?_, ?_, ?_⟩, rfl⟩
  · intro q hq
    simp only [List.mem_append, List.mem_singleton] at hq ⊢
    exact hq.imp (h.sub q) id
  · intro q hq
    simp only [List.mem_append, List.mem_singleton] at hq
    rcases hq with hq | rfl
    · exact h.rect q hq
    · exact hp
  · intro k q
    simp only [List.mem_append, List.mem_singleton, List.getElem?_set]
    by_cases hk : toGrid c p = k
    · subst hk
      rw [if_pos rfl, if_pos (by rw [h.glen]; omega)]
      constructor
      · intro he
        have : p = q := by simpa using he
        exact ⟨Or.inr this.symm, by rw [this]⟩
      · rintro ⟨hq | rfl, hk⟩
        · exact absurd ((h.grid _ q).2 ⟨hq, hk⟩) (hfree q)
        · rfl
    · rw [if_neg hk, h.grid]
      constructor
      · rintro ⟨h1, h2⟩
        exact ⟨Or.inl h1, h2⟩
      · rintro ⟨h1 | rfl, h2⟩
        · exact ⟨h1, h2⟩
        · exact absurd h2 hk
  · rw [List.pairwise_append]
    exact ⟨h.pair, List.pairwise_singleton _ _, fun a ha b hb => by rw [List.mem_singleton.1 hb]; exact hfar a ha⟩
  · intro i q hq
    dsimp only at hq ⊢
    by_cases hi : i + 1 < st.out.length
    · rw [List.getElem?_append_left hi] at hq
      obtain ⟨j, hj, z, hz, hz'⟩ := h.ring i q hq
      exact ⟨j, hj, z, by rw [List.getElem?_append_left (by omega)]; exact hz, hz'⟩
    · have hlen : i + 1 < (st.out ++ [p]).length := (List.getElem?_eq_some_iff.1 hq).1
      have hi' : i + 1 = st.out.length := by simp at hlen; omega
      rw [hi', List.getElem?_append_right le_rfl] at hq
      have hqp : p = q := by simpa using hq
      subst hqp
      obtain ⟨z, hz, hz'⟩ := hring (by rintro h0; rw [h0] at hi'; simp at hi')
      obtain ⟨j, hj, hjz⟩ := List.getElem_of_mem hz
      exact ⟨j, by omega, z, by rw [List.getElem?_append_left hj, List.getElem?_eq_getElem hj, hjz], hz'⟩

theorem polar_dist {c : Cfg} (hmd : 0 < c.md) (q : Pt) {r t : ℝ} (hr : 1 ≤ r) :
    eDist (q.1 + c.md * r * cos t, q.2 + c.md * r * sin t) q = c.md * r := by
  unfold eDist
  dsimp only
  have : (q.1 + c.md * r * cos t - q.1) ^ 2 + (q.2 + c.md * r * sin t - q.2) ^ 2 = (c.md * r) ^ 2 := by
    linear_combination (c.md * r) ^ 2 * cos_sq_add_sin_sq t
  rw [this, Real.sqrt_sq (by positivity)]

theorem Inv.trial (hmd : 0 < c.md) (hs : c.s = 1) {st : St} {n : ℕ} (h : Inv c st n) {q : Pt} (hq : q ∈ st.out) {r t : ℝ} (hr : 1 ≤ r ∧ r < 2) :
    ∃ st', trial c q r t st = some st' ∧ Inv c st' n ∧ st.out <+: st'.out := by
  unfold Poisson.trial
  dsimp only
  obtain ⟨p, hp⟩ : ∃ p : Pt, p = (q.1 + c.md * r * cos t, q.2 + c.md * r * sin t) := ⟨_, rfl⟩
  have hdist : eDist p q = c.md * r := by rw [hp]; exact polar_dist hmd q hr.1
  have e1 : q.1 + c.md * r * cos t = p.1 := by rw [hp]
  have e2 : q.2 + c.md * r * sin t = p.2 := by rw [hp]
  rw [e1, e2]
  by_cases hc : p.1 > c.r0 ∧ p.1 < c.r2 ∧ p.2 > c.r1 ∧ p.2 < c.r3
  · rw [if_pos hc]
    have hin : InRect c p := ⟨hc.1.le, hc.2.1, hc.2.2.1.le, hc.2.2.2⟩
    obtain ⟨b, hb⟩ := skip_total hmd hs h.glen hin
    rw [show ((p.1, p.2) : Pt) = p from rfl, hb, Option.bind_some]
    cases b
    · obtain ⟨k1, k2⟩ := skip_false hmd hs h.glen hin hb
      obtain ⟨st', a1, a2, a3⟩ := h.accept hmd hin (fun z hz => (le_eDist hmd).2 (k1 z (h.rect z hz) ((h.grid _ z).2 ⟨hz, rfl⟩))) k2
        (fun _ => ⟨q, hq, by rw [hdist]; nlinarith, by rw [hdist]; nlinarith⟩)
      exact ⟨st', by simpa using a1, a2, by rw [a3]; exact List.prefix_append _ _⟩
    · exact ⟨st, rfl, h, List.prefix_rfl⟩
  · rw [if_neg hc]
    exact ⟨st, rfl, h, List.prefix_rfl⟩

theorem Inv.trials (hmd : 0 < c.md) (hs : c.s = 1) {d : Draws} (hd : d.Valid) {k : ℕ} {q : Pt} {n : ℕ} :
    ∀ (m i : ℕ) {st : St}, Inv c st n → q ∈ st.out → ∃ st', trials c d k q m i st = some st' ∧ Inv c st' n ∧ st.out <+: st'.out
  | 0, _, st, h, _ => ⟨st, rfl, h, List.prefix_rfl⟩
  | m + 1, i, st, h, hq => by
    obtain ⟨s1, a1, a2, a3⟩ := h.trial hmd hs hq (t := d.ang k i) (hd.2 k i)
    obtain ⟨s2, b1, b2, b3⟩ := Inv.trials hmd hs hd (k := k) m (i + 1) a2 (a3.subset hq)
    exact ⟨s2, by rw [Poisson.trials, a1, Option.bind_some, b1], b2, a3.trans b3⟩

theorem qPop_spec {l : List Pt} {i : ℕ} (hi : i < l.length) :
    ∃ r l', qPop l i = some (r, l') ∧ r ∈ l ∧ (∀ x ∈ l', x ∈ l) ∧ l'.length + 1 = l.length := by
  unfold qPop
  have hne : l ≠ [] := by rintro rfl; simp at hi
  rw [List.getElem?_eq_getElem hi, List.getLast?_eq_getLast_of_ne_nil hne]
  refine ⟨_, _, rfl, List.getElem_mem hi, ?_, by simp; omega⟩
  intro x hx
  have := List.mem_or_eq_of_mem_set (List.mem_of_mem_dropLast hx)
  rcases this with h | rfl
  · exact h
  · exact List.getLast_mem hne

theorem Inv.run (hmd : 0 < c.md) (hs : c.s = 1) {d : Draws} (hd : d.Valid) :
    ∀ (fuel k : ℕ) {st : St} {n : ℕ}, Inv c st n → cells c ≤ n + fuel →
      ∃ st' n', run c d fuel k st = some st' ∧ Inv c st' n' ∧ st'.list = [] ∧ st.out <+: st'.out
  | 0, _, st, n, h, hf => by
    have := h.bound hmd
    have hc := h.count
    exact ⟨st, n, rfl, h, List.length_eq_zero_iff.1 (by omega), List.prefix_rfl⟩
  | fuel + 1, k, st, n, h, hf => by
    rw [Poisson.run]
    by_cases hl : st.list = []
    · rw [if_pos hl]
      exact ⟨st, n, rfl, h, hl, List.prefix_rfl⟩
    · rw [if_neg hl]
      have hlen : 0 < st.list.length := List.length_pos_iff.2 hl
      obtain ⟨r, l', e, hr, hsub, hl'⟩ := qPop_spec (hd.1 k _ hlen)
      have hinv : Inv c { st with list := l' } (n + 1) :=
        ⟨h.glen, by have := h.count; dsimp only; omega, fun p hp => h.sub p (hsub p hp), h.rect, h.grid, h.pair, h.ring⟩
      obtain ⟨s1, a1, a2, a3⟩ := hinv.trials hmd hs hd (k := k) c.n 0 (q := r) (h.sub r hr)
      obtain ⟨s2, n2, b1, b2, b3, b4⟩ := Inv.run hmd hs hd fuel (k + 1) a2 (by omega)
      rw [e, Option.bind_some]
      dsimp only
      rw [a1, Option.bind_some]
      exact ⟨s2, n2, b1, b2, b3, a3.trans b4⟩

/-- **C194**: with elements of 64 bits (`float`), for all random numbers: the sampling ends without undefined behaviour after at most as many rounds as the rectangle
has cells, with at most so many points; the first point is the first random one, all the points are in the rectangle, any two of them have at least the
distance `mindist`, and each but the first is closer than twice that to an earlier one. -/
theorem C194_samples_partial {c : Cfg} (hmd : 0 < c.md) (hs : c.s = 1) {d : Draws} (hd : d.Valid) {p : Pt} (hp : InRect c p) {fuel : ℕ} (hf : cells c ≤ fuel) :
    ∃ st, (start c p).bind (run c d fuel 0) = some st ∧ st.list = [] ∧ st.out.length ≤ cells c ∧ st.out[0]? = some p ∧
      (∀ q ∈ st.out, InRect c q) ∧ st.out.Pairwise (fun q r => c.md ≤ eDist q r) ∧
      ∀ i q, st.out[i + 1]? = some q → ∃ j ≤ i, ∃ r, st.out[j]? = some r ∧ c.md ≤ eDist q r ∧ eDist q r < 2 * c.md := by
  have h0 : Inv c ⟨List.replicate (gw c * gh c) none, [], []⟩ 0 :=
    ⟨by simp, rfl, by simp, by simp, fun k q => by simp [List.getElem?_replicate], List.Pairwise.nil, by simp⟩
  obtain ⟨s1, a1, a2, a3⟩ := h0.accept hmd hp (by simp) (fun q => by simp [List.getElem?_replicate]) (by simp)
  obtain ⟨s2, n2, b1, b2, b3, b4⟩ := a2.run hmd hs hd fuel 0 (by omega)
  refine ⟨s2, by rw [start, a1, Option.bind_some, b1], b3, b2.bound hmd, ?_, b2.rect, b2.pair, b2.ring⟩
  rw [a3] at b4
  obtain ⟨t, ht⟩ := b4
  rw [← ht]
  simp

/-- A rectangle of 3 × 3 cells, and constant random numbers. -/
example : ∃ (c : Cfg) (d : Draws) (p : Pt), 0 < c.md ∧ c.s = 1 ∧ d.Valid ∧ InRect c p ∧ 0 < c.n :=
  ⟨⟨0, 0, 3, 3, √2, 30, 1⟩, ⟨fun _ _ => 0, fun _ _ => 3 / 2, fun _ _ => 1⟩, (1, 1), by simp, rfl,
    ⟨fun _ _ h => h, fun _ _ => by norm_num⟩, by norm_num [InRect], by norm_num⟩

/-- With elements of 128 bits (`double`) the emptiness of a cell is read from another cell, and points much closer than `mindist` are given to `f`. -/
theorem C194_double_counterexample : ∃ (c : Cfg) (d : Draws) (p : Pt) (st : St), c.s = 2 ∧ 0 < c.md ∧ d.Valid ∧ InRect c p ∧
    (start c p).bind (run c d 1 0) = some st ∧ ∃ q r, [q, r].Sublist st.out ∧ eDist q r < c.md := by
  have hs2 : 0 < √(2 : ℝ) := by positivity
  have hm : √2 * √2 = (2 : ℝ) := Real.mul_self_sqrt (by norm_num)
  let c : Cfg := ⟨0, 0, 8, 8, √2, 2, 2⟩
  have hcell : cell c = 1 := div_self hs2.ne'
  have hgw : gw c = 12 := by
    unfold gw
    rw [hcell]
    have : ⌈((8 : ℝ) - 0) / 1⌉₊ = 8 := by norm_num
    show ⌈((8 : ℝ) - 0) / 1⌉₊ + 4 = 12
    rw [this]
  have hgh : gh c = 12 := by
    unfold gh
    rw [hcell]
    have : ⌈((8 : ℝ) - 0) / 1⌉₊ = 8 := by norm_num
    show ⌈((8 : ℝ) - 0) / 1⌉₊ + 4 = 12
    rw [this]
  have fl : ∀ (x : ℝ) (n : ℕ), (n : ℝ) ≤ x → x < n + 1 → ⌊x⌋₊ = n := fun x n h1 h2 => (Nat.floor_eq_iff (le_trans (Nat.cast_nonneg n) h1)).2 ⟨h1, h2⟩
  have tg : ∀ (x y : ℝ) (m n : ℕ), (m : ℝ) ≤ x → x < m + 1 → (n : ℝ) ≤ y → y < n + 1 → toGrid c (x, y) = m + 12 * n + 26 := by
    intro x y m n h1 h2 h3 h4
    unfold toGrid
    rw [hcell, hgw]
    show ⌊(x - 0) / 1⌋₊ + 12 * ⌊(y - 0) / 1⌋₊ + 2 + 12 + 12 = _
    rw [sub_zero, div_one, sub_zero, div_one, fl x m h1 h2, fl y n h3 h4]
  have hlt : √(2 : ℝ) < 1.5 := by rw [Real.sqrt_lt' (by norm_num)]; norm_num
  have hgt : 1.4 < √(2 : ℝ) := by rw [Real.lt_sqrt (by norm_num)]; norm_num
  refine ⟨c, ⟨fun _ _ => 0, fun _ i => if i = 0 then √2 else √2 * 1.05, fun _ _ => 0⟩, (4.5, 4.5),
    ⟨((List.replicate 144 none).set 78 (some (4.5, 4.5))).set 80 (some (6.5, 4.5)) |>.set 80 (some (6.6, 4.5)),
      [(6.5, 4.5), (6.6, 4.5)], [(4.5, 4.5), (6.5, 4.5), (6.6, 4.5)]⟩, rfl, hs2, ⟨fun _ _ h => h, ?_⟩, ?_, ?_, (6.5, 4.5), (6.6, 4.5), by simp, ?_⟩
  · intro k i
    dsimp only
    split
    · constructor <;> linarith
    · constructor <;> norm_num at * <;> linarith
  · norm_num [InRect, c]
  · have h1 : start c (4.5, 4.5) = some ⟨(List.replicate 144 none).set 78 (some (4.5, 4.5)), [(4.5, 4.5)], [(4.5, 4.5)]⟩ := by
      unfold start accept
      rw [tg 4.5 4.5 4 4 (by norm_num) (by norm_num) (by norm_num) (by norm_num), hgw, hgh]
      simp only [List.length_replicate]
      rw [if_pos (by norm_num), List.nil_append, show 12 * 12 = 144 by norm_num, show 4 + 12 * 4 + 26 = 78 by norm_num]
    rw [h1, Option.bind_some, run, if_neg (by simp)]
    simp only [qPop, List.length_singleton]
    show (trials c _ 0 (4.5, 4.5) 2 0 ⟨_, [], _⟩).bind _ = _
    have t1 : ∀ g l o, (∀ k < 54, g[k]? = some none) → g.length = 144 → ∀ r x, c.md * r = x - 4.5 → 6 ≤ x → x < 7 →
        trial c (4.5, 4.5) r 0 ⟨g, l, o⟩ = some ⟨g.set 80 (some (x, 4.5)), l ++ [(x, 4.5)], o ++ [(x, 4.5)]⟩ := by
      intro g l o hg hlen r x hr h6 h7
      unfold trial
      dsimp only
      rw [hr, cos_zero, sin_zero, mul_one, mul_zero, add_zero, add_sub_cancel]
      rw [if_pos ⟨show (0 : ℝ) < x by linarith, show x < 8 by linarith, show (0 : ℝ) < 4.5 by norm_num, show (4.5 : ℝ) < 8 by norm_num⟩]
      rw [tg x 4.5 6 4 (by norm_num; linarith) (by norm_num; linarith) (by norm_num) (by norm_num)]
      have hu : ∀ k < 108, used c g k = some false := by
        intro k hk
        unfold used
        rw [show c.s = 2 from rfl, hg (k / 2) (by omega)]
        rfl
      have hck : ∀ k < 108, check c g (x, 4.5) k = some false := by
        intro k hk
        unfold check
        rw [hu k hk]
        rfl
      have hrow : ∀ k < 107, row c g k = some false := by
        intro k hk
        unfold row
        rw [hu (k - 1) (by omega), hu k (by omega), hu (k + 1) (by omega)]
        rfl
      have hskip : skip c g (x, 4.5) (6 + 12 * 4 + 26) = some false := by
        unfold skip
        rw [hgw]
        dsimp only
        rw [hck _ (by norm_num), hck _ (by norm_num), hck _ (by norm_num), hrow _ (by norm_num), hck _ (by norm_num), hck _ (by norm_num),
          hrow _ (by norm_num), hck _ (by norm_num), hck _ (by norm_num), hrow _ (by norm_num), hck _ (by norm_num), hck _ (by norm_num),
          hck _ (by norm_num), hck _ (by norm_num), hck _ (by norm_num)]
        rfl
      rw [hskip, Option.bind_some]
      simp [accept, hlen]
    have g0 : ∀ k < 54, ((List.replicate 144 (none : Option Pt)).set 78 (some (4.5, 4.5)))[k]? = some none := by
      intro k hk
      rw [List.getElem?_set_ne (by omega), List.getElem?_replicate, if_pos (by omega)]
    have g1 : ∀ k < 54, (((List.replicate 144 (none : Option Pt)).set 78 (some (4.5, 4.5))).set 80 (some (6.5, 4.5)))[k]? = some none := by
      intro k hk
      rw [List.getElem?_set_ne (by omega), g0 k hk]
    have r0 : c.md * √2 = 6.5 - 4.5 := by
      show √2 * √2 = _
      rw [hm]; norm_num
    have r1 : c.md * (√2 * 1.05) = 6.6 - 4.5 := by
      show √2 * (√2 * 1.05) = _
      rw [← mul_assoc, hm]; norm_num
    rw [trials]
    dsimp only
    rw [if_pos rfl, t1 _ _ _ g0 (by simp) _ 6.5 r0 (by norm_num) (by norm_num), Option.bind_some, trials]
    dsimp only
    rw [if_neg (by norm_num), t1 _ _ _ g1 (by simp) _ 6.6 r1 (by norm_num) (by norm_num), Option.bind_some, trials, Option.bind_some, run]
    simp
  · show eDist (6.5, 4.5) (6.6, 4.5) < √2
    unfold eDist
    apply Real.sqrt_lt_sqrt <;> norm_num

end Verif.Spatial.Poisson
