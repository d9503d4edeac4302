import Verif.Geo.Nearest

/-!
# Crossing lines and segments (C112)
-/

namespace Verif.Geo

/-! ## Code -/

/-- `Vector<T, 2>::Cross`, `vector.h:645` and `:652`. -/
def crossV (v r : ℝ × ℝ) : ℝ := v.1 * r.2 - r.1 * v.2

open Classical in
/-- `LineSegmentLineSegmentIntersect`, `Collision.h:315-333`: the point, if it returns true. -/
noncomputable def segSegIntersect (x1 y1 x2 y2 X1 Y1 X2 Y2 : ℝ) : Option (ℝ × ℝ) :=
  let p := (x1, y1)
  let r := (x2 - x1, y2 - y1)
  let q := (X1, Y1)
  let s := (X2 - X1, Y2 - Y1)
  let rCrossS := crossV r s
  if rCrossS ≤ 0 ∧ rCrossS ≥ -1 then none
  else
    let q := (q.1 - p.1, q.2 - p.2)
    let t := crossV s q / rCrossS
    let u := crossV r q / rCrossS
    if 0 ≤ u ∧ u ≤ 1 ∧ 0 ≤ t ∧ t ≤ 1 then some (p.1 + r.1 * t, p.2 + r.2 * t) else none

open Classical in
/-- `LineLineIntersect`, `Collision.h:335-348`. -/
noncomputable def lineLineIntersect (x1 y1 x2 y2 X1 Y1 X2 Y2 : ℝ) : Option (ℝ × ℝ) :=
  let p := (x1, y1)
  let r := (x2 - x1, y2 - y1)
  let q := (X1, Y1)
  let s := (X2 - X1, Y2 - Y1)
  let rCrossS := crossV r s
  if rCrossS ≤ 0 ∧ rCrossS ≥ -1 then none
  else
    let q := (q.1 - p.1, q.2 - p.2)
    let t := crossV s q / rCrossS
    some (p.1 + r.1 * t, p.2 + r.2 * t)

open Classical in
/-- `LineSegmentLineSegmentCollide`, `Collision.h:351-360`. Both denominators are zero or none is; a division by zero gives an infinity or NaN, and a comparison is false. -/
noncomputable def segSegCollide (x1 y1 x2 y2 X1 Y1 X2 Y2 : ℝ) : Bool :=
  let da := X2 - X1
  let db := Y2 - Y1
  let dx := x2 - x1
  let dy := y2 - y1
  if da * dy - db * dx = 0 ∨ db * dx - da * dy = 0 then false
  else
    let s := (dx * (Y1 - y1) + dy * (x1 - X1)) / (da * dy - db * dx)
    let t := (da * (y1 - Y1) + db * (X1 - x1)) / (db * dx - da * dy)
    decide (s ≥ 0 ∧ s ≤ 1 ∧ t ≥ 0 ∧ t ≤ 1)

open Classical in
/-- `LineSegmentLineVertCollide`, `Collision.h:363-370`. -/
noncomputable def segVertCollide (x1 y1 x2 y2 X Y1 Y2 : ℝ) : Bool :=
  let db := Y2 - Y1
  let dx := x2 - x1
  let dy := y2 - y1
  if -db * dx = 0 ∨ db * dx = 0 then false
  else
    let dy := (dx * (Y1 - y1) + dy * (x1 - X)) / (-db * dx)
    let X := (db * (X - x1)) / (db * dx)
    decide (dy ≥ 0 ∧ dy ≤ 1 ∧ X ≥ 0 ∧ X ≤ 1)

open Classical in
/-- `LineSegmentLineHorzCollide`, `Collision.h:373-380`. -/
noncomputable def segHorzCollide (x1 y1 x2 y2 X1 X2 Y : ℝ) : Bool :=
  let da := X2 - X1
  let dx := x2 - x1
  let dy := y2 - y1
  if da * dy = 0 ∨ -da * dy = 0 then false
  else
    let dx := (dx * (Y - y1) + dy * (x1 - X1)) / (da * dy)
    let Y := (da * (y1 - Y)) / (-da * dy)
    decide (dx ≥ 0 ∧ dx ≤ 1 ∧ Y ≥ 0 ∧ Y ≤ 1)

/-! ## The property -/

section
variable {x1 y1 x2 y2 X1 Y1 X2 Y2 : ℝ}

/-- All four points are on one line. -/
def Collinear (x1 y1 x2 y2 X1 Y1 X2 Y2 : ℝ) : Prop :=
  ∃ a b c : ℝ, (a ≠ 0 ∨ b ≠ 0) ∧ ∀ p ∈ [(x1, y1), (x2, y2), (X1, Y1), (X2, Y2)], a * p.1 + b * p.2 = c

/-- A common point of two lines that are not parallel has these parameters. -/
theorem params {s t : ℝ} : along (x1, y1) (x2, y2) t = along (X1, Y1) (X2, Y2) s →
    t * ((x2 - x1) * (Y2 - Y1) - (y2 - y1) * (X2 - X1)) = (X1 - x1) * (Y2 - Y1) - (Y1 - y1) * (X2 - X1) ∧
    s * ((x2 - x1) * (Y2 - Y1) - (y2 - y1) * (X2 - X1)) = (X1 - x1) * (y2 - y1) - (Y1 - y1) * (x2 - x1) := by
  intro h
  unfold along at h
  rw [Prod.mk.injEq] at h
  obtain ⟨e1, e2⟩ := h
  dsimp only at e1 e2
  constructor
  · linear_combination (Y2 - Y1) * e1 - (X2 - X1) * e2
  · linear_combination (y2 - y1) * e1 - (x2 - x1) * e2

theorem params' {s t : ℝ} (hD : (x2 - x1) * (Y2 - Y1) - (y2 - y1) * (X2 - X1) ≠ 0)
    (ht : t * ((x2 - x1) * (Y2 - Y1) - (y2 - y1) * (X2 - X1)) = (X1 - x1) * (Y2 - Y1) - (Y1 - y1) * (X2 - X1))
    (hs : s * ((x2 - x1) * (Y2 - Y1) - (y2 - y1) * (X2 - X1)) = (X1 - x1) * (y2 - y1) - (Y1 - y1) * (x2 - x1)) :
    along (x1, y1) (x2, y2) t = along (X1, Y1) (X2, Y2) s := by
  unfold along
  ext
  · dsimp only
    refine mul_right_cancel₀ hD ?_
    linear_combination (x2 - x1) * ht - (X2 - X1) * hs
  · dsimp only
    refine mul_right_cancel₀ hD ?_
    linear_combination (y2 - y1) * ht - (Y2 - Y1) * hs

/-- **C112**, decision: segments collide if and only if they have a common point, unless all four points are on one line. Missing: that case, see the counterexample. -/
theorem C112_collide_partial (hc : ¬ Collinear x1 y1 x2 y2 X1 Y1 X2 Y2) :
    segSegCollide x1 y1 x2 y2 X1 Y1 X2 Y2 = true ↔ ∃ p, p ∈ segOf (x1, y1) (x2, y2) ∧ p ∈ segOf (X1, Y1) (X2, Y2) := by
  unfold segSegCollide
  dsimp only
  by_cases hD : (x2 - x1) * (Y2 - Y1) - (y2 - y1) * (X2 - X1) = 0
  · rw [if_pos (.inl (by linear_combination -hD))]
    simp only [Bool.false_eq_true, false_iff]
    rintro ⟨p, ⟨t, -, -, rfl⟩, s, -, -, e⟩
    obtain ⟨e1, e2⟩ := params e
    rw [hD, mul_zero] at e1 e2
    apply hc
    by_cases h1 : (x1, y1) = (x2, y2)
    · rw [Prod.mk.injEq] at h1
      obtain ⟨rfl, rfl⟩ := h1
      by_cases h2 : (X1, Y1) = (X2, Y2)
      · rw [Prod.mk.injEq] at h2
        obtain ⟨rfl, rfl⟩ := h2
        unfold along at e
        rw [Prod.mk.injEq] at e
        dsimp only at e
        have ex : x1 = X1 := by linarith [e.1]
        have ey : y1 = Y1 := by linarith [e.2]
        exact ⟨1, 0, x1, by simp, by simp [ex]⟩
      · refine ⟨Y2 - Y1, -(X2 - X1), (Y2 - Y1) * X1 - (X2 - X1) * Y1, ?_, ?_⟩
        · by_contra hh
          push Not at hh
          apply h2
          ext <;> dsimp only <;> linarith [hh.1, hh.2]
        · simp only [List.mem_cons, List.not_mem_nil, or_false, forall_eq_or_imp, forall_eq]
          refine ⟨?_, ?_, ?_, ?_⟩ <;> linarith
    · refine ⟨y2 - y1, -(x2 - x1), (y2 - y1) * x1 - (x2 - x1) * y1, ?_, ?_⟩
      · by_contra hh
        push Not at hh
        apply h1
        ext <;> dsimp only <;> linarith [hh.1, hh.2]
      · simp only [List.mem_cons, List.not_mem_nil, or_false, forall_eq_or_imp, forall_eq]
        refine ⟨?_, ?_, ?_, ?_⟩ <;> linarith
  · have h1 : ¬ ((X2 - X1) * (y2 - y1) - (Y2 - Y1) * (x2 - x1) = 0 ∨ (Y2 - Y1) * (x2 - x1) - (X2 - X1) * (y2 - y1) = 0) := by
      rintro (h | h)
      · exact hD (by linear_combination -h)
      · exact hD (by linear_combination h)
    rw [if_neg h1, decide_eq_true_iff]
    push Not at h1
    set s := ((x2 - x1) * (Y1 - y1) + (y2 - y1) * (x1 - X1)) / ((X2 - X1) * (y2 - y1) - (Y2 - Y1) * (x2 - x1)) with hs
    set t := ((X2 - X1) * (y1 - Y1) + (Y2 - Y1) * (X1 - x1)) / ((Y2 - Y1) * (x2 - x1) - (X2 - X1) * (y2 - y1)) with ht
    have es : s * ((X2 - X1) * (y2 - y1) - (Y2 - Y1) * (x2 - x1)) = (x2 - x1) * (Y1 - y1) + (y2 - y1) * (x1 - X1) := by
      rw [hs, div_mul_cancel₀ _ h1.1]
    have et : t * ((Y2 - Y1) * (x2 - x1) - (X2 - X1) * (y2 - y1)) = (X2 - X1) * (y1 - Y1) + (Y2 - Y1) * (X1 - x1) := by
      rw [ht, div_mul_cancel₀ _ h1.2]
    constructor
    · rintro ⟨a, b, c, d⟩
      exact ⟨_, ⟨t, c, d, rfl⟩, s, a, b, params' hD (by linear_combination et) (by linear_combination -es)⟩
    · rintro ⟨p, ⟨t', c, d, rfl⟩, s', a, b, e⟩
      obtain ⟨e1, e2⟩ := params e
      have : t = t' := mul_right_cancel₀ hD (by linear_combination et - e1)
      have h2 : s = s' := mul_right_cancel₀ hD (by linear_combination -es - e2)
      rw [this, h2]
      exact ⟨a, b, c, d⟩

/-- **C112**, vertical and horizontal segments: the special functions decide the same as the general one. -/
theorem C112_axis (x1 y1 x2 y2 X Y X1 X2 Y1 Y2 : ℝ) : segVertCollide x1 y1 x2 y2 X Y1 Y2 = segSegCollide x1 y1 x2 y2 X Y1 X Y2 ∧
    segHorzCollide x1 y1 x2 y2 X1 X2 Y = segSegCollide x1 y1 x2 y2 X1 Y X2 Y := by
  unfold segVertCollide segHorzCollide segSegCollide
  dsimp only
  constructor
  · rw [show (X - X) * (y2 - y1) - (Y2 - Y1) * (x2 - x1) = -(Y2 - Y1) * (x2 - x1) by ring, show (Y2 - Y1) * (x2 - x1) - (X - X) * (y2 - y1) = (Y2 - Y1) * (x2 - x1) by ring,
      show (X - X) * (y1 - Y1) + (Y2 - Y1) * (X - x1) = (Y2 - Y1) * (X - x1) by ring]
  · rw [show (X2 - X1) * (y2 - y1) - (Y - Y) * (x2 - x1) = (X2 - X1) * (y2 - y1) by ring, show (Y - Y) * (x2 - x1) - (X2 - X1) * (y2 - y1) = -(X2 - X1) * (y2 - y1) by ring,
      show (X2 - X1) * (y1 - Y) + (Y - Y) * (X1 - x1) = (X2 - X1) * (y1 - Y) by ring]

/-- **C112**, points: `LineLineIntersect` returns the mirror image in the first point of the point where the lines cross, and `LineSegmentLineSegmentIntersect` finds the crossings of
the segments going in the opposite direction from the first points and returns the mirror image. If lines are parallel or their directions have a cross product between -1 and 0, nothing
is found. Missing: the point itself, see the counterexamples. -/
theorem C112_points_partial :
    let D := (x2 - x1) * (Y2 - Y1) - (y2 - y1) * (X2 - X1)
    (lineLineIntersect x1 y1 x2 y2 X1 Y1 X2 Y2 = none ↔ -1 ≤ D ∧ D ≤ 0) ∧
    (∀ q, lineLineIntersect x1 y1 x2 y2 X1 Y1 X2 Y2 = some q ↔ ¬ (-1 ≤ D ∧ D ≤ 0) ∧ (2 * x1 - q.1, 2 * y1 - q.2) ∈ lineOf (x1, y1) (x2, y2) ∧ (2 * x1 - q.1, 2 * y1 - q.2) ∈ lineOf (X1, Y1) (X2, Y2)) ∧
    (∀ q, segSegIntersect x1 y1 x2 y2 X1 Y1 X2 Y2 = some q ↔ ¬ (-1 ≤ D ∧ D ≤ 0) ∧ (2 * x1 - q.1, 2 * y1 - q.2) ∈ segOf (x1, y1) (2 * x1 - x2, 2 * y1 - y2) ∧
      (2 * x1 - q.1, 2 * y1 - q.2) ∈ segOf (X1, Y1) (2 * X1 - X2, 2 * Y1 - Y2)) := by
  intro D
  have hcr : crossV (x2 - x1, y2 - y1) (X2 - X1, Y2 - Y1) = D := by unfold crossV; dsimp only; ring
  unfold lineLineIntersect segSegIntersect
  dsimp only
  rw [hcr]
  by_cases hD : D ≤ 0 ∧ D ≥ -1
  · rw [if_pos hD, if_pos hD]
    refine ⟨by simpa using hD.symm, fun q => ⟨by simp, fun h => absurd hD.symm h.1⟩, fun q => ⟨by simp, fun h => absurd hD.symm h.1⟩⟩
  · rw [if_neg hD, if_neg hD]
    have hn : ¬ (-1 ≤ D ∧ D ≤ 0) := fun h => hD h.symm
    have hD0 : D ≠ 0 := fun h => hD (by rw [h]; norm_num)
    set t := crossV (X2 - X1, Y2 - Y1) (X1 - x1, Y1 - y1) / D with ht
    set u := crossV (x2 - x1, y2 - y1) (X1 - x1, Y1 - y1) / D with hu
    have et : t * D = -((X1 - x1) * (Y2 - Y1) - (Y1 - y1) * (X2 - X1)) := by
      rw [ht, div_mul_cancel₀ _ hD0]
      unfold crossV
      dsimp only
      ring
    have eu : u * D = -((X1 - x1) * (y2 - y1) - (Y1 - y1) * (x2 - x1)) := by
      rw [hu, div_mul_cancel₀ _ hD0]
      unfold crossV
      dsimp only
      ring
    have meet : along (x1, y1) (x2, y2) (-t) = along (X1, Y1) (X2, Y2) (-u) := params' hD0 (by linear_combination -et) (by linear_combination -eu)
    have uniq : ∀ t' u', along (x1, y1) (x2, y2) t' = along (X1, Y1) (X2, Y2) u' → t' = -t ∧ u' = -u := by
      intro t' u' e
      obtain ⟨e1, e2⟩ := params e
      exact ⟨mul_right_cancel₀ hD0 (by linear_combination e1 + et), mul_right_cancel₀ hD0 (by linear_combination e2 + eu)⟩
    have mir : (2 * x1 - (x1 + (x2 - x1) * t), 2 * y1 - (y1 + (y2 - y1) * t)) = along (x1, y1) (x2, y2) (-t) := by
      unfold along
      ext <;> dsimp only <;> ring
    have back : ∀ (a b c d k : ℝ), along (a, b) (2 * a - c, 2 * b - d) k = along (a, b) (c, d) (-k) := by
      intro a b c d k
      unfold along
      ext <;> dsimp only <;> ring
    have inv : ∀ q : ℝ × ℝ, (2 * x1 - q.1, 2 * y1 - q.2) = along (x1, y1) (x2, y2) (-t) → (x1 + (x2 - x1) * t, y1 + (y2 - y1) * t) = q := by
      intro q hq
      rw [← mir, Prod.mk.injEq] at hq
      ext <;> dsimp only <;> linarith [hq.1, hq.2]
    refine ⟨by simpa using hn, fun q => ?_, fun q => ?_⟩
    · constructor
      · intro h
        cases h
        exact ⟨hn, ⟨-t, mir⟩, -u, by rw [← meet]; exact mir⟩
      · rintro ⟨-, ⟨t', e1⟩, u', e2⟩
        obtain ⟨rfl, rfl⟩ := uniq t' u' (e1.symm.trans e2)
        exact congrArg some (inv q e1)
    · by_cases hr : 0 ≤ u ∧ u ≤ 1 ∧ 0 ≤ t ∧ t ≤ 1
      · rw [if_pos hr]
        constructor
        · intro h
          cases h
          exact ⟨hn, ⟨t, hr.2.2.1, hr.2.2.2, by rw [back]; exact mir⟩, u, hr.1, hr.2.1, by rw [back, ← meet]; exact mir⟩
        · rintro ⟨-, ⟨t', -, -, e1⟩, u', -, -, e2⟩
          rw [back] at e1 e2
          obtain ⟨h1, -⟩ := uniq _ _ (e1.symm.trans e2)
          rw [h1] at e1
          exact congrArg some (inv q e1)
      · rw [if_neg hr]
        constructor
        · simp
        · rintro ⟨-, ⟨t', a, b, e1⟩, u', c, d, e2⟩
          rw [back] at e1 e2
          obtain ⟨h1, h2⟩ := uniq _ _ (e1.symm.trans e2)
          refine absurd ⟨?_, ?_, ?_, ?_⟩ hr <;> linarith

end

/-- The diagonals of a square. -/
example : segSegCollide 0 0 2 2 0 2 2 0 = true ∧ ¬ Collinear 0 0 2 2 0 2 2 0 := by
  constructor
  · unfold segSegCollide
    norm_num
  · rintro ⟨a, b, c, h, hh⟩
    simp only [List.mem_cons, List.not_mem_nil, or_false, forall_eq_or_imp, forall_eq] at hh
    obtain ⟨h1, h2, h3, h4⟩ := hh
    rcases h with h | h <;> apply h <;> linarith

/-- The diagonals of a square cross in its centre; the intersection functions miss it: for the segments nothing is found, for the lines a point outside is returned. -/
theorem C112_sign_counterexample : segSegIntersect 0 0 2 2 0 2 2 0 = none ∧ lineLineIntersect 0 0 2 2 0 2 2 0 = some (-1, -1) ∧ (1, 1) ∈ segOf (0, 0) (2, 2) ∧ (1, 1) ∈ segOf (0, 2) (2, 0) := by
  refine ⟨?_, ?_, ⟨1 / 2, by norm_num, by norm_num, by norm_num [along]⟩, 1 / 2, by norm_num, by norm_num, by norm_num [along]⟩
  · unfold segSegIntersect crossV
    norm_num
  · unfold lineLineIntersect crossV
    norm_num

/-- Lines whose directions have the cross product -1 are taken for parallel. -/
theorem C112_parallel_counterexample : lineLineIntersect 0 0 0 1 0 0 1 0 = none ∧ (0, 0) ∈ lineOf (0, 0) (0, 1) ∧ (0, 0) ∈ lineOf (0, 0) (1, 0) := by
  refine ⟨?_, ⟨0, by simp [along]⟩, 0, by simp [along]⟩
  unfold lineLineIntersect crossV
  norm_num

/-- Overlapping segments on one line do not collide. -/
theorem C112_collinear_counterexample : segSegCollide 0 0 2 0 1 0 3 0 = false ∧ (1, 0) ∈ segOf (0, 0) (2, 0) ∧ (1, 0) ∈ segOf (1, 0) (3, 0) := by
  refine ⟨?_, ⟨1 / 2, by norm_num, by norm_num, by norm_num [along]⟩, 0, le_rfl, zero_le_one, by norm_num [along]⟩
  unfold segSegCollide
  norm_num

end Verif.Geo
