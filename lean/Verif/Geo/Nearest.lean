import Verif.Geo.CircleLine
import Mathlib.Order.Bounds.Basic

/-!
# Nearest points and distances of lines, rays and segments (C111)
-/

namespace Verif.Geo

/-! ## Code -/

/-- `LinePointParametricProject`, `Collision.h:219-224`: `none` is NaN. -/
noncomputable def project (X1 Y1 X2 Y2 pX pY : ℝ) : Option ℝ :=
  let tx := X2 - X1
  let ty := Y2 - Y1
  if tx * tx + ty * ty = 0 then none else some (((pX - X1) * tx + (pY - Y1) * ty) / (tx * tx + ty * ty))

/-- `LineNearestPoint`, `Collision.h:226-233`. -/
noncomputable def lineNearestPoint (X1 Y1 X2 Y2 pX pY : ℝ) : Option (ℝ × ℝ) :=
  let tx := X2 - X1
  let ty := Y2 - Y1
  match project X1 Y1 X2 Y2 pX pY with
  | none => none
  | some u => some (X1 + u * tx, Y1 + u * ty)

open Classical in
/-- `RayNearestPoint`, `Collision.h:235-250`. -/
noncomputable def rayNearestPoint (X1 Y1 X2 Y2 pX pY : ℝ) : Option (ℝ × ℝ) :=
  let tx := X2 - X1
  let ty := Y2 - Y1
  match project X1 Y1 X2 Y2 pX pY with
  | none => none
  | some u => if u ≤ 0 then some (X1, Y1) else some (X1 + u * tx, Y1 + u * ty)

open Classical in
/-- `LineSegmentNearestPoint`, `Collision.h:252-272`. -/
noncomputable def lineSegmentNearestPoint (X1 Y1 X2 Y2 pX pY : ℝ) : Option (ℝ × ℝ) :=
  let tx := X2 - X1
  let ty := Y2 - Y1
  match project X1 Y1 X2 Y2 pX pY with
  | none => none
  | some u => if u ≤ 0 then some (X1, Y1) else if u ≥ 1 then some (X2, Y2) else some (X1 + u * tx, Y1 + u * ty)

/-- `LinePointDistanceSqr`, `Collision.h:274-280`. -/
noncomputable def linePointDistanceSqr (X1 Y1 X2 Y2 pX pY : ℝ) : Option ℝ :=
  let tx := X2 - X1
  let ty := Y2 - Y1
  let det := tx * (Y1 - pY) - (X1 - pX) * ty
  if tx * tx + ty * ty = 0 then none else some (det * det / (tx * tx + ty * ty))

/-- `LinePointDistance`, `Collision.h:282-288`. -/
noncomputable def linePointDistance (X1 Y1 X2 Y2 pX pY : ℝ) : Option ℝ :=
  let tx := X2 - X1
  let ty := Y2 - Y1
  let det := tx * (Y1 - pY) - (X1 - pX) * ty
  if √(tx * tx + ty * ty) = 0 then none else some (det * det / √(tx * tx + ty * ty))

open Classical in
/-- `LineSegmentPointDistanceSqr`, `Collision.h:290-308`. -/
noncomputable def lineSegmentPointDistanceSqr (X1 Y1 X2 Y2 pX pY : ℝ) : Option ℝ :=
  let vx := X1 - pX
  let vy := Y1 - pY
  let ux := X2 - X1
  let uy := Y2 - Y1
  let length := ux * ux + uy * uy
  let det := -vx * ux + -vy * uy
  if det < 0 ∨ det > length then
    let ux := X2 - pX
    let uy := Y2 - pY
    let vx := vx * vx + vy * vy
    let ux := ux * ux + uy * uy
    some (if vx < ux then vx else ux)
  else
    let det := ux * vy - uy * vx
    if length = 0 then none else some (det * det / length)

/-- `LineSegmentPointDistance`, `Collision.h:310-313`. -/
noncomputable def lineSegmentPointDistance (X1 Y1 X2 Y2 pX pY : ℝ) : Option ℝ := lineSegmentPointDistanceSqr X1 Y1 X2 Y2 pX pY

/-! ## The property -/

/-- The point q is the one of the set that is nearest to p. -/
def NearestIn (s : Set (ℝ × ℝ)) (p q : ℝ × ℝ) : Prop := q ∈ s ∧ ∀ q' ∈ s, dsq p q ≤ dsq p q'

section
variable {X1 Y1 X2 Y2 pX pY : ℝ}

theorem project_spec (h : (X1, Y1) ≠ (X2, Y2)) : ∃ u, project X1 Y1 X2 Y2 pX pY = some u ∧
    ∀ t, dsq (pX, pY) (along (X1, Y1) (X2, Y2) t) = dsq (pX, pY) (along (X1, Y1) (X2, Y2) u) + ((X2 - X1) * (X2 - X1) + (Y2 - Y1) * (Y2 - Y1)) * (t - u) ^ 2 := by
  have hA := len_pos h
  unfold project
  dsimp only
  rw [if_neg hA.ne']
  refine ⟨_, rfl, fun t => ?_⟩
  set u := ((pX - X1) * (X2 - X1) + (pY - Y1) * (Y2 - Y1)) / ((X2 - X1) * (X2 - X1) + (Y2 - Y1) * (Y2 - Y1)) with hu
  have : u * ((X2 - X1) * (X2 - X1) + (Y2 - Y1) * (Y2 - Y1)) = (pX - X1) * (X2 - X1) + (pY - Y1) * (Y2 - Y1) := by
    rw [hu, div_mul_cancel₀ _ hA.ne']
  unfold dsq along
  dsimp only
  linear_combination 2 * (t - u) * this

/-- **C111**, points: for two different points the result is the nearest point of the line, ray or segment. Missing: equal points, where the result is not a number. -/
theorem C111_nearest_partial (h : (X1, Y1) ≠ (X2, Y2)) :
    (∃ q, lineNearestPoint X1 Y1 X2 Y2 pX pY = some q ∧ NearestIn (lineOf (X1, Y1) (X2, Y2)) (pX, pY) q) ∧
    (∃ q, rayNearestPoint X1 Y1 X2 Y2 pX pY = some q ∧ NearestIn (rayOf (X1, Y1) (X2, Y2)) (pX, pY) q) ∧
    (∃ q, lineSegmentNearestPoint X1 Y1 X2 Y2 pX pY = some q ∧ NearestIn (segOf (X1, Y1) (X2, Y2)) (pX, pY) q) := by
  have hA := len_pos h
  obtain ⟨u, e, hu⟩ := project_spec (pX := pX) (pY := pY) h
  have ev : ∀ t, ((X1 + t * (X2 - X1), Y1 + t * (Y2 - Y1)) : ℝ × ℝ) = along (X1, Y1) (X2, Y2) t := by
    intro t
    unfold along
    ext <;> dsimp only <;> ring
  have a0 : along (X1, Y1) (X2, Y2) 0 = (X1, Y1) := by unfold along; ext <;> dsimp only <;> ring
  have a1 : along (X1, Y1) (X2, Y2) 1 = (X2, Y2) := by unfold along; ext <;> dsimp only <;> ring
  unfold lineNearestPoint rayNearestPoint lineSegmentNearestPoint
  rw [e]
  dsimp only
  rw [ev]
  have mono : ∀ s t, (s - u) ^ 2 ≤ (t - u) ^ 2 → dsq (pX, pY) (along (X1, Y1) (X2, Y2) s) ≤ dsq (pX, pY) (along (X1, Y1) (X2, Y2) t) := by
    intro s t hst
    rw [hu s, hu t]
    nlinarith [mul_le_mul_of_nonneg_left hst hA.le]
  refine ⟨⟨_, rfl, ⟨u, rfl⟩, ?_⟩, ?_, ?_⟩
  · rintro _ ⟨t, rfl⟩
    exact mono _ _ (by nlinarith [sq_nonneg (t - u)])
  · by_cases h0 : u ≤ 0
    · rw [if_pos h0]
      refine ⟨_, rfl, ⟨0, le_rfl, a0.symm⟩, ?_⟩
      rintro _ ⟨t, ht, rfl⟩
      have := mono 0 t (by nlinarith)
      rwa [a0] at this
    · rw [if_neg h0]
      refine ⟨_, rfl, ⟨u, by linarith, rfl⟩, ?_⟩
      rintro _ ⟨t, ht, rfl⟩
      exact mono _ _ (by nlinarith [sq_nonneg (t - u)])
  · by_cases h0 : u ≤ 0
    · rw [if_pos h0]
      refine ⟨_, rfl, ⟨0, le_rfl, zero_le_one, a0.symm⟩, ?_⟩
      rintro _ ⟨t, ht, ht1, rfl⟩
      have := mono 0 t (by nlinarith)
      rwa [a0] at this
    · by_cases h1 : u ≥ 1
      · rw [if_neg h0, if_pos h1]
        refine ⟨_, rfl, ⟨1, zero_le_one, le_rfl, a1.symm⟩, ?_⟩
        rintro _ ⟨t, ht, ht1, rfl⟩
        have := mono 1 t (by nlinarith)
        rwa [a1] at this
      · rw [if_neg h0, if_neg h1]
        refine ⟨_, rfl, ⟨u, by linarith, by linarith, rfl⟩, ?_⟩
        rintro _ ⟨t, ht, ht1, rfl⟩
        exact mono _ _ (by nlinarith [sq_nonneg (t - u)])

/-- **C111**, squared distances: they are the least ones to a point of the line or segment. -/
theorem C111_distanceSqr_partial (h : (X1, Y1) ≠ (X2, Y2)) :
    (∃ d, linePointDistanceSqr X1 Y1 X2 Y2 pX pY = some d ∧ IsLeast (dsq (pX, pY) '' lineOf (X1, Y1) (X2, Y2)) d) ∧
    (∃ d, lineSegmentPointDistanceSqr X1 Y1 X2 Y2 pX pY = some d ∧ IsLeast (dsq (pX, pY) '' segOf (X1, Y1) (X2, Y2)) d) := by
  have hA := len_pos h
  have least : ∀ s q, NearestIn s (pX, pY) q → IsLeast (dsq (pX, pY) '' s) (dsq (pX, pY) q) := by
    rintro s q ⟨hq, hm⟩
    refine ⟨⟨q, hq, rfl⟩, ?_⟩
    rintro _ ⟨q', h', rfl⟩
    exact hm q' h'
  obtain ⟨⟨q1, e1, n1⟩, -, q3, e3, n3⟩ := C111_nearest_partial (pX := pX) (pY := pY) h
  have hp : project X1 Y1 X2 Y2 pX pY = some (((pX - X1) * (X2 - X1) + (pY - Y1) * (Y2 - Y1)) / ((X2 - X1) * (X2 - X1) + (Y2 - Y1) * (Y2 - Y1))) := by
    unfold project
    dsimp only
    rw [if_neg hA.ne']
  unfold lineNearestPoint at e1
  unfold lineSegmentNearestPoint at e3
  rw [hp] at e1 e3
  dsimp only at e1 e3
  set A := (X2 - X1) * (X2 - X1) + (Y2 - Y1) * (Y2 - Y1) with hAd
  set u := ((pX - X1) * (X2 - X1) + (pY - Y1) * (Y2 - Y1)) / A with hu
  have huA : u * A = (pX - X1) * (X2 - X1) + (pY - Y1) * (Y2 - Y1) := by
    rw [hu]
    field_simp
  have foot : dsq (pX, pY) (X1 + u * (X2 - X1), Y1 + u * (Y2 - Y1)) = ((X2 - X1) * (Y1 - pY) - (X1 - pX) * (Y2 - Y1)) * ((X2 - X1) * (Y1 - pY) - (X1 - pX) * (Y2 - Y1)) / A := by
    rw [eq_div_iff hA.ne']
    unfold dsq
    dsimp only
    linear_combination (u * A - ((pX - X1) * (X2 - X1) + (pY - Y1) * (Y2 - Y1))) * huA - (u * u * A - 2 * u * ((pX - X1) * (X2 - X1) + (pY - Y1) * (Y2 - Y1)) + (pX - X1) ^ 2 + (pY - Y1) ^ 2) * hAd
  constructor
  · unfold linePointDistanceSqr
    dsimp only
    rw [← hAd, if_neg hA.ne']
    refine ⟨_, rfl, ?_⟩
    cases e1
    rw [← foot]
    exact least _ _ n1
  · unfold lineSegmentPointDistanceSqr
    dsimp only
    rw [← hAd]
    have hdet : -(X1 - pX) * (X2 - X1) + -(Y1 - pY) * (Y2 - Y1) = u * A := by rw [huA]; ring
    rw [hdet]
    have m1 : (X1, Y1) ∈ segOf (X1, Y1) (X2, Y2) := ⟨0, le_rfl, zero_le_one, by unfold along; ext <;> dsimp only <;> ring⟩
    have m2 : (X2, Y2) ∈ segOf (X1, Y1) (X2, Y2) := ⟨1, zero_le_one, le_rfl, by unfold along; ext <;> dsimp only <;> ring⟩
    have v1 : (X1 - pX) * (X1 - pX) + (Y1 - pY) * (Y1 - pY) = dsq (pX, pY) (X1, Y1) := by unfold dsq; dsimp only; ring
    have v2 : (X2 - pX) * (X2 - pX) + (Y2 - pY) * (Y2 - pY) = dsq (pX, pY) (X2, Y2) := by unfold dsq; dsimp only; ring
    rw [v1, v2]
    by_cases hlo : u * A < 0
    · rw [if_pos (.inl hlo)]
      have hu0 : u < 0 := by
        by_contra hc
        push Not at hc
        nlinarith [mul_nonneg hc hA.le]
      rw [if_pos hu0.le] at e3
      cases e3
      refine ⟨_, rfl, ?_⟩
      have := n3.2 _ m2
      split
      · exact least _ _ n3
      · rw [show dsq (pX, pY) (X2, Y2) = dsq (pX, pY) (X1, Y1) by linarith]
        exact least _ _ n3
    by_cases hhi : u * A > A
    · rw [if_pos (.inr hhi)]
      have hu1 : 1 < u := by
        by_contra hc
        push Not at hc
        nlinarith
      rw [if_neg (by linarith), if_pos hu1.le] at e3
      cases e3
      refine ⟨_, rfl, ?_⟩
      have := n3.2 _ m1
      rw [if_neg (by linarith)]
      exact least _ _ n3
    · rw [if_neg (by tauto), if_neg hA.ne']
      refine ⟨_, rfl, ?_⟩
      rw [show (X2 - X1) * (Y1 - pY) - (Y2 - Y1) * (X1 - pX) = (X2 - X1) * (Y1 - pY) - (X1 - pX) * (Y2 - Y1) by ring, ← foot]
      have hq : q3 = (X1 + u * (X2 - X1), Y1 + u * (Y2 - Y1)) := by
        by_cases h0 : u ≤ 0
        · have : u = 0 := by
            refine le_antisymm h0 ?_
            by_contra hc
            push Not at hc
            nlinarith
          rw [if_pos h0] at e3
          cases e3
          rw [this]
          simp
        · by_cases h1 : u ≥ 1
          · have : u = 1 := by
              refine le_antisymm ?_ h1
              by_contra hc
              push Not at hc
              nlinarith
            rw [if_neg h0, if_pos h1] at e3
            cases e3
            rw [this]
            simp
          · rw [if_neg h0, if_neg h1] at e3
            cases e3
            rfl
      rw [← hq]
      exact least _ _ n3

/-- **C111**, what the functions for the distance itself return: for a line the distance times the length of the determinant of the line and the point, for a segment the square of
the distance. Missing: the distance. -/
theorem C111_distance_partial (h : (X1, Y1) ≠ (X2, Y2)) :
    (∃ d D, linePointDistance X1 Y1 X2 Y2 pX pY = some D ∧ IsLeast (dsq (pX, pY) '' lineOf (X1, Y1) (X2, Y2)) (d ^ 2) ∧ 0 ≤ d ∧ D = d * |(X2 - X1) * (Y1 - pY) - (X1 - pX) * (Y2 - Y1)|) ∧
    (∃ d D, lineSegmentPointDistance X1 Y1 X2 Y2 pX pY = some D ∧ IsLeast (dsq (pX, pY) '' segOf (X1, Y1) (X2, Y2)) (d ^ 2) ∧ 0 ≤ d ∧ D = d ^ 2) := by
  have hA := len_pos h
  obtain ⟨⟨d1, e1, l1⟩, d2, e2, l2⟩ := C111_distanceSqr_partial (pX := pX) (pY := pY) h
  constructor
  · unfold linePointDistanceSqr at e1
    dsimp only at e1
    rw [if_neg hA.ne'] at e1
    cases e1
    unfold linePointDistance
    dsimp only
    have hs := Real.sqrt_pos.2 hA
    have hs2 := Real.mul_self_sqrt hA.le
    rw [if_neg hs.ne']
    set s := √((X2 - X1) * (X2 - X1) + (Y2 - Y1) * (Y2 - Y1))
    set det := (X2 - X1) * (Y1 - pY) - (X1 - pX) * (Y2 - Y1)
    refine ⟨|det| / s, _, rfl, ?_, by positivity, ?_⟩
    · rw [div_pow, sq_abs, sq, sq, hs2]
      exact l1
    · rw [div_mul_eq_mul_div, abs_mul_abs_self]
  · have hd : 0 ≤ d2 := by
      obtain ⟨q, -, rfl⟩ := l2.1
      unfold dsq
      positivity
    refine ⟨√d2, d2, e2, ?_, Real.sqrt_nonneg _, ?_⟩
    · rwa [Real.sq_sqrt hd]
    · rw [Real.sq_sqrt hd]

end

/-- The distance of (0, 3) from the segment from (-2, 0) to (2, 0), squared. -/
example : ∃ d, lineSegmentPointDistanceSqr (-2) 0 2 0 0 3 = some d ∧ IsLeast (dsq (0, 3) '' segOf (-2, 0) (2, 0)) d :=
  (C111_distanceSqr_partial (by norm_num)).2

/-- The distance of (0, 3) from the line through (-2, 0) and (2, 0) is 3; the code returns 36. From the segment it returns 9. -/
theorem C111_distance_counterexample : linePointDistance (-2) 0 2 0 0 3 = some 36 ∧ lineSegmentPointDistance (-2) 0 2 0 0 3 = some 9 ∧
    IsLeast (dsq (0, 3) '' lineOf (-2, 0) (2, 0)) (3 ^ 2) ∧ IsLeast (dsq (0, 3) '' segOf (-2, 0) (2, 0)) (3 ^ 2) := by
  obtain ⟨⟨d1, e1, l1⟩, d2, e2, l2⟩ := C111_distanceSqr_partial (X1 := -2) (Y1 := 0) (X2 := 2) (Y2 := 0) (pX := 0) (pY := 3) (by norm_num)
  have h16 : √(16 : ℝ) = 4 := by rw [show (16 : ℝ) = 4 * 4 by norm_num]; exact Real.sqrt_mul_self (by norm_num)
  have h9 : lineSegmentPointDistanceSqr (-2) 0 2 0 0 3 = some 9 := by
    unfold lineSegmentPointDistanceSqr
    norm_num
  refine ⟨?_, h9, ?_, ?_⟩
  · unfold linePointDistance
    norm_num [h16]
  · unfold linePointDistanceSqr at e1
    norm_num at e1
    rw [← e1] at l1
    norm_num
    exact l1
  · rw [h9] at e2
    cases e2
    norm_num
    exact l2

/-- For equal points no distance or nearest point is found, though there is one. -/
theorem C111_degenerate_counterexample : lineSegmentNearestPoint 1 2 1 2 0 0 = none ∧ lineSegmentPointDistanceSqr 1 2 1 2 0 0 = none ∧ segOf (1, 2) (1, 2) = {(1, 2)} := by
  refine ⟨?_, ?_, ?_⟩
  · unfold lineSegmentNearestPoint project
    norm_num
  · unfold lineSegmentPointDistanceSqr
    norm_num
  · ext p
    constructor
    · rintro ⟨t, -, -, rfl⟩
      simp [along]
    · rintro rfl
      exact ⟨0, le_rfl, zero_le_one, by simp [along]⟩

end Verif.Geo
