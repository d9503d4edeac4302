import Verif.Vec.Geometry
import Mathlib.Analysis.Normed.Module.Ball.Pointwise

/-!
# Spheres and circles: containment and collision (C108)

The coordinates are real numbers: rounding is not modelled. A sphere is the ball it bounds, and points on the surface do not count.
-/

namespace Verif.Geo

open Metric

/-! ## Code -/

/-- `SphereContainsPoint`, `Collision.h:13-16`; `NVectorDistanceSq` is the model of C100. -/
noncomputable def sphereContainsPoint {n : ℕ} (p center : Fin (n + 1) → ℝ) (radius : ℝ) : Bool :=
  decide (Vec.distSq p center < radius * radius)

/-- `SphereContainsSphere`, `Collision.h:19-25`. -/
noncomputable def sphereContainsSphere {n : ℕ} (containerCenter : Fin (n + 1) → ℝ) (containerRadius : ℝ) (center : Fin (n + 1) → ℝ) (radius : ℝ) : Bool :=
  if containerRadius ≤ radius then false
  else
    let r := containerRadius - radius
    decide (Vec.distSq containerCenter center < r * r)

/-- `SphereSphereCollide`, `Collision.h:28-32`. -/
noncomputable def sphereSphereCollide {n : ℕ} (c1 : Fin (n + 1) → ℝ) (r1 : ℝ) (c2 : Fin (n + 1) → ℝ) (r2 : ℝ) : Bool :=
  let r := r1 + r2
  decide (Vec.distSq c1 c2 < r * r)

/-- `RadiusContainsPoint`, `Collision.h:70-73`. -/
noncomputable def radiusContainsPoint (r X Y : ℝ) : Bool := decide (X * X + Y * Y < r * r)

/-- `CircleContainsPoint`, `Collision.h:75-78`. -/
noncomputable def circleContainsPoint (x y r pX pY : ℝ) : Bool := radiusContainsPoint r (pX - x) (pY - y)

/-- `CircleContainsCircle`, `Collision.h:82-87`; `Circle::ContainsCircle`, `Geometry.h:64`, is the same. -/
noncomputable def circleContainsCircle (X1 Y1 R1 X2 Y2 R2 : ℝ) : Bool :=
  if R1 ≤ R2 then false else radiusContainsPoint (R1 - R2) (X2 - X1) (Y2 - Y1)

/-- `CircleCircleCollide`, `Collision.h:90-93`; `Circle::CircleCollide(X, Y, R)`, `Geometry.h:67`, is the same. -/
noncomputable def circleCircleCollide (X1 Y1 R1 X2 Y2 R2 : ℝ) : Bool := radiusContainsPoint (R1 + R2) (X2 - X1) (Y2 - Y1)

/-- `Circle::CircleCollide(C, R)` for a circle at (x, y) of radius r, `Geometry.h:69`: the second coordinate of `C` is not used. -/
noncomputable def circleCollideVector (x y r : ℝ) (C : ℝ × ℝ) (R : ℝ) : Bool := radiusContainsPoint (r + R) (C.1 - x) (C.1 - y)

/-! ## The property -/

/-- A point of Euclidean space with the given coordinates. -/
abbrev pt {n : ℕ} (v : Fin n → ℝ) : EuclideanSpace ℝ (Fin n) := WithLp.toLp 2 v

theorem dist_lt {n : ℕ} (p q : Fin (n + 1) → ℝ) {r : ℝ} (h : 0 ≤ r) : Vec.distSq p q < r * r ↔ dist (pt p) (pt q) < r := by
  rw [← (Vec.C100_euclidean (n := n) (fun _ => 0) p q).2, Vec.distance, Real.sqrt_lt (by rw [Vec.distSq_eq]; exact Finset.sum_nonneg fun i _ => sq_nonneg _) h, sq]

/-- A ball with its surface lies within another without its surface if and only if the radii leave room for the distance of the centres. -/
theorem closedBall_subset_ball_iff {n : ℕ} (c C : EuclideanSpace ℝ (Fin (n + 1))) {r R : ℝ} (h : 0 ≤ r) : closedBall c r ⊆ ball C R ↔ dist C c < R - r := by
  constructor
  · intro hs
    obtain ⟨u, hu, hn⟩ : ∃ u : EuclideanSpace ℝ (Fin (n + 1)), ‖u‖ = 1 ∧ ‖(c - C) + r • u‖ = ‖c - C‖ + r := by
      by_cases hc : c - C = 0
      · refine ⟨EuclideanSpace.single 0 1, by simp, ?_⟩
        rw [hc, zero_add, norm_smul]
        simp [abs_of_nonneg h]
      · have hp : 0 < ‖c - C‖ := norm_pos_iff.2 hc
        refine ⟨(‖c - C‖)⁻¹ • (c - C), by rw [norm_smul, norm_inv, norm_norm, inv_mul_cancel₀ hp.ne'], ?_⟩
        have : (c - C) + r • (‖c - C‖)⁻¹ • (c - C) = (1 + r * (‖c - C‖)⁻¹) • (c - C) := by
          rw [add_smul, one_smul, smul_smul]
        rw [this, norm_smul, Real.norm_of_nonneg (by positivity), add_mul, one_mul, mul_assoc, inv_mul_cancel₀ hp.ne', mul_one]
    have hm : c + r • u ∈ closedBall c r := by
      rw [mem_closedBall, dist_eq_norm, add_sub_cancel_left, norm_smul, hu, mul_one, Real.norm_of_nonneg h]
    have := hs hm
    rw [mem_ball, dist_eq_norm, show c + r • u - C = (c - C) + r • u by abel, hn, ← dist_eq_norm] at this
    rw [dist_comm]
    linarith
  · intro hd x hx
    rw [mem_closedBall] at hx
    rw [mem_ball]
    have := dist_triangle x c C
    rw [dist_comm C c] at hd
    linarith

/-- **C108**: a point is contained if and only if it lies within the sphere. -/
theorem C108_point {n : ℕ} (p c : Fin (n + 1) → ℝ) (r : ℝ) (h : 0 ≤ r) : sphereContainsPoint p c r = true ↔ pt p ∈ ball (pt c) r := by
  rw [sphereContainsPoint, decide_eq_true_iff, dist_lt _ _ h, mem_ball]

/-- **C108**: a sphere is contained if and only if it lies, with its surface, within the other one. -/
theorem C108_contains {n : ℕ} (C c : Fin (n + 1) → ℝ) (R r : ℝ) (h : 0 ≤ r) : sphereContainsSphere C R c r = true ↔ closedBall (pt c) r ⊆ ball (pt C) R := by
  rw [closedBall_subset_ball_iff _ _ h, sphereContainsSphere]
  split
  · rename_i hr
    have := dist_nonneg (x := pt C) (y := pt c)
    simp only [Bool.false_eq_true, false_iff, not_lt]
    linarith
  · rename_i hr
    rw [decide_eq_true_iff, dist_lt _ _ (by linarith)]

/-- The spheres overlap: they have a point in common which is not on both surfaces. -/
def Overlap {n : ℕ} (c1 : EuclideanSpace ℝ (Fin n)) (r1 : ℝ) (c2 : EuclideanSpace ℝ (Fin n)) (r2 : ℝ) : Prop :=
  ∃ x, dist x c1 ≤ r1 ∧ dist x c2 ≤ r2 ∧ (dist x c1 < r1 ∨ dist x c2 < r2)

theorem overlap_iff {n : ℕ} (c1 c2 : EuclideanSpace ℝ (Fin n)) {r1 r2 : ℝ} (h1 : 0 ≤ r1) (h2 : 0 ≤ r2) : Overlap c1 r1 c2 r2 ↔ dist c1 c2 < r1 + r2 := by
  constructor
  · rintro ⟨x, ha, hb, hc⟩
    have := dist_triangle_left c1 c2 x
    rcases hc with hc | hc <;> linarith
  · intro hd
    rcases h2.lt_or_eq with h2' | rfl
    · have : ¬ Disjoint (closedBall c1 r1) (ball c2 r2) := by
        rw [disjoint_closedBall_ball_iff h1 h2']
        linarith
      rw [Set.not_disjoint_iff] at this
      obtain ⟨x, hx, hy⟩ := this
      exact ⟨x, hx, (mem_ball.1 hy).le, .inr hy⟩
    · refine ⟨c2, ?_, by simp, .inl ?_⟩
      · rw [dist_comm]; linarith
      · rw [dist_comm]; linarith

/-- **C108**: spheres collide if and only if they overlap; touching does not count. -/
theorem C108_collide {n : ℕ} (c1 c2 : Fin (n + 1) → ℝ) (r1 r2 : ℝ) (h1 : 0 ≤ r1) (h2 : 0 ≤ r2) : sphereSphereCollide c1 r1 c2 r2 = true ↔ Overlap (pt c1) r1 (pt c2) r2 := by
  rw [overlap_iff _ _ h1 h2, sphereSphereCollide]
  rw [decide_eq_true_iff, dist_lt _ _ (by linarith)]

theorem radius_eq (r x y X Y : ℝ) : radiusContainsPoint r (X - x) (Y - y) = decide (Vec.distSq ![x, y] ![X, Y] < r * r) := by
  rw [radiusContainsPoint, Vec.distSq_eq]
  congr 2
  simp [Fin.sum_univ_two]
  ring

/-- **C108** for the functions of circles. -/
theorem C108_circle (X1 Y1 R1 X2 Y2 R2 : ℝ) (h1 : 0 ≤ R1) (h2 : 0 ≤ R2) :
    (circleContainsPoint X1 Y1 R1 X2 Y2 = true ↔ pt ![X2, Y2] ∈ ball (pt ![X1, Y1]) R1) ∧
    (circleContainsCircle X1 Y1 R1 X2 Y2 R2 = true ↔ closedBall (pt ![X2, Y2]) R2 ⊆ ball (pt ![X1, Y1]) R1) ∧
    (circleCircleCollide X1 Y1 R1 X2 Y2 R2 = true ↔ Overlap (pt ![X1, Y1]) R1 (pt ![X2, Y2]) R2) := by
  refine ⟨?_, ?_, ?_⟩
  · rw [circleContainsPoint, radius_eq, decide_eq_true_iff, dist_lt _ _ h1, mem_ball, dist_comm]
  · rw [← C108_contains _ _ _ _ h2, circleContainsCircle, sphereContainsSphere, radius_eq]
  · rw [← C108_collide _ _ _ _ h1 h2, circleCircleCollide, sphereSphereCollide, radius_eq]

/-- Two overlapping circles, and a circle within another. -/
example : circleCircleCollide 0 0 2 3 0 2 = true ∧ circleContainsCircle 0 0 3 1 1 1 = true ∧ circleCircleCollide 0 0 2 4 0 2 = false := by
  simp only [circleCircleCollide, circleContainsCircle, radiusContainsPoint]
  norm_num

/-- `CircleCollide` with the centre as a vector uses its first coordinate twice: circles of radius 1 at (0, 0) and (0, 9) are said to collide. -/
theorem C108_vector_counterexample : circleCollideVector 0 0 1 (0, 9) 1 = true ∧ ¬ Overlap (pt ![(0 : ℝ), 0]) 1 (pt ![(0 : ℝ), 9]) 1 := by
  constructor
  · simp only [circleCollideVector, radiusContainsPoint]
    norm_num
  · rw [← (C108_circle 0 0 1 0 9 1 (by norm_num) (by norm_num)).2.2, circleCircleCollide, radiusContainsPoint]
    norm_num

end Verif.Geo
