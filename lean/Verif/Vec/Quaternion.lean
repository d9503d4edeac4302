import Verif.Vec.Multiply
import Mathlib.Algebra.Quaternion
import Mathlib.Data.Real.Basic
import Mathlib.Tactic.Linarith

/-!
# Rotation matrices from quaternions (C102) and spline weights (C103)
-/

namespace Verif.Vec

open Quaternion

/-! ## Code -/

section
variable {K : Type} [Field K]

/-- `FromQuaternion<float, 4>`, `vector.h:550-568`; `q` is in the order x, y, z, w. -/
def fromQuaternion (q : Reg K) : Matrix (Fin 4) (Fin 4) K :=
  let x : Reg K := fun _ => q 0
  let y : Reg K := fun _ => q 1
  let z : Reg K := fun _ => q 2
  let yxw : Reg K := ![q 1, q 0, q 3, 0]
  let zwx : Reg K := ![q 2, q 3, q 0, 0]
  let wzy : Reg K := ![q 3, q 2, q 1, 0]
  let n010 : Reg K := ![1, -1, 1, 0]
  let n100 : Reg K := ![-1, 1, 1, 0]
  let n001 : Reg K := ![1, 1, -1, 0]
  let out0 := y * yxw + z * zwx * n010
  let out1 := x * yxw + z * wzy * n001
  let out2 := x * zwx + y * wzy * n100
  Matrix.of ![out0, Function.update out1 2 (-(out1 2)), out2, Function.update 0 3 1]

/-- `FromQuaternion`, the general form, `vector.h:536-548`. Simplified: it does not compile, for it calls a function `MM` that does not exist; read as `M3x3`. -/
def fromQuaternion3 (q : Reg K) : Matrix (Fin 3) (Fin 3) K :=
  let w := q 3
  let x := q 0
  let y := q 1
  let z := q 2
  !![1 - 2 * (y * y + z * z), 2 * (x * y - z * w), 2 * (x * z + y * w);
     2 * (x * y + z * w), 1 - 2 * (x * x + z * z), 2 * (y * z - x * w);
     2 * (x * z - y * w), 2 * (y * z + x * w), 1 - 2 * (x * x + y * y)]

/-- `GenericBSpline`, `vector.h:1198-1208`. The results of the two calls of `Shuffle` are not used. -/
def bspline (t : K) (p : Reg K) (m : Matrix (Fin 4) (Fin 4) K) : K :=
  let a : Reg K := ![t * t * t, t * t, t, 1]
  let r := multiply1x4 a m * p
  let r2 := r
  let r' := r + r2
  (r' + r2) 0

end

/-! ## Specification -/

/-- The quaternion that the array stands for. -/
def quat (q : Reg ℝ) : ℍ[ℝ] := ⟨q 3, q 0, q 1, q 2⟩

/-- A vector as a quaternion. -/
def pure (v : Fin 3 → ℝ) : ℍ[ℝ] := ⟨0, v 0, v 1, v 2⟩

/-- The rotation by a unit quaternion. -/
noncomputable def turn (q : Reg ℝ) (v : Fin 3 → ℝ) : ℍ[ℝ] := quat q * pure v * star (quat q)

@[simp] theorem quat_re (q : Reg ℝ) : (quat q).re = q 3 := rfl
@[simp] theorem quat_imI (q : Reg ℝ) : (quat q).imI = q 0 := rfl
@[simp] theorem quat_imJ (q : Reg ℝ) : (quat q).imJ = q 1 := rfl
@[simp] theorem quat_imK (q : Reg ℝ) : (quat q).imK = q 2 := rfl
@[simp] theorem pure_re (v : Fin 3 → ℝ) : (pure v).re = 0 := rfl
@[simp] theorem pure_imI (v : Fin 3 → ℝ) : (pure v).imI = v 0 := rfl
@[simp] theorem pure_imJ (v : Fin 3 → ℝ) : (pure v).imJ = v 1 := rfl
@[simp] theorem pure_imK (v : Fin 3 → ℝ) : (pure v).imK = v 2 := rfl

/-! ## The property -/

/-- The general form gives the matrix of the rotation. -/
theorem C102_general (q : Reg ℝ) (h : q 0 ^ 2 + q 1 ^ 2 + q 2 ^ 2 + q 3 ^ 2 = 1) (v : Fin 3 → ℝ) : pure ((fromQuaternion3 q).mulVec v) = turn q v := by
  ext
  · simp [turn]; ring
  · simp [turn, fromQuaternion3, Matrix.mulVec, dotProduct, Fin.sum_univ_three]
    linear_combination - (v 0) * h
  · simp [turn, fromQuaternion3, Matrix.mulVec, dotProduct, Fin.sum_univ_three]
    linear_combination - (v 1) * h
  · simp [turn, fromQuaternion3, Matrix.mulVec, dotProduct, Fin.sum_univ_three]
    linear_combination - (v 2) * h

/-- The form for four floats does not: the quaternion 1, of no rotation, gives a matrix that maps all points to the origin. -/
theorem C102_sse_counterexample : turn ![0, 0, 0, 1] ![1, 0, 0] = pure ![1, 0, 0] ∧ (fromQuaternion (![0, 0, 0, 1] : Reg ℝ)).mulVec ![1, 0, 0, 1] = ![0, 0, 0, 1] := by
  constructor
  · ext <;> simp [turn]
  · ext i
    fin_cases i <;> simp [fromQuaternion, Matrix.mulVec, dotProduct, Fin.sum_univ_succ, Matrix.vecHead, Matrix.vecTail]

/-- What it gives: `(1 - R) / 2` on the diagonal and `R / 2` elsewhere, where `R` is the matrix of the rotation. Missing: that it is `R`, as claimed. -/
theorem C102_sse_partial {K : Type} [Field K] (q : Reg K) (i j : Fin 3) :
    fromQuaternion3 q i j = (if i = j then 1 - 2 * fromQuaternion q i.castSucc j.castSucc else 2 * fromQuaternion q i.castSucc j.castSucc) ∧
    fromQuaternion q i.castSucc 3 = 0 ∧ fromQuaternion q 3 j.castSucc = 0 ∧ fromQuaternion q 3 3 = 1 := by
  fin_cases i <;> fin_cases j <;> simp [fromQuaternion, fromQuaternion3, Matrix.vecHead, Matrix.vecTail] <;> (first | (left; ring) | ring)

/-- A unit quaternion that is not a multiple of an axis. -/
example : ((![1 / 2, 1 / 2, 1 / 2, 1 / 2] : Reg ℝ) 0) ^ 2 + ((![1 / 2, 1 / 2, 1 / 2, 1 / 2] : Reg ℝ) 1) ^ 2 + ((![1 / 2, 1 / 2, 1 / 2, 1 / 2] : Reg ℝ) 2) ^ 2 +
    ((![1 / 2, 1 / 2, 1 / 2, 1 / 2] : Reg ℝ) 3) ^ 2 = 1 := by simp; norm_num

/-- The value of a spline: the powers of the parameter times the matrix times the control points. -/
def splineValue {K : Type} [Field K] (t : K) (p : Reg K) (m : Matrix (Fin 4) (Fin 4) K) : K := ∑ j, (∑ i : Fin 4, t ^ (3 - i.val) * m i j) * p j

/-- A uniform cubic B-spline (times 6) whose control points are all 1 has the value 6 everywhere; the function gives 3 at the beginning. -/
theorem C103_counterexample :
    splineValue (0 : ℚ) ![1, 1, 1, 1] !![-1, 3, -3, 1; 3, -6, 3, 0; -3, 0, 3, 0; 1, 4, 1, 0] = 6 ∧ bspline (0 : ℚ) ![1, 1, 1, 1] !![-1, 3, -3, 1; 3, -6, 3, 0; -3, 0, 3, 0; 1, 4, 1, 0] = 3 := by
  constructor
  · simp [splineValue, Fin.sum_univ_four]; norm_num
  · simp [bspline, multiply1x4]; norm_num

/-- What it gives: three times the contribution of the first control point. Missing: that it is the value of the spline; it is only if the others contribute twice as much as the first. -/
theorem C103_partial {K : Type} [Field K] (t : K) (p : Reg K) (m : Matrix (Fin 4) (Fin 4) K) :
    bspline t p m = 3 * splineValue t ![p 0, 0, 0, 0] m ∧ (bspline t p m = splineValue t p m ↔ splineValue t ![0, p 1, p 2, p 3] m = 2 * splineValue t ![p 0, 0, 0, 0] m) := by
  have h : bspline t p m = 3 * splineValue t ![p 0, 0, 0, 0] m := by
    simp [bspline, multiply1x4, splineValue, Fin.sum_univ_four]; ring
  refine ⟨h, ?_⟩
  have h2 : splineValue t p m = splineValue t ![p 0, 0, 0, 0] m + splineValue t ![0, p 1, p 2, p 3] m := by
    simp [splineValue, Fin.sum_univ_four]; ring
  rw [h, h2]
  constructor
  · intro e; linear_combination -e
  · intro e; linear_combination -e

end Verif.Vec
