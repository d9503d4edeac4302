import Verif.Vec.Matrix
import Mathlib.Analysis.SpecialFunctions.Trigonometric.Basic
import Mathlib.LinearAlgebra.Matrix.Determinant.Basic

/-!
# Matrices of rotations, translations and their compositions (C99)

`tp` is the template parameter `Tp`: whether the transpose is built, the form for row vectors.
-/

namespace Verif.Vec

open Real

/-! ## Code -/

section
variable {K : Type}

/-- `SetSubMatrix<T, 2, 2, tp>::M2x2`, `vector.h:147-152` and `:173-176`. -/
def sub2 (tp : Bool) (a b c d : K) : Matrix (Fin 2) (Fin 2) K := if tp then !![a, c; b, d] else !![a, b; c, d]

/-- `SetSubMatrix<T, 3, 3, tp>::M3x3`, `vector.h:153-159` and `:177-180`. -/
def sub3 (tp : Bool) (a b c d e f g h i : K) : Matrix (Fin 3) (Fin 3) K := if tp then !![a, d, g; b, e, h; c, f, i] else !![a, b, c; d, e, f; g, h, i]

/-- `SetSubMatrix<T, 4, 4, tp>::M4x4`, `vector.h:160-167` and `:181-184`. -/
def sub4 (tp : Bool) (a b c d e f g h i j k l m n o p : K) : Matrix (Fin 4) (Fin 4) K :=
  if tp then !![a, e, i, m; b, f, j, n; c, g, k, o; d, h, l, p] else !![a, b, c, d; e, f, g, h; i, j, k, l; m, n, o, p]

end

/-- `Matrix<T, 2, 2>::__Rotation`, `vector.h:877-882`. -/
noncomputable def rotation (tp : Bool) (r : ℝ) : Matrix (Fin 2) (Fin 2) ℝ := sub2 tp (cos r) (-sin r) (sin r) (cos r)

/-- `Matrix<T, 3, 3>::__RotationX`, `vector.h:952`. -/
noncomputable def rotationX (tp : Bool) (r : ℝ) : Matrix (Fin 3) (Fin 3) ℝ := sub3 tp 1 0 0 0 (cos r) (-sin r) 0 (sin r) (cos r)

/-- `Matrix<T, 3, 3>::__RotationY`, `vector.h:953`. -/
noncomputable def rotationY (tp : Bool) (r : ℝ) : Matrix (Fin 3) (Fin 3) ℝ := sub3 tp (cos r) 0 (sin r) 0 1 0 (-sin r) 0 (cos r)

/-- `Matrix<T, 3, 3>::__RotationZ`, `vector.h:954`, and `AffineRotation`, `:931-935`. -/
noncomputable def rotationZ (tp : Bool) (r : ℝ) : Matrix (Fin 3) (Fin 3) ℝ := sub3 tp (cos r) (-sin r) 0 (sin r) (cos r) 0 0 0 1

/-- `Matrix<T, 3, 3>::Translation` and `Translation_T`, `vector.h:948-951`. -/
noncomputable def translation3 (tp : Bool) (x y : ℝ) : Matrix (Fin 3) (Fin 3) ℝ := sub3 tp 1 0 x 0 1 y 0 0 1

/-- `Matrix<T, 3, 3>::__AffineTransform`, `vector.h:937-943`. -/
noncomputable def affine3 (tp : Bool) (x y r cx cy : ℝ) : Matrix (Fin 3) (Fin 3) ℝ :=
  sub3 tp (cos r) (-sin r) (x - cos r * cx + cx + cy * sin r) (sin r) (cos r) (y - cos r * cy + cy - cx * sin r) 0 0 1

/-- `Matrix<T, 4, 4>::__Translation`, `vector.h:1023`. -/
noncomputable def translation4 (tp : Bool) (x y z : ℝ) : Matrix (Fin 4) (Fin 4) ℝ := sub4 tp 1 0 0 x 0 1 0 y 0 0 1 z 0 0 0 1

/-- `Matrix<T, 4, 4>::__AffineRotationX`, `vector.h:1024`. -/
noncomputable def affineX (tp : Bool) (r : ℝ) : Matrix (Fin 4) (Fin 4) ℝ := sub4 tp 1 0 0 0 0 (cos r) (-sin r) 0 0 (sin r) (cos r) 0 0 0 0 1

/-- `Matrix<T, 4, 4>::__AffineRotationY`, `vector.h:1025`. -/
noncomputable def affineY (tp : Bool) (r : ℝ) : Matrix (Fin 4) (Fin 4) ℝ := sub4 tp (cos r) 0 (sin r) 0 0 1 0 0 (-sin r) 0 (cos r) 0 0 0 0 1

/-- `Matrix<T, 4, 4>::__AffineRotationZ`, `vector.h:1026`. -/
noncomputable def affineZ (tp : Bool) (r : ℝ) : Matrix (Fin 4) (Fin 4) ℝ := sub4 tp (cos r) (-sin r) 0 0 (sin r) (cos r) 0 0 0 0 1 0 0 0 0 1

/-- `Matrix<T, 4, 4>::__AffineTransform`, `vector.h:1012-1018`. -/
noncomputable def affine4 (tp : Bool) (x y z r cx cy : ℝ) : Matrix (Fin 4) (Fin 4) ℝ :=
  sub4 tp (cos r) (-sin r) 0 (x - cos r * cx + cx + cy * sin r) (sin r) (cos r) 0 (y - cos r * cy + cy - cx * sin r) 0 0 1 z 0 0 0 1

/-- `AffineScaling`, `vector.h:933`, through `Diagonal`, `:970`. -/
noncomputable def scaling3 (x y : ℝ) : Matrix (Fin 3) (Fin 3) ℝ := sub3 false x 0 0 0 y 0 0 0 1
/-- `AffineScaling`, `vector.h:1010-1011`, through `Diagonal`, `:1045`. -/
noncomputable def scaling4 (x y z : ℝ) : Matrix (Fin 4) (Fin 4) ℝ := sub4 false x 0 0 0 0 y 0 0 0 0 z 0 0 0 0 1

/-- `Vector<T, 2>::RotatePoint`, `vector.h:651`. -/
noncomputable def rotatePoint (x y r cx cy : ℝ) : ℝ × ℝ :=
  (((x - cx) * cos r - (y - cy) * sin r) + cx, ((y - cy) * cos r + (x - cx) * sin r) + cy)

/-! ## The property -/

/-- `Transpose` of 2 by 2, 3 by 3 and 4 by 4, `vector.h:889`, `:974`, `:1049`, passes the elements to the transposing `SetSubMatrix`. -/
theorem C98_transpose_small {K : Type} (x : Matrix (Fin 2) (Fin 2) K) (y : Matrix (Fin 3) (Fin 3) K) (z : Matrix (Fin 4) (Fin 4) K) :
    sub2 true (x 0 0) (x 0 1) (x 1 0) (x 1 1) = x.transpose ∧
    sub3 true (y 0 0) (y 0 1) (y 0 2) (y 1 0) (y 1 1) (y 1 2) (y 2 0) (y 2 1) (y 2 2) = y.transpose ∧
    sub4 true (z 0 0) (z 0 1) (z 0 2) (z 0 3) (z 1 0) (z 1 1) (z 1 2) (z 1 3) (z 2 0) (z 2 1) (z 2 2) (z 2 3) (z 3 0) (z 3 1) (z 3 2) (z 3 3) = z.transpose := by
  refine ⟨?_, ?_, ?_⟩
  all_goals
    ext i j
    fin_cases i <;> fin_cases j <;> rfl

/-- The `_T` forms are the transposes of the others. -/
theorem C99_transposed (r x y z cx cy : ℝ) :
    rotation true r = (rotation false r).transpose ∧ rotationX true r = (rotationX false r).transpose ∧ rotationY true r = (rotationY false r).transpose ∧
    rotationZ true r = (rotationZ false r).transpose ∧ translation3 true x y = (translation3 false x y).transpose ∧
    affine3 true x y r cx cy = (affine3 false x y r cx cy).transpose ∧ translation4 true x y z = (translation4 false x y z).transpose ∧
    affineX true r = (affineX false r).transpose ∧ affineY true r = (affineY false r).transpose ∧ affineZ true r = (affineZ false r).transpose ∧
    affine4 true x y z r cx cy = (affine4 false x y z r cx cy).transpose := by
  refine ⟨?_, ?_, ?_, ?_, ?_, ?_, ?_, ?_, ?_, ?_, ?_⟩
  all_goals
    ext i j
    fin_cases i <;> fin_cases j <;> rfl

/-- A translation matrix moves a point, a scaling matrix scales it. -/
theorem C99_translation (x y z a b c : ℝ) :
    (translation3 false x y).mulVec ![a, b, 1] = ![a + x, b + y, 1] ∧ (translation4 false x y z).mulVec ![a, b, c, 1] = ![a + x, b + y, c + z, 1] ∧
    (scaling3 x y).mulVec ![a, b, 1] = ![x * a, y * b, 1] ∧ (scaling4 x y z).mulVec ![a, b, c, 1] = ![x * a, y * b, z * c, 1] := by
  refine ⟨?_, ?_, ?_, ?_⟩
  all_goals
    ext i
    fin_cases i <;> simp [translation3, translation4, scaling3, scaling4, sub3, sub4, Matrix.mulVec, dotProduct, Fin.sum_univ_succ] <;> ring

/-- The affine transform of a point is the point rotated about the centre and then moved. -/
theorem C99_affine (x y z r cx cy a b c : ℝ) :
    (affine3 false x y r cx cy).mulVec ![a, b, 1] = ![(rotatePoint a b r cx cy).1 + x, (rotatePoint a b r cx cy).2 + y, 1] ∧
    (affine4 false x y z r cx cy).mulVec ![a, b, c, 1] = ![(rotatePoint a b r cx cy).1 + x, (rotatePoint a b r cx cy).2 + y, c + z, 1] ∧
    affine3 false x y r cx cy = translation3 false x y * (translation3 false cx cy * (rotationZ false r * translation3 false (-cx) (-cy))) ∧
    affine4 false x y z r cx cy = translation4 false x y z * (translation4 false cx cy 0 * (affineZ false r * translation4 false (-cx) (-cy) 0)) := by
  refine ⟨?_, ?_, ?_, ?_⟩
  · ext i
    fin_cases i <;> simp [affine3, rotatePoint, sub3, Matrix.mulVec, dotProduct, Fin.sum_univ_succ] <;> ring
  · ext i
    fin_cases i <;> simp [affine4, rotatePoint, sub4, Matrix.mulVec, dotProduct, Fin.sum_univ_succ] <;> ring
  · ext i j
    fin_cases i <;> fin_cases j <;> simp [affine3, translation3, rotationZ, sub3, Matrix.mul_apply, Fin.sum_univ_succ, Matrix.vecHead, Matrix.vecTail] <;> ring
  · ext i j
    fin_cases i <;> fin_cases j <;> simp [affine4, translation4, affineZ, sub4, Matrix.mul_apply, Fin.sum_univ_succ, Matrix.vecHead, Matrix.vecTail] <;> ring

/-- A family of matrices that turn by an angle about a line: products add the angles, the angle 0 does nothing, the transpose turns back, and volume and orientation are kept. -/
structure IsRotation {n : ℕ} (m : ℝ → Matrix (Fin n) (Fin n) ℝ) : Prop where
  add : ∀ r s, m (r + s) = m r * m s
  zero : m 0 = 1
  inv : ∀ r, (m r).transpose * m r = 1
  det : ∀ r, (m r).det = 1

theorem isRotation_of {n : ℕ} (m : ℝ → Matrix (Fin n) (Fin n) ℝ) (add : ∀ r s, m (r + s) = m r * m s) (zero : m 0 = 1) (inv : ∀ r, (m r).transpose = m (-r)) : IsRotation m where
  add := add
  zero := zero
  inv := fun r => by rw [inv, ← add, neg_add_cancel, zero]
  det := fun r => by
    -- the determinant is a square, and its square is one
    have h : m r = m (r / 2) * m (r / 2) := by rw [← add, add_halves]
    have h2 : ((m (r / 2)).det) * (m (r / 2)).det = 1 := by
      have := congrArg Matrix.det (show (m (r / 2)).transpose * m (r / 2) = 1 by rw [inv, ← add, neg_add_cancel, zero])
      rwa [Matrix.det_mul, Matrix.det_transpose, Matrix.det_one] at this
    rw [h, Matrix.det_mul, h2]

/-- All rotation matrices are rotations, and each turns the right plane: by a quarter turn from one axis to the next. -/
theorem C99_rotation :
    IsRotation (rotation false) ∧ IsRotation (rotationX false) ∧ IsRotation (rotationY false) ∧ IsRotation (rotationZ false) ∧ IsRotation (affineX false) ∧ IsRotation (affineY false) ∧
    IsRotation (affineZ false) := by
  refine ⟨?_, ?_, ?_, ?_, ?_, ?_, ?_⟩
  all_goals
    refine isRotation_of _ (fun r s => ?_) ?_ (fun r => ?_)
    all_goals
      ext i j
      fin_cases i <;> fin_cases j <;>
        simp [rotation, rotationX, rotationY, rotationZ, affineX, affineY, affineZ, sub2, sub3, sub4, Matrix.mul_apply, Fin.sum_univ_succ, Matrix.vecHead, Matrix.vecTail, cos_add, sin_add] <;> ring

/-- The coordinates that a rotation keeps, and the ones it turns, the way `Rotate` turns a point about the origin. -/
theorem C99_axes (r a b c : ℝ) :
    (rotation false r).mulVec ![a, b] = ![(rotatePoint a b r 0 0).1, (rotatePoint a b r 0 0).2] ∧
    (rotationX false r).mulVec ![a, b, c] = ![a, (rotatePoint b c r 0 0).1, (rotatePoint b c r 0 0).2] ∧
    (rotationY false r).mulVec ![a, b, c] = ![(rotatePoint c a r 0 0).2, b, (rotatePoint c a r 0 0).1] ∧
    (rotationZ false r).mulVec ![a, b, c] = ![(rotatePoint a b r 0 0).1, (rotatePoint a b r 0 0).2, c] ∧
    (affineX false r).mulVec ![a, b, c, 1] = ![a, (rotatePoint b c r 0 0).1, (rotatePoint b c r 0 0).2, 1] ∧
    (affineY false r).mulVec ![a, b, c, 1] = ![(rotatePoint c a r 0 0).2, b, (rotatePoint c a r 0 0).1, 1] ∧
    (affineZ false r).mulVec ![a, b, c, 1] = ![(rotatePoint a b r 0 0).1, (rotatePoint a b r 0 0).2, c, 1] := by
  refine ⟨?_, ?_, ?_, ?_, ?_, ?_, ?_⟩
  all_goals
    ext i
    fin_cases i <;>
      simp [rotation, rotationX, rotationY, rotationZ, affineX, affineY, affineZ, rotatePoint, sub2, sub3, sub4, Matrix.mulVec, dotProduct, Fin.sum_univ_succ] <;> ring

/-- Turning a point about a centre: the centre stays, distances stay, angles add up, and in the plane of the complex numbers it is the multiplication by `exp (i r)`. -/
theorem C99_rotate (x y r s cx cy : ℝ) :
    (⟨(rotatePoint x y r cx cy).1 - cx, (rotatePoint x y r cx cy).2 - cy⟩ : ℂ) = Complex.exp (r * Complex.I) * ⟨x - cx, y - cy⟩ ∧
    rotatePoint (rotatePoint x y r cx cy).1 (rotatePoint x y r cx cy).2 s cx cy = rotatePoint x y (r + s) cx cy ∧
    ((rotatePoint x y r cx cy).1 - cx) ^ 2 + ((rotatePoint x y r cx cy).2 - cy) ^ 2 = (x - cx) ^ 2 + (y - cy) ^ 2 := by
  refine ⟨?_, ?_, ?_⟩
  · rw [Complex.exp_mul_I]
    apply Complex.ext
    · simp [rotatePoint, Complex.cos_ofReal_re, Complex.sin_ofReal_re, Complex.cos_ofReal_im, Complex.sin_ofReal_im]
      ring
    · simp [rotatePoint, Complex.cos_ofReal_re, Complex.sin_ofReal_re, Complex.cos_ofReal_im, Complex.sin_ofReal_im]
      ring
  · rw [rotatePoint, rotatePoint, rotatePoint, cos_add, sin_add]
    ext
    · simp only []; ring
    · simp only []; ring
  · have h := sin_sq_add_cos_sq r
    simp only [rotatePoint, add_sub_cancel_right]
    linear_combination ((x - cx) ^ 2 + (y - cy) ^ 2) * h

/-- A quarter turn about the point (1, 1) takes (2, 1) to (1, 2). -/
example : rotatePoint 2 1 (π / 2) 1 1 = (1, 2) := by
  rw [rotatePoint, cos_pi_div_two, sin_pi_div_two]
  norm_num

end Verif.Vec
