import Verif.Vec.Multiply
import Mathlib.Analysis.InnerProductSpace.PiL2
import Mathlib.Analysis.SpecialFunctions.Complex.Arg
import Mathlib.LinearAlgebra.CrossProduct
import Mathlib.LinearAlgebra.Matrix.Determinant.Basic

/-!
# Lengths, distances, angles and areas (C100)

The elements are real numbers: rounding and the error of `FastSqrt` are not modelled, `FastSqrt` is the root.
-/

namespace Verif.Vec

open Real

/-! ## Code -/

section
variable {K : Type} [Field K]

/-- `NVectorDot`, `vector.h:17-24`. -/
def dot {n : ℕ} (l r : Fin n → K) : K := (List.finRange n).foldl (fun ret i => ret + l i * r i) 0

/-- `NVectorDot<float, 4>` and `<int, 4>`, `vector.h:26-36`. -/
def dot4s (l r : Reg K) : K := regSum (fun i => l i * r i)

/-- `Vector<T, 2>::Dot`, `vector.h:640` and `:653`. -/
def dot2 (v r : Fin 2 → K) : K := r 0 * v 0 + r 1 * v 1

/-- `Vector<T, 3>::Dot`, `vector.h:687`. -/
def dot3 (v r : Fin 3 → K) : K := v 0 * r 0 + v 1 * r 1 + v 2 * r 2

/-- `NVectorDistanceSq`, `vector.h:39-50`; all vectors have an element. -/
def distSq {n : ℕ} (l r : Fin (n + 1) → K) : K :=
  (List.finRange n).foldl (fun ret i => ret + (r i.succ - l i.succ) * (r i.succ - l i.succ)) ((r 0 - l 0) * (r 0 - l 0))

/-- `bss::DistSqr` as `Vector<T, 2>::DistanceSq` calls it, `vector.h:642` and `bss_util.h:667-671`. -/
def distSq2 (v r : Fin 2 → K) : K := (r 0 - v 0) * (r 0 - v 0) + (r 1 - v 1) * (r 1 - v 1)

/-- `Vector<T, 3>::DistanceSq`, `vector.h:689`. -/
def distSq3 (v r : Fin 3 → K) : K := (r 0 - v 0) * (r 0 - v 0) + (r 1 - v 1) * (r 1 - v 1) + (r 2 - v 2) * (r 2 - v 2)

/-- `Vector<T, 4>::DistanceSq`, `vector.h:736`. -/
def distSq4 (v r : Fin 4 → K) : K := (r 0 - v 0) * (r 0 - v 0) + (r 1 - v 1) * (r 1 - v 1) + (r 2 - v 2) * (r 2 - v 2) + (r 3 - v 3) * (r 3 - v 3)

/-- `Vector<T, 2>::Cross`, `vector.h:645` and `:652`. -/
def cross2 (v r : Fin 2 → K) : K := v 0 * r 1 - r 0 * v 1

/-- `Vector<T, 3>::Cross`, `vector.h:690-691`. -/
def cross3 (v r : Fin 3 → K) : Fin 3 → K := ![v 1 * r 2 - v 2 * r 1, v 2 * r 0 - v 0 * r 2, v 0 * r 1 - r 0 * v 1]

/-- `Outer`, `vector.h:605`, `:647`, `:692`, `:737`: the product of a column and a row. -/
def outer {m n : ℕ} (v : Fin m → K) (r : Fin n → K) (tmp out : Arr m n K) : Arr m n K :=
  multiply (Matrix.of fun i (_ : Fin 1) => v i) (Matrix.of fun (_ : Fin 1) j => r j) tmp out

end

/-- `Length`, `vector.h:599`, `:637`, `:684` (written out), `:731`. -/
noncomputable def length {n : ℕ} (v : Fin n → ℝ) : ℝ := √(dot v v)

/-- `NVectorDistance`, `vector.h:51-52`. -/
noncomputable def distance {n : ℕ} (l r : Fin (n + 1) → ℝ) : ℝ := √(distSq l r)

/-- `NVectorNormalize`, `vector.h:54-61`: a multiplication by the inverse. -/
noncomputable def normalize {n : ℕ} (v : Fin n → ℝ) : Fin n → ℝ := fun i => v i * (1 / √(dot v v))

/-- `NVectorNormalize<float, 4>`, `vector.h:63-68`, and `Normalize` in two and three dimensions, `:638`, `:685`: a division. -/
noncomputable def normalizeDiv {n : ℕ} (v : Fin n → ℝ) : Fin n → ℝ := fun i => v i / √(dot v v)

/-- `NTriangleArea`, `vector.h:83-92`. -/
noncomputable def triangleArea {n : ℕ} (x1 x2 x3 : Fin (n + 1) → ℝ) : ℝ :=
  let a := distance x1 x2
  let b := distance x1 x3
  let c := distance x2 x3
  let s := (a + b + c) / 2
  √(s * (s - a) * (s - b) * (s - c))

/-- `FromPolar`, `vector.h:655`. -/
noncomputable def fromPolar (r angle : ℝ) : ℝ × ℝ := (r * cos angle, r * sin angle)

/-- `ToPolar`, `vector.h:657`; `atan2` is the argument of a complex number. -/
noncomputable def toPolar (x y : ℝ) : ℝ × ℝ := (√(x * x + y * y), Complex.arg ⟨x, y⟩)

/-! ## The property -/

theorem dot_eq {K : Type} [Field K] {n : ℕ} (l r : Fin n → K) : dot l r = ∑ i, l i * r i := by
  rw [dot, foldl_sum (fun i => l i * r i), zero_add]

theorem distSq_eq {K : Type} [Field K] {n : ℕ} (l r : Fin (n + 1) → K) : distSq l r = ∑ i, (l i - r i) ^ 2 := by
  rw [distSq, foldl_sum (fun i : Fin n => (r i.succ - l i.succ) * (r i.succ - l i.succ)), Fin.sum_univ_succ]
  congr 1
  · ring
  · exact Finset.sum_congr rfl fun i _ => by ring

/-- All forms of the dot product and of the squared distance agree with the usual ones. -/
theorem C100_dot {K : Type} [Field K] {n : ℕ} (l r : Fin n → K) (l1 r1 : Fin (n + 1) → K) (l2 r2 : Fin 2 → K) (l3 r3 : Fin 3 → K) (l4 r4 : Fin 4 → K) :
    dot l r = l ⬝ᵥ r ∧ dot2 l2 r2 = l2 ⬝ᵥ r2 ∧ dot3 l3 r3 = l3 ⬝ᵥ r3 ∧ dot4s l4 r4 = l4 ⬝ᵥ r4 ∧
    distSq l1 r1 = (l1 - r1) ⬝ᵥ (l1 - r1) ∧ distSq2 l2 r2 = (l2 - r2) ⬝ᵥ (l2 - r2) ∧ distSq3 l3 r3 = (l3 - r3) ⬝ᵥ (l3 - r3) ∧ distSq4 l4 r4 = (l4 - r4) ⬝ᵥ (l4 - r4) := by
  refine ⟨dot_eq l r, ?_, ?_, ?_, ?_, ?_, ?_, ?_⟩
  · simp only [dot2, dotProduct, Fin.sum_univ_two]; ring
  · simp only [dot3, dotProduct, Fin.sum_univ_three]
  · simp only [dot4s, regSum, shuf4, dotProduct, Fin.sum_univ_four]; simp [Matrix.vecHead]; ring
  · rw [distSq_eq]
    exact Finset.sum_congr rfl fun i _ => by rw [Pi.sub_apply]; ring
  · simp only [distSq2, dotProduct, Fin.sum_univ_two, Pi.sub_apply]; ring
  · simp only [distSq3, dotProduct, Fin.sum_univ_three, Pi.sub_apply]; ring
  · simp only [distSq4, dotProduct, Fin.sum_univ_four, Pi.sub_apply]; ring

/-- Lengths and distances are those of Euclidean space, so they satisfy the triangle inequality and the other laws of a metric. -/
theorem C100_euclidean {n : ℕ} (v : Fin n → ℝ) (l r : Fin (n + 1) → ℝ) :
    length v = ‖(WithLp.toLp 2 v : EuclideanSpace ℝ (Fin n))‖ ∧ distance l r = dist (WithLp.toLp 2 l : EuclideanSpace ℝ (Fin (n + 1))) (WithLp.toLp 2 r) := by
  constructor
  · rw [EuclideanSpace.norm_eq, length, dot_eq]
    congr 1
    exact Finset.sum_congr rfl fun i _ => by rw [Real.norm_eq_abs, sq_abs, sq]
  · rw [EuclideanSpace.dist_eq, distance, distSq_eq]
    congr 1
    exact Finset.sum_congr rfl fun i _ => by rw [Real.dist_eq, sq_abs]

/-- Both ways of normalizing give the vector of length 1 in the same direction. -/
theorem C100_normalize {n : ℕ} (v : Fin n → ℝ) (h : v ≠ 0) : length (normalize v) = 1 ∧ (∀ i, length v * normalize v i = v i) ∧ normalizeDiv v = normalize v := by
  have hp : 0 < dot v v := by
    rw [dot_eq]
    obtain ⟨i, hi⟩ := Function.ne_iff.1 h
    exact Finset.sum_pos' (fun i _ => mul_self_nonneg (v i)) ⟨i, Finset.mem_univ i, mul_self_pos.2 hi⟩
  have hs : √(dot v v) ≠ 0 := (Real.sqrt_pos.2 hp).ne'
  refine ⟨?_, ?_, ?_⟩
  · have : dot (normalize v) (normalize v) = 1 := by
      rw [dot_eq]
      have h1 : ∀ i, normalize v i * normalize v i = v i * v i * (1 / dot v v) := by
        intro i
        rw [normalize, mul_mul_mul_comm, div_mul_div_comm, Real.mul_self_sqrt hp.le, one_mul]
      rw [Finset.sum_congr rfl (fun i _ => h1 i), ← Finset.sum_mul, ← dot_eq, mul_one_div_cancel hp.ne']
    rw [length, this, Real.sqrt_one]
  · intro i
    rw [length, normalize, mul_left_comm, mul_one_div_cancel hs, mul_one]
  · funext i
    rw [normalizeDiv, normalize, div_eq_mul_one_div]

/-- A vector that is not zero. -/
example : (![3, 4] : Fin 2 → ℝ) ≠ 0 ∧ length (![3, 4] : Fin 2 → ℝ) = 5 := by
  constructor
  · intro h; have := congrFun h 0; simp at this
  · rw [length, dot_eq, Real.sqrt_eq_iff_mul_self_eq (by simp [Fin.sum_univ_two]; norm_num) (by norm_num)]; simp [Fin.sum_univ_two]; norm_num

/-- The cross products are the determinant and the usual vector product. -/
theorem C100_cross {K : Type} [Field K] (v r : Fin 2 → K) (a b : Fin 3 → K) :
    cross2 v r = (Matrix.of ![v, r]).det ∧ cross3 a b = crossProduct a b ∧ dot3 a (cross3 a b) = 0 ∧ dot3 b (cross3 a b) = 0 := by
  refine ⟨?_, ?_, ?_, ?_⟩
  · rw [Matrix.det_fin_two]; simp [cross2]; ring
  · rw [cross_apply, cross3]; congr 3; ring
  · simp [dot3, cross3]; ring
  · simp [dot3, cross3]; ring

/-- The outer product has the products of the elements. -/
theorem C100_outer {K : Type} [Field K] {m n : ℕ} (v : Fin m → K) (r : Fin n → K) (tmp out : Arr m n K) (i : Fin m) (j : Fin n) : outer v r tmp out i j = v i * r j := by
  have h := (C98_product (K := K) (n := 0) (Matrix.of fun i (_ : Fin 1) => v i) (Matrix.of fun (_ : Fin 1) j => r j) tmp out (0 : Matrix (Fin m) (Fin 4) K) 0 0 0).1
  rw [outer, h, Matrix.mul_apply]
  simp

/-- The area of a triangle is half of the area that the two edges at a corner span: the root of the Gram determinant. -/
theorem C100_area {n : ℕ} (x1 x2 x3 : Fin (n + 1) → ℝ) :
    triangleArea x1 x2 x3 = √((x2 - x1) ⬝ᵥ (x2 - x1) * ((x3 - x1) ⬝ᵥ (x3 - x1)) - ((x2 - x1) ⬝ᵥ (x3 - x1)) ^ 2) / 2 := by
  have e : ∀ l r : Fin (n + 1) → ℝ, distance l r ^ 2 = (l - r) ⬝ᵥ (l - r) := by
    intro l r
    rw [distance, Real.sq_sqrt (by rw [distSq_eq]; exact Finset.sum_nonneg fun i _ => sq_nonneg _), distSq_eq]
    exact Finset.sum_congr rfl fun i _ => by rw [Pi.sub_apply]; ring
  have h1 := e x1 x2
  have h2 := e x1 x3
  have h3 := e x2 x3
  rw [show x2 - x3 = (x2 - x1) - (x3 - x1) by abel, sub_dotProduct, dotProduct_sub (x2 - x1) (x2 - x1) (x3 - x1), dotProduct_sub (x3 - x1) (x2 - x1) (x3 - x1),
    dotProduct_comm (x3 - x1) (x2 - x1)] at h3
  rw [← neg_sub x2 x1, neg_dotProduct_neg] at h1
  rw [← neg_sub x3 x1, neg_dotProduct_neg] at h2
  have key : ∀ a b c p q g : ℝ, a ^ 2 = p → b ^ 2 = q → c ^ 2 = p - g - (g - q) →
      (a + b + c) / 2 * ((a + b + c) / 2 - a) * ((a + b + c) / 2 - b) * ((a + b + c) / 2 - c) = (p * q - g ^ 2) / 4 := by
    intro a b c p q g ha hb hc
    subst ha hb
    have hg : g = (a ^ 2 + b ^ 2 - c ^ 2) / 2 := by linarith
    subst hg
    ring
  rw [triangleArea, key _ _ _ _ _ _ h1 h2 h3, Real.sqrt_div' _ (by norm_num : (0 : ℝ) ≤ 4), show (4 : ℝ) = 2 ^ 2 by norm_num, Real.sqrt_sq (by norm_num)]

/-- In the plane that is half of the cross product of the edges. -/
theorem C100_area_plane (x1 x2 x3 : Fin 2 → ℝ) : triangleArea x1 x2 x3 = |cross2 (x2 - x1) (x3 - x1)| / 2 := by
  rw [C100_area, ← Real.sqrt_sq_eq_abs]
  congr 2
  have e : ∀ u v : Fin 2 → ℝ, u ⬝ᵥ v = u 0 * v 0 + u 1 * v 1 := fun u v => Fin.sum_univ_two _
  rw [e, e, e]
  simp only [cross2, Pi.sub_apply]
  ring

/-- Polar coordinates: converting to them and back gives the point, and converting from them and back gives the coordinates. -/
theorem C100_polar (x y r a : ℝ) (hr : 0 < r) (ha : a ∈ Set.Ioc (-π) π) :
    fromPolar (toPolar x y).1 (toPolar x y).2 = (x, y) ∧ toPolar (fromPolar r a).1 (fromPolar r a).2 = (r, a) := by
  constructor
  · have h : √(x * x + y * y) = ‖(⟨x, y⟩ : ℂ)‖ := by rw [Complex.norm_def, Complex.normSq_mk]
    rw [toPolar, fromPolar, h, Complex.norm_mul_cos_arg, Complex.norm_mul_sin_arg]
  · rw [fromPolar, toPolar]
    refine Prod.ext ?_ ?_
    · simp only []
      rw [show r * cos a * (r * cos a) + r * sin a * (r * sin a) = r ^ 2 by linear_combination r ^ 2 * sin_sq_add_cos_sq a, Real.sqrt_sq hr.le]
    · simp only []
      have : (⟨r * cos a, r * sin a⟩ : ℂ) = r * (Complex.cos a + Complex.sin a * Complex.I) := by
        apply Complex.ext
        · simp [Complex.cos_ofReal_re, Complex.sin_ofReal_im, Complex.cos_ofReal_im]
        · simp [Complex.cos_ofReal_im, Complex.sin_ofReal_re, Complex.sin_ofReal_im]
      rw [this, Complex.arg_mul_cos_add_sin_mul_I hr ha]

/-- Coordinates in the range. -/
example : (0 : ℝ) < 2 ∧ π / 2 ∈ Set.Ioc (-π) π := ⟨by norm_num, by constructor <;> linarith [Real.pi_pos]⟩

end Verif.Vec
