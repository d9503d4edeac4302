import Verif.Geo.Rect
import Mathlib.Analysis.SpecialFunctions.Complex.Arg

/-!
# The nearest point of an ellipse, and ellipses and circles (C193)

`EllipseNearestPoint` and `EllipseCircleCollide` of `/repo/include/bss-util/Collision.h`, in exact arithmetic over the real numbers.
-/

namespace Verif.Geo

open Real

/-! ## Code -/

/-- `f__`, `Collision.h:513-515, 522`. -/
noncomputable def ellipseDeriv (A B cx cy t : ℝ) : ℝ :=
  let AB2 := A * A - B * B
  let xA := cx * A
  let yB := cy * B
  AB2 * (cos t * cos t - sin t * sin t) - xA * cos t - yB * sin t

/-- One step of Newton's method, the loop body at `Collision.h:517-524`. Where the divisor is zero Lean's quotient is zero and that of the code is not a
number; `C193_divisor_partial` shows where this does not happen. -/
noncomputable def ellipseStep (A B cx cy t : ℝ) : ℝ :=
  let AB2 := A * A - B * B
  let xA := cx * A
  let yB := cy * B
  let f_ := AB2 * cos t * sin t - xA * sin t + yB * cos t
  t - f_ / ellipseDeriv A B cx cy t

/-- `t` at the start, `Collision.h:512`. -/
noncomputable def ellipseStart (A B cx cy : ℝ) : ℝ := Complex.arg ⟨B * cx, A * cy⟩

/-- `EllipseNearestPoint(A, B, cx, cy, outX, outY)`, `Collision.h:499-528`; `atan2` is `Complex.arg`. -/
noncomputable def ellipseNearest (A B cx cy : ℝ) : ℝ × ℝ :=
  if cx * cx / (A * A) + cy * cy / (B * B) ≤ 1 then (cx, cy)
  else
    let t := (ellipseStep A B cx cy)^[4] (ellipseStart A B cx cy)
    (A * cos t, B * sin t)

/-- `EllipseCircleCollide(X, Y, A, B, x, y, r)`, `Collision.h:531-537`. -/
noncomputable def ellipseCircleCollide (X Y A B x y r : ℝ) : Bool :=
  let dx := x - X
  let dy := y - Y
  let p := ellipseNearest A B dx dy
  decide ((dx - p.1) * (dx - p.1) + (dy - p.2) * (dy - p.2) < r * r)

/-- `Ellipse::NearestPoint(X, Y, outX, outY)`, `Geometry.h:413`. -/
noncomputable def ellipseNearestMember (x y a b X Y : ℝ) : ℝ × ℝ := ellipseNearest a b (X - x) (Y - y)

/-! ## Specification -/

/-- The points of the ellipse with half axes A and B around (X, Y), its inside included. -/
def EllipseAt (X Y A B : ℝ) : Set (ℝ × ℝ) := {p | ((p.1 - X) / A) ^ 2 + ((p.2 - Y) / B) ^ 2 ≤ 1}

/-- The square of the distance. -/
def sqDist (p q : ℝ × ℝ) : ℝ := (p.1 - q.1) ^ 2 + (p.2 - q.2) ^ 2

theorem ellipse_iff (A B cx cy : ℝ) : cx * cx / (A * A) + cy * cy / (B * B) ≤ 1 ↔ (cx, cy) ∈ EllipseAt 0 0 A B := by
  unfold EllipseAt
  simp only [Set.mem_setOf_eq, sub_zero, sq, div_mul_div_comm]

/-- **C193**: the result is a point of the ellipse: the point itself if it is inside, otherwise one on the border. -/
theorem C193_inside {A B : ℝ} (hA : 0 < A) (hB : 0 < B) (c : ℝ × ℝ) :
    ellipseNearest A B c.1 c.2 ∈ EllipseAt 0 0 A B ∧
    (c ∈ EllipseAt 0 0 A B → ellipseNearest A B c.1 c.2 = c) ∧
    (c ∉ EllipseAt 0 0 A B → ((ellipseNearest A B c.1 c.2).1 / A) ^ 2 + ((ellipseNearest A B c.1 c.2).2 / B) ^ 2 = 1) := by
  have border : ∀ t : ℝ, (A * cos t / A) ^ 2 + (B * sin t / B) ^ 2 = 1 := by
    intro t
    rw [mul_div_cancel_left₀ _ hA.ne', mul_div_cancel_left₀ _ hB.ne']
    exact cos_sq_add_sin_sq t
  unfold ellipseNearest
  by_cases h : c.1 * c.1 / (A * A) + c.2 * c.2 / (B * B) ≤ 1
  · rw [if_pos h]
    have h' := (ellipse_iff A B c.1 c.2).1 h
    exact ⟨h', fun _ => rfl, fun hn => absurd h' hn⟩
  · rw [if_neg h]
    have h' := fun hc => h ((ellipse_iff A B c.1 c.2).2 hc)
    refine ⟨?_, fun hc => absurd hc h', fun _ => border _⟩
    show ((A * cos _ - 0) / A) ^ 2 + ((B * sin _ - 0) / B) ^ 2 ≤ 1
    rw [sub_zero, sub_zero, border]

example : (ellipseNearest 2 1 1 (1 / 2)) = (1, 1 / 2) := by
  have := (C193_inside (A := 2) (B := 1) (by norm_num) (by norm_num) (1, 1 / 2)).2.1 (by unfold EllipseAt; norm_num)
  exact this

/-- **C193**: if the collision of an ellipse and a circle is reported, they have a common point. -/
theorem C193_collide_sound {X Y A B x y r : ℝ} (hA : 0 < A) (hB : 0 < B)
    (h : ellipseCircleCollide X Y A B x y r = true) : ∃ p ∈ EllipseAt X Y A B, sqDist p (x, y) < r ^ 2 := by
  unfold ellipseCircleCollide at h
  rw [decide_eq_true_iff] at h
  obtain ⟨h1, _⟩ := C193_inside hA hB (x - X, y - Y)
  generalize hp : ellipseNearest A B (x - X) (y - Y) = p at h h1
  refine ⟨(p.1 + X, p.2 + Y), ?_, ?_⟩
  · unfold EllipseAt at h1 ⊢
    simpa using h1
  · unfold sqDist
    dsimp only
    nlinarith

theorem iterate_fix {f : ℝ → ℝ} {t : ℝ} (h : f t = t) : f^[4] t = t := by
  simp [Function.iterate_succ, h]

/-- A step stays where the derivative is zero already. -/
theorem step_fix {A B cx cy t : ℝ} (h : (A * A - B * B) * cos t * sin t - cx * A * sin t + cy * B * cos t = 0) :
    ellipseStep A B cx cy t = t := by
  unfold ellipseStep
  dsimp only
  rw [h]
  simp

theorem abs_of_ellipse {u A : ℝ} (hA : 0 < A) (h : (u / A) ^ 2 ≤ 1) : -A ≤ u ∧ u ≤ A := by
  have := (sq_le_one_iff_abs_le_one _).1 h
  rw [abs_le, le_div_iff₀ hA, div_le_iff₀ hA] at this
  constructor <;> linarith

/-- A circle, and a point outside it. -/
theorem nearest_circle {A x y u v : ℝ} (hA : 0 < A) (h : ¬ x * x / (A * A) + y * y / (A * A) ≤ 1) (huv : u ^ 2 + v ^ 2 ≤ A ^ 2) :
    sqDist (A * cos ((ellipseStep A A x y)^[4] (Complex.arg ⟨A * x, A * y⟩)), A * sin ((ellipseStep A A x y)^[4] (Complex.arg ⟨A * x, A * y⟩))) (x, y)
      ≤ sqDist (u, v) (x, y) := by
  have hxy : 0 < x * x + y * y := by
    rcases (add_nonneg (mul_self_nonneg x) (mul_self_nonneg y)).lt_or_eq with h0 | h0
    · exact h0
    · exfalso; apply h
      rw [← add_div, ← h0]; simp
  obtain ⟨z, hz⟩ : ∃ z : ℂ, z = ⟨A * x, A * y⟩ := ⟨_, rfl⟩
  rw [← hz]
  have hre : z.re = A * x := by rw [hz]
  have him : z.im = A * y := by rw [hz]
  have hne : z ≠ 0 := by
    intro h0
    rw [h0] at hre him
    have e1 : x = 0 := by simpa [hA.ne'] using hre
    have e2 : y = 0 := by simpa [hA.ne'] using him
    rw [e1, e2] at hxy; simp at hxy
  have hnorm : 0 < ‖z‖ := norm_pos_iff.2 hne
  have e1 : ‖z‖ * cos (Complex.arg z) = A * x := (Complex.norm_mul_cos_arg z).trans hre
  have e2 : ‖z‖ * sin (Complex.arg z) = A * y := (Complex.norm_mul_sin_arg z).trans him
  generalize Complex.arg z = t at e1 e2 ⊢
  generalize ‖z‖ = N at e1 e2 hnorm
  clear hz hre him hne
  have hfix : (ellipseStep A A x y)^[4] t = t := by
    apply iterate_fix
    apply step_fix
    have : N * ((A * A - A * A) * cos t * sin t - x * A * sin t + y * A * cos t) = 0 := by
      linear_combination (-(x * A)) * e2 + y * A * e1
    rcases mul_eq_zero.1 this with h0 | h0
    · exact absurd h0 hnorm.ne'
    · exact h0
  rw [hfix]
  have hcs := cos_sq_add_sin_sq t
  obtain ⟨ρ, hρ⟩ : ∃ ρ, ρ = N / A := ⟨_, rfl⟩
  have hx : x = ρ * cos t := by rw [hρ]; field_simp; linarith
  have hy : y = ρ * sin t := by rw [hρ]; field_simp; linarith
  have hρ0 : 0 < ρ := by rw [hρ]; positivity
  have hxx : x * x + y * y = ρ * ρ := by rw [hx, hy]; linear_combination ρ ^ 2 * hcs
  have hρA : A < ρ := by
    by_contra hle
    push Not at hle
    apply h
    rw [← add_div, hxx, div_le_one (by positivity)]
    exact mul_le_mul hle hle hρ0.le hA.le
  unfold sqDist
  dsimp only
  rw [hx, hy]
  have l : (A * cos t - ρ * cos t) ^ 2 + (A * sin t - ρ * sin t) ^ 2 = (ρ - A) ^ 2 := by
    linear_combination (ρ - A) ^ 2 * hcs
  rw [l]
  have hw0 : (u * cos t + v * sin t) ^ 2 + (u * sin t - v * cos t) ^ 2 = u ^ 2 + v ^ 2 := by
    linear_combination (u ^ 2 + v ^ 2) * hcs
  have hsq : (u - ρ * cos t) ^ 2 + (v - ρ * sin t) ^ 2 = (ρ - (u * cos t + v * sin t)) ^ 2 + (u * sin t - v * cos t) ^ 2 := by
    linear_combination (ρ ^ 2 - u ^ 2 - v ^ 2) * hcs
  rw [hsq]
  generalize u * cos t + v * sin t = a at hw0 ⊢
  generalize u * sin t - v * cos t = b at hw0 ⊢
  have ha : a ≤ A := (abs_le_of_sq_le_sq' (by nlinarith [sq_nonneg b]) hA.le).2
  have : (ρ - A) ^ 2 ≤ (ρ - a) ^ 2 := by
    apply sq_le_sq' <;> linarith
  linarith [sq_nonneg b]

/-- A point on the second axis. -/
theorem nearest_second {A B y u v : ℝ} (hA : 0 < A) (hB : 0 < B) (h : ¬ (0 : ℝ) * 0 / (A * A) + y * y / (B * B) ≤ 1) (hv : -B ≤ v ∧ v ≤ B) :
    sqDist (A * cos ((ellipseStep A B 0 y)^[4] (Complex.arg ⟨B * 0, A * y⟩)), B * sin ((ellipseStep A B 0 y)^[4] (Complex.arg ⟨B * 0, A * y⟩))) (0, y)
      ≤ sqDist (u, v) (0, y) := by
  have hyB : B ^ 2 < y ^ 2 := by
    by_contra hle
    push Not at hle
    apply h
    rw [mul_zero, zero_div, zero_add, div_le_one (by positivity)]
    linarith [sq y, sq B]
  have hyB := lt_abs.1 (sq_lt_sq.1 hyB)
  rw [abs_of_pos hB] at hyB
  rcases hyB with hpos | hneg
  · have ha : Complex.arg ⟨B * 0, A * y⟩ = π / 2 := by
      rw [show (⟨B * 0, A * y⟩ : ℂ) = ((A * y : ℝ) : ℂ) * Complex.I by
        apply Complex.ext <;> simp]
      rw [Complex.arg_real_mul _ (mul_pos hA (hB.trans hpos)), Complex.arg_I]
    rw [ha, iterate_fix (step_fix (by simp))]
    simp only [cos_pi_div_two, sin_pi_div_two, mul_zero, sqDist, mul_one]
    have : (B - y) ^ 2 ≤ (v - y) ^ 2 := by
      rw [← neg_sq (B - y), ← neg_sq (v - y)]
      apply sq_le_sq' <;> linarith
    linarith [sq_nonneg (u - 0)]
  · have ha : Complex.arg ⟨B * 0, A * y⟩ = -(π / 2) := by
      rw [show (⟨B * 0, A * y⟩ : ℂ) = ((A * -y : ℝ) : ℂ) * (-Complex.I) by
        apply Complex.ext <;> simp]
      rw [Complex.arg_real_mul _ (mul_pos hA (hB.trans hneg)), Complex.arg_neg_I]
    rw [ha, iterate_fix (step_fix (by simp))]
    simp only [cos_neg, cos_pi_div_two, sin_neg, sin_pi_div_two, mul_zero, sqDist]
    have : (B * -1 - y) ^ 2 ≤ (v - y) ^ 2 := by
      apply sq_le_sq' <;> linarith
    linarith [sq_nonneg (u - 0)]

/-- A point on the first axis. -/
theorem nearest_first {A B x u v : ℝ} (hA : 0 < A) (hB : 0 < B) (h : ¬ x * x / (A * A) + (0 : ℝ) * 0 / (B * B) ≤ 1) (hu : -A ≤ u ∧ u ≤ A) :
    sqDist (A * cos ((ellipseStep A B x 0)^[4] (Complex.arg ⟨B * x, A * 0⟩)), B * sin ((ellipseStep A B x 0)^[4] (Complex.arg ⟨B * x, A * 0⟩))) (x, 0)
      ≤ sqDist (u, v) (x, 0) := by
  have hxA : A ^ 2 < x ^ 2 := by
    by_contra hle
    push Not at hle
    apply h
    rw [mul_zero, zero_div, add_zero, div_le_one (by positivity)]
    linarith [sq x, sq A]
  have hxA := lt_abs.1 (sq_lt_sq.1 hxA)
  rw [abs_of_pos hA] at hxA
  rcases hxA with hpos | hneg
  · have ha : Complex.arg ⟨B * x, A * 0⟩ = 0 := by
      rw [show (⟨B * x, A * 0⟩ : ℂ) = ((B * x : ℝ) : ℂ) by apply Complex.ext <;> simp]
      exact Complex.arg_ofReal_of_nonneg (mul_pos hB (hA.trans hpos)).le
    rw [ha, iterate_fix (step_fix (by simp))]
    simp only [cos_zero, sin_zero, mul_zero, mul_one, sqDist]
    have : (A - x) ^ 2 ≤ (u - x) ^ 2 := by
      rw [← neg_sq (A - x), ← neg_sq (u - x)]
      apply sq_le_sq' <;> linarith
    linarith [sq_nonneg (v - 0)]
  · have ha : Complex.arg ⟨B * x, A * 0⟩ = π := by
      rw [show (⟨B * x, A * 0⟩ : ℂ) = ((B * x : ℝ) : ℂ) by apply Complex.ext <;> simp]
      exact Complex.arg_ofReal_of_neg (mul_neg_of_pos_of_neg hB (by linarith))
    rw [ha, iterate_fix (step_fix (by simp))]
    simp only [cos_pi, sin_pi, mul_zero, sqDist]
    have : (A * -1 - x) ^ 2 ≤ (u - x) ^ 2 := by
      apply sq_le_sq' <;> linarith
    linarith [sq_nonneg (v - 0)]

/-- In the cases treated the start is a zero of the function, and the divisor is negative there. -/
theorem start_spec {A B : ℝ} (hA : 0 < A) (hB : 0 < B) {x y : ℝ} (hc : A = B ∨ x = 0 ∨ y = 0) (h : ¬ x * x / (A * A) + y * y / (B * B) ≤ 1) :
    ellipseStep A B x y (ellipseStart A B x y) = ellipseStart A B x y ∧ ellipseDeriv A B x y (ellipseStart A B x y) < 0 := by
  unfold ellipseStart
  have hne : (⟨B * x, A * y⟩ : ℂ) ≠ 0 := by
    intro h0
    have e1 : x = 0 := by simpa [hB.ne'] using congrArg Complex.re h0
    have e2 : y = 0 := by simpa [hA.ne'] using congrArg Complex.im h0
    apply h
    rw [e1, e2]; simp
  have hnorm := norm_pos_iff.2 hne
  have e1 : ‖(⟨B * x, A * y⟩ : ℂ)‖ * cos (Complex.arg ⟨B * x, A * y⟩) = B * x := Complex.norm_mul_cos_arg ⟨B * x, A * y⟩
  have e2 : ‖(⟨B * x, A * y⟩ : ℂ)‖ * sin (Complex.arg ⟨B * x, A * y⟩) = A * y := Complex.norm_mul_sin_arg ⟨B * x, A * y⟩
  generalize Complex.arg ⟨B * x, A * y⟩ = t at e1 e2 ⊢
  generalize ‖(⟨B * x, A * y⟩ : ℂ)‖ = N at e1 e2 hnorm
  have hcs := cos_sq_add_sin_sq t
  unfold ellipseDeriv
  dsimp only
  have hABp : 0 < A * A := mul_pos hA hA
  have hBBp : 0 < B * B := mul_pos hB hB
  rcases hc with rfl | rfl | rfl
  · have hxy : A * A < x * x + y * y := by
      by_contra hle
      push Not at hle
      apply h
      rwa [← add_div, div_le_one hABp]
    refine ⟨step_fix ?_, ?_⟩
    · have : N * ((A * A - A * A) * cos t * sin t - x * A * sin t + y * A * cos t) = 0 := by
        linear_combination (-(x * A)) * e2 + y * A * e1
      exact (mul_eq_zero.1 this).resolve_left hnorm.ne'
    · have : N * ((A * A - A * A) * (cos t * cos t - sin t * sin t) - x * A * cos t - y * A * sin t) = -(A * A * (x * x + y * y)) := by
        linear_combination (-(x * A)) * e1 - y * A * e2
      have h2 : 0 < A * A * (x * x + y * y) := mul_pos hABp (by linarith)
      by_contra hle
      push Not at hle
      have := mul_nonneg hnorm.le hle
      linarith
  · have hcos : cos t = 0 := by
      rw [mul_zero] at e1
      exact (mul_eq_zero.1 e1).resolve_left hnorm.ne'
    refine ⟨step_fix (by rw [hcos]; ring), ?_⟩
    rw [hcos] at hcs ⊢
    have hyB : B * B < y * y := by
      by_contra hle
      push Not at hle
      apply h
      rwa [mul_zero, zero_div, zero_add, div_le_one hBBp]
    have hs : sin t * sin t = 1 := by linarith
    have hpos : 0 < y * sin t := by
      have : N * (y * sin t) = A * (y * y) := by linear_combination y * e2
      by_contra hle
      push Not at hle
      have h1 := mul_nonpos_of_nonneg_of_nonpos hnorm.le hle
      have h2 : 0 < A * (y * y) := mul_pos hA (by linarith)
      linarith
    have hB2 : B < y * sin t := by
      by_contra hle
      push Not at hle
      have h1 : (y * sin t) * (y * sin t) ≤ B * B := mul_le_mul hle hle hpos.le hB.le
      have h2 : (y * sin t) * (y * sin t) = y * y := by linear_combination y * y * hs
      linarith
    have := mul_lt_mul_of_pos_right hB2 hB
    have e : (A * A - B * B) * (0 * 0 - sin t * sin t) - 0 * A * 0 - y * B * sin t = -(A * A) + B * B - y * sin t * B := by
      linear_combination (-(A * A - B * B)) * hs
    rw [e]
    linarith
  · have hsin : sin t = 0 := by
      rw [mul_zero] at e2
      exact (mul_eq_zero.1 e2).resolve_left hnorm.ne'
    refine ⟨step_fix (by rw [hsin]; ring), ?_⟩
    rw [hsin] at hcs ⊢
    have hyB : A * A < x * x := by
      by_contra hle
      push Not at hle
      apply h
      rwa [mul_zero, zero_div, add_zero, div_le_one hABp]
    have hs : cos t * cos t = 1 := by linarith
    have hpos : 0 < x * cos t := by
      have : N * (x * cos t) = B * (x * x) := by linear_combination x * e1
      by_contra hle
      push Not at hle
      have h1 := mul_nonpos_of_nonneg_of_nonpos hnorm.le hle
      have h2 : 0 < B * (x * x) := mul_pos hB (by linarith)
      linarith
    have hB2 : A < x * cos t := by
      by_contra hle
      push Not at hle
      have h1 : (x * cos t) * (x * cos t) ≤ A * A := mul_le_mul hle hle hpos.le hA.le
      have h2 : (x * cos t) * (x * cos t) = x * x := by linear_combination x * x * hs
      linarith
    have := mul_lt_mul_of_pos_right hB2 hA
    have e : (A * A - B * B) * (cos t * cos t - 0 * 0) - x * A * cos t - 0 * B * 0 = A * A - B * B - x * cos t * A := by
      linear_combination (A * A - B * B) * hs
    rw [e]
    linarith

/-- **C193**: for circles, and for points on an axis, no step divides by zero. -/
theorem C193_divisor_partial {A B : ℝ} (hA : 0 < A) (hB : 0 < B) (c : ℝ × ℝ) (hc : A = B ∨ c.1 = 0 ∨ c.2 = 0) (h : c ∉ EllipseAt 0 0 A B) (i : ℕ) :
    ellipseDeriv A B c.1 c.2 ((ellipseStep A B c.1 c.2)^[i] (ellipseStart A B c.1 c.2)) ≠ 0 := by
  obtain ⟨h1, h2⟩ := start_spec hA hB hc (fun hi => h ((ellipse_iff A B c.1 c.2).1 hi))
  rw [Function.iterate_fixed h1]
  exact h2.ne

/-- **C193**: for circles, and for points on an axis, the result is the nearest point. -/
theorem C193_nearest_partial {A B : ℝ} (hA : 0 < A) (hB : 0 < B) (c : ℝ × ℝ) (hc : A = B ∨ c.1 = 0 ∨ c.2 = 0)
    {q : ℝ × ℝ} (hq : q ∈ EllipseAt 0 0 A B) : sqDist (ellipseNearest A B c.1 c.2) c ≤ sqDist q c := by
  obtain ⟨x, y⟩ := c
  obtain ⟨u, v⟩ := q
  dsimp only at hc ⊢
  unfold ellipseNearest ellipseStart
  by_cases h : x * x / (A * A) + y * y / (B * B) ≤ 1
  · rw [if_pos h]
    unfold sqDist
    dsimp only
    nlinarith [sq_nonneg (u - x), sq_nonneg (v - y)]
  rw [if_neg h]
  have hq' : (u / A) ^ 2 + (v / B) ^ 2 ≤ 1 := by simpa [EllipseAt] using hq
  rcases hc with rfl | rfl | rfl
  · rw [div_pow, div_pow, ← add_div, div_le_one (by positivity)] at hq'
    exact nearest_circle hA h hq'
  · exact nearest_second hA hB h (abs_of_ellipse hB (by nlinarith [sq_nonneg (u / A)]))
  · exact nearest_first hA hB h (abs_of_ellipse hA (by nlinarith [sq_nonneg (v / B)]))

/-- The hypotheses can be met by points outside that are not on an axis. -/
example : (3 : ℝ) = 3 ∧ ((4, 5) : ℝ × ℝ) ∉ EllipseAt 0 0 3 3 := ⟨rfl, by unfold EllipseAt; norm_num⟩

/-- **C193**: an ellipse and the open disc of a circle whose centre is on an axis of the ellipse (or anywhere, if the ellipse is a circle) collide if and only
if they have a common point. -/
theorem C193_collide_partial {X Y A B x y r : ℝ} (hA : 0 < A) (hB : 0 < B) (hc : A = B ∨ x = X ∨ y = Y) :
    ellipseCircleCollide X Y A B x y r = true ↔ ∃ p ∈ EllipseAt X Y A B, sqDist p (x, y) < r ^ 2 := by
  refine ⟨C193_collide_sound hA hB, ?_⟩
  rintro ⟨p, hp, hd⟩
  have hn := C193_nearest_partial hA hB (x - X, y - Y) (by simpa [sub_eq_zero] using hc) (q := (p.1 - X, p.2 - Y))
    (by unfold EllipseAt at hp ⊢; simpa using hp)
  unfold ellipseCircleCollide
  rw [decide_eq_true_iff]
  dsimp only at hn
  generalize ellipseNearest A B (x - X) (y - Y) = e at hn ⊢
  unfold sqDist at hn hd
  dsimp only at hn hd
  nlinarith

example : ellipseCircleCollide 0 0 2 1 4 0 3 = true :=
  (C193_collide_partial (by norm_num) (by norm_num) (by norm_num)).2 ⟨(2, 0), by unfold EllipseAt; norm_num, by unfold sqDist; norm_num⟩

/-- Where they only touch, no collision is reported (unlike for rectangles): the unit circle as an ellipse, and the circle of radius 2 around (3, 0). -/
theorem C193_touch_counterexample :
    ellipseCircleCollide 0 0 1 1 3 0 2 = false ∧ (1, 0) ∈ EllipseAt 0 0 1 1 ∧ sqDist (1, 0) (3, 0) = 2 ^ 2 := by
  refine ⟨?_, by unfold EllipseAt; norm_num, by unfold sqDist; norm_num⟩
  rw [← Bool.not_eq_true, C193_collide_partial (by norm_num) (by norm_num) (by norm_num)]
  rintro ⟨p, hp, hd⟩
  have hp : ((p.1 - 0) / 1) ^ 2 + ((p.2 - 0) / 1) ^ 2 ≤ 1 := hp
  unfold sqDist at hd
  dsimp only at hd
  norm_num at hp hd
  nlinarith [sq_nonneg (p.1 - 1), sq_nonneg p.2]

/-- `Ellipse::NearestPoint` does not shift the result back: for the ellipse around (9, 0) and its own centre it gives the origin. -/
theorem C193_member_counterexample : ellipseNearestMember 9 0 2 1 9 0 = (0, 0) ∧ (0, 0) ∉ EllipseAt 9 0 2 1 := by
  constructor
  · unfold ellipseNearestMember ellipseNearest
    norm_num
  · unfold EllipseAt
    norm_num

end Verif.Geo
