import Verif.Curve.Model
import Mathlib.Algebra.Order.Field.Basic
import Mathlib.Algebra.Order.Field.Rat
import Mathlib.Data.Fin.VecNotation
import Mathlib.Tactic.Ring
import Mathlib.Tactic.FieldSimp
import Mathlib.Tactic.Linarith
import Mathlib.Tactic.LinearCombination
import Mathlib.Tactic.NormNum

/-!
# Curves and splines (C74, C79)
-/

namespace Verif.Curve

variable {K : Type}

/-! ## Specification -/

/-- The quadratic Bézier curve of three control points. -/
def bez2 [CommRing K] {I : Nat} (P0 P1 P2 : Fin I → K) (t : K) : Fin I → K := fun i => (1 - t) ^ 2 * P0 i + 2 * (1 - t) * t * P1 i + t ^ 2 * P2 i

/-- The cubic Bézier curve of four control points. -/
def bez3 [CommRing K] {I : Nat} (P0 P1 P2 P3 : Fin I → K) (t : K) : Fin I → K :=
  fun i => (1 - t) ^ 3 * P0 i + 3 * (1 - t) ^ 2 * t * P1 i + 3 * (1 - t) * t ^ 2 * P2 i + t ^ 3 * P3 i

/-! ## Theorems -/

/-- **C74**: the halves `SplitQuadratic` makes at `t`, as curves over their own parameter: the left one is the original over `[0, t]`, the right one over `[t, 1]`. -/
theorem C74_quadratic [Field K] {I : Nat} (t : K) (P0 P1 P2 : Fin I → K) (s : K) :
    let r := splitQuadratic t P0 P1 P2
    bez2 P0 r.1 r.2.1 s = bez2 P0 P1 P2 (t * s) ∧ bez2 r.2.1 r.2.2 P2 s = bez2 P0 P1 P2 (t + (1 - t) * s) := by
  refine ⟨funext fun i => ?_, funext fun i => ?_⟩ <;> simp only [bez2, splitQuadratic, lerp] <;> ring

/-- **C74**: the same for `SplitCubic`. -/
theorem C74_cubic [Field K] {I : Nat} (t : K) (P0 P1 P2 P3 : Fin I → K) (s : K) :
    let r := splitCubic t P0 P1 P2 P3
    bez3 P0 r.1 r.2.1 r.2.2.1 s = bez3 P0 P1 P2 P3 (t * s) ∧ bez3 r.2.2.1 r.2.2.2.1 r.2.2.2.2 P3 s = bez3 P0 P1 P2 P3 (t + (1 - t) * s) := by
  refine ⟨funext fun i => ?_, funext fun i => ?_⟩ <;> simp only [bez3, splitCubic, lerp] <;> ring

/-- In an ordered field, `[0, 1]` is covered by the two parts. -/
theorem cover [Field K] [LinearOrder K] [IsStrictOrderedRing K] {t u : K} (ht0 : 0 ≤ t) (ht1 : t ≤ 1) :
    (0 ≤ u ∧ u ≤ 1) ↔ (∃ s, 0 ≤ s ∧ s ≤ 1 ∧ (u = t * s ∨ u = t + (1 - t) * s)) := by
  constructor
  · rintro ⟨h0, h1⟩
    rcases le_or_gt u t with h | h
    · rcases eq_or_lt_of_le ht0 with e | e
      · exact ⟨0, le_refl _, zero_le_one, .inl (by rw [mul_zero]; linarith)⟩
      · exact ⟨u / t, div_nonneg h0 ht0, (div_le_one e).2 h, .inl (by field_simp)⟩
    · have h2 : 0 < 1 - t := by linarith
      exact ⟨(u - t) / (1 - t), div_nonneg (by linarith) h2.le, (div_le_one h2).2 (by linarith), .inr (by field_simp; ring)⟩
  · rintro ⟨s, h0, h1, rfl | rfl⟩
    · exact ⟨mul_nonneg ht0 h0, by nlinarith⟩
    · exact ⟨by nlinarith, by nlinarith⟩

/-- **C74**: for `t` in `[0, 1]`, the two halves of a quadratic together consist of exactly the points of the original. -/
theorem C74_quadratic_trace [Field K] [LinearOrder K] [IsStrictOrderedRing K] {I : Nat} {t : K} (ht0 : 0 ≤ t) (ht1 : t ≤ 1) (P0 P1 P2 : Fin I → K) (Q : Fin I → K) :
    let r := splitQuadratic t P0 P1 P2
    (∃ u, 0 ≤ u ∧ u ≤ 1 ∧ bez2 P0 P1 P2 u = Q) ↔ (∃ s, 0 ≤ s ∧ s ≤ 1 ∧ (bez2 P0 r.1 r.2.1 s = Q ∨ bez2 r.2.1 r.2.2 P2 s = Q)) := by
  intro r
  constructor
  · rintro ⟨u, h0, h1, rfl⟩
    obtain ⟨s, hs0, hs1, h⟩ := (cover ht0 ht1).1 ⟨h0, h1⟩
    refine ⟨s, hs0, hs1, ?_⟩
    rw [(C74_quadratic t P0 P1 P2 s).1, (C74_quadratic t P0 P1 P2 s).2]
    rcases h with h | h
    · exact .inl (by rw [h])
    · exact .inr (by rw [h])
  · rintro ⟨s, h0, h1, h⟩
    rw [(C74_quadratic t P0 P1 P2 s).1, (C74_quadratic t P0 P1 P2 s).2] at h
    rcases h with h | h
    · have := (cover ht0 ht1).2 ⟨s, h0, h1, .inl rfl⟩
      exact ⟨_, this.1, this.2, h⟩
    · have := (cover ht0 ht1).2 ⟨s, h0, h1, .inr rfl⟩
      exact ⟨_, this.1, this.2, h⟩

/-- **C74**: the same for cubics. -/
theorem C74_cubic_trace [Field K] [LinearOrder K] [IsStrictOrderedRing K] {I : Nat} {t : K} (ht0 : 0 ≤ t) (ht1 : t ≤ 1) (P0 P1 P2 P3 : Fin I → K) (Q : Fin I → K) :
    let r := splitCubic t P0 P1 P2 P3
    (∃ u, 0 ≤ u ∧ u ≤ 1 ∧ bez3 P0 P1 P2 P3 u = Q) ↔
      (∃ s, 0 ≤ s ∧ s ≤ 1 ∧ (bez3 P0 r.1 r.2.1 r.2.2.1 s = Q ∨ bez3 r.2.2.1 r.2.2.2.1 r.2.2.2.2 P3 s = Q)) := by
  intro r
  constructor
  · rintro ⟨u, h0, h1, rfl⟩
    obtain ⟨s, hs0, hs1, h⟩ := (cover ht0 ht1).1 ⟨h0, h1⟩
    refine ⟨s, hs0, hs1, ?_⟩
    rw [(C74_cubic t P0 P1 P2 P3 s).1, (C74_cubic t P0 P1 P2 P3 s).2]
    rcases h with h | h
    · exact .inl (by rw [h])
    · exact .inr (by rw [h])
  · rintro ⟨s, h0, h1, h⟩
    rw [(C74_cubic t P0 P1 P2 P3 s).1, (C74_cubic t P0 P1 P2 P3 s).2] at h
    rcases h with h | h
    · have := (cover ht0 ht1).2 ⟨s, h0, h1, .inl rfl⟩
      exact ⟨_, this.1, this.2, h⟩
    · have := (cover ht0 ht1).2 ⟨s, h0, h1, .inr rfl⟩
      exact ⟨_, this.1, this.2, h⟩

/-- A quadratic in the plane, split at a third. -/
example : (splitQuadratic (1 / 3 : Rat) ![0, 0] ![3, 6] ![6, 0]).2.1 1 = 8 / 3 := by
  norm_num [splitQuadratic, lerp]

/-- **C74**: `BezierCurve` and `QuadraticBezierCurve` evaluate the Bézier curves. -/
theorem C74_bezier [Field K] (t p1 p2 p3 p4 : K) :
    bezierCurve t p1 p2 p3 p4 = bez3 (I := 1) (fun _ => p1) (fun _ => p2) (fun _ => p3) (fun _ => p4) t 0 ∧
    quadraticBezier t p1 p2 p3 = bez2 (I := 1) (fun _ => p1) (fun _ => p2) (fun _ => p3) t 0 := by
  refine ⟨?_, ?_⟩
  · change p1 * (-1 * (t * t * t) + 3 * (t * t) + -3 * t + 1) + p2 * (3 * (t * t * t) + -6 * (t * t) + 3 * t + 0) +
      p3 * (-3 * (t * t * t) + 3 * (t * t) + 0 * t + 0) + p4 * (1 * (t * t * t) + 0 * (t * t) + 0 * t + 0) = _
    simp only [bez3]
    ring
  · simp only [quadraticBezier, bez2]
    ring

/-- **C74**: the weights of the splines sum to one: moving all points by `d` moves the curve by `d`. -/
theorem C74_weights [Field K] [CharZero K] (t d p1 p2 p3 p4 : K) :
    uniformQuadratic t (p1 + d) (p2 + d) (p3 + d) = uniformQuadratic t p1 p2 p3 + d ∧
    uniformCubic t (p1 + d) (p2 + d) (p3 + d) (p4 + d) = uniformCubic t p1 p2 p3 p4 + d ∧
    cubic t (p1 + d) (p2 + d) (p3 + d) (p4 + d) = cubic t p1 p2 p3 p4 + d ∧
    bezierCurve t (p1 + d) (p2 + d) (p3 + d) (p4 + d) = bezierCurve t p1 p2 p3 p4 + d := by
  refine ⟨?_, ?_, ?_, ?_⟩
  · simp only [uniformQuadratic]; field_simp; ring
  · simp only [uniformCubic]; field_simp; ring
  · simp only [cubic]; field_simp; ring
  · rw [(C74_bezier t _ _ _ _).1, (C74_bezier t _ _ _ _).1]; simp only [bez3]; ring

/-- **C74**: for parameters in `[0, 1]` the uniform B-splines stay within any interval that holds their points: the weights are not negative. -/
theorem C74_hull [Field K] [LinearOrder K] [IsStrictOrderedRing K] {t lo hi p1 p2 p3 p4 : K} (h0 : 0 ≤ t) (h1 : t ≤ 1)
    (hp : ∀ p ∈ [p1, p2, p3, p4], lo ≤ p ∧ p ≤ hi) :
    (lo ≤ uniformQuadratic t p1 p2 p3 ∧ uniformQuadratic t p1 p2 p3 ≤ hi) ∧ (lo ≤ uniformCubic t p1 p2 p3 p4 ∧ uniformCubic t p1 p2 p3 p4 ≤ hi) := by
  obtain ⟨a1, b1⟩ := hp p1 (by simp)
  obtain ⟨a2, b2⟩ := hp p2 (by simp)
  obtain ⟨a3, b3⟩ := hp p3 (by simp)
  obtain ⟨a4, b4⟩ := hp p4 (by simp)
  have hs : 0 ≤ 1 - t := by linarith
  have u1 : 0 ≤ (1 - t) * (1 - t) := mul_nonneg hs hs
  have u2 : 0 ≤ 1 + 2 * t - 2 * (t * t) := by nlinarith [mul_nonneg h0 hs]
  have u3 : 0 ≤ t * t := mul_nonneg h0 h0
  have c1 : 0 ≤ (1 - t) * (1 - t) * (1 - t) := mul_nonneg u1 hs
  have c2 : 0 ≤ 4 - 6 * (t * t) + 3 * (t * t * t) := by nlinarith [mul_nonneg u3 hs, mul_nonneg h0 hs, mul_nonneg u1 h0]
  have c3 : 0 ≤ 1 + 3 * t + 3 * (t * t) - 3 * (t * t * t) := by nlinarith [mul_nonneg u3 hs]
  have c4 : 0 ≤ t * t * t := mul_nonneg u3 h0
  refine ⟨⟨?_, ?_⟩, ?_, ?_⟩
  · rw [uniformQuadratic, le_div_iff₀ (by norm_num)]
    nlinarith [mul_nonneg u1 (sub_nonneg.2 a1), mul_nonneg u2 (sub_nonneg.2 a2), mul_nonneg u3 (sub_nonneg.2 a3)]
  · rw [uniformQuadratic, div_le_iff₀ (by norm_num)]
    nlinarith [mul_nonneg u1 (sub_nonneg.2 b1), mul_nonneg u2 (sub_nonneg.2 b2), mul_nonneg u3 (sub_nonneg.2 b3)]
  · rw [uniformCubic, le_div_iff₀ (by norm_num)]
    nlinarith [mul_nonneg c1 (sub_nonneg.2 a1), mul_nonneg c2 (sub_nonneg.2 a2), mul_nonneg c3 (sub_nonneg.2 a3), mul_nonneg c4 (sub_nonneg.2 a4)]
  · rw [uniformCubic, div_le_iff₀ (by norm_num)]
    nlinarith [mul_nonneg c1 (sub_nonneg.2 b1), mul_nonneg c2 (sub_nonneg.2 b2), mul_nonneg c3 (sub_nonneg.2 b3), mul_nonneg c4 (sub_nonneg.2 b4)]

/-- **C74**: consecutive segments join: the end of one, over four (three) points, is the beginning of the next, over the points shifted by one. The interpolating cubic passes
through its inner points. -/
theorem C74_join [Field K] [CharZero K] (p1 p2 p3 p4 p5 : K) :
    uniformQuadratic 1 p1 p2 p3 = uniformQuadratic 0 p2 p3 p4 ∧ uniformCubic 1 p1 p2 p3 p4 = uniformCubic 0 p2 p3 p4 p5 ∧
    cubic 0 p1 p2 p3 p4 = p2 ∧ cubic 1 p1 p2 p3 p4 = p3 := by
  refine ⟨?_, ?_, ?_, ?_⟩
  · simp only [uniformQuadratic]; ring
  · simp only [uniformCubic]; ring
  · simp only [cubic]; field_simp; ring
  · simp only [cubic]; field_simp; ring

/-- **C74**: `QuadraticCanonicalFit` is a curve that takes `x1` to `x1`, `x3` to `x3`, and `x2` to half way between. -/
theorem C74_fit [Field K] [CharZero K] {x1 x2 x3 : K} (h12 : x1 ≠ x2) (h13 : x1 ≠ x3) (h23 : x2 ≠ x3) :
    canonicalFit x1 x1 x2 x3 = x1 ∧ canonicalFit x2 x1 x2 x3 = (x1 + x3) / 2 ∧ canonicalFit x3 x1 x2 x3 = x3 := by
  have e13 : x3 - x1 ≠ 0 := sub_ne_zero.2 h13.symm
  have e12 : x2 - x1 ≠ 0 := sub_ne_zero.2 h12.symm
  have e23 : x3 - x2 ≠ 0 := sub_ne_zero.2 h23.symm
  have hx : (x2 - x1) / (x3 - x1) ≠ 0 := div_ne_zero e12 e13
  have hx1 : 1 - (x2 - x1) / (x3 - x1) ≠ 0 := by
    rw [one_sub_div e13]
    exact div_ne_zero (by rwa [show x3 - x1 - (x2 - x1) = x3 - x2 by ring]) e13
  simp only [canonicalFit]
  rw [sub_self, zero_div, div_self e13]
  have hd : x2 = (x2 - x1) / (x3 - x1) * (x3 - x1) + x1 := by field_simp; ring
  generalize hX : (x2 - x1) / (x3 - x1) = x at *
  have hxx : x - x * x = x * (1 - x) := by ring
  rw [hxx]
  refine ⟨by ring, ?_, ?_⟩
  · field_simp
    ring
  · have h2 : (2 : K) ≠ 0 := by norm_num
    field_simp
    ring

example : canonicalFit (3 : Rat) 1 3 9 = 5 := by norm_num [canonicalFit]

/-- **C79**: `SolveQuadratic`, with an exact square root, returns the two roots: the polynomial is `a (x - r₀)(x - r₁)`. -/
theorem C79_roots [Field K] [CharZero K] (sqrt : K → K) {a b c : K} (ha : a ≠ 0) (hs : sqrt (b * b - 4 * a * c) * sqrt (b * b - 4 * a * c) = b * b - 4 * a * c) (x : K) :
    let r := solveQuadratic sqrt a b c
    a * x ^ 2 + b * x + c = a * (x - r.1) * (x - r.2) := by
  simp only [solveQuadratic]
  generalize sqrt (b * b - 4 * a * c) = d at hs
  field_simp
  linear_combination (1 : K) * hs

/-- The cross product of two vectors of the plane: zero if they are parallel. -/
def cross [CommRing K] (u v : Fin 2 → K) : K := u 0 * v 1 - u 1 * v 0

/-- The first derivative of a cubic: three times the quadratic of the differences of its points. -/
def deriv1 [CommRing K] (P0 P1 P2 P3 : Fin 2 → K) (t : K) : Fin 2 → K := fun i => 3 * bez2 (P1 - P0) (P2 - P1) (P3 - P2) t i

/-- The second derivative: six times the line through the second differences. -/
def deriv2 [CommRing K] (P0 P1 P2 P3 : Fin 2 → K) (t : K) : Fin 2 → K :=
  fun i => 6 * ((1 - t) * (P2 i - 2 * P1 i + P0 i) + t * (P3 i - 2 * P2 i + P1 i))

/-- `deriv1` and `deriv2` are the derivatives: the Taylor expansion of the curve. -/
theorem deriv_spec [CommRing K] (P0 P1 P2 P3 : Fin 2 → K) (t h : K) (i : Fin 2) :
    2 * bez3 P0 P1 P2 P3 (t + h) i = 2 * bez3 P0 P1 P2 P3 t i + 2 * h * deriv1 P0 P1 P2 P3 t i + h ^ 2 * deriv2 P0 P1 P2 P3 t i +
      2 * h ^ 3 * (P3 i - 3 * P2 i + 3 * P1 i - P0 i) := by
  simp only [bez3, deriv1, deriv2, bez2, Pi.sub_apply]
  ring

/-- **C79**: `CubicInflectionPoints`, with an exact square root, finds the inflection points of a cubic: if the curve has any parameter where the first and second derivative
are parallel, the two results are such parameters and there are no others. (For curves in general position: the leading coefficient of the equation is not zero.) -/
theorem C79_inflection [Field K] [LinearOrder K] [IsStrictOrderedRing K] (sqrt : K → K) (hs : ∀ x, (∃ y, y * y = x) → sqrt x * sqrt x = x) (P0 P1 P2 P3 : Fin 2 → K)
    (hg : cross (fun i => P2 i - 2 * P1 i + P0 i) (fun i => P3 i - 3 * P2 i + 3 * P1 i - P0 i) ≠ 0)
    (hex : ∃ t, cross (deriv1 P0 P1 P2 P3 t) (deriv2 P0 P1 P2 P3 t) = 0) (t : K) :
    let r := inflectionPoints sqrt (P0 0, P0 1) (P1 0, P1 1) (P2 0, P2 1) (P3 0, P3 1)
    cross (deriv1 P0 P1 P2 P3 t) (deriv2 P0 P1 P2 P3 t) = 0 ↔ t = r.1 ∨ t = r.2 := by
  intro r
  let a := cross (fun i => P2 i - 2 * P1 i + P0 i) (fun i => P3 i - 3 * P2 i + 3 * P1 i - P0 i)
  let b := cross (fun i => P1 i - P0 i) (fun i => P3 i - 3 * P2 i + 3 * P1 i - P0 i)
  let c := cross (fun i => P1 i - P0 i) (fun i => P2 i - 2 * P1 i + P0 i)
  have hpoly : ∀ t, cross (deriv1 P0 P1 P2 P3 t) (deriv2 P0 P1 P2 P3 t) = 18 * (a * t ^ 2 + b * t + c) := by
    intro t
    simp only [a, b, c, cross, deriv1, deriv2, bez2, Pi.sub_apply]
    ring
  have hr : r = solveQuadratic sqrt a b c := by
    simp only [r, inflectionPoints, a, b, c, cross]
    congr 1 <;> ring
  obtain ⟨t0, ht0⟩ := hex
  rw [hpoly] at ht0
  have h0 : a * t0 ^ 2 + b * t0 + c = 0 := by linarith
  have hd : b * b - 4 * a * c = (2 * a * t0 + b) * (2 * a * t0 + b) := by linear_combination (-4 * a) * h0
  have hfac := C79_roots sqrt (a := a) (b := b) (c := c) hg (hs _ ⟨_, hd.symm⟩) t
  simp only at hfac
  rw [hpoly, hr, hfac]
  have h18 : (18 : K) ≠ 0 := by norm_num
  have ha : a ≠ 0 := hg
  constructor
  · intro h
    rcases mul_eq_zero.1 h with h | h
    · exact absurd h h18
    · rcases mul_eq_zero.1 h with h | h
      · rcases mul_eq_zero.1 h with h | h
        · exact absurd h ha
        · exact .inl (sub_eq_zero.1 h)
      · exact .inr (sub_eq_zero.1 h)
  · rintro (h | h)
    · rw [← h]; ring
    · rw [← h]; ring

/-- A curve with an inflection point at one half. -/
example : cross (deriv1 ![0, 0] ![1, 0] ![2, 1] ![1, 0] (1 / 2 : Rat)) (deriv2 ![0, 0] ![1, 0] ![2, 1] ![1, 0] (1 / 2)) = 0 ∧
    cross (fun i => (![2, 1] i - 2 * ![1, 0] i + ![0, 0] i : Rat)) (fun i => ![1, 0] i - 3 * ![2, 1] i + 3 * ![1, 0] i - ![0, 0] i) ≠ 0 := by
  norm_num [cross, deriv1, deriv2, bez2]

/-- There is a square root function as the theorem asks for, even over the rationals. -/
example : ∃ sqrt : Rat → Rat, ∀ x, (∃ y, y * y = x) → sqrt x * sqrt x = x := by
  classical
  refine ⟨fun x => if h : ∃ y, y * y = x then h.choose else 0, fun x h => ?_⟩
  simp only [dif_pos h]
  exact h.choose_spec

end Verif.Curve
