import Verif.Ani.Smooth
import Verif.Curve.RProps
import Mathlib.Analysis.Calculus.Deriv.Pow
import Mathlib.Analysis.Calculus.Deriv.Mul
import Mathlib.Analysis.Calculus.Deriv.Add
import Mathlib.Analysis.Calculus.Deriv.MeanValue

/-!
# Easing and curves of frames (C121)

`FastSqrt` is an exact square root; rounding and the conversions to `float` are not modelled. `QuadraticInterpolateBase`, `CubicInterpolateBase` and the functions that call them are not
modelled: they name members that do not exist (`v[cur].cp`, `v[cur].p1`, `v[cur].p2` instead of those of `v[cur].data`) and cannot be instantiated.
-/

namespace Verif.Ani

variable {K : Type} [Field K] [LinearOrder K] [IsStrictOrderedRing K] {δ : Type}

/-! ## Model -/

/-- `AniCubicEasing`, `Animation.h:543-563`. -/
structure Easing (K : Type) where
  t1 : K
  s1 : K
  t2 : K
  s2 : K

/-- `AniCubicEasing()`, `Animation.h:545`. -/
def Easing.default : Easing K := ⟨0, 0, 1, 1⟩

/-- `TimeBezier`, `Animation.h:547`. -/
def timeBezier (s p1 p2 : K) : K := let inv := 1 - s; 3 * inv * inv * s * p1 + 3 * inv * s * s * p2 + s * s * s

/-- `TimeBezierD`, `Animation.h:548`. -/
def timeBezierD (s p1 p2 : K) : K := let inv := 1 - s; 3 * inv * inv * p1 + 6 * inv * s * (p2 - p1) + inv * s * s * p2 + 3 * s * s * (1 - p2)

/-- `GetProgress`, `Animation.h:550-558`; `n` is the number of iterations of `NewtonRaphsonBisection`, the model of C81, and `eps` is `FLT_EPS`. -/
def getProgress (n : ℕ) (eps : K) (data : Easing K) (t : K) : K :=
  timeBezier (Curve.newtonBisection (fun s => timeBezier s data.t1 data.t2 - t) (fun s => timeBezierD s data.t1 data.t2) eps n t 0 1) data.s1 data.s2

/-- `LinearInterpolate`, `Animation.h:572-576`, for numbers. -/
def linearInterpolate (n : ℕ) (eps : K) (v : List (Frame K K (Easing K))) (cur : ℕ) (t : K) (init : K) : Option K :=
  (v[cur]?).bind fun b => (if cur = 0 then some init else (v[cur - 1]?).map (·.value)).map fun a => lerp a b.value (getProgress n eps b.data t)

/-- `LinearInterpolateRel`, `Animation.h:577-582`, for numbers. -/
def linearInterpolateRel (n : ℕ) (eps : K) (v : List (Frame K K (Easing K))) (cur : ℕ) (t : K) (init : K) : Option K :=
  if cur = 0 then none else (v[cur]?).bind fun b => (v[cur - 1]?).map fun a => init + lerp a.value b.value (getProgress n eps b.data t)

/-- `AniQuadData::Bezier`, `Animation.h:603-604`. -/
def quadBezier (s p0 p1 p2 : K) : K := let inv := 1 - s; inv * inv * p0 + 2 * inv * s * p1 + s * s * p2

/-- `AniQuadData::BezierD`, `Animation.h:605-606`. -/
def quadBezierD (s p0 p1 p2 : K) : K := let inv := 1 - s; 2 * inv * (p1 - p0) + 2 * s * (p2 - p1)

/-- `AniCubicData::Bezier`, `Animation.h:666`. -/
def cubicBezier (s p0 p1 p2 p3 : K) : K := let inv := 1 - s; inv * inv * inv * p0 + 3 * inv * inv * s * p1 + 3 * inv * s * s * p2 + s * s * s * p3

/-- `AniCubicData::BezierD`, `Animation.h:667-668`. -/
def cubicBezierD (s p0 p1 p2 p3 : K) : K := let inv := 1 - s; 3 * inv * inv * (p1 - p0) + 6 * inv * s * (p2 - p1) + 3 * inv * s * s * (p3 - p2)

/-- `AniQuadData::Length`, `Animation.h:609-622`, for the points of the lists; `none` is the square root of an uninitialised number (no dimensions). -/
noncomputable def quadLength (s : ℝ) (p : List (ℝ × ℝ × ℝ)) : Option ℝ :=
  (p.foldl (fun ra q => (some (quadBezierD s q.1 q.2.1 q.2.2), ra.2 + quadBezierD s q.1 q.2.1 q.2.2 * quadBezierD s q.1 q.2.1 q.2.2)) (none, (0 : ℝ))).1.map Real.sqrt

/-! ## Lemmas -/

theorem timeBezier_zero (p1 p2 : K) : timeBezier 0 p1 p2 = 0 := by simp [timeBezier]

theorem timeBezier_one (p1 p2 : K) : timeBezier 1 p1 p2 = 1 := by simp [timeBezier]

theorem timeBezier_bounds {s p1 p2 : K} (h0 : 0 ≤ s) (h1 : s ≤ 1) (a0 : 0 ≤ p1) (a1 : p1 ≤ 1) (b0 : 0 ≤ p2) (b1 : p2 ≤ 1) :
    0 ≤ timeBezier s p1 p2 ∧ timeBezier s p1 p2 ≤ 1 := by
  have hi : 0 ≤ 1 - s := by linarith
  have e1 : 0 ≤ 3 * (1 - s) * (1 - s) * s := by positivity
  have e2 : 0 ≤ 3 * (1 - s) * s * s := by positivity
  have e3 : 0 ≤ s * s * s := by positivity
  have e4 : 0 ≤ (1 - s) * (1 - s) * (1 - s) := by positivity
  unfold timeBezier
  constructor
  · have := mul_nonneg e1 a0
    have := mul_nonneg e2 b0
    simp only
    linarith
  · have q1 := mul_le_mul_of_nonneg_left a1 e1
    have q2 := mul_le_mul_of_nonneg_left b1 e2
    simp only
    nlinarith

/-! ## Theorems -/

/-- Easing starts and ends where it should: no progress at time 0, full progress at time 1, for any control points. -/
theorem C121_progress_ends (n : ℕ) {eps : K} (he : 0 ≤ eps) (data : Easing K) : getProgress (n + 1) eps data 0 = 0 ∧ getProgress (n + 1) eps data 1 = 1 := by
  unfold getProgress
  constructor
  · rw [Curve.newtonBisection, if_pos]
    · exact timeBezier_zero _ _
    · simp [Curve.small, timeBezier_zero, he]
  · rw [Curve.newtonBisection, if_pos]
    · exact timeBezier_one _ _
    · simp [Curve.small, timeBezier_one, he]

/-- In between, the progress is the ordinate of a point of the easing curve whose abscissa is the time, up to the tolerance or to a bracket of parameters around the time that is left
after the last iteration; and with control points within the unit square it stays between 0 and 1. -/
theorem C121_progress_partial (n : ℕ) (eps : K) (data : Easing K) {t : K} (h0 : 0 ≤ t) (h1 : t ≤ 1) :
    ∃ p, 0 ≤ p ∧ p ≤ 1 ∧ getProgress n eps data t = timeBezier p data.s1 data.s2 ∧
      (|timeBezier p data.t1 data.t2 - t| ≤ eps ∨ ∃ a b, 0 ≤ a ∧ a ≤ p ∧ p ≤ b ∧ b ≤ 1 ∧ timeBezier a data.t1 data.t2 ≤ t ∧ t ≤ timeBezier b data.t1 data.t2) ∧
      (0 ≤ data.s1 → data.s1 ≤ 1 → 0 ≤ data.s2 → data.s2 ≤ 1 → 0 ≤ getProgress n eps data t ∧ getProgress n eps data t ≤ 1) := by
  obtain ⟨k1, k2, k3⟩ := Curve.C81_bracket (fun s => timeBezier s data.t1 data.t2 - t) (fun s => timeBezierD s data.t1 data.t2) eps n t 0 1 h0 h1
    (by simp only [timeBezier_zero]; linarith) (by simp only [timeBezier_one]; linarith)
  refine ⟨_, k1, k2, rfl, k3.imp id ?_, fun a b c d => timeBezier_bounds k1 k2 a b c d⟩
  rintro ⟨a, b, q1, q2, q3, q4, q5, q6⟩
  exact ⟨a, b, q1, q2, q3, q4, by linarith, by linarith⟩

/-- An easing whose two curves agree, like that of the default constructor, is no easing, up to the tolerance, unless the iterations run out. -/
theorem C121_default_easing_partial (n : ℕ) (eps : K) (a b : K) {t : K} (h0 : 0 ≤ t) (h1 : t ≤ 1) :
    |getProgress n eps ⟨a, a, b, b⟩ t - t| ≤ eps ∨
      ∃ x y, 0 ≤ x ∧ x ≤ y ∧ y ≤ 1 ∧ timeBezier x a b ≤ t ∧ t ≤ timeBezier y a b ∧ ∃ p, x ≤ p ∧ p ≤ y ∧ getProgress n eps ⟨a, a, b, b⟩ t = timeBezier p a b := by
  obtain ⟨p, -, -, h2, h3, -⟩ := C121_progress_partial n eps ⟨a, a, b, b⟩ h0 h1
  rcases h3 with h3 | ⟨x, y, q1, q2, q3, q4, q5, q6⟩
  · exact Or.inl (by rw [h2]; exact h3)
  · exact Or.inr ⟨x, y, q1, q2.trans q3, q4, q5, q6, p, q2, q3, h2⟩

/-- The eased interpolation of a frame: it starts at the previous value (or the initial one), ends at the value of the frame, and with control points in the unit square stays between them. -/
theorem C121_linear (n : ℕ) {eps : K} (he : 0 ≤ eps) (v : List (Frame K K (Easing K))) (init a : K) (b : Frame K K (Easing K)) (cur : ℕ) (hb : v[cur]? = some b)
    (ha : (cur = 0 ∧ a = init) ∨ ∃ f, 0 < cur ∧ v[cur - 1]? = some f ∧ a = f.value) :
    linearInterpolate (n + 1) eps v cur 0 init = some a ∧ linearInterpolate (n + 1) eps v cur 1 init = some b.value ∧
    ∀ t, 0 ≤ t → t ≤ 1 → ∃ u, linearInterpolate (n + 1) eps v cur t init = some (a + u * (b.value - a)) ∧ u = getProgress (n + 1) eps b.data t ∧
      (0 ≤ b.data.s1 → b.data.s1 ≤ 1 → 0 ≤ b.data.s2 → b.data.s2 ≤ 1 → 0 ≤ u ∧ u ≤ 1) := by
  have key : ∀ t, linearInterpolate (n + 1) eps v cur t init = some (lerp a b.value (getProgress (n + 1) eps b.data t)) := by
    intro t
    rcases ha with ⟨rfl, rfl⟩ | ⟨f, h1, h2, rfl⟩
    · simp [linearInterpolate, hb]
    · simp [linearInterpolate, hb, h2, h1.ne']
  obtain ⟨e0, e1⟩ := C121_progress_ends n he b.data
  refine ⟨by rw [key, e0]; simp [lerp], by rw [key, e1]; simp [lerp], ?_⟩
  intro t h0 h1
  refine ⟨_, by rw [key]; congr 1; unfold lerp; ring, rfl, ?_⟩
  obtain ⟨-, -, -, -, -, h⟩ := C121_progress_partial (n + 1) eps b.data h0 h1
  exact h

example : linearInterpolate 1 (1 / 100) [(⟨1, 4, ⟨0, 1 / 2, 1, 1 / 2⟩⟩ : Frame ℚ ℚ (Easing ℚ)), ⟨3, 0, ⟨0, 1 / 4, 1, 1⟩⟩] 1 (1 / 2) 9 = some (13 / 8) ∧
    linearInterpolate 1 (1 / 100) [(⟨1, 4, ⟨0, 1 / 2, 1, 1 / 2⟩⟩ : Frame ℚ ℚ (Easing ℚ))] 0 0 9 = some 9 := by
  constructor <;> norm_num [linearInterpolate, getProgress, timeBezier, Curve.newtonBisection, Curve.small, lerp]

/-- The time curve never turns back when its control points are within the unit square: the parameter of a time is unique up to constant stretches. -/
theorem C121_time_monotone {p1 p2 : ℝ} (a0 : 0 ≤ p1) (a1 : p1 ≤ 1) (b0 : 0 ≤ p2) (b1 : p2 ≤ 1) : MonotoneOn (fun s => timeBezier s p1 p2) (Set.Icc 0 1) := by
  have hd : ∀ s : ℝ, HasDerivAt (fun s => timeBezier s p1 p2) (3 * (1 - s) ^ 2 * p1 + 6 * (1 - s) * s * (p2 - p1) + 3 * s ^ 2 * (1 - p2)) s := by
    intro s
    have e : (fun s : ℝ => timeBezier s p1 p2) = fun s => (3 * p1 - 3 * p2 + 1) * s ^ 3 + (3 * p2 - 6 * p1) * s ^ 2 + 3 * p1 * s := by
      funext s; unfold timeBezier; ring
    rw [e]
    have h := (((hasDerivAt_pow 3 s).const_mul (3 * p1 - 3 * p2 + 1)).add ((hasDerivAt_pow 2 s).const_mul (3 * p2 - 6 * p1))).add ((hasDerivAt_id s).const_mul (3 * p1))
    exact h.congr_deriv (by norm_num; ring)
  refine monotoneOn_of_deriv_nonneg (convex_Icc 0 1) (fun s _ => (hd s).continuousAt.continuousWithinAt) (fun s _ => (hd s).differentiableAt.differentiableWithinAt) ?_
  intro s hs
  rw [interior_Icc] at hs
  rw [(hd s).deriv]
  have e : 3 * (1 - s) ^ 2 * p1 + 6 * (1 - s) * s * (p2 - p1) + 3 * s ^ 2 * (1 - p2) =
      ((1 - p1) * (1 - p2)) * (3 * s ^ 2) + (p1 * (1 - p2)) * (3 * (1 - 2 * s) ^ 2) + ((1 - p1) * p2) * (6 * ((1 - s) * s)) + (p1 * p2) * (3 * (1 - s) ^ 2) := by ring
  rw [e]
  have q1 : 0 ≤ 1 - p1 := by linarith
  have q2 : 0 ≤ 1 - p2 := by linarith
  have q3 : 0 ≤ 1 - s := by linarith [hs.2]
  have q4 : 0 ≤ s := hs.1.le
  positivity

/-- The quadratic curve starts and ends at the frames, and its derivative is the one the code computes. -/
theorem C121_quadratic (p0 p1 p2 : ℝ) : quadBezier 0 p0 p1 p2 = p0 ∧ quadBezier 1 p0 p1 p2 = p2 ∧
    ∀ s, HasDerivAt (fun s => quadBezier s p0 p1 p2) (quadBezierD s p0 p1 p2) s := by
  refine ⟨by simp [quadBezier], by simp [quadBezier], fun s => ?_⟩
  have e : (fun s : ℝ => quadBezier s p0 p1 p2) = fun s => (p0 - 2 * p1 + p2) * s ^ 2 + 2 * (p1 - p0) * s + p0 := by
    funext s; unfold quadBezier; ring
  rw [e]
  have h := (((hasDerivAt_pow 2 s).const_mul (p0 - 2 * p1 + p2)).add ((hasDerivAt_id s).const_mul (2 * (p1 - p0)))).add_const p0
  exact h.congr_deriv (by unfold quadBezierD; norm_num; ring)

/-- The cubic curve starts and ends at the frames; its derivative is the one the code computes with the last term not multiplied by `1 - s`. -/
theorem C121_cubic_partial (p0 p1 p2 p3 : ℝ) : cubicBezier 0 p0 p1 p2 p3 = p0 ∧ cubicBezier 1 p0 p1 p2 p3 = p3 ∧
    ∀ s, HasDerivAt (fun s => cubicBezier s p0 p1 p2 p3) (cubicBezierD s p0 p1 p2 p3 + 3 * s * s * s * (p3 - p2)) s := by
  refine ⟨by simp [cubicBezier], by simp [cubicBezier], fun s => ?_⟩
  have e : (fun s : ℝ => cubicBezier s p0 p1 p2 p3) = fun s => (p3 - 3 * p2 + 3 * p1 - p0) * s ^ 3 + (3 * p2 - 6 * p1 + 3 * p0) * s ^ 2 + 3 * (p1 - p0) * s + p0 := by
    funext s; unfold cubicBezier; ring
  rw [e]
  have h := ((((hasDerivAt_pow 3 s).const_mul (p3 - 3 * p2 + 3 * p1 - p0)).add ((hasDerivAt_pow 2 s).const_mul (3 * p2 - 6 * p1 + 3 * p0))).add
    ((hasDerivAt_id s).const_mul (3 * (p1 - p0)))).add_const p0
  exact h.congr_deriv (by unfold cubicBezierD; norm_num; ring)

/-- The derivative of the cubic curve is not what the code computes: at the end of the curve the code always finds 0. -/
theorem C121_cubic_derivative_counterexample (p0 p1 p2 p3 : ℝ) (h : p2 ≠ p3) : cubicBezierD 1 p0 p1 p2 p3 = 0 ∧
    ¬ HasDerivAt (fun s => cubicBezier s p0 p1 p2 p3) (cubicBezierD 1 p0 p1 p2 p3) 1 := by
  have h0 : cubicBezierD 1 p0 p1 p2 p3 = 0 := by simp [cubicBezierD]
  refine ⟨h0, fun hd => ?_⟩
  have := hd.unique ((C121_cubic_partial p0 p1 p2 p3).2.2 1)
  rw [h0] at this
  apply h
  linarith

/-- Neither is that of the time curve: there is one term too many. -/
theorem C121_time_derivative_counterexample {p1 p2 s : ℝ} (h2 : p2 ≠ 0) (h0 : s ≠ 0) (h1 : s ≠ 1) : ¬ HasDerivAt (fun s => timeBezier s p1 p2) (timeBezierD s p1 p2) s := by
  intro hd
  have e : (fun s : ℝ => timeBezier s p1 p2) = fun s => (3 * p1 - 3 * p2 + 1) * s ^ 3 + (3 * p2 - 6 * p1) * s ^ 2 + 3 * p1 * s := by
    funext s; unfold timeBezier; ring
  rw [e] at hd
  have h := (((hasDerivAt_pow 3 s).const_mul (3 * p1 - 3 * p2 + 1)).add ((hasDerivAt_pow 2 s).const_mul (3 * p2 - 6 * p1))).add ((hasDerivAt_id s).const_mul (3 * p1))
  have hu := hd.unique h
  have : (1 - s) * s * s * p2 = 0 := by
    unfold timeBezierD at hu
    norm_num at hu
    linarith
  simp only [mul_eq_zero] at this
  rcases this with ((h | h) | h) | h
  · exact h1 (by linarith)
  · exact h0 h
  · exact h0 h
  · exact h2 h

/-- The length of the derivative of a curve in several dimensions is not its Euclidean length but the square root of the last component. -/
theorem C121_length_counterexample : (∀ (s : ℝ) (p : List (ℝ × ℝ × ℝ)) (q0 q1 q2 d : ℝ), HasDerivAt (fun s => quadBezier s q0 q1 q2) d s →
      quadLength s (p ++ [(q0, q1, q2)]) = some (Real.sqrt d)) ∧
    quadLength 0 [(0, 2, 0), (0, 0, 0)] = some 0 ∧ Real.sqrt (quadBezierD 0 (0 : ℝ) 2 0 ^ 2 + quadBezierD 0 (0 : ℝ) 0 0 ^ 2) = 4 := by
  refine ⟨?_, ?_, ?_⟩
  · intro s p q0 q1 q2 d hd
    rw [hd.unique ((C121_quadratic q0 q1 q2).2.2 s)]
    simp [quadLength, List.foldl_append]
  · simp [quadLength, quadBezierD]
  · have : quadBezierD 0 (0 : ℝ) 2 0 ^ 2 + quadBezierD 0 (0 : ℝ) 0 0 ^ 2 = 4 * 4 := by norm_num [quadBezierD]
    rw [this, Real.sqrt_mul_self (by norm_num)]

end Verif.Ani
