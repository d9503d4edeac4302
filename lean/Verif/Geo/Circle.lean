import Verif.Geo.Sphere
import Mathlib.Tactic.FieldSimp
import Mathlib.Tactic.LinearCombination

/-!
# Points of a circle: intersections and nearest points (C109)

The coordinates are real numbers: rounding and the error of `FastSqrt` are not modelled, `FastSqrt` is the root. A division by zero yields infinities and NaNs in the code; where they
reach the caller the model returns `none`.
-/

namespace Verif.Geo

/-! ## Specification -/

/-- The point is on the circle around (x, y) with radius r. -/
def OnCircle (x y r : ℝ) (p : ℝ × ℝ) : Prop := (p.1 - x) ^ 2 + (p.2 - y) ^ 2 = r ^ 2

/-- The point is within the circle or on it. -/
def InDisc (x y r : ℝ) (p : ℝ × ℝ) : Prop := (p.1 - x) ^ 2 + (p.2 - y) ^ 2 ≤ r ^ 2

/-- The point of the line through a and b at parameter t: a at 0, b at 1. -/
def along (a b : ℝ × ℝ) (t : ℝ) : ℝ × ℝ := (a.1 + (b.1 - a.1) * t, a.2 + (b.2 - a.2) * t)

/-- The line through a and b. -/
def lineOf (a b : ℝ × ℝ) : Set (ℝ × ℝ) := {p | ∃ t, p = along a b t}

/-- The ray from a through b. -/
def rayOf (a b : ℝ × ℝ) : Set (ℝ × ℝ) := {p | ∃ t, 0 ≤ t ∧ p = along a b t}

/-- The segment from a to b. -/
def segOf (a b : ℝ × ℝ) : Set (ℝ × ℝ) := {p | ∃ t, 0 ≤ t ∧ t ≤ 1 ∧ p = along a b t}

/-- The square of the distance of two points. -/
def dsq (p q : ℝ × ℝ) : ℝ := (p.1 - q.1) ^ 2 + (p.2 - q.2) ^ 2

/-! ## Code -/

/-- `CircleRadiusIntersect`, `Collision.h:38-61`: the points written to `out`, none if it returns 0. -/
noncomputable def circleRadiusIntersect (r X Y R : ℝ) : Option (List (ℝ × ℝ)) :=
  let dsq := X * X + Y * Y
  let maxr := r + R
  let minr := |r - R|
  if dsq > maxr * maxr then some []
  else if dsq < minr * minr then some []
  else if dsq = 0 then none
  else
    let id := 1 / √dsq
    let a := (r * r - R * R + dsq) * (id / 2)
    let h := √(r * r - a * a)
    let x2 := X * a * id
    let y2 := Y * a * id
    some [(x2 + h * Y * id, y2 - h * X * id), (x2 - h * Y * id, y2 + h * X * id)]

/-- `CircleCircleIntersect`, `Collision.h:65-68`; `Circle::CircleIntersect`, `Geometry.h:67`, is the same. -/
noncomputable def circleCircleIntersect (X1 Y1 R1 X2 Y2 R2 : ℝ) : Option (List (ℝ × ℝ)) := circleRadiusIntersect R1 (X2 - X1) (Y2 - Y1) R2

/-- `RadiusNearestPoint`, `Collision.h:96-101`; `Circle::NearestPoint`, `Geometry.h:65-66`, calls it with the coordinates relative to the centre. -/
noncomputable def radiusNearestPoint (r X Y : ℝ) : Option (ℝ × ℝ) :=
  if √(X * X + Y * Y) = 0 then none
  else
    let s := r / √(X * X + Y * Y)
    some (X * s, Y * s)

/-- `CircleNearestPoint`, `Collision.h:104`. -/
noncomputable def circleNearestPoint (x y r X Y : ℝ) : Option (ℝ × ℝ) := (radiusNearestPoint r (X - x) (Y - y)).map fun o => (o.1 + x, o.2 + y)

/-- `LineRadiusParametricIntersect`, `Collision.h:110-127`: `none` if it returns 0, `some none` if it returns 2 and the parameters are not numbers. -/
noncomputable def lineRadiusParametric (X1 Y1 X2 Y2 r : ℝ) : Option (Option (ℝ × ℝ)) :=
  let Dx := X2 - X1
  let Dy := Y2 - Y1
  let Dr2 := Dx * Dx + Dy * Dy
  let b := 2 * (X1 * Dx + Y1 * Dy)
  let c := (X1 * X1 + Y1 * Y1) - r * r
  let d := b * b - 4 * Dr2 * c
  if d < 0 then none
  else if 2 * Dr2 = 0 then some none
  else
    let d := √d
    some (some ((-b - d) / (2 * Dr2), (-b + d) / (2 * Dr2)))

/-- `LineRadiusIntersect`, `Collision.h:130-144`. -/
noncomputable def lineRadiusIntersect (X1 Y1 X2 Y2 r : ℝ) : Option (List (ℝ × ℝ)) :=
  match lineRadiusParametric X1 Y1 X2 Y2 r with
  | none => some []
  | some none => none
  | some (some (t0, t1)) =>
    let Dx := X2 - X1
    let Dy := Y2 - Y1
    some ([t0, t1].map fun t => (X1 + Dx * t, Y1 + Dy * t))

open Classical in
/-- `LineSegmentRadiusIntersect`, `Collision.h:147-166`; comparisons with NaN are false, so nothing is written. -/
noncomputable def lineSegmentRadiusIntersect (X1 Y1 X2 Y2 r : ℝ) : List (ℝ × ℝ) :=
  match lineRadiusParametric X1 Y1 X2 Y2 r with
  | some (some (t0, t1)) =>
    let Dx := X2 - X1
    let Dy := Y2 - Y1
    ([t0, t1].filter fun t => decide (t ≥ 0) && decide (t ≤ 1)).map fun t => (X1 + Dx * t, Y1 + Dy * t)
  | _ => []

open Classical in
/-- `RayRadiusIntersect`, `Collision.h:169-188`. -/
noncomputable def rayRadiusIntersect (X1 Y1 X2 Y2 r : ℝ) : List (ℝ × ℝ) :=
  match lineRadiusParametric X1 Y1 X2 Y2 r with
  | some (some (t0, t1)) =>
    let Dx := X2 - X1
    let Dy := Y2 - Y1
    ([t0, t1].filter fun t => decide (t ≥ 0)).map fun t => (X1 + Dx * t, Y1 + Dy * t)
  | _ => []

/-- `LineRadiusCollide`, `Collision.h:191-196`. -/
noncomputable def lineRadiusCollide (X1 Y1 X2 Y2 r : ℝ) : Bool := (lineRadiusParametric X1 Y1 X2 Y2 r).isSome

open Classical in
/-- `RayRadiusCollide`, `Collision.h:199-206`. -/
noncomputable def rayRadiusCollide (X1 Y1 X2 Y2 r : ℝ) : Bool :=
  match lineRadiusParametric X1 Y1 X2 Y2 r with
  | some (some (t0, t1)) => decide (t0 ≥ 0) || decide (t1 ≥ 0)
  | _ => false

open Classical in
/-- `LineSegmentRadiusCollide`, `Collision.h:209-216`. -/
noncomputable def lineSegmentRadiusCollide (X1 Y1 X2 Y2 r : ℝ) : Bool :=
  match lineRadiusParametric X1 Y1 X2 Y2 r with
  | some (some (t0, t1)) => (decide (t0 ≥ 0) && decide (t0 ≤ 1)) || (decide (t1 ≥ 0) && decide (t1 ≤ 1))
  | _ => false

/-! ## Two circles -/

theorem sqrt_sq_of {x : ℝ} (h : 0 ≤ x) : √x ^ 2 = x := Real.sq_sqrt h

/-- **C109**, two circles, the first one at the origin: the points are exactly the common points, unless the circles are the same. -/
theorem C109_radius_partial (r X Y R : ℝ) (hr : 0 ≤ r) (hR : 0 ≤ R) (hne : ¬ (X = 0 ∧ Y = 0 ∧ r = R)) :
    ∃ l, circleRadiusIntersect r X Y R = some l ∧ ∀ p, p ∈ l ↔ OnCircle 0 0 r p ∧ OnCircle X Y R p := by
  unfold circleRadiusIntersect
  dsimp only
  -- the scalar product of a common point with the centre, and Lagrange's identity
  have key : ∀ p : ℝ × ℝ, OnCircle 0 0 r p → OnCircle X Y R p → 2 * (p.1 * X + p.2 * Y) = r ^ 2 - R ^ 2 + (X * X + Y * Y) ∧
      (p.1 * Y - p.2 * X) ^ 2 + (p.1 * X + p.2 * Y) ^ 2 = r ^ 2 * (X * X + Y * Y) := by
    intro p h1 h2
    unfold OnCircle at h1 h2
    constructor
    · linear_combination h1 - h2
    · linear_combination (X * X + Y * Y) * h1
  by_cases h1 : X * X + Y * Y > (r + R) * (r + R)
  · refine ⟨[], by rw [if_pos h1], fun p => ⟨by simp, fun ⟨ha, hb⟩ => ?_⟩⟩
    exfalso
    obtain ⟨e1, e2⟩ := key p ha hb
    nlinarith [sq_nonneg (p.1 * Y - p.2 * X), mul_nonneg hr hR]
  by_cases h2 : X * X + Y * Y < |r - R| * |r - R|
  · refine ⟨[], by rw [if_neg h1, if_pos h2], fun p => ⟨by simp, fun ⟨ha, hb⟩ => ?_⟩⟩
    exfalso
    obtain ⟨e1, e2⟩ := key p ha hb
    rw [abs_mul_abs_self] at h2
    nlinarith [sq_nonneg (p.1 * Y - p.2 * X), mul_nonneg hr hR]
  rw [abs_mul_abs_self] at h2
  by_cases h3 : X * X + Y * Y = 0
  · exfalso
    apply hne
    have hx : X = 0 := by nlinarith [mul_self_nonneg X, mul_self_nonneg Y]
    have hy : Y = 0 := by nlinarith [mul_self_nonneg X, mul_self_nonneg Y]
    refine ⟨hx, hy, ?_⟩
    have : (r - R) * (r - R) ≤ 0 := by linarith
    nlinarith [mul_self_nonneg (r - R), mul_self_eq_zero.1 (le_antisymm this (mul_self_nonneg _))]
  rw [if_neg h1, if_neg (by rwa [abs_mul_abs_self]), if_neg h3]
  refine ⟨_, rfl, ?_⟩
  set D := X * X + Y * Y with hD
  have hD0 : 0 < D := lt_of_le_of_ne (by rw [hD]; nlinarith [mul_self_nonneg X, mul_self_nonneg Y]) (Ne.symm h3)
  set d := √D with hd
  have hd0 : 0 < d := Real.sqrt_pos.2 hD0
  have hd2 : d * d = D := Real.mul_self_sqrt hD0.le
  set a := (r * r - R * R + D) * (1 / d / 2) with ha
  have had : 2 * a * d = r * r - R * R + D := by rw [ha]; field_simp
  have hh0 : 0 ≤ r * r - a * a := by
    have e : 4 * D * (r * r - a * a) = (D - (r - R) * (r - R)) * ((r + R) * (r + R) - D) := by
      linear_combination 4 * a * a * hd2 - (2 * a * d + (r * r - R * R + D)) * had
    have : 0 ≤ 4 * D * (r * r - a * a) := by
      rw [e]
      exact mul_nonneg (by linarith) (by linarith)
    nlinarith
  set h := √(r * r - a * a) with hh
  have hh2 : h * h = r * r - a * a := Real.mul_self_sqrt hh0
  set i := 1 / d with hi
  have hid : i * d = 1 := by rw [hi]; field_simp
  have hiD : i * i * D = 1 := by rw [← hd2]; linear_combination (i * d + 1) * hid
  intro p
  have fwd : ∀ s : ℝ, s * s = h * h → OnCircle 0 0 r (X * a * i + s * Y * i, Y * a * i - s * X * i) ∧ OnCircle X Y R (X * a * i + s * Y * i, Y * a * i - s * X * i) := by
    intro s hs
    have e1 : (X * a * i + s * Y * i) ^ 2 + (Y * a * i - s * X * i) ^ 2 = r ^ 2 := by
      linear_combination (a * a + s * s) * hiD + hs + hh2 + (a * a + s * s) * i * i * hD
    refine ⟨by unfold OnCircle; simpa using e1, ?_⟩
    unfold OnCircle
    dsimp only
    have e2 : (X * a * i + s * Y * i) * X + (Y * a * i - s * X * i) * Y = a * d := by
      have : i * D = d := by rw [← hd2]; linear_combination d * hid
      linear_combination a * this + a * i * hD
    linear_combination e1 - 2 * e2 - hD - had
  constructor
  · intro hp
    rcases List.mem_cons.1 hp with rfl | hp
    · exact fwd h rfl
    · rw [List.mem_singleton] at hp
      subst hp
      have := fwd (-h) (by ring)
      have e : ((X * a * i + -h * Y * i, Y * a * i - -h * X * i) : ℝ × ℝ) = (X * a * i - h * Y * i, Y * a * i + h * X * i) := by
        ext <;> dsimp only <;> ring
      rwa [e] at this
  · rintro ⟨h5, h6⟩
    obtain ⟨e1, e2⟩ := key p h5 h6
    have e3 : p.1 * X + p.2 * Y = a * d := by linear_combination (1 / 2) * e1 - (1 / 2) * had
    have e4 : (p.1 * Y - p.2 * X) * (p.1 * Y - p.2 * X) = (h * d) * (h * d) := by
      rw [e3] at e2
      linear_combination e2 - r ^ 2 * hd2 - d * d * hh2
    have sol : ∀ s : ℝ, p.1 * Y - p.2 * X = s * d → p = (X * a * i + s * Y * i, Y * a * i - s * X * i) := by
      intro s hs
      have f1 : p.1 * D = X * (a * d) + Y * (s * d) := by rw [← e3, ← hs, hD]; ring
      have f2 : p.2 * D = Y * (a * d) - X * (s * d) := by rw [← e3, ← hs, hD]; ring
      ext
      · dsimp only
        linear_combination i * i * f1 - p.1 * hiD + (X * a * i + s * Y * i) * hid
      · dsimp only
        linear_combination i * i * f2 - p.2 * hiD + (Y * a * i - s * X * i) * hid
    rcases mul_self_eq_mul_self_iff.1 e4 with e5 | e5
    · rw [sol h e5]
      exact List.mem_cons_self
    · rw [sol (-h) (by rw [e5]; ring)]
      refine List.mem_cons_of_mem _ (List.mem_singleton.2 ?_)
      ext <;> dsimp only <;> ring

/-- Circles of radius 5 and √20 at distance 5, and circles that touch. -/
example : ∃ l, circleRadiusIntersect 5 5 0 5 = some l ∧ ∀ p, p ∈ l ↔ OnCircle 0 0 5 p ∧ OnCircle 5 0 5 p :=
  C109_radius_partial 5 5 0 5 (by norm_num) (by norm_num) (by norm_num)

/-- Equal circles at the same place yield two points that are not numbers. -/
theorem C109_same_counterexample : circleRadiusIntersect 1 0 0 1 = none := by
  unfold circleRadiusIntersect
  norm_num

/-- **C109**, two circles: the points are the common points, but relative to the centre of the first circle. Missing: equal circles, and the points themselves. -/
theorem C109_circles_partial (X1 Y1 R1 X2 Y2 R2 : ℝ) (h1 : 0 ≤ R1) (h2 : 0 ≤ R2) (hne : ¬ (X1 = X2 ∧ Y1 = Y2 ∧ R1 = R2)) :
    ∃ l, circleCircleIntersect X1 Y1 R1 X2 Y2 R2 = some l ∧ ∀ p, p ∈ l ↔ OnCircle X1 Y1 R1 (p.1 + X1, p.2 + Y1) ∧ OnCircle X2 Y2 R2 (p.1 + X1, p.2 + Y1) := by
  obtain ⟨l, e, hl⟩ := C109_radius_partial R1 (X2 - X1) (Y2 - Y1) R2 h1 h2 fun ⟨a, b, c⟩ => hne ⟨by linarith, by linarith, c⟩
  refine ⟨l, e, fun p => (hl p).trans ?_⟩
  unfold OnCircle
  dsimp only
  rw [show p.1 + X1 - X1 = p.1 - 0 by ring, show p.2 + Y1 - Y1 = p.2 - 0 by ring, show p.1 + X1 - X2 = p.1 - (X2 - X1) by ring, show p.2 + Y1 - Y2 = p.2 - (Y2 - Y1) by ring]

/-- Circles of radius 1 around (5, 0) and (7, 0) touch in (6, 0); the code returns (1, 0) twice. -/
theorem C109_offset_counterexample : circleCircleIntersect 5 0 1 7 0 1 = some [(1, 0), (1, 0)] ∧ ¬ OnCircle 5 0 1 (1, 0) := by
  constructor
  · unfold circleCircleIntersect circleRadiusIntersect
    have : √(4 : ℝ) = 2 := by rw [show (4 : ℝ) = 2 * 2 by norm_num]; exact Real.sqrt_mul_self (by norm_num)
    norm_num [this]
  · unfold OnCircle
    norm_num

/-! ## Nearest point -/

/-- **C109**: the nearest point is on the circle, and no point of the circle is nearer. -/
theorem C109_nearest (x y r X Y : ℝ) (hr : 0 ≤ r) (h : (X, Y) ≠ (x, y)) :
    ∃ q, circleNearestPoint x y r X Y = some q ∧ OnCircle x y r q ∧ ∀ p, OnCircle x y r p → dsq (X, Y) q ≤ dsq (X, Y) p := by
  have hD0 : 0 < (X - x) * (X - x) + (Y - y) * (Y - y) := by
    rcases lt_or_eq_of_le (add_nonneg (mul_self_nonneg (X - x)) (mul_self_nonneg (Y - y))) with h' | h'
    · exact h'
    · exfalso
      apply h
      have hx : (X - x) * (X - x) = 0 := by nlinarith [mul_self_nonneg (X - x), mul_self_nonneg (Y - y)]
      have hy : (Y - y) * (Y - y) = 0 := by nlinarith [mul_self_nonneg (X - x), mul_self_nonneg (Y - y)]
      rw [mul_self_eq_zero] at hx hy
      ext <;> dsimp only <;> linarith
  unfold circleNearestPoint radiusNearestPoint
  set D := (X - x) * (X - x) + (Y - y) * (Y - y) with hD
  have hd0 : 0 < √D := Real.sqrt_pos.2 hD0
  have hd2 : √D * √D = D := Real.mul_self_sqrt hD0.le
  rw [if_neg hd0.ne']
  refine ⟨_, rfl, ?_⟩
  set d := √D
  set s := r / d with hs
  have hsd : s * d = r := by rw [hs]; field_simp
  have on : OnCircle x y r ((X - x) * s + x, (Y - y) * s + y) := by
    unfold OnCircle
    dsimp only
    linear_combination s * s * (-hD) - s * s * hd2 + (s * d + r) * hsd
  refine ⟨on, fun p hp => ?_⟩
  unfold OnCircle at hp
  unfold dsq
  dsimp only
  -- the scalar product with the direction of the centre is at most r d
  have cs : (p.1 - x) * (X - x) + (p.2 - y) * (Y - y) ≤ r * d := by
    refine abs_le_of_sq_le_sq' ?_ (by positivity) |>.2
    have : ((p.1 - x) * (X - x) + (p.2 - y) * (Y - y)) ^ 2 + ((p.1 - x) * (Y - y) - (p.2 - y) * (X - x)) ^ 2 = (r * d) ^ 2 := by
      rw [mul_pow, ← hp, sq d, hd2, hD]
      ring
    nlinarith [sq_nonneg ((p.1 - x) * (Y - y) - (p.2 - y) * (X - x))]
  have e1 : (X - ((X - x) * s + x)) ^ 2 + (Y - ((Y - y) * s + y)) ^ 2 = D - 2 * (r * d) + r ^ 2 := by
    linear_combination (1 - s) ^ 2 * (-hD) - (1 - s) ^ 2 * hd2 + (s * d + r - 2 * d) * hsd + hd2
  have e2 : (X - p.1) ^ 2 + (Y - p.2) ^ 2 = D - 2 * ((p.1 - x) * (X - x) + (p.2 - y) * (Y - y)) + r ^ 2 := by
    linear_combination hp - hD
  rw [e1, e2]
  linarith

/-- The point nearest to (3, 4) on the unit circle. -/
example : ∃ q, circleNearestPoint 0 0 1 3 4 = some q ∧ OnCircle 0 0 1 q ∧ ∀ p, OnCircle 0 0 1 p → dsq (3, 4) q ≤ dsq (3, 4) p :=
  C109_nearest 0 0 1 3 4 (by norm_num) (by norm_num)

/-- `Circle::NearestPoint` leaves the centre out: for the unit circle around (5, 0) and the point (9, 0) it returns (1, 0). -/
theorem C109_member_counterexample : radiusNearestPoint 1 (9 - 5) (0 - 0) = some (1, 0) ∧ ¬ OnCircle 5 0 1 (1, 0) := by
  constructor
  · unfold radiusNearestPoint
    have : √(16 : ℝ) = 4 := by rw [show (16 : ℝ) = 4 * 4 by norm_num]; exact Real.sqrt_mul_self (by norm_num)
    norm_num [this]
  · unfold OnCircle
    norm_num

end Verif.Geo
