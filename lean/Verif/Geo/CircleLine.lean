import Verif.Geo.Circle

/-!
# Lines, rays and segments against a circle (C110)

Model and specification are in `Verif/Geo/Circle.lean`. The circle is at the origin, as in the functions of `Collision.h`.
-/

namespace Verif.Geo

theorem norm_along (X1 Y1 X2 Y2 r t : ℝ) : ((along (X1, Y1) (X2, Y2) t).1 - 0) ^ 2 + ((along (X1, Y1) (X2, Y2) t).2 - 0) ^ 2 - r ^ 2 =
    ((X2 - X1) * (X2 - X1) + (Y2 - Y1) * (Y2 - Y1)) * t ^ 2 + 2 * (X1 * (X2 - X1) + Y1 * (Y2 - Y1)) * t + (X1 * X1 + Y1 * Y1 - r * r) := by
  unfold along
  ring

theorem len_pos {X1 Y1 X2 Y2 : ℝ} (h : (X1, Y1) ≠ (X2, Y2)) : 0 < (X2 - X1) * (X2 - X1) + (Y2 - Y1) * (Y2 - Y1) := by
  rcases lt_or_eq_of_le (add_nonneg (mul_self_nonneg (X2 - X1)) (mul_self_nonneg (Y2 - Y1))) with h' | h'
  · exact h'
  · exfalso
    apply h
    have hx : (X2 - X1) * (X2 - X1) = 0 := by nlinarith [mul_self_nonneg (X2 - X1), mul_self_nonneg (Y2 - Y1)]
    have hy : (Y2 - Y1) * (Y2 - Y1) = 0 := by nlinarith [mul_self_nonneg (X2 - X1), mul_self_nonneg (Y2 - Y1)]
    rw [mul_self_eq_zero] at hx hy
    ext <;> dsimp only <;> linarith

/-- What the parametric intersection means: the points of the line within the circle are those between the parameters, in this order. -/
theorem parametric_spec {X1 Y1 X2 Y2 : ℝ} (r : ℝ) (h : (X1, Y1) ≠ (X2, Y2)) :
    (lineRadiusParametric X1 Y1 X2 Y2 r = none ∧ ∀ t, ¬ InDisc 0 0 r (along (X1, Y1) (X2, Y2) t)) ∨
    ∃ t0 t1, lineRadiusParametric X1 Y1 X2 Y2 r = some (some (t0, t1)) ∧ t0 ≤ t1 ∧
      (∀ t, InDisc 0 0 r (along (X1, Y1) (X2, Y2) t) ↔ t0 ≤ t ∧ t ≤ t1) ∧ ∀ t, OnCircle 0 0 r (along (X1, Y1) (X2, Y2) t) ↔ t = t0 ∨ t = t1 := by
  have hA := len_pos h
  have hf := norm_along X1 Y1 X2 Y2 r
  unfold lineRadiusParametric
  dsimp only
  set A := (X2 - X1) * (X2 - X1) + (Y2 - Y1) * (Y2 - Y1)
  set b := 2 * (X1 * (X2 - X1) + Y1 * (Y2 - Y1))
  set c := X1 * X1 + Y1 * Y1 - r * r
  by_cases hd : b * b - 4 * A * c < 0
  · refine .inl ⟨by rw [if_pos hd], fun t ht => ?_⟩
    unfold InDisc at ht
    have := hf t
    have h2 : A * t ^ 2 + b * t + c ≤ 0 := by linarith
    nlinarith [sq_nonneg (2 * A * t + b)]
  · refine .inr ?_
    rw [if_neg hd, if_neg (by positivity)]
    refine ⟨_, _, rfl, ?_⟩
    have hs := Real.mul_self_sqrt (not_lt.1 hd)
    have hs0 := Real.sqrt_nonneg (b * b - 4 * A * c)
    set d := √(b * b - 4 * A * c)
    set t0 := (-b - d) / (2 * A) with ht0
    set t1 := (-b + d) / (2 * A) with ht1
    have e0 : 2 * A * t0 = -b - d := by rw [ht0]; field_simp
    have e1 : 2 * A * t1 = -b + d := by rw [ht1]; field_simp
    have hle : t0 ≤ t1 := by
      rw [ht0, ht1]
      gcongr
      linarith
    have hfac : ∀ t, A * t ^ 2 + b * t + c = A * ((t - t0) * (t - t1)) := by
      intro t
      have : 4 * A * (A * t ^ 2 + b * t + c) = 4 * A * (A * ((t - t0) * (t - t1))) := by
        have : 4 * A * (A * ((t - t0) * (t - t1))) = (2 * A * t - 2 * A * t0) * (2 * A * t - 2 * A * t1) := by ring
        rw [this, e0, e1]
        linear_combination hs
      exact mul_left_cancel₀ (by positivity) this
    refine ⟨hle, fun t => ?_, fun t => ?_⟩
    · have hft := hf t
      rw [hfac] at hft
      have : InDisc 0 0 r (along (X1, Y1) (X2, Y2) t) ↔ (t - t0) * (t - t1) ≤ 0 := by
        unfold InDisc
        rw [← sub_nonpos, hft]
        constructor
        · intro h
          by_contra hc
          push Not at hc
          nlinarith [mul_pos hA hc]
        · exact fun h => mul_nonpos_of_nonneg_of_nonpos hA.le h
      rw [this]
      constructor
      · intro h
        constructor
        · by_contra hc
          push Not at hc
          nlinarith
        · by_contra hc
          push Not at hc
          nlinarith
      · rintro ⟨h1, h2⟩
        exact mul_nonpos_of_nonneg_of_nonpos (by linarith) (by linarith)
    · have hft := hf t
      rw [hfac] at hft
      unfold OnCircle
      rw [← sub_eq_zero, hft, mul_eq_zero, mul_eq_zero, sub_eq_zero, sub_eq_zero]
      exact ⟨fun h => h.resolve_left hA.ne', .inr⟩

theorem along_inj {X1 Y1 X2 Y2 s t : ℝ} (h : (X1, Y1) ≠ (X2, Y2)) (e : along (X1, Y1) (X2, Y2) s = along (X1, Y1) (X2, Y2) t) : s = t := by
  have hA := len_pos h
  unfold along at e
  rw [Prod.mk.injEq] at e
  dsimp only at e
  have : ((X2 - X1) * (X2 - X1) + (Y2 - Y1) * (Y2 - Y1)) * (s - t) = 0 := by linear_combination (X2 - X1) * e.1 + (Y2 - Y1) * e.2
  rcases mul_eq_zero.1 this with h' | h'
  · exact absurd h' hA.ne'
  · linarith

/-- **C110**, points: for a line, ray or segment given by two different points the result is exactly the points on the circle. Missing: equal points, see the counterexample. -/
theorem C110_points_partial (X1 Y1 X2 Y2 r : ℝ) (h : (X1, Y1) ≠ (X2, Y2)) :
    (∃ l, lineRadiusIntersect X1 Y1 X2 Y2 r = some l ∧ ∀ p, p ∈ l ↔ p ∈ lineOf (X1, Y1) (X2, Y2) ∧ OnCircle 0 0 r p) ∧
    (∀ p, p ∈ rayRadiusIntersect X1 Y1 X2 Y2 r ↔ p ∈ rayOf (X1, Y1) (X2, Y2) ∧ OnCircle 0 0 r p) ∧
    (∀ p, p ∈ lineSegmentRadiusIntersect X1 Y1 X2 Y2 r ↔ p ∈ segOf (X1, Y1) (X2, Y2) ∧ OnCircle 0 0 r p) := by
  unfold lineRadiusIntersect rayRadiusIntersect lineSegmentRadiusIntersect
  rcases parametric_spec r h with ⟨e, hn⟩ | ⟨t0, t1, e, -, -, hc⟩
  · have no : ∀ t, ¬ OnCircle 0 0 r (along (X1, Y1) (X2, Y2) t) := fun t ht => hn t (le_of_eq ht)
    rw [e]
    refine ⟨⟨[], rfl, fun p => ⟨by simp, ?_⟩⟩, fun p => ⟨by simp, ?_⟩, fun p => ⟨by simp, ?_⟩⟩
    · rintro ⟨⟨t, rfl⟩, h⟩
      exact absurd h (no t)
    · rintro ⟨⟨t, -, rfl⟩, h⟩
      exact absurd h (no t)
    · rintro ⟨⟨t, -, -, rfl⟩, h⟩
      exact absurd h (no t)
  · rw [e]
    refine ⟨⟨_, rfl, fun p => ?_⟩, fun p => ?_, fun p => ?_⟩
    · rw [List.mem_map]
      constructor
      · rintro ⟨t, ht, rfl⟩
        exact ⟨⟨t, rfl⟩, (hc t).2 (by simpa using ht)⟩
      · rintro ⟨⟨t, rfl⟩, h⟩
        exact ⟨t, by simpa using (hc t).1 h, rfl⟩
    · dsimp only
      rw [List.mem_map]
      constructor
      · rintro ⟨t, ht, rfl⟩
        rw [List.mem_filter, decide_eq_true_iff] at ht
        exact ⟨⟨t, ht.2, rfl⟩, (hc t).2 (by simpa using ht.1)⟩
      · rintro ⟨⟨t, h0, rfl⟩, h⟩
        exact ⟨t, by rw [List.mem_filter, decide_eq_true_iff]; exact ⟨by simpa using (hc t).1 h, h0⟩, rfl⟩
    · dsimp only
      rw [List.mem_map]
      constructor
      · rintro ⟨t, ht, rfl⟩
        rw [List.mem_filter, Bool.and_eq_true, decide_eq_true_iff, decide_eq_true_iff] at ht
        exact ⟨⟨t, ht.2.1, ht.2.2, rfl⟩, (hc t).2 (by simpa using ht.1)⟩
      · rintro ⟨⟨t, h0, h1, rfl⟩, h⟩
        exact ⟨t, by rw [List.mem_filter, Bool.and_eq_true, decide_eq_true_iff, decide_eq_true_iff]; exact ⟨by simpa using (hc t).1 h, h0, h1⟩, rfl⟩

/-- **C110**, decisions: a line or ray collides if and only if it has a point within the circle or on it, a segment if and only if it has a point on the circle; unless the segment
lies within the circle this is the same as having a point in it. Missing: such segments, and equal points, see the counterexamples. -/
theorem C110_collide_partial (X1 Y1 X2 Y2 r : ℝ) (h : (X1, Y1) ≠ (X2, Y2)) :
    (lineRadiusCollide X1 Y1 X2 Y2 r = true ↔ ∃ p ∈ lineOf (X1, Y1) (X2, Y2), InDisc 0 0 r p) ∧
    (rayRadiusCollide X1 Y1 X2 Y2 r = true ↔ ∃ p ∈ rayOf (X1, Y1) (X2, Y2), InDisc 0 0 r p) ∧
    (lineSegmentRadiusCollide X1 Y1 X2 Y2 r = true ↔ ∃ p ∈ segOf (X1, Y1) (X2, Y2), OnCircle 0 0 r p) ∧
    (¬ InDisc 0 0 r (X1, Y1) ∨ ¬ InDisc 0 0 r (X2, Y2) → (lineSegmentRadiusCollide X1 Y1 X2 Y2 r = true ↔ ∃ p ∈ segOf (X1, Y1) (X2, Y2), InDisc 0 0 r p)) := by
  unfold lineRadiusCollide rayRadiusCollide lineSegmentRadiusCollide
  rcases parametric_spec r h with ⟨e, hn⟩ | ⟨t0, t1, e, hle, hi, hc⟩
  · have no : ∀ t, ¬ OnCircle 0 0 r (along (X1, Y1) (X2, Y2) t) := fun t ht => hn t (le_of_eq ht)
    rw [e]
    refine ⟨⟨by simp, ?_⟩, ⟨by simp, ?_⟩, ⟨by simp, ?_⟩, fun _ => ⟨by simp, ?_⟩⟩
    · rintro ⟨_, ⟨t, rfl⟩, h⟩
      exact absurd h (hn t)
    · rintro ⟨_, ⟨t, -, rfl⟩, h⟩
      exact absurd h (hn t)
    · rintro ⟨_, ⟨t, -, -, rfl⟩, h⟩
      exact absurd h (no t)
    · rintro ⟨_, ⟨t, -, -, rfl⟩, h⟩
      exact absurd h (hn t)
  · rw [e]
    simp only [Option.isSome_some, true_iff, Bool.or_eq_true, Bool.and_eq_true, decide_eq_true_iff, ge_iff_le]
    refine ⟨⟨_, ⟨t0, rfl⟩, (hi t0).2 ⟨le_rfl, hle⟩⟩, ⟨?_, ?_⟩, ⟨?_, ?_⟩, fun hout => ⟨?_, ?_⟩⟩
    · intro h
      exact ⟨_, ⟨t1, by rcases h with h | h <;> linarith, rfl⟩, (hi t1).2 ⟨hle, le_rfl⟩⟩
    · rintro ⟨_, ⟨t, h0, rfl⟩, h⟩
      exact .inr (h0.trans ((hi t).1 h).2)
    · rintro (⟨h0, h1⟩ | ⟨h0, h1⟩)
      · exact ⟨_, ⟨t0, h0, h1, rfl⟩, (hc t0).2 (.inl rfl)⟩
      · exact ⟨_, ⟨t1, h0, h1, rfl⟩, (hc t1).2 (.inr rfl)⟩
    · rintro ⟨_, ⟨t, h0, h1, rfl⟩, h⟩
      rcases (hc t).1 h with rfl | rfl
      · exact .inl ⟨h0, h1⟩
      · exact .inr ⟨h0, h1⟩
    · rintro (⟨h0, h1⟩ | ⟨h0, h1⟩)
      · exact ⟨_, ⟨t0, h0, h1, rfl⟩, (hi t0).2 ⟨le_rfl, hle⟩⟩
      · exact ⟨_, ⟨t1, h0, h1, rfl⟩, (hi t1).2 ⟨hle, le_rfl⟩⟩
    · rintro ⟨_, ⟨t, h0, h1, rfl⟩, h⟩
      have ht := (hi t).1 h
      have a0 : along (X1, Y1) (X2, Y2) 0 = (X1, Y1) := by unfold along; ext <;> dsimp only <;> ring
      have a1 : along (X1, Y1) (X2, Y2) 1 = (X2, Y2) := by unfold along; ext <;> dsimp only <;> ring
      have b0 := hi 0
      have b1 := hi 1
      rw [a0] at b0
      rw [a1] at b1
      rw [b0, b1] at hout
      by_cases hx : 0 ≤ t0
      · exact .inl ⟨hx, by linarith⟩
      · by_cases hy : t1 ≤ 1
        · exact .inr ⟨by linarith, hy⟩
        · exfalso
          rcases hout with h | h
          · exact h ⟨by linarith, by linarith⟩
          · exact h ⟨by linarith, by linarith⟩

/-- A line through the unit circle. -/
example : ∃ l, lineRadiusIntersect (-2) 0 2 0 1 = some l ∧ ∀ p, p ∈ l ↔ p ∈ lineOf (-2, 0) (2, 0) ∧ OnCircle 0 0 1 p :=
  (C110_points_partial (-2) 0 2 0 1 (by norm_num)).1

/-- A line given by the same point twice: the points are not numbers. A segment of one point on the circle is not found. -/
theorem C110_degenerate_counterexample : lineRadiusIntersect 1 0 1 0 1 = none ∧ lineSegmentRadiusIntersect 1 0 1 0 1 = [] ∧ (1, 0) ∈ segOf (1, 0) (1, 0) ∧ OnCircle 0 0 1 (1, 0) := by
  refine ⟨?_, ?_, ⟨0, le_rfl, zero_le_one, by simp [along]⟩, by simp [OnCircle]⟩
  · unfold lineRadiusIntersect lineRadiusParametric
    norm_num
  · unfold lineSegmentRadiusIntersect lineRadiusParametric
    norm_num

/-- A segment within the circle does not collide with it. -/
theorem C110_inside_counterexample : lineSegmentRadiusCollide (-1) 0 1 0 2 = false ∧ (∀ p ∈ segOf (-1, 0) (1, 0), InDisc 0 0 2 p) := by
  constructor
  · rw [← Bool.not_eq_true, (C110_collide_partial (-1) 0 1 0 2 (by norm_num)).2.2.1]
    rintro ⟨_, ⟨t, h0, h1, rfl⟩, h⟩
    unfold OnCircle along at h
    norm_num at h
    nlinarith
  · rintro _ ⟨t, h0, h1, rfl⟩
    unfold InDisc along
    norm_num
    nlinarith

/-- `Circle::LineIntersect` (`Geometry.h:73`) calls the function with coordinates relative to the centre and does not shift the result: for the unit circle around (9, 0) and the
line through (7, 0) and (9, 0) the points are (-1, 0) and (1, 0). -/
theorem C110_member_counterexample : lineRadiusIntersect (7 - 9) (0 - 0) (9 - 9) (0 - 0) 1 = some [(-1, 0), (1, 0)] ∧ ¬ OnCircle 9 0 1 (1, 0) := by
  constructor
  · unfold lineRadiusIntersect lineRadiusParametric
    have : √(16 : ℝ) = 4 := by rw [show (16 : ℝ) = 4 * 4 by norm_num]; exact Real.sqrt_mul_self (by norm_num)
    norm_num [this]
  · unfold OnCircle
    norm_num

end Verif.Geo
