import Verif.Geo.CircleLine
import Verif.Geo.Cross
import Verif.Num.Props
import Mathlib.Analysis.SpecialFunctions.Complex.Arg

/-!
# Sectors of circles: points and circles (C175, C176), `CircleSector` of `/repo/include/bss-util/Geometry.h` and `RadiusSectorContainsPoint` of `/repo/include/bss-util/Collision.h`

In exact arithmetic over the real numbers. The second coordinate points down, so the point at distance `ρ` and angle `θ` is `(ρ cos θ, -ρ sin θ)`.
-/

namespace Verif.Geo

open Real Verif.Num

/-! ## Specification -/

/-- The point at a distance and an angle from the origin. -/
noncomputable def polar (ρ θ : ℝ) : ℝ × ℝ := (ρ * cos θ, -(ρ * sin θ))

/-- The points of a sector around the origin. -/
def Sector (inner outer min range : ℝ) : Set (ℝ × ℝ) := {p | ∃ ρ θ, inner ≤ ρ ∧ ρ ≤ outer ∧ min ≤ θ ∧ θ ≤ min + range ∧ p = polar ρ θ}

/-- The points of a sector around (x, y). -/
def SectorAt (x y inner outer min range : ℝ) : Set (ℝ × ℝ) := {p | (p.1 - x, p.2 - y) ∈ Sector inner outer min range}

/-! ## Code -/

/-- `atan2` of the C library; `atan2(0, 0)` is 0. -/
noncomputable def atan2 (y x : ℝ) : ℝ := Complex.arg ⟨x, y⟩

open Classical in
/-- `RadiusSectorContainsPointRadius`, `Collision.h:549-553`. -/
noncomputable def sectorRadius (X Y inner outer : ℝ) : Bool :=
  let dist := X * X + Y * Y
  decide (dist ≤ outer * outer) && decide (dist ≥ inner * inner)

open Classical in
/-- `RadiusSectorContainsPointAngle`, `Collision.h:556-564`. -/
noncomputable def sectorAngle (X Y min range : ℝ) : Bool :=
  if range ≥ π * 2 then true
  else
    let range := range * 0.5
    let angle := atan2 (-Y) X
    decide (angleDist angle (min + range) ≤ range)

/-- `RadiusSectorContainsPoint`, `Collision.h:566-569`. -/
noncomputable def sectorContains (X Y inner outer min range : ℝ) : Bool := sectorRadius X Y inner outer && sectorAngle X Y min range

/-- `CircleSector::ContainsPoint`, `Geometry.h:451`, and `CircleSectorContainsPoint`, `Collision.h:571-574`. -/
noncomputable def circleSectorContainsPoint (x y inner outer min range X Y : ℝ) : Bool := sectorContains (X - x) (Y - y) inner outer min range

/-- The least angle that the constructors store, `Geometry.h:445-446`. -/
noncomputable def constructedMin (Min : ℝ) : ℝ := bssFMod Min (π * 2)

open Classical in
/-- `_intersectAngleCircle`, `Geometry.h:625-633`. -/
noncomputable def intersectAngleCircle (inner outer X Y R angle : ℝ) : Bool :=
  let c := cos angle
  let s := sin angle
  let x1 := c * inner - X
  let y1 := -(s * inner) - Y
  if lineSegmentRadiusCollide x1 y1 (c * outer - X) (-(s * outer) - Y) R then true
  else decide (x1 * x1 + y1 * y1 < R * R)

open Classical in
/-- `CircleSector::CircleCollide`, `Geometry.h:508-537`. -/
noncomputable def sectorCircleCollide (x y inner outer min range X Y R : ℝ) : Bool :=
  let X := X - x
  let Y := Y - y
  let D2 := X * X + Y * Y
  let tr := R + outer
  if D2 > tr * tr then false
  else if inner > 0 ∧ inner - R > 0 ∧ D2 < (inner - R) * (inner - R) then false
  else if range ≥ π * 2 then true
  else if sectorAngle X Y min range then true
  else if intersectAngleCircle inner outer X Y R min then true
  else if intersectAngleCircle inner outer X Y R (min + range) then true
  else false

/-! ## Angles -/

/-- The distance from the origin. -/
noncomputable def len (p : ℝ × ℝ) : ℝ := √(p.1 ^ 2 + p.2 ^ 2)

theorem len_nonneg (p : ℝ × ℝ) : 0 ≤ len p := sqrt_nonneg _

theorem len_sq (p : ℝ × ℝ) : len p ^ 2 = p.1 ^ 2 + p.2 ^ 2 := sq_sqrt (by positivity)

theorem polar_sq (ρ θ : ℝ) : (polar ρ θ).1 ^ 2 + (polar ρ θ).2 ^ 2 = ρ ^ 2 := by
  unfold polar; dsimp only
  have := sin_sq_add_cos_sq θ
  linear_combination ρ ^ 2 * this

theorem len_polar {ρ : ℝ} (h : 0 ≤ ρ) (θ : ℝ) : len (polar ρ θ) = ρ := by unfold len; rw [polar_sq, sqrt_sq h]

theorem len_eq_zero {p : ℝ × ℝ} : len p = 0 ↔ p = (0, 0) := by
  constructor
  · intro h
    have h2 := len_sq p
    rw [h] at h2
    have h3 : p.1 ^ 2 = 0 := by nlinarith [sq_nonneg p.1, sq_nonneg p.2]
    have h4 : p.2 ^ 2 = 0 := by nlinarith [sq_nonneg p.1, sq_nonneg p.2]
    exact Prod.ext (pow_eq_zero_iff (by norm_num) |>.1 h3) (pow_eq_zero_iff (by norm_num) |>.1 h4)
  · rintro rfl; unfold len; norm_num

theorem polar_atan2 (p : ℝ × ℝ) : p = polar (len p) (atan2 (-p.2) p.1) := by
  have hn : ‖(⟨p.1, -p.2⟩ : ℂ)‖ = len p := by
    rw [Complex.norm_def, Complex.normSq_apply]; unfold len; congr 1; dsimp only; ring
  have h1 := Complex.norm_mul_cos_arg (⟨p.1, -p.2⟩ : ℂ)
  have h2 := Complex.norm_mul_sin_arg (⟨p.1, -p.2⟩ : ℂ)
  rw [hn] at h1 h2
  unfold polar atan2
  ext
  · dsimp only at *; linarith
  · dsimp only at *; linarith

theorem polar_add (ρ θ : ℝ) (k : ℤ) : polar ρ (θ + k * (2 * π)) = polar ρ θ := by
  unfold polar; rw [cos_add_int_mul_two_pi, sin_add_int_mul_two_pi]

theorem cos_le_cos_iff {h d : ℝ} (h0 : 0 ≤ h) (h1 : h ≤ π) : arccos (cos d) ≤ h ↔ cos h ≤ cos d := by
  have a0 := arccos_nonneg (cos d)
  have a1 := arccos_le_pi (cos d)
  have e : cos (arccos (cos d)) = cos d := cos_arccos (neg_one_le_cos d) (cos_le_one d)
  constructor
  · intro h'; rw [← e]; exact strictAntiOn_cos.antitoneOn ⟨a0, a1⟩ ⟨h0, h1⟩ h'
  · intro h'; rw [← e] at h'
    by_contra hh
    exact absurd (strictAntiOn_cos ⟨h0, h1⟩ ⟨a0, a1⟩ (not_le.1 hh)) (not_lt.2 h')

/-- The cosine of the difference to the middle decides whether a direction lies in the range. -/
theorem cos_range {min range θ : ℝ} (h0 : 0 ≤ range) (h1 : range ≤ 2 * π) : cos (range / 2) ≤ cos (θ - (min + range / 2)) ↔ ∃ k : ℤ, min ≤ θ + k * (2 * π) ∧ θ + k * (2 * π) ≤ min + range := by
  rw [← cos_le_cos_iff (by linarith) (by linarith), ← C143_distance_arccos]
  obtain ⟨⟨k, hk⟩, hl⟩ := C143_distance θ (min + range / 2)
  constructor
  · intro h
    rw [hk, abs_le] at h
    exact ⟨k, by linarith [h.1], by linarith [h.2]⟩
  · rintro ⟨j, h1, h2⟩
    refine (hl ⟨j, rfl⟩).trans ?_
    rw [abs_le]
    constructor <;> linarith

/-- Zero on the two edges, positive between them. -/
noncomputable def wedge (min range : ℝ) (p : ℝ × ℝ) : ℝ := p.1 * cos (min + range / 2) - p.2 * sin (min + range / 2) - len p * cos (range / 2)

theorem wedge_polar (min range ρ θ : ℝ) (h : 0 ≤ ρ) : wedge min range (polar ρ θ) = ρ * (cos (θ - (min + range / 2)) - cos (range / 2)) := by
  unfold wedge; rw [len_polar h, cos_sub]; unfold polar; dsimp only; ring

theorem wedge_atan2 (min range : ℝ) (p : ℝ × ℝ) : wedge min range p = len p * (cos (atan2 (-p.2) p.1 - (min + range / 2)) - cos (range / 2)) := by
  conv_lhs => rw [polar_atan2 p]
  exact wedge_polar _ _ _ _ (len_nonneg p)

theorem sectorAngle_iff {min range : ℝ} {p : ℝ × ℝ} (h0 : 0 ≤ range) : sectorAngle p.1 p.2 min range = true ↔ 2 * π ≤ range ∨ cos (range / 2) ≤ cos (atan2 (-p.2) p.1 - (min + range / 2)) := by
  unfold sectorAngle
  dsimp only
  by_cases h : range ≥ π * 2
  · rw [if_pos h]; simp only [true_iff]; left; linarith
  · rw [if_neg h, decide_eq_true_iff, show range * 0.5 = range / 2 by norm_num; ring, C143_distance_arccos, cos_le_cos_iff (by linarith) (by linarith)]
    exact ⟨Or.inr, fun h' => h'.resolve_left (by intro h2; linarith)⟩

/-- A sector described by continuous functions. -/
theorem mem_sector {inner outer min range : ℝ} (h0 : 0 ≤ inner) (hr : 0 ≤ range) (p : ℝ × ℝ) :
    p ∈ Sector inner outer min range ↔ inner ≤ len p ∧ len p ≤ outer ∧ (2 * π ≤ range ∨ 0 ≤ wedge min range p) := by
  constructor
  · rintro ⟨ρ, θ, h1, h2, h3, h4, rfl⟩
    rw [len_polar (h0.trans h1)]
    refine ⟨h1, h2, ?_⟩
    by_cases h : 2 * π ≤ range
    · exact .inl h
    · right
      rw [wedge_polar _ _ _ _ (h0.trans h1)]
      refine mul_nonneg (h0.trans h1) (sub_nonneg.2 ((cos_range hr (not_le.1 h).le).2 ⟨0, ?_⟩))
      norm_num
      exact ⟨h3, h4⟩
  · rintro ⟨h1, h2, h3⟩
    have key : ∃ θ, min ≤ θ ∧ θ ≤ min + range ∧ p = polar (len p) θ := by
      by_cases hp : len p = 0
      · refine ⟨min, le_rfl, by linarith, ?_⟩
        rw [hp]; unfold polar; rw [len_eq_zero.1 hp]; norm_num
      · have hpos : 0 < len p := lt_of_le_of_ne (len_nonneg p) (Ne.symm hp)
        have : ∃ k : ℤ, min ≤ atan2 (-p.2) p.1 + k * (2 * π) ∧ atan2 (-p.2) p.1 + k * (2 * π) ≤ min + range := by
          rcases h3 with h | h
          · obtain ⟨k, a, b⟩ := (cos_range (min := min) (range := 2 * π) (θ := atan2 (-p.2) p.1) (by positivity) le_rfl).1 (by
              rw [show 2 * π / 2 = π by ring, cos_pi]; exact neg_one_le_cos _)
            exact ⟨k, a, by linarith⟩
          · by_cases hbig : 2 * π ≤ range
            · obtain ⟨k, a, b⟩ := (cos_range (min := min) (range := 2 * π) (θ := atan2 (-p.2) p.1) (by positivity) le_rfl).1 (by
                rw [show 2 * π / 2 = π by ring, cos_pi]; exact neg_one_le_cos _)
              exact ⟨k, a, by linarith⟩
            · rw [wedge_atan2] at h
              exact (cos_range hr (not_le.1 hbig).le).1 (by
                have := (mul_nonneg_iff_of_pos_left hpos).1 h; linarith)
        obtain ⟨k, a, b⟩ := this
        exact ⟨_, a, b, by rw [polar_add]; exact polar_atan2 p⟩
    obtain ⟨θ, a, b, e⟩ := key
    exact ⟨len p, θ, h1, h2, a, b, e⟩

theorem sectorAngle_wedge {min range : ℝ} {p : ℝ × ℝ} (h0 : 0 ≤ range) (hp : p ≠ (0, 0) ∨ 2 * π ≤ range) : sectorAngle p.1 p.2 min range = true ↔ 2 * π ≤ range ∨ 0 ≤ wedge min range p := by
  rw [sectorAngle_iff h0]
  rcases hp with hp | hp
  · have hpos : 0 < len p := lt_of_le_of_ne (len_nonneg p) fun h => hp (len_eq_zero.1 h.symm)
    rw [wedge_atan2, mul_nonneg_iff_of_pos_left hpos, sub_nonneg]
  · simp [hp]

theorem sectorRadius_iff {inner outer : ℝ} {p : ℝ × ℝ} (h0 : 0 ≤ inner) (h1 : 0 ≤ outer) : sectorRadius p.1 p.2 inner outer = true ↔ inner ≤ len p ∧ len p ≤ outer := by
  unfold sectorRadius
  dsimp only
  rw [Bool.and_eq_true, decide_eq_true_iff, decide_eq_true_iff, show p.1 * p.1 + p.2 * p.2 = len p ^ 2 by rw [len_sq]; ring]
  have := len_nonneg p
  constructor
  · rintro ⟨a, b⟩; exact ⟨by nlinarith, by nlinarith⟩
  · rintro ⟨a, b⟩; exact ⟨by nlinarith, by nlinarith⟩

theorem sectorContains_iff {inner outer min range : ℝ} {p : ℝ × ℝ} (h0 : 0 ≤ inner) (h1 : 0 ≤ outer) (hr : 0 ≤ range) (hp : p ≠ (0, 0) ∨ 0 < inner ∨ 2 * π ≤ range) :
    sectorContains p.1 p.2 inner outer min range = true ↔ p ∈ Sector inner outer min range := by
  unfold sectorContains
  rw [Bool.and_eq_true, sectorRadius_iff h0 h1, mem_sector h0 hr, and_assoc]
  by_cases hz : p = (0, 0)
  · rcases hp with hp | hp | hp
    · exact absurd hz hp
    · have : len p = 0 := len_eq_zero.2 hz
      constructor <;> (rintro ⟨a, -⟩; linarith)
    · rw [sectorAngle_wedge hr (.inr hp)]
  · rw [sectorAngle_wedge hr (.inl hz)]

/-- **C175**: a point is said to be in a sector exactly if it is one of the points of the ring whose angle lies between the two edges, whatever multiples of a turn are in the angles. Missing: the centre
itself, if the sector has no inner radius, see the counterexample. -/
theorem C175_contains_partial {x y inner outer min range X Y : ℝ} (h0 : 0 ≤ inner) (h1 : 0 ≤ outer) (hr : 0 ≤ range) (hp : (X, Y) ≠ (x, y) ∨ 0 < inner ∨ 2 * π ≤ range) :
    circleSectorContainsPoint x y inner outer min range X Y = true ↔ ∃ ρ θ, inner ≤ ρ ∧ ρ ≤ outer ∧ min ≤ θ ∧ θ ≤ min + range ∧ X = x + ρ * cos θ ∧ Y = y - ρ * sin θ := by
  have hp' : ((X - x, Y - y) : ℝ × ℝ) ≠ (0, 0) ∨ 0 < inner ∨ 2 * π ≤ range := by
    rcases hp with h | h
    · left; intro e; rw [Prod.mk.injEq] at e; apply h; rw [sub_eq_zero.1 e.1, sub_eq_zero.1 e.2]
    · exact .inr h
  have := sectorContains_iff (p := (X - x, Y - y)) (min := min) h0 h1 hr hp'
  unfold circleSectorContainsPoint
  rw [this]
  constructor
  · rintro ⟨ρ, θ, a, b, c, d, e⟩
    unfold polar at e
    rw [Prod.mk.injEq] at e
    exact ⟨ρ, θ, a, b, c, d, by linarith [e.1], by linarith [e.2]⟩
  · rintro ⟨ρ, θ, a, b, c, d, e, f⟩
    refine ⟨ρ, θ, a, b, c, d, ?_⟩
    unfold polar
    rw [Prod.mk.injEq]
    exact ⟨by linarith, by linarith⟩

/-- The sector from 350 to 370 degrees contains the point to the right of the centre. -/
example : circleSectorContainsPoint 3 4 0 2 (35 * π / 18) (π / 9) 4 4 = true := by
  have hpi := pi_pos
  refine (C175_contains_partial le_rfl (by norm_num) (by positivity) (.inl (by norm_num))).2 ⟨1, 2 * π, by norm_num, by norm_num, by linarith, by linarith, ?_, ?_⟩
  · rw [cos_two_pi]; norm_num
  · rw [sin_two_pi]; norm_num

/-- **C175**: a sector is constructed with a least angle from 0 up to 2π, and has the points that its arguments describe. -/
theorem C175_constructed (x y inner outer Min range : ℝ) : 0 ≤ constructedMin Min ∧ constructedMin Min < 2 * π ∧ SectorAt x y inner outer (constructedMin Min) range = SectorAt x y inner outer Min range := by
  have hpi := pi_pos
  obtain ⟨⟨a, b⟩, ⟨k, hk⟩, -⟩ := C143_modulo Min (π * 2) (by linarith)
  refine ⟨a, by unfold constructedMin; linarith, ?_⟩
  unfold constructedMin
  generalize bssFMod Min (π * 2) = m at *
  have hk : Min = m + k * (2 * π) := by rw [hk]; ring
  ext p
  constructor
  · rintro ⟨ρ, θ, r0, r1, t0, t1, e⟩
    exact ⟨ρ, θ + k * (2 * π), r0, r1, by linarith, by linarith, by rw [polar_add]; exact e⟩
  · rintro ⟨ρ, θ, r0, r1, t0, t1, e⟩
    refine ⟨ρ, θ + (-k : ℤ) * (2 * π), r0, r1, ?_, ?_, by rw [polar_add]; exact e⟩ <;> push_cast <;> linarith

/-- C175 fails for the centre: it is a point of the sector if there is no inner radius, but is found only if the angle 0 lies in the range. -/
theorem C175_center_counterexample : circleSectorContainsPoint 0 0 0 1 (π / 2) (π / 2) 0 0 = false ∧ (0, 0) ∈ SectorAt 0 0 0 1 (π / 2) (π / 2) := by
  have hpi := pi_pos
  constructor
  · unfold circleSectorContainsPoint sectorContains
    rw [Bool.and_eq_false_iff]
    right
    rw [← Bool.not_eq_true, show (0 : ℝ) - 0 = ((0, 0) : ℝ × ℝ).1 by norm_num]
    have := sectorAngle_iff (min := π / 2) (range := π / 2) (p := (0, 0)) (by positivity)
    dsimp only at this ⊢
    rw [this]
    have e : atan2 (-0) 0 = 0 := by unfold atan2; rw [neg_zero]; exact Complex.arg_zero
    rw [e, zero_sub, cos_neg, show π / 2 / 2 = π / 4 by ring, show π / 2 + π / 4 = π - π / 4 by ring, cos_pi_sub, cos_pi_div_four]
    have : 0 < √2 := by positivity
    rintro (h | h) <;> linarith
  · exact ⟨0, π / 2, le_rfl, zero_le_one, le_rfl, by linarith, by unfold polar; norm_num⟩

/-! ## A circle -/

theorem dist_polar (ρ d θ φ X Y : ℝ) (hX : X = d * cos φ) (hY : Y = -(d * sin φ)) : ((polar ρ θ).1 - X) ^ 2 + ((polar ρ θ).2 - Y) ^ 2 = ρ ^ 2 + d ^ 2 - 2 * ρ * d * cos (φ - θ) := by
  unfold polar
  rw [cos_sub, hX, hY]
  dsimp only
  have h1 := sin_sq_add_cos_sq θ
  have h2 := sin_sq_add_cos_sq φ
  linear_combination ρ ^ 2 * h1 + d ^ 2 * h2

theorem along_polar (inner outer a t : ℝ) : along (polar inner a) (polar outer a) t = polar (inner + (outer - inner) * t) a := by
  unfold along polar; ext <;> dsimp only <;> ring

/-- The test of an edge decides whether it has a point in the circle. -/
theorem sectorEdge_iff {inner outer X Y R a : ℝ} (h : inner < outer) (hR : 0 ≤ R) :
    intersectAngleCircle inner outer X Y R a = true ↔ ∃ ρ, inner ≤ ρ ∧ ρ ≤ outer ∧ ((polar ρ a).1 - X) ^ 2 + ((polar ρ a).2 - Y) ^ 2 ≤ R ^ 2 := by
  have hne : ((cos a * inner - X, -(sin a * inner) - Y) : ℝ × ℝ) ≠ (cos a * outer - X, -(sin a * outer) - Y) := by
    intro e
    rw [Prod.mk.injEq] at e
    have e1 : cos a * (outer - inner) = 0 := by linarith [e.1]
    have e2 : sin a * (outer - inner) = 0 := by linarith [e.2]
    have hd : outer - inner ≠ 0 := by linarith
    have c0 := (mul_eq_zero.1 e1).resolve_right hd
    have s0 := (mul_eq_zero.1 e2).resolve_right hd
    have := sin_sq_add_cos_sq a
    rw [c0, s0] at this
    norm_num at this
  obtain ⟨-, -, hon, hin⟩ := C110_collide_partial _ _ _ _ R hne
  have hal : ∀ t, InDisc 0 0 R (along (cos a * inner - X, -(sin a * inner) - Y) (cos a * outer - X, -(sin a * outer) - Y) t) ↔
      ((polar (inner + (outer - inner) * t) a).1 - X) ^ 2 + ((polar (inner + (outer - inner) * t) a).2 - Y) ^ 2 ≤ R ^ 2 := by
    intro t
    unfold InDisc along polar
    dsimp only
    rw [show (cos a * inner - X + (cos a * outer - X - (cos a * inner - X)) * t - 0) = (inner + (outer - inner) * t) * cos a - X by ring,
      show (-(sin a * inner) - Y + (-(sin a * outer) - Y - (-(sin a * inner) - Y)) * t - 0) = -((inner + (outer - inner) * t) * sin a) - Y by ring]
  have hex : (∃ p ∈ segOf (cos a * inner - X, -(sin a * inner) - Y) (cos a * outer - X, -(sin a * outer) - Y), InDisc 0 0 R p) ↔
      ∃ ρ, inner ≤ ρ ∧ ρ ≤ outer ∧ ((polar ρ a).1 - X) ^ 2 + ((polar ρ a).2 - Y) ^ 2 ≤ R ^ 2 := by
    constructor
    · rintro ⟨_, ⟨t, t0, t1, rfl⟩, hp⟩
      exact ⟨_, by nlinarith, by nlinarith, (hal t).1 hp⟩
    · rintro ⟨ρ, r0, r1, hp⟩
      have hd : 0 < outer - inner := by linarith
      refine ⟨_, ⟨(ρ - inner) / (outer - inner), div_nonneg (by linarith) hd.le, (div_le_one hd).2 (by linarith), rfl⟩, (hal _).2 ?_⟩
      rw [mul_div_cancel₀ _ hd.ne', show inner + (ρ - inner) = ρ by ring]
      exact hp
  rw [← hex]
  unfold intersectAngleCircle
  dsimp only
  have hstart : InDisc 0 0 R (cos a * inner - X, -(sin a * inner) - Y) ↔ (cos a * inner - X) * (cos a * inner - X) + (-(sin a * inner) - Y) * (-(sin a * inner) - Y) ≤ R * R := by
    unfold InDisc; dsimp only; rw [sub_zero, sub_zero, pow_two, pow_two, pow_two]
  have hs0 : (cos a * inner - X, -(sin a * inner) - Y) ∈ segOf (cos a * inner - X, -(sin a * inner) - Y) (cos a * outer - X, -(sin a * outer) - Y) :=
    ⟨0, le_rfl, zero_le_one, by unfold along; ext <;> dsimp only <;> ring⟩
  by_cases hc : lineSegmentRadiusCollide (cos a * inner - X) (-(sin a * inner) - Y) (cos a * outer - X) (-(sin a * outer) - Y) R = true
  · rw [if_pos hc]
    simp only [true_iff]
    obtain ⟨p, hp, ho⟩ := hon.1 hc
    exact ⟨p, hp, le_of_eq ho⟩
  · rw [if_neg hc, decide_eq_true_iff]
    constructor
    · intro hlt
      exact ⟨_, hs0, hstart.2 hlt.le⟩
    · intro hex'
      by_contra hlt
      have hge := not_lt.1 hlt
      by_cases hi : InDisc 0 0 R (cos a * inner - X, -(sin a * inner) - Y)
      · apply hc
        refine hon.2 ⟨_, hs0, ?_⟩
        have := hstart.1 hi
        unfold OnCircle
        dsimp only
        rw [sub_zero, sub_zero, pow_two, pow_two, pow_two]
        linarith
      · exact hc ((hin (.inl hi)).2 hex')

/-- Over an interval within a turn the cosine is greatest at an end. -/
theorem cos_ends {l u c : ℝ} (h0 : 0 ≤ l) (h1 : u ≤ 2 * π) (hl : l ≤ c) (hu : c ≤ u) : cos c ≤ cos l ∨ cos c ≤ cos u := by
  rcases le_total c π with h | h
  · left; exact strictAntiOn_cos.antitoneOn ⟨h0, by linarith⟩ ⟨by linarith, h⟩ hl
  · right
    rw [← cos_two_pi_sub c, ← cos_two_pi_sub u]
    exact strictAntiOn_cos.antitoneOn ⟨by linarith, by linarith⟩ ⟨by linarith, by linarith⟩ (by linarith)

/-- A direction outside of the range is nearer to an edge than to any direction in the range. -/
theorem edge_nearer {min range φ θ : ℝ} (hr : 0 ≤ range) (h2 : range < 2 * π) (hout : ¬ cos (range / 2) ≤ cos (φ - (min + range / 2))) (a : min ≤ θ) (b : θ ≤ min + range) :
    cos (φ - θ) ≤ cos (φ - min) ∨ cos (φ - θ) ≤ cos (φ - (min + range)) := by
  obtain ⟨⟨h3, h4⟩, ⟨k, hk⟩, -⟩ := C143_signed (min + range / 2) φ
  generalize angleDistSigned (min + range / 2) φ = d at *
  have e : ∀ z, cos (φ - z) = cos (d - (z - (min + range / 2))) := by
    intro z
    rw [hk, show min + range / 2 + d + 2 * π * (k : ℝ) - z = d - (z - (min + range / 2)) + k * (2 * π) by ring, cos_add_int_mul_two_pi]
  rw [e, sub_self, sub_zero, ← cos_abs d] at hout
  have hd : range / 2 < |d| := by
    by_contra hh
    exact hout (strictAntiOn_cos.antitoneOn ⟨abs_nonneg d, by linarith⟩ ⟨by linarith, by linarith⟩ (not_lt.1 hh))
  rw [e, e min, e (min + range)]
  rcases le_total 0 d with h | h
  · rw [abs_of_nonneg h] at hd
    have := cos_ends (l := d - (min + range - (min + range / 2))) (u := d - (min - (min + range / 2))) (c := d - (θ - (min + range / 2))) (by linarith) (by linarith) (by linarith) (by linarith)
    exact this.symm
  · rw [abs_of_nonpos h] at hd
    have := cos_ends (l := -(d - (min - (min + range / 2)))) (u := -(d - (min + range - (min + range / 2)))) (c := -(d - (θ - (min + range / 2)))) (by linarith) (by linarith) (by linarith) (by linarith)
    rw [cos_neg, cos_neg, cos_neg] at this
    exact this

/-- **C176**: a sector collides with a circle exactly if they have a common point, whatever the sector and wherever the circle lies. -/
theorem C176_circle {x y inner outer min range X Y R : ℝ} (h0 : 0 ≤ inner) (h1 : inner < outer) (hr : 0 ≤ range) (hR : 0 ≤ R) :
    sectorCircleCollide x y inner outer min range X Y R = true ↔ ∃ p ∈ SectorAt x y inner outer min range, InDisc X Y R p := by
  have hshift : (∃ p ∈ SectorAt x y inner outer min range, InDisc X Y R p) ↔ ∃ p ∈ Sector inner outer min range, InDisc (X - x) (Y - y) R p := by
    constructor
    · rintro ⟨p, hp, hd⟩
      refine ⟨_, hp, ?_⟩
      unfold InDisc at hd ⊢
      dsimp only
      rw [show p.1 - x - (X - x) = p.1 - X by ring, show p.2 - y - (Y - y) = p.2 - Y by ring]
      exact hd
    · rintro ⟨p, hp, hd⟩
      refine ⟨(p.1 + x, p.2 + y), ?_, ?_⟩
      · show ((p.1 + x - x, p.2 + y - y) : ℝ × ℝ) ∈ Sector inner outer min range
        rw [add_sub_cancel_right, add_sub_cancel_right]
        exact hp
      · unfold InDisc at hd ⊢
        dsimp only
        rw [show p.1 + x - X = p.1 - (X - x) by ring, show p.2 + y - Y = p.2 - (Y - y) by ring]
        exact hd
  rw [hshift]
  unfold sectorCircleCollide
  dsimp only
  generalize X - x = X
  generalize Y - y = Y
  set φ := atan2 (-Y) X with hφ
  set d := len (X, Y) with hd
  have hd0 : 0 ≤ d := len_nonneg _
  have hC := polar_atan2 (X, Y)
  dsimp only at hC
  rw [← hφ, ← hd] at hC
  unfold polar at hC
  rw [Prod.mk.injEq] at hC
  have hD2 : X * X + Y * Y = d ^ 2 := by rw [hd, len_sq]; dsimp only; ring
  rw [hD2]
  -- distance of the centre to a point of the sector
  have near : ∀ p ∈ Sector inner outer min range, InDisc X Y R p → d ≤ R + outer ∧ inner - R ≤ d := by
    rintro _ ⟨ρ, θ, a, b, -, -, rfl⟩ hp
    unfold InDisc at hp
    rw [dist_polar ρ d θ φ X Y hC.1 hC.2] at hp
    have hc1 := cos_le_one (φ - θ)
    have hρ : 0 ≤ ρ := h0.trans a
    have hsq : (ρ - d) ^ 2 ≤ R ^ 2 := by nlinarith [mul_nonneg hρ hd0]
    have := abs_le_of_sq_le_sq' hsq hR
    constructor <;> linarith [this.1, this.2]
  -- the point of the ring nearest to the centre, if its direction is in the range
  have clamp : d ≤ R + outer → inner - R ≤ d → ∀ θ, X = d * cos θ → Y = -(d * sin θ) → min ≤ θ → θ ≤ min + range → ∃ p ∈ Sector inner outer min range, InDisc X Y R p := by
    intro c1 c2 θ eX eY t1 t2
    refine ⟨polar (max inner (Min.min d outer)) θ, ⟨_, θ, le_max_left _ _, max_le h1.le (min_le_right _ _), t1, t2, rfl⟩, ?_⟩
    unfold InDisc
    rw [dist_polar _ d θ θ X Y eX eY, sub_self, cos_zero]
    have : |max inner (Min.min d outer) - d| ≤ R := by
      rw [abs_le]
      constructor
      · rcases le_total d outer with h | h
        · rw [min_eq_left h]; have := le_max_right inner d; linarith
        · rw [min_eq_right h]; have := le_max_right inner outer; linarith
      · have : max inner (Min.min d outer) ≤ max inner d := max_le_max le_rfl (min_le_left _ _)
        rcases le_total inner d with h | h
        · rw [max_eq_right h] at this; linarith
        · rw [max_eq_left h] at this; linarith
    nlinarith [sq_abs (max inner (Min.min d outer) - d), abs_nonneg (max inner (Min.min d outer) - d)]
  by_cases c1 : d ^ 2 > (R + outer) * (R + outer)
  · rw [if_pos c1]
    simp only [Bool.false_eq_true, false_iff]
    rintro ⟨p, hp, hp2⟩
    have := (near p hp hp2).1
    nlinarith
  rw [if_neg c1]
  have k1 : d ≤ R + outer := by
    by_contra hh
    exact c1 (by nlinarith [not_le.1 hh])
  by_cases c2 : inner > 0 ∧ inner - R > 0 ∧ d ^ 2 < (inner - R) * (inner - R)
  · rw [if_pos c2]
    simp only [Bool.false_eq_true, false_iff]
    rintro ⟨p, hp, hp2⟩
    have := (near p hp hp2).2
    nlinarith
  rw [if_neg c2]
  have k2 : inner - R ≤ d := by
    by_contra hh
    push Not at hh
    exact c2 ⟨by linarith, by linarith, by nlinarith⟩
  have full : ∀ θ, (∃ k : ℤ, min ≤ θ + k * (2 * π) ∧ θ + k * (2 * π) ≤ min + range) → X = d * cos θ → Y = -(d * sin θ) → ∃ p ∈ Sector inner outer min range, InDisc X Y R p := by
    rintro θ ⟨k, a, b⟩ eX eY
    exact clamp k1 k2 (θ + k * (2 * π)) (by rw [cos_add_int_mul_two_pi]; exact eX) (by rw [sin_add_int_mul_two_pi]; exact eY) a b
  by_cases c3 : range ≥ π * 2
  · rw [if_pos c3]
    simp only [true_iff]
    obtain ⟨k, a, b⟩ := (cos_range (min := min) (range := 2 * π) (θ := φ) (by positivity) le_rfl).1 (by
      rw [show 2 * π / 2 = π by ring, cos_pi]; exact neg_one_le_cos _)
    exact full φ ⟨k, a, by linarith⟩ hC.1 hC.2
  rw [if_neg c3]
  have c3' : range < 2 * π := by linarith [not_le.1 c3]
  have hang := sectorAngle_iff (min := min) (p := (X, Y)) hr
  dsimp only at hang
  rw [← hφ] at hang
  by_cases c4 : sectorAngle X Y min range = true
  · rw [if_pos c4]
    simp only [true_iff]
    exact full φ ((cos_range hr c3'.le).1 ((hang.1 c4).resolve_left (by linarith))) hC.1 hC.2
  rw [if_neg c4]
  have hout : ¬ cos (range / 2) ≤ cos (φ - (min + range / 2)) := fun h => c4 (hang.2 (.inr h))
  have tail : (if intersectAngleCircle inner outer X Y R min = true then true else if intersectAngleCircle inner outer X Y R (min + range) = true then true else false) = true ↔
      intersectAngleCircle inner outer X Y R min = true ∨ intersectAngleCircle inner outer X Y R (min + range) = true := by
    cases intersectAngleCircle inner outer X Y R min <;> cases intersectAngleCircle inner outer X Y R (min + range) <;> simp
  rw [tail, sectorEdge_iff h1 hR, sectorEdge_iff h1 hR]
  constructor
  · rintro (⟨ρ, a, b, c⟩ | ⟨ρ, a, b, c⟩)
    · exact ⟨_, ⟨ρ, min, a, b, le_rfl, by linarith, rfl⟩, c⟩
    · exact ⟨_, ⟨ρ, min + range, a, b, by linarith, le_rfl, rfl⟩, c⟩
  · rintro ⟨_, ⟨ρ, θ, a, b, t1, t2, rfl⟩, hp⟩
    unfold InDisc at hp
    rw [dist_polar ρ d θ φ X Y hC.1 hC.2] at hp
    have hρ : 0 ≤ ρ := h0.trans a
    rcases edge_nearer hr c3' hout t1 t2 with h | h
    · left
      refine ⟨ρ, a, b, ?_⟩
      rw [dist_polar ρ d min φ X Y hC.1 hC.2]
      nlinarith [mul_nonneg hρ hd0]
    · right
      refine ⟨ρ, a, b, ?_⟩
      rw [dist_polar ρ d (min + range) φ X Y hC.1 hC.2]
      nlinarith [mul_nonneg hρ hd0]

/-- A quarter of a ring and a circle that touches one of its edges. -/
example : sectorCircleCollide 0 0 1 3 0 (π / 2) 2 1 1 = true := by
  have hpi := pi_pos
  refine (C176_circle zero_le_one (by norm_num) (by positivity) zero_le_one).2 ⟨(2, 0), ⟨2, 0, by norm_num, by norm_num, le_rfl, by linarith, ?_⟩, ?_⟩
  · unfold polar; norm_num
  · unfold InDisc; norm_num

end Verif.Geo
