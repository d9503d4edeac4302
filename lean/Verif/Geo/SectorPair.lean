import Verif.Geo.SectorLine
import Mathlib.Analysis.Real.Pi.Bounds

/-!
# Two sectors of circles (C179), `CircleSector::CircleSectorCollide` of `/repo/include/bss-util/Geometry.h`

Model and specification of the parts are in `Verif/Geo/Sector.lean` and `Verif/Geo/SectorLine.lean`.
-/

namespace Verif.Geo

open Real Verif.Num

/-! ## Code -/

/-- `_rayRayIntersect`, `Geometry.h:613-616`. -/
noncomputable def rayRayIntersect (X Y Inner Outer Angle inner outer angle : ℝ) : Bool :=
  lineRayIntersect (X + cos Angle * Inner) (Y - sin Angle * Inner) (X + cos Angle * Outer) (Y - sin Angle * Outer) inner outer angle

/-- `_intersectRayCircle`, `Geometry.h:617-623`. -/
noncomputable def intersectRayCircle (X Y R inner outer angle Min Range : ℝ) : Bool :=
  let c := cos angle
  let s := sin angle
  checkAngles (lineSegmentRadiusIntersect (c * inner - X) (-(s * inner) - Y) (c * outer - X) (-(s * outer) - Y) R) Min Range

/-- `_checkBothAngles`, `Geometry.h:654-660`; no points stand for a division by zero, which the callers exclude. -/
noncomputable def checkBothAngles (X Y : ℝ) (out : Option (List (ℝ × ℝ))) (min range Min Range : ℝ) : Bool :=
  (out.getD []).any fun p => sectorAngle p.1 p.2 min range && sectorAngle (p.1 - X) (p.2 - Y) Min Range

open Classical in
/-- `CircleSector::CircleSectorCollide`, `Geometry.h:539-606`; `eps` is the bound of `fSmall`. Consecutive tests that return true are joined. -/
noncomputable def sectorSectorCollide (eps x y inner outer min range X Y Inner Outer Min Range : ℝ) : Bool :=
  let X := X - x
  let Y := Y - y
  let D2 := X * X + Y * Y
  let tr := Outer + outer
  if D2 > tr * tr then false
  else if sectorContains (X + cos Min * Inner) (Y - sin Min * Inner) inner outer min range then true
  else if sectorContains (-X + cos min * inner) (-Y - sin min * inner) Inner Outer Min Range then true
  else if |X| ≤ eps ∧ |Y| ≤ eps then decide (inner ≤ Outer) && decide (Inner ≤ outer) && decide (min ≤ Min + Range) && decide (Min ≤ min + range)
  else if checkBothAngles X Y (circleRadiusIntersect outer X Y Outer) min range Min Range then true
  else if inner > 0 ∧ checkBothAngles X Y (circleRadiusIntersect inner X Y Outer) min range Min Range then true
  else if Inner > 0 ∧ checkBothAngles X Y (circleRadiusIntersect Inner X Y outer) min range Min Range then true
  else if inner > 0 ∧ Inner > 0 ∧ checkBothAngles X Y (circleRadiusIntersect inner X Y Inner) min range Min Range then true
  else if Range < π * 2 ∨ range < π * 2 then
    rayRayIntersect X Y Inner Outer Min inner outer min || rayRayIntersect X Y Inner Outer (Min + Range) inner outer min ||
    rayRayIntersect X Y Inner Outer Min inner outer (min + range) || rayRayIntersect X Y Inner Outer (Min + Range) inner outer (min + range) ||
    intersectRayCircle X Y Outer inner outer min Min Range || intersectRayCircle X Y Outer inner outer (min + range) Min Range ||
    intersectRayCircle (-X) (-Y) outer Inner Outer Min min range || intersectRayCircle (-X) (-Y) outer Inner Outer (Min + Range) min range ||
    (decide (Inner > 0) && (intersectRayCircle X Y Inner inner outer min Min Range || intersectRayCircle X Y Inner inner outer (min + range) Min Range)) ||
    (decide (inner > 0) && (intersectRayCircle (-X) (-Y) inner Inner Outer Min min range || intersectRayCircle (-X) (-Y) inner Inner Outer (Min + Range) min range))
  else false

/-! ## Soundness of the parts -/

variable {inner outer min range Inner Outer Min Range X Y : ℝ}

/-- What the tests have to find: a point of both sectors, relative to the centre of the first one. -/
def Meet (inner outer min range X Y Inner Outer Min Range : ℝ) : Prop := ∃ p ∈ Sector inner outer min range, p ∈ SectorAt X Y Inner Outer Min Range

theorem contains_sound {p : ℝ × ℝ} (h0 : 0 ≤ inner) (h1 : 0 ≤ outer) (hr : 0 ≤ range) (h : sectorContains p.1 p.2 inner outer min range = true) : p ∈ Sector inner outer min range := by
  by_cases hp : p = (0, 0)
  · have h2 := h
    unfold sectorContains at h2
    rw [Bool.and_eq_true, sectorRadius_iff h0 h1, len_eq_zero.2 hp] at h2
    exact ⟨0, min, h2.1.1, h2.1.2, le_rfl, by linarith, by rw [hp]; unfold polar; simp⟩
  · exact (sectorContains_iff h0 h1 hr (.inl hp)).1 h

theorem arcs_sound {r R : ℝ} (h0 : 0 ≤ inner) (H0 : 0 ≤ Inner) (hr : 0 ≤ range) (hR : 0 ≤ Range) (hne : ¬ (X = 0 ∧ Y = 0)) (r0 : 0 < r) (R0 : 0 < R) (ri : inner ≤ r) (ro : r ≤ outer) (Ri : Inner ≤ R) (Ro : R ≤ Outer)
    (h : checkBothAngles X Y (circleRadiusIntersect r X Y R) min range Min Range = true) : Meet inner outer min range X Y Inner Outer Min Range := by
  obtain ⟨l, e, hl⟩ := C109_radius_partial r X Y R r0.le R0.le fun ⟨a, b, _⟩ => hne ⟨a, b⟩
  unfold checkBothAngles at h
  rw [e, Option.getD_some, List.any_eq_true] at h
  obtain ⟨p, hp, h⟩ := h
  rw [Bool.and_eq_true] at h
  obtain ⟨c1, c2⟩ := (hl p).1 hp
  rw [onCircle_len r0.le] at c1
  have c2 : OnCircle 0 0 R (p.1 - X, p.2 - Y) := by unfold OnCircle at c2 ⊢; simpa using c2
  rw [onCircle_len R0.le] at c2
  have n1 : p ≠ (0, 0) := fun e => by have := len_eq_zero.2 e; linarith
  have n2 : ((p.1 - X, p.2 - Y) : ℝ × ℝ) ≠ (0, 0) := fun e => by have := len_eq_zero.2 e; linarith
  exact ⟨p, (mem_sector h0 hr p).2 ⟨by linarith, by linarith, (sectorAngle_wedge hr (.inl n1)).1 h.1⟩,
    (mem_sector H0 hR _).2 ⟨by linarith, by linarith, (sectorAngle_wedge (p := (p.1 - X, p.2 - Y)) hR (.inl n2)).1 h.2⟩⟩

theorem rays_sound {a A : ℝ} (h1 : inner < outer) (H1 : Inner < Outer) (ha : min ≤ a) (hb : a ≤ min + range) (hA : Min ≤ A) (hB : A ≤ Min + Range)
    (h : rayRayIntersect X Y Inner Outer A inner outer a = true) : Meet inner outer min range X Y Inner Outer Min Range := by
  obtain ⟨p, ⟨t, t0, t1, e⟩, hs⟩ := ray_sound h1 ha hb h
  refine ⟨p, hs, Inner + (Outer - Inner) * t, A, by nlinarith, by nlinarith, hA, hB, ?_⟩
  rw [e]
  unfold along polar
  ext <;> dsimp only <;> ring

theorem rayCircle_sound {R a : ℝ} (H0 : 0 ≤ Inner) (hR : 0 ≤ Range) (h1 : inner < outer) (ha : min ≤ a) (hb : a ≤ min + range) (R0 : 0 < R) (Ri : Inner ≤ R) (Ro : R ≤ Outer)
    (h : intersectRayCircle X Y R inner outer a Min Range = true) : Meet inner outer min range X Y Inner Outer Min Range := by
  obtain ⟨p, ⟨t, t0, t1, e⟩, hs⟩ := arc_sound H0 hR R0 Ri Ro h
  refine ⟨(p.1 + X, p.2 + Y), ⟨inner + (outer - inner) * t, a, by nlinarith, by nlinarith, ha, hb, ?_⟩, ?_⟩
  · rw [e]
    unfold along polar
    ext <;> dsimp only <;> ring
  · show ((p.1 + X - X, p.2 + Y - Y) : ℝ × ℝ) ∈ Sector Inner Outer Min Range
    rw [add_sub_cancel_right, add_sub_cancel_right]
    exact hs

theorem meet_swap (h : Meet Inner Outer Min Range (-X) (-Y) inner outer min range) : Meet inner outer min range X Y Inner Outer Min Range := by
  obtain ⟨p, h1, h2⟩ := h
  refine ⟨(p.1 + X, p.2 + Y), ?_, ?_⟩
  · have : ((p.1 - -X, p.2 - -Y) : ℝ × ℝ) ∈ Sector inner outer min range := h2
    rwa [sub_neg_eq_add, sub_neg_eq_add] at this
  · show ((p.1 + X - X, p.2 + Y - Y) : ℝ × ℝ) ∈ Sector Inner Outer Min Range
    rw [add_sub_cancel_right, add_sub_cancel_right]
    exact h1

/-- **C179**: two sectors that are said to collide have a common point. Missing: other sectors with an inner radius and, with centres that differ by no more than `eps`, those with different centres; and that sectors
with a common point are said to collide. Both are wrong, see the counterexamples. -/
theorem C179_sectors_partial {eps x y X Y : ℝ} (he : 0 ≤ eps) (h0 : 0 ≤ inner) (h1 : inner < outer) (hr : 0 ≤ range) (H1 : 0 < Outer) (hR : 0 ≤ Range)
    (hc : (X, Y) = (x, y) ∨ eps < |X - x| ∨ eps < |Y - y|) (h : sectorSectorCollide eps x y inner outer min range X Y 0 Outer Min Range = true) :
    ∃ p, p ∈ SectorAt x y inner outer min range ∧ p ∈ SectorAt X Y 0 Outer Min Range := by
  suffices hm : Meet inner outer min range (X - x) (Y - y) 0 Outer Min Range by
    obtain ⟨p, a, b⟩ := hm
    refine ⟨(p.1 + x, p.2 + y), ?_, ?_⟩
    · show ((p.1 + x - x, p.2 + y - y) : ℝ × ℝ) ∈ Sector inner outer min range
      rwa [add_sub_cancel_right, add_sub_cancel_right]
    · show ((p.1 + x - X, p.2 + y - Y) : ℝ × ℝ) ∈ Sector 0 Outer Min Range
      rwa [add_sub_assoc, add_sub_assoc, ← neg_sub X x, ← neg_sub Y y, ← sub_eq_add_neg, ← sub_eq_add_neg]
  unfold sectorSectorCollide at h
  dsimp only at h
  have hc' : (X - x = 0 ∧ Y - y = 0) ∨ eps < |X - x| ∨ eps < |Y - y| := by
    rcases hc with e | h
    · rw [Prod.mk.injEq] at e; exact .inl ⟨by linarith, by linarith⟩
    · exact .inr h
  generalize X - x = U at h hc' ⊢
  generalize Y - y = V at h hc' ⊢
  split_ifs at h with c0 c1 c2 c3 c4 c5 c6 c7 c8
  · refine ⟨(U + cos Min * 0, V - sin Min * 0), contains_sound (p := (_, _)) h0 (by linarith) hr c1, 0, Min, le_rfl, H1.le, le_rfl, by linarith, ?_⟩
    unfold polar; ext <;> dsimp only <;> ring
  · refine meet_swap ⟨(-U + cos min * inner, -V - sin min * inner), contains_sound (p := (_, _)) le_rfl H1.le hR c2, inner, min, le_rfl, h1.le, le_rfl, by linarith, ?_⟩
    unfold polar; ext <;> dsimp only <;> ring
  · rcases hc' with ⟨rfl, rfl⟩ | hb | hb
    · simp only [Bool.and_eq_true, decide_eq_true_eq] at h
      obtain ⟨⟨⟨a, b⟩, c⟩, d⟩ := h
      refine ⟨polar inner (max min Min), ⟨inner, _, le_rfl, h1.le, le_max_left _ _, max_le (by linarith) d, rfl⟩, ⟨inner, max min Min, h0, a, le_max_right _ _, max_le c (by linarith), ?_⟩⟩
      rw [sub_zero, sub_zero]
    · linarith [c3.1]
    · linarith [c3.2]
  all_goals
    have hne : ¬ (U = 0 ∧ V = 0) := by
      rintro ⟨rfl, rfl⟩
      exact c3 (by rw [abs_zero]; exact ⟨he, he⟩)
  · exact arcs_sound h0 le_rfl hr hR hne (by linarith) H1 h1.le le_rfl H1.le le_rfl c4
  · exact arcs_sound h0 le_rfl hr hR hne c5.1 H1 le_rfl h1.le H1.le le_rfl c5.2
  · exact absurd c6.1 (lt_irrefl _)
  · exact absurd c7.2.1 (lt_irrefl _)
  · simp only [Bool.or_eq_true, Bool.and_eq_true, decide_eq_true_eq] at h
    rcases h with ((((((((h | h) | h) | h) | h) | h) | h) | h) | h) | ⟨hi, h | h⟩
    · exact rays_sound h1 H1 le_rfl (by linarith) le_rfl (by linarith) h
    · exact rays_sound h1 H1 le_rfl (by linarith) (by linarith) le_rfl h
    · exact rays_sound h1 H1 (by linarith) le_rfl le_rfl (by linarith) h
    · exact rays_sound h1 H1 (by linarith) le_rfl (by linarith) le_rfl h
    · exact rayCircle_sound le_rfl hR h1 le_rfl (by linarith) H1 H1.le le_rfl h
    · exact rayCircle_sound le_rfl hR h1 (by linarith) le_rfl H1 H1.le le_rfl h
    · exact meet_swap (rayCircle_sound h0 hr H1 le_rfl (by linarith) (by linarith) h1.le le_rfl h)
    · exact meet_swap (rayCircle_sound h0 hr H1 (by linarith) le_rfl (by linarith) h1.le le_rfl h)
    · exact absurd h.1 (lt_irrefl _)
    · exact meet_swap (rayCircle_sound h0 hr H1 le_rfl (by linarith) hi le_rfl h1.le h)
    · exact meet_swap (rayCircle_sound h0 hr H1 (by linarith) le_rfl hi le_rfl h1.le h)

/-- The hypotheses hold for a quarter of a ring and a quarter of a disc whose centre is in it. -/
example : ∃ p, p ∈ SectorAt 0 0 1 3 0 (π / 2) ∧ p ∈ SectorAt 2 0 0 5 0 (π / 2) := by
  have hpi := pi_pos
  refine C179_sectors_partial (eps := 0) le_rfl zero_le_one (by norm_num) (by positivity) (by norm_num) (by positivity) (.inr (.inl (by norm_num))) ?_
  unfold sectorSectorCollide
  dsimp only
  rw [if_neg (by norm_num), if_pos ?_]
  rw [mul_zero, mul_zero]
  refine (sectorContains_iff (p := (2 - 0 + 0, 0 - 0 - 0)) zero_le_one (by norm_num) (by positivity) (.inl (by norm_num))).2 ⟨2, 0, by norm_num, by norm_num, le_rfl, by linarith, ?_⟩
  unfold polar; norm_num

/-! ## Counterexamples -/

theorem polar_ray {a b ρ : ℝ} (hl : 0 < len (a, -b)) : polar ρ (atan2 b a) = (ρ / len (a, -b) * a, -(ρ / len (a, -b) * b)) := by
  have h := polar_atan2 (a, -b)
  rw [neg_neg] at h
  unfold polar at h ⊢
  rw [Prod.mk.injEq] at h
  obtain ⟨h1, h2⟩ := h
  generalize len (a, -b) = l at *
  generalize atan2 b a = φ at *
  ext
  · dsimp only; rw [h1]; field_simp
  · dsimp only; have : b = l * sin φ := by linarith
    rw [this]; field_simp

theorem len_of {a b c : ℝ} (hc : 0 ≤ c) (h : a ^ 2 + b ^ 2 = c ^ 2) : len (a, b) = c := by
  unfold len; dsimp only; rw [h, sqrt_sq hc]

/-- C179 fails for other sectors with an inner radius: the radii are exchanged in one of the tests, and sectors without a common point collide. -/
theorem C179_exchanged_counterexample {eps : ℝ} (he : eps < 14) : sectorSectorCollide eps 0 0 0 15 (atan2 12 5) 0 14 0 13 14 (atan2 12 (-9)) 0 = true ∧
    ∀ p, ¬ (p ∈ SectorAt 0 0 0 15 (atan2 12 5) 0 ∧ p ∈ SectorAt 14 0 13 14 (atan2 12 (-9)) 0) := by
  have l1 : len (5, -12) = 13 := len_of (by norm_num) (by norm_num)
  have l2 : len (-9, -12) = 15 := len_of (by norm_num) (by norm_num)
  constructor
  · unfold sectorSectorCollide
    dsimp only
    rw [if_neg (by norm_num)]
    split
    · rfl
    split
    · rfl
    rw [if_neg (by rintro ⟨h, -⟩; rw [sub_zero, abs_of_pos (by norm_num)] at h; linarith)]
    split
    · rfl
    split
    · rfl
    refine if_pos ⟨by norm_num, ?_⟩
    rw [sub_zero, sub_zero]
    obtain ⟨l, e, hl⟩ := C109_radius_partial 13 14 0 15 (by norm_num) (by norm_num) (by norm_num)
    unfold checkBothAngles
    rw [e, Option.getD_some, List.any_eq_true]
    refine ⟨(5, -12), (hl _).2 ⟨by unfold OnCircle; norm_num, by unfold OnCircle; norm_num⟩, ?_⟩
    rw [Bool.and_eq_true]
    constructor
    · refine (sectorAngle_wedge (p := (5, -12)) le_rfl (.inl (by norm_num))).2 (.inr ?_)
      rw [wedge_atan2]; norm_num
    · have e2 : ((5 : ℝ) - 14, (-12 : ℝ) - 0) = (-9, -12) := by norm_num
      refine (sectorAngle_wedge (p := (5 - 14, -12 - 0)) le_rfl (.inl (by norm_num))).2 (.inr ?_)
      rw [e2, wedge_atan2]; norm_num
  · rintro p ⟨⟨ρ, θ, a, b, c, d, e⟩, ⟨σ, φ, a', b', c', d', e'⟩⟩
    have h1 : θ = atan2 12 5 := by linarith
    have h2 : φ = atan2 12 (-9) := by linarith
    subst h1 h2
    rw [polar_ray (by rw [l1]; norm_num), l1, Prod.mk.injEq] at e
    rw [polar_ray (by rw [l2]; norm_num), l2, Prod.mk.injEq] at e'
    linarith [e.1, e.2, e'.1, e'.2]

/-- C179 fails the other way round for sectors with the same centre: their angles are compared without regard to the period. -/
theorem C179_period_counterexample {eps : ℝ} (he : 0 ≤ eps) : sectorSectorCollide eps 0 0 1 3 0 1 0 0 2 3 6 1 = false ∧ ∃ p, p ∈ SectorAt 0 0 1 3 0 1 ∧ p ∈ SectorAt 0 0 2 3 6 1 := by
  have hpi := pi_gt_d6
  have hpi2 := pi_lt_d6
  constructor
  · have n1 : ¬ sectorContains (0 - 0 + cos 6 * 2) (0 - 0 - sin 6 * 2) 1 3 0 1 = true := by
      intro h
      obtain ⟨ρ, θ, a, b, c, d, e⟩ := contains_sound (p := (0 - 0 + cos 6 * 2, 0 - 0 - sin 6 * 2)) zero_le_one (by norm_num) zero_le_one h
      unfold polar at e
      rw [Prod.mk.injEq] at e
      have s1 : 0 ≤ sin θ := sin_nonneg_of_nonneg_of_le_pi c (by linarith)
      have s2 : sin 6 < 0 := by
        rw [← sin_sub_two_pi]
        exact sin_neg_of_neg_of_neg_pi_lt (by linarith) (by linarith)
      nlinarith [e.2, mul_nonneg (by linarith : 0 ≤ ρ) s1]
    have n2 : ¬ sectorContains (-(0 - 0) + cos 0 * 1) (-(0 - 0) - sin 0 * 1) 2 3 6 1 = true := by
      intro h
      unfold sectorContains at h
      rw [Bool.and_eq_true] at h
      have := (sectorRadius_iff (p := (-(0 - 0) + cos 0 * 1, -(0 - 0) - sin 0 * 1)) (by norm_num) (by norm_num)).1 h.1
      rw [len_of (c := 1) zero_le_one (by norm_num)] at this
      linarith [this.1]
    unfold sectorSectorCollide
    dsimp only
    rw [if_neg (by norm_num), if_neg n1, if_neg n2, if_pos (by rw [sub_zero, abs_zero]; exact ⟨he, he⟩)]
    norm_num
  · refine ⟨polar (5 / 2) (1 / 2), ⟨5 / 2, 1 / 2, by norm_num, by norm_num, by norm_num, by norm_num, by rw [sub_zero, sub_zero]⟩, 5 / 2, 1 / 2 + (1 : ℤ) * (2 * π), by norm_num, by norm_num, ?_, ?_, ?_⟩
    · push_cast; linarith
    · push_cast; linarith
    · rw [polar_add, sub_zero, sub_zero]

end Verif.Geo
