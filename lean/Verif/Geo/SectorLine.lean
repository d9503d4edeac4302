import Verif.Geo.Sector
import Verif.Geo.Polygon

/-!
# Sectors of circles: segments, polygons and other sectors (C177 to C179), `CircleSector` of `/repo/include/bss-util/Geometry.h`

Model and specification of the parts are in `Verif/Geo/Sector.lean`.
-/

namespace Verif.Geo

open Real Verif.Num Topology Filter

/-! ## Code -/

/-- `_checkAngles`, `Geometry.h:662-668`. -/
noncomputable def checkAngles (l : List (ℝ × ℝ)) (min range : ℝ) : Bool := l.any fun p => sectorAngle p.1 p.2 min range

/-- `_lineRayIntersect`, `Geometry.h:609-612`. -/
noncomputable def lineRayIntersect (X1 Y1 X2 Y2 inner outer angle : ℝ) : Bool :=
  segSegCollide (cos angle * inner) (-sin angle * inner) (cos angle * outer) (-sin angle * outer) X1 Y1 X2 Y2

open Classical in
/-- `_intersectLine`, `Geometry.h:636-653`. -/
noncomputable def intersectLineRel (inner outer min range X1 Y1 X2 Y2 : ℝ) : Bool :=
  if checkAngles (lineSegmentRadiusIntersect X1 Y1 X2 Y2 outer) min range then true
  else if inner > 0 ∧ checkAngles (lineSegmentRadiusIntersect X1 Y1 X2 Y2 inner) min range then true
  else if lineRayIntersect X1 Y1 X2 Y2 inner outer min then true
  else if lineRayIntersect X1 Y1 X2 Y2 inner outer (min + range) then true
  else false

/-- `CircleSector::IntersectLine`, `Geometry.h:497-506`. -/
noncomputable def sectorIntersectLine (x y inner outer min range X1 Y1 X2 Y2 : ℝ) : Bool :=
  if sectorContains (X1 - x) (Y1 - y) inner outer min range then true
  else intersectLineRel inner outer min range (X1 - x) (Y1 - y) (X2 - x) (Y2 - y)

/-- `CircleSector::IntersectPolygon`, `Geometry.h:476-495`; the loop tests the edges in the order of their ends. -/
noncomputable def sectorIntersectPolygon (x y inner outer min range : ℝ) (v : ℕ → ℝ × ℝ) (n : ℕ) : Bool :=
  let edge (a b : ℝ × ℝ) := intersectLineRel inner outer min range (a.1 - x) (a.2 - y) (b.1 - x) (b.2 - y)
  if n < 1 then false
  else if circleSectorContainsPoint x y inner outer min range (v 0).1 (v 0).2 then true
  else if n < 2 then false
  else if n < 3 then edge (v 0) (v 1)
  else if (List.range (n - 1)).any fun i => edge (v i) (v (i + 1)) then true
  else edge (v (n - 1)) (v 0)

/-! ## Soundness of the parts -/

theorem polar_eq (ρ a : ℝ) : polar ρ a = (cos a * ρ, -sin a * ρ) := by unfold polar; ext <;> dsimp only <;> ring

theorem not_collinear {x1 y1 x2 y2 X1 Y1 X2 Y2 : ℝ} (h : (X2 - X1) * (y2 - y1) - (Y2 - Y1) * (x2 - x1) ≠ 0) : ¬ Collinear x1 y1 x2 y2 X1 Y1 X2 Y2 := by
  rintro ⟨a, b, c, hab, hp⟩
  simp only [List.mem_cons, List.not_mem_nil, or_false, forall_eq_or_imp, forall_eq] at hp
  obtain ⟨p1, p2, p3, p4⟩ := hp
  have e1 : a * (x2 - x1) + b * (y2 - y1) = 0 := by linarith
  have e2 : a * (X2 - X1) + b * (Y2 - Y1) = 0 := by linarith
  rcases hab with ha | hb
  · exact h (mul_left_cancel₀ ha (by linear_combination (y2 - y1) * e2 - (Y2 - Y1) * e1))
  · exact h (mul_left_cancel₀ hb (by linear_combination (X2 - X1) * e1 - (x2 - x1) * e2))

/-- Segments that are not parallel collide exactly if they have a common point. -/
theorem collide_iff {x1 y1 x2 y2 X1 Y1 X2 Y2 : ℝ} (h : (X2 - X1) * (y2 - y1) - (Y2 - Y1) * (x2 - x1) ≠ 0) :
    segSegCollide x1 y1 x2 y2 X1 Y1 X2 Y2 = true ↔ ∃ p, p ∈ segOf (x1, y1) (x2, y2) ∧ p ∈ segOf (X1, Y1) (X2, Y2) := C112_collide_partial (not_collinear h)

theorem collide_sound {x1 y1 x2 y2 X1 Y1 X2 Y2 : ℝ} (h : segSegCollide x1 y1 x2 y2 X1 Y1 X2 Y2 = true) : ∃ p, p ∈ segOf (x1, y1) (x2, y2) ∧ p ∈ segOf (X1, Y1) (X2, Y2) := by
  by_cases hd : (X2 - X1) * (y2 - y1) - (Y2 - Y1) * (x2 - x1) = 0
  · unfold segSegCollide at h
    dsimp only at h
    rw [if_pos (.inl hd)] at h
    cases h
  · exact (collide_iff hd).1 h

theorem seg_edge {inner outer a : ℝ} (h : inner < outer) {p : ℝ × ℝ} : p ∈ segOf (cos a * inner, -sin a * inner) (cos a * outer, -sin a * outer) ↔ ∃ ρ, inner ≤ ρ ∧ ρ ≤ outer ∧ p = polar ρ a := by
  rw [← polar_eq, ← polar_eq]
  have hd : 0 < outer - inner := by linarith
  constructor
  · rintro ⟨t, t0, t1, rfl⟩
    exact ⟨_, by nlinarith, by nlinarith, along_polar _ _ _ _⟩
  · rintro ⟨ρ, r0, r1, rfl⟩
    refine ⟨(ρ - inner) / (outer - inner), div_nonneg (by linarith) hd.le, (div_le_one hd).2 (by linarith), ?_⟩
    rw [along_polar, mul_div_cancel₀ _ hd.ne', show inner + (ρ - inner) = ρ by ring]

theorem segRadius_sound {X1 Y1 X2 Y2 r : ℝ} {p : ℝ × ℝ} (h : p ∈ lineSegmentRadiusIntersect X1 Y1 X2 Y2 r) : p ∈ segOf (X1, Y1) (X2, Y2) ∧ OnCircle 0 0 r p := by
  by_cases hne : ((X1, Y1) : ℝ × ℝ) = (X2, Y2)
  · exfalso
    rw [Prod.mk.injEq] at hne
    obtain ⟨rfl, rfl⟩ := hne
    unfold lineSegmentRadiusIntersect lineRadiusParametric at h
    norm_num at h
  · exact ((C110_points_partial X1 Y1 X2 Y2 r hne).2.2 p).1 h

theorem onCircle_len {r : ℝ} (hr : 0 ≤ r) {p : ℝ × ℝ} : OnCircle 0 0 r p ↔ len p = r := by
  unfold OnCircle
  rw [sub_zero, sub_zero, ← len_sq]
  have := len_nonneg p
  constructor
  · intro h; nlinarith [sq_nonneg (len p - r), pow_left_injective₀ h]
  · intro h; rw [h]
where
  pow_left_injective₀ {a b : ℝ} (h : a ^ 2 = b ^ 2) : (a - b) * (a + b) = 0 := by linear_combination h

variable {inner outer min range : ℝ}

theorem arc_sound {X1 Y1 X2 Y2 r : ℝ} (h0 : 0 ≤ inner) (hr : 0 ≤ range) (hr0 : 0 < r) (hi : inner ≤ r) (ho : r ≤ outer) (h : checkAngles (lineSegmentRadiusIntersect X1 Y1 X2 Y2 r) min range = true) :
    ∃ p ∈ segOf (X1, Y1) (X2, Y2), p ∈ Sector inner outer min range := by
  unfold checkAngles at h
  rw [List.any_eq_true] at h
  obtain ⟨p, hp, ha⟩ := h
  obtain ⟨h1, h2⟩ := segRadius_sound hp
  rw [onCircle_len hr0.le] at h2
  have hne : p ≠ (0, 0) := fun e => by have := len_eq_zero.2 e; linarith
  refine ⟨p, h1, (mem_sector h0 hr p).2 ⟨by linarith, by linarith, ?_⟩⟩
  exact (sectorAngle_wedge hr (.inl hne)).1 ha

theorem arc_complete {X1 Y1 X2 Y2 r : ℝ} (hne : ((X1, Y1) : ℝ × ℝ) ≠ (X2, Y2)) (h0 : 0 ≤ inner) (hr : 0 ≤ range) (hr0 : 0 < r) {p : ℝ × ℝ} (hp : p ∈ segOf (X1, Y1) (X2, Y2)) (hs : p ∈ Sector inner outer min range) (hl : len p = r) :
    checkAngles (lineSegmentRadiusIntersect X1 Y1 X2 Y2 r) min range = true := by
  unfold checkAngles
  rw [List.any_eq_true]
  refine ⟨p, ((C110_points_partial X1 Y1 X2 Y2 r hne).2.2 p).2 ⟨hp, (onCircle_len hr0.le).2 hl⟩, ?_⟩
  have hne : p ≠ (0, 0) := fun e => by have := len_eq_zero.2 e; linarith
  exact (sectorAngle_wedge hr (.inl hne)).2 ((mem_sector h0 hr p).1 hs).2.2

theorem ray_sound {X1 Y1 X2 Y2 a : ℝ} (h1 : inner < outer) (ha : min ≤ a) (hb : a ≤ min + range) (h : lineRayIntersect X1 Y1 X2 Y2 inner outer a = true) : ∃ p ∈ segOf (X1, Y1) (X2, Y2), p ∈ Sector inner outer min range := by
  obtain ⟨p, hp, hq⟩ := collide_sound h
  obtain ⟨ρ, r0, r1, e⟩ := (seg_edge h1).1 hp
  exact ⟨p, hq, ρ, a, r0, r1, ha, hb, e⟩

theorem rel_iff {X1 Y1 X2 Y2 : ℝ} : intersectLineRel inner outer min range X1 Y1 X2 Y2 = true ↔ checkAngles (lineSegmentRadiusIntersect X1 Y1 X2 Y2 outer) min range = true ∨
    (inner > 0 ∧ checkAngles (lineSegmentRadiusIntersect X1 Y1 X2 Y2 inner) min range = true) ∨ lineRayIntersect X1 Y1 X2 Y2 inner outer min = true ∨ lineRayIntersect X1 Y1 X2 Y2 inner outer (min + range) = true := by
  unfold intersectLineRel
  by_cases c1 : checkAngles (lineSegmentRadiusIntersect X1 Y1 X2 Y2 outer) min range = true
  · rw [if_pos c1]; simp [c1]
  rw [if_neg c1]
  by_cases c2 : inner > 0 ∧ checkAngles (lineSegmentRadiusIntersect X1 Y1 X2 Y2 inner) min range = true
  · rw [if_pos c2]; simp only [true_iff]; exact .inr (.inl c2)
  rw [if_neg c2]
  by_cases c3 : lineRayIntersect X1 Y1 X2 Y2 inner outer min = true
  · rw [if_pos c3]; simp [c3]
  rw [if_neg c3]
  by_cases c4 : lineRayIntersect X1 Y1 X2 Y2 inner outer (min + range) = true
  · rw [if_pos c4]; simp [c4]
  rw [if_neg c4]
  simp only [Bool.false_eq_true, false_iff]
  rintro (h | h | h | h)
  exacts [c1 h, c2 h, c3 h, c4 h]

theorem rel_sound {X1 Y1 X2 Y2 : ℝ} (h0 : 0 ≤ inner) (h1 : inner < outer) (hr : 0 ≤ range) (h : intersectLineRel inner outer min range X1 Y1 X2 Y2 = true) : ∃ p ∈ segOf (X1, Y1) (X2, Y2), p ∈ Sector inner outer min range := by
  rcases rel_iff.1 h with h | ⟨hi, h⟩ | h | h
  · exact arc_sound h0 hr (by linarith) h1.le le_rfl h
  · exact arc_sound h0 hr hi le_rfl h1.le h
  · exact ray_sound h1 le_rfl (by linarith) h
  · exact ray_sound h1 (by linarith) le_rfl h

/-! ## Completeness: the first point in the sector is on its border -/

theorem continuous_len : Continuous len := by unfold len; fun_prop

theorem continuous_wedge (min range : ℝ) : Continuous (wedge min range) := by
  have := continuous_len
  unfold wedge; fun_prop

theorem continuous_along (a b : ℝ × ℝ) : Continuous (along a b) := by unfold along; fun_prop

theorem isClosed_sector (h0 : 0 ≤ inner) (hr : 0 ≤ range) : IsClosed (Sector inner outer min range) := by
  have e : Sector inner outer min range = {p | inner ≤ len p} ∩ ({p | len p ≤ outer} ∩ {p | 2 * π ≤ range ∨ 0 ≤ wedge min range p}) := by
    ext p; exact mem_sector h0 hr p
  rw [e]
  refine (isClosed_le continuous_const continuous_len).inter ((isClosed_le continuous_len continuous_const).inter ?_)
  by_cases h : 2 * π ≤ range
  · simp [h]
  · simp only [h, false_or]
    exact isClosed_le continuous_const (continuous_wedge min range)

/-- A segment that starts outside and has a point in the sector has a first one. -/
theorem first_point (h0 : 0 ≤ inner) (hr : 0 ≤ range) {a b : ℝ × ℝ} (ha : a ∉ Sector inner outer min range) (hp : ∃ p ∈ segOf a b, p ∈ Sector inner outer min range) :
    ∃ t0, 0 < t0 ∧ t0 ≤ 1 ∧ along a b t0 ∈ Sector inner outer min range ∧ ∀ t, 0 ≤ t → t < t0 → along a b t ∉ Sector inner outer min range := by
  set T := Set.Icc (0 : ℝ) 1 ∩ along a b ⁻¹' Sector inner outer min range with hT
  have hcl : IsClosed T := isClosed_Icc.inter ((isClosed_sector h0 hr).preimage (continuous_along a b))
  have hne : T.Nonempty := by
    obtain ⟨_, ⟨t, t0, t1, rfl⟩, h⟩ := hp
    exact ⟨t, ⟨t0, t1⟩, h⟩
  have hbd : BddBelow T := ⟨0, fun t ht => ht.1.1⟩
  have hm := hcl.csInf_mem hne hbd
  refine ⟨sInf T, ?_, hm.1.2, hm.2, ?_⟩
  · refine lt_of_le_of_ne hm.1.1 fun e => ha ?_
    have := hm.2
    rw [Set.mem_preimage, ← e] at this
    have e2 : along a b 0 = a := by unfold along; ext <;> dsimp only <;> ring
    rwa [e2] at this
  · intro t h1 h2 h3
    exact absurd (csInf_le hbd ⟨⟨h1, by linarith [hm.1.2]⟩, h3⟩) (not_le.2 h2)

/-- What holds near `t0` holds for a smaller number that is positive. -/
theorem before {t0 : ℝ} (h : 0 < t0) {P : ℝ → Prop} (hP : ∀ᶠ t in 𝓝 t0, P t) : ∃ t, 0 ≤ t ∧ t < t0 ∧ P t := by
  have h1 : ∀ᶠ t in 𝓝[<] t0, P t := hP.filter_mono nhdsWithin_le_nhds
  have h2 : ∀ᶠ t in 𝓝[<] t0, t < t0 := self_mem_nhdsWithin
  have h3 : ∀ᶠ t in 𝓝[<] t0, 0 < t := (lt_mem_nhds h).filter_mono nhdsWithin_le_nhds
  obtain ⟨t, ⟨a, b⟩, c⟩ := ((h1.and h2).and h3).exists
  exact ⟨t, c.le, b, a⟩

theorem edge_of_wedge (hr : 0 ≤ range) (hr2 : range < 2 * π) {p : ℝ × ℝ} (hp : p ≠ (0, 0)) (hw : wedge min range p = 0) : p = polar (len p) min ∨ p = polar (len p) (min + range) := by
  have hpos : len p ≠ 0 := fun h => hp (len_eq_zero.1 h)
  rw [wedge_atan2] at hw
  have hc := (mul_eq_zero.1 hw).resolve_left hpos
  have hc' : cos (atan2 (-p.2) p.1 - (min + range / 2)) = cos (range / 2) := by linarith
  rw [Real.cos_eq_cos_iff] at hc'
  obtain ⟨k, hk | hk⟩ := hc'
  · right
    rw [← polar_add (len p) (min + range) (-k)]
    conv_lhs => rw [polar_atan2 p]
    congr 1; push_cast; linarith
  · left
    rw [← polar_add (len p) min k]
    conv_lhs => rw [polar_atan2 p]
    congr 1; linarith

/-- A parallel segment through a point of an edge runs along the line of the edge. -/
theorem parallel {X1 Y1 X2 Y2 e ρ t0 : ℝ} (h1 : inner < outer) (hp : (X2 - X1) * (-sin e * outer - -sin e * inner) - (Y2 - Y1) * (cos e * outer - cos e * inner) = 0)
    (hB : along (X1, Y1) (X2, Y2) t0 = polar ρ e) : ∃ l : ℝ, ∀ t, along (X1, Y1) (X2, Y2) t = polar (ρ + (t - t0) * l) e := by
  have hd : outer - inner ≠ 0 := by linarith
  have hx : (X2 - X1) * sin e + (Y2 - Y1) * cos e = 0 := mul_left_cancel₀ hd (by linear_combination -hp)
  have hsc := sin_sq_add_cos_sq e
  refine ⟨(X2 - X1) * cos e - (Y2 - Y1) * sin e, fun t => ?_⟩
  unfold along polar at hB ⊢
  rw [Prod.mk.injEq] at hB ⊢
  dsimp only at hB ⊢
  constructor
  · linear_combination hB.1 + (t - t0) * (sin e * hx - (X2 - X1) * hsc)
  · linear_combination hB.2 + (t - t0) * (cos e * hx - (Y2 - Y1) * hsc)

theorem cos_lt_one {r : ℝ} (hr : 0 < r) (h2 : r < 2 * π) : cos r < 1 := by
  refine lt_of_le_of_ne (cos_le_one _) fun h => ?_
  rw [cos_eq_one_iff] at h
  obtain ⟨k, hk⟩ := h
  have hpi := pi_pos
  have k0 : (0 : ℝ) < k := by by_contra hh; nlinarith [not_lt.1 hh]
  have k1 : (k : ℝ) < 1 := by by_contra hh; nlinarith [not_lt.1 hh]
  have k0' : 0 < k := by exact_mod_cast k0
  have k1' : k < 1 := by exact_mod_cast k1
  omega

theorem rel_complete {X1 Y1 X2 Y2 : ℝ} (h0 : 0 ≤ inner) (h1 : inner < outer) (hr : 0 < range) (ha : (X1, Y1) ∉ Sector inner outer min range)
    (hp : ∃ p ∈ segOf (X1, Y1) (X2, Y2), p ∈ Sector inner outer min range) : intersectLineRel inner outer min range X1 Y1 X2 Y2 = true := by
  obtain ⟨t0, ht0, ht1, hB, hfirst⟩ := first_point h0 hr.le ha hp
  have hne : ((X1, Y1) : ℝ × ℝ) ≠ (X2, Y2) := by
    intro e
    apply ha
    have : along (X1, Y1) (X2, Y2) t0 = (X1, Y1) := by rw [← e]; unfold along; ext <;> dsimp only <;> ring
    rwa [this] at hB
  rw [rel_iff]
  have hseg : along (X1, Y1) (X2, Y2) t0 ∈ segOf (X1, Y1) (X2, Y2) := ⟨t0, ht0.le, ht1, rfl⟩
  obtain ⟨b1, b2, b3⟩ := (mem_sector h0 hr.le _).1 hB
  rcases b2.lt_or_eq with b2 | b2
  swap
  · exact .inl (arc_complete hne h0 hr.le (by linarith) hseg hB b2)
  by_cases hin : 0 < inner ∧ len (along (X1, Y1) (X2, Y2) t0) = inner
  · exact .inr (.inl ⟨hin.1, arc_complete hne h0 hr.le hin.1 hseg hB hin.2⟩)
  have clen := (continuous_len.comp (continuous_along (X1, Y1) (X2, Y2))).tendsto t0
  -- the radius stays in the ring
  have hring : ∀ᶠ t in 𝓝 t0, inner ≤ len (along (X1, Y1) (X2, Y2) t) ∧ len (along (X1, Y1) (X2, Y2) t) ≤ outer := by
    refine Eventually.and ?_ ((clen.eventually (gt_mem_nhds b2)).mono fun t ht => le_of_lt ht)
    rcases b1.lt_or_eq with b1 | b1
    · exact (clen.eventually (lt_mem_nhds b1)).mono fun t ht => le_of_lt ht
    · have : inner = 0 := by
        by_contra hh
        exact hin ⟨lt_of_le_of_ne h0 (Ne.symm hh), b1.symm⟩
      rw [this]
      exact Eventually.of_forall fun t => len_nonneg _
  by_cases hbig : 2 * π ≤ range
  · exfalso
    obtain ⟨t, s0, s1, s2⟩ := before ht0 hring
    exact hfirst t s0 s1 ((mem_sector h0 hr.le _).2 ⟨s2.1, s2.2, .inl hbig⟩)
  have hsmall : range < 2 * π := not_le.1 hbig
  have b3 := b3.resolve_left hbig
  rcases b3.lt_or_eq with b3 | b3
  · exfalso
    have cw := ((continuous_wedge min range).comp (continuous_along (X1, Y1) (X2, Y2))).tendsto t0
    obtain ⟨t, s0, s1, s2, s3⟩ := before ht0 (hring.and (cw.eventually (lt_mem_nhds b3)))
    exact hfirst t s0 s1 ((mem_sector h0 hr.le _).2 ⟨s2.1, s2.2, .inr (le_of_lt s3)⟩)
  -- on an edge
  have onEdge : ∀ e, min ≤ e → e ≤ min + range → ∀ ρ, inner < ρ → ρ < outer → along (X1, Y1) (X2, Y2) t0 = polar ρ e → lineRayIntersect X1 Y1 X2 Y2 inner outer e = true := by
    intro e e1 e2 ρ r0 r1 he
    by_cases hd : (X2 - X1) * (-sin e * outer - -sin e * inner) - (Y2 - Y1) * (cos e * outer - cos e * inner) = 0
    · exfalso
      obtain ⟨l, hl⟩ := parallel h1 hd he
      have cl : Tendsto (fun t => ρ + (t - t0) * l) (𝓝 t0) (𝓝 ρ) := by
        have : Continuous fun t => ρ + (t - t0) * l := by fun_prop
        simpa using this.tendsto t0
      obtain ⟨t, s0, s1, s2, s3⟩ := before ht0 ((cl.eventually (lt_mem_nhds r0)).and (cl.eventually (gt_mem_nhds r1)))
      exact hfirst t s0 s1 ⟨_, e, s2.le, s3.le, e1, e2, hl t⟩
    · exact (collide_iff hd).2 ⟨_, (seg_edge h1).2 ⟨ρ, r0.le, r1.le, he⟩, hseg⟩
  by_cases hz : along (X1, Y1) (X2, Y2) t0 = (0, 0)
  · have hl0 : len (along (X1, Y1) (X2, Y2) t0) = 0 := len_eq_zero.2 hz
    have hi0 : inner = 0 := by
      by_contra hh
      have := lt_of_le_of_ne h0 (Ne.symm hh)
      linarith
    subst hi0
    have hz' : ∀ e, along (X1, Y1) (X2, Y2) t0 = polar 0 e := by intro e; rw [hz]; unfold polar; norm_num
    by_cases d1 : (X2 - X1) * (-sin min * outer - -sin min * 0) - (Y2 - Y1) * (cos min * outer - cos min * 0) = 0
    swap
    · exact .inr (.inr (.inl ((collide_iff d1).2 ⟨_, (seg_edge h1).2 ⟨0, le_rfl, h1.le, hz' _⟩, hseg⟩)))
    by_cases d2 : (X2 - X1) * (-sin (min + range) * outer - -sin (min + range) * 0) - (Y2 - Y1) * (cos (min + range) * outer - cos (min + range) * 0) = 0
    swap
    · exact .inr (.inr (.inr ((collide_iff d2).2 ⟨_, (seg_edge h1).2 ⟨0, le_rfl, h1.le, hz' _⟩, hseg⟩)))
    exfalso
    obtain ⟨l, hl⟩ := parallel h1 d1 (hz' min)
    obtain ⟨l2, hl2⟩ := parallel h1 d2 (hz' (min + range))
    -- the point before, on the side of one of the edges
    have cl : Tendsto (fun t => (t - t0) * l) (𝓝 t0) (𝓝 0) := by
      have : Continuous fun t => (t - t0) * l := by fun_prop
      simpa using this.tendsto t0
    have cl2 : Tendsto (fun t => (t - t0) * l2) (𝓝 t0) (𝓝 0) := by
      have : Continuous fun t => (t - t0) * l2 := by fun_prop
      simpa using this.tendsto t0
    obtain ⟨t, s0, s1, s2, s3⟩ := before ht0 ((cl.eventually (gt_mem_nhds h1)).and (cl2.eventually (gt_mem_nhds h1)))
    have p1 := hl t
    have p2 := hl2 t
    rw [zero_add] at p1 p2
    by_cases q1 : 0 ≤ (t - t0) * l
    · exact hfirst t s0 s1 ⟨_, min, q1, s2.le, le_rfl, by linarith, p1⟩
    by_cases q2 : 0 ≤ (t - t0) * l2
    · exact hfirst t s0 s1 ⟨_, min + range, q2, s3.le, by linarith, le_rfl, p2⟩
    -- both edges point the other way, so they are the same
    push Not at q1 q2
    have e := p1.symm.trans p2
    generalize (t - t0) * l = u at *
    generalize (t - t0) * l2 = w at *
    unfold polar at e
    rw [Prod.mk.injEq] at e
    have hsq : u ^ 2 = w ^ 2 := by
      have a := polar_sq u min
      have b := polar_sq w (min + range)
      unfold polar at a b
      dsimp only at a b
      rw [e.1, e.2] at a
      linarith
    have huw : u = w := by nlinarith
    subst huw
    have hu : u ≠ 0 := q1.ne
    have ec : cos min = cos (min + range) := mul_left_cancel₀ hu e.1
    have es : sin min = sin (min + range) := mul_left_cancel₀ hu (by linarith [e.2])
    have hcr : cos range = 1 := by
      rw [show range = min + range - min by ring, cos_sub, ← ec, ← es]
      have := sin_sq_add_cos_sq min
      linarith
    have hlt := cos_lt_one hr hsmall
    linarith
  · have hlen : len (along (X1, Y1) (X2, Y2) t0) ≠ 0 := fun h => hz (len_eq_zero.1 h)
    have hgt : inner < len (along (X1, Y1) (X2, Y2) t0) := by
      rcases b1.lt_or_eq with b1 | b1
      · exact b1
      · exfalso
        exact hin ⟨lt_of_le_of_ne h0 fun h => hlen (by rw [← b1, ← h]), b1.symm⟩
    rcases edge_of_wedge hr.le hsmall hz b3.symm with h | h
    · exact .inr (.inr (.inl (onEdge min le_rfl (by linarith) _ hgt b2 h)))
    · exact .inr (.inr (.inr (onEdge (min + range) (by linarith) le_rfl _ hgt b2 h)))
/-! ## Segments -/

theorem seg_shift (x y : ℝ) (a b : ℝ × ℝ) (S : Set (ℝ × ℝ)) : (∃ p ∈ segOf (a.1 - x, a.2 - y) (b.1 - x, b.2 - y), p ∈ S) ↔ ∃ p ∈ segOf a b, ((p.1 - x, p.2 - y) : ℝ × ℝ) ∈ S := by
  have e : ∀ t, along (a.1 - x, a.2 - y) (b.1 - x, b.2 - y) t = ((along a b t).1 - x, (along a b t).2 - y) := by
    intro t; unfold along; ext <;> dsimp only <;> ring
  constructor
  · rintro ⟨_, ⟨t, t0, t1, rfl⟩, h⟩
    exact ⟨_, ⟨t, t0, t1, rfl⟩, e t ▸ h⟩
  · rintro ⟨_, ⟨t, t0, t1, rfl⟩, h⟩
    exact ⟨_, ⟨t, t0, t1, rfl⟩, (e t).symm ▸ h⟩

theorem start_mem (a b : ℝ × ℝ) : a ∈ segOf a b := ⟨0, le_rfl, zero_le_one, by unfold along; ext <;> dsimp only <;> ring⟩

theorem end_mem (a b : ℝ × ℝ) : b ∈ segOf a b := ⟨1, zero_le_one, le_rfl, by unfold along; ext <;> dsimp only <;> ring⟩

/-- The function for segments that start elsewhere, in the coordinates of the caller. -/
theorem rel_iff_at {x y : ℝ} (h0 : 0 ≤ inner) (h1 : inner < outer) (hr : 0 < range) {a b : ℝ × ℝ} (ha : a ∉ SectorAt x y inner outer min range) :
    intersectLineRel inner outer min range (a.1 - x) (a.2 - y) (b.1 - x) (b.2 - y) = true ↔ ∃ p ∈ segOf a b, p ∈ SectorAt x y inner outer min range := by
  have hs := seg_shift x y a b (Sector inner outer min range)
  constructor
  · intro h; exact hs.1 (rel_sound h0 h1 hr.le h)
  · intro h; exact rel_complete h0 h1 hr ha (hs.2 h)

theorem contains_iff_at {x y : ℝ} (h0 : 0 ≤ inner) (h1 : inner < outer) (hr : 0 < range) {a : ℝ × ℝ} (hc : a ≠ (x, y) ∨ 0 < inner ∨ 2 * π ≤ range) :
    sectorContains (a.1 - x) (a.2 - y) inner outer min range = true ↔ a ∈ SectorAt x y inner outer min range := by
  refine sectorContains_iff (p := (a.1 - x, a.2 - y)) h0 (by linarith) hr.le ?_
  rcases hc with h | h
  · left; intro e; rw [Prod.mk.injEq] at e; apply h; ext
    · exact sub_eq_zero.1 e.1
    · exact sub_eq_zero.1 e.2
  · exact .inr h

/-- **C177**: a segment is said to intersect a sector exactly if they have a common point. Missing: segments that start in the centre of a sector without inner radius, see the counterexample, and sectors with an
empty range of angles. -/
theorem C177_segment_partial {x y X1 Y1 X2 Y2 : ℝ} (h0 : 0 ≤ inner) (h1 : inner < outer) (hr : 0 < range) (hc : (X1, Y1) ≠ (x, y) ∨ 0 < inner ∨ 2 * π ≤ range) :
    sectorIntersectLine x y inner outer min range X1 Y1 X2 Y2 = true ↔ ∃ p ∈ segOf (X1, Y1) (X2, Y2), p ∈ SectorAt x y inner outer min range := by
  have hcon := contains_iff_at (min := min) h0 h1 hr hc
  unfold sectorIntersectLine
  by_cases hs : (X1, Y1) ∈ SectorAt x y inner outer min range
  · rw [if_pos (hcon.2 hs)]
    simp only [true_iff]
    exact ⟨_, start_mem _ _, hs⟩
  · rw [if_neg (fun h => hs (hcon.1 h))]
    exact rel_iff_at (b := (X2, Y2)) h0 h1 hr hs

/-- A segment that crosses a half ring from outside to the hole. -/
example : sectorIntersectLine 0 0 1 2 0 π 0 (-3) 0 0 = true := by
  have hpi := pi_pos
  refine (C177_segment_partial zero_le_one (by norm_num) hpi (.inr (.inl zero_lt_one))).2 ⟨(0, -(3 / 2)), ⟨1 / 2, by norm_num, by norm_num, by unfold along; norm_num⟩, 3 / 2, π / 2, by norm_num, by norm_num, by linarith, by linarith, ?_⟩
  unfold polar; rw [cos_pi_div_two, sin_pi_div_two]; norm_num

/-- C177 fails for a segment that starts in the centre of a half disc and runs along its edge. -/
theorem C177_center_counterexample : sectorIntersectLine 0 0 0 1 (π / 2) π 0 0 0 (-(1 / 2)) = false ∧ ∀ p ∈ segOf (0, 0) (0, -(1 / 2)), p ∈ SectorAt 0 0 0 1 (π / 2) π := by
  have hpi := pi_pos
  have hsin : sin (π / 2 + π) = -1 := by rw [sin_add_pi, sin_pi_div_two]
  have hcos : cos (π / 2 + π) = 0 := by rw [cos_add_pi, cos_pi_div_two, neg_zero]
  constructor
  · rw [← Bool.not_eq_true]
    unfold sectorIntersectLine
    have hn : ¬ sectorContains (0 - 0) (0 - 0) 0 1 (π / 2) π = true := by
      unfold sectorContains
      rw [Bool.and_eq_true]
      rintro ⟨-, h⟩
      have := sectorAngle_iff (min := π / 2) (range := π) (p := (0, 0)) hpi.le
      dsimp only at this
      rw [sub_zero, this] at h
      have e : atan2 (-0) 0 = 0 := by unfold atan2; rw [neg_zero]; exact Complex.arg_zero
      rw [e, zero_sub, cos_neg, show π / 2 + π / 2 = π by ring, cos_pi, cos_pi_div_two] at h
      rcases h with h | h <;> linarith
    rw [if_neg hn, rel_iff]
    rintro (h | ⟨h, -⟩ | h | h)
    · unfold checkAngles at h
      rw [List.any_eq_true] at h
      obtain ⟨p, hp, -⟩ := h
      obtain ⟨⟨t, t0, t1, rfl⟩, h2⟩ := segRadius_sound hp
      unfold OnCircle along at h2
      dsimp only at h2
      nlinarith
    · exact lt_irrefl _ h
    · unfold lineRayIntersect segSegCollide at h
      dsimp only at h
      rw [if_pos (.inl (by rw [cos_pi_div_two]; ring))] at h
      cases h
    · unfold lineRayIntersect segSegCollide at h
      dsimp only at h
      rw [if_pos (.inl (by rw [hcos]; ring))] at h
      cases h
  · rintro _ ⟨t, t0, t1, rfl⟩
    refine ⟨t / 2, π / 2, by linarith, by linarith, le_rfl, by linarith, ?_⟩
    unfold along polar
    rw [cos_pi_div_two, sin_pi_div_two]
    ext <;> dsimp only <;> ring

/-! ## Polygons -/

theorem segOf_symm {a b p : ℝ × ℝ} (h : p ∈ segOf a b) : p ∈ segOf b a := by
  obtain ⟨t, t0, t1, rfl⟩ := h
  exact ⟨1 - t, by linarith, by linarith, by unfold along; ext <;> dsimp only <;> ring⟩

/-- **C178**: a polygon is said to intersect a sector exactly if its border has a point in the sector, for any number of vertices. Missing: the first vertex in the centre of a sector without inner radius. -/
theorem C178_polygon_partial {x y : ℝ} (v : ℕ → ℝ × ℝ) (n : ℕ) (h0 : 0 ≤ inner) (h1 : inner < outer) (hr : 0 < range) (hc : v 0 ≠ (x, y) ∨ 0 < inner ∨ 2 * π ≤ range) :
    sectorIntersectPolygon x y inner outer min range v n = true ↔ ∃ i < n, ∃ p ∈ segOf (v i) (v ((i + 1) % n)), p ∈ SectorAt x y inner outer min range := by
  have hcon := contains_iff_at (min := min) h0 h1 hr hc
  unfold sectorIntersectPolygon circleSectorContainsPoint
  dsimp only
  by_cases n1 : n < 1
  · rw [if_pos n1]
    simp only [Bool.false_eq_true, false_iff]
    rintro ⟨i, hi, -⟩
    omega
  rw [if_neg n1]
  by_cases hs : v 0 ∈ SectorAt x y inner outer min range
  · rw [if_pos (hcon.2 hs)]
    simp only [true_iff]
    exact ⟨0, by omega, _, start_mem _ _, hs⟩
  rw [if_neg (fun h => hs (hcon.1 h))]
  by_cases n2 : n < 2
  · rw [if_pos n2]
    simp only [Bool.false_eq_true, false_iff]
    have : n = 1 := by omega
    subst this
    rintro ⟨i, hi, p, ⟨t, -, -, rfl⟩, hp⟩
    have : i = 0 := by omega
    subst this
    have e : along (v 0) (v ((0 + 1) % 1)) t = v 0 := by unfold along; ext <;> simp
    rw [e] at hp
    exact hs hp
  rw [if_neg n2]
  by_cases n3 : n < 3
  · rw [if_pos n3, rel_iff_at h0 h1 hr hs]
    have : n = 2 := by omega
    subst this
    constructor
    · rintro ⟨p, hp, hq⟩
      exact ⟨0, by omega, p, hp, hq⟩
    · rintro ⟨i, hi, p, hp, hq⟩
      have : i = 0 ∨ i = 1 := by omega
      rcases this with rfl | rfl
      · exact ⟨p, hp, hq⟩
      · exact ⟨p, segOf_symm hp, hq⟩
  rw [if_neg n3]
  have tail : (if ((List.range (n - 1)).any fun i => intersectLineRel inner outer min range ((v i).1 - x) ((v i).2 - y) ((v (i + 1)).1 - x) ((v (i + 1)).2 - y)) = true then true
      else intersectLineRel inner outer min range ((v (n - 1)).1 - x) ((v (n - 1)).2 - y) ((v 0).1 - x) ((v 0).2 - y)) = true ↔
      ∃ i < n, intersectLineRel inner outer min range ((v i).1 - x) ((v i).2 - y) ((v ((i + 1) % n)).1 - x) ((v ((i + 1) % n)).2 - y) = true := by
    constructor
    · intro h
      split at h
      · next ha =>
        rw [List.any_eq_true] at ha
        obtain ⟨i, hi, h2⟩ := ha
        rw [List.mem_range] at hi
        exact ⟨i, by omega, by rw [Nat.mod_eq_of_lt (by omega)]; exact h2⟩
      · exact ⟨n - 1, by omega, by rw [show n - 1 + 1 = n by omega, Nat.mod_self]; exact h⟩
    · rintro ⟨i, hi, h2⟩
      by_cases hl : i = n - 1
      · subst hl
        rw [show n - 1 + 1 = n by omega, Nat.mod_self] at h2
        rw [h2]
        exact ite_self _
      · rw [Nat.mod_eq_of_lt (by omega)] at h2
        rw [if_pos (List.any_eq_true.2 ⟨i, List.mem_range.2 (by omega), h2⟩)]
  rw [tail]
  constructor
  · rintro ⟨i, hi, h⟩
    exact ⟨i, hi, (seg_shift x y _ _ _).1 (rel_sound h0 h1 hr.le h)⟩
  · intro hex
    classical
    set i := Nat.find hex with hi
    obtain ⟨a, b⟩ := Nat.find_spec hex
    rw [← hi] at a b
    refine ⟨i, a, (rel_iff_at h0 h1 hr ?_).2 b⟩
    intro hin
    by_cases hz : i = 0
    · rw [hz] at hin; exact hs hin
    · refine Nat.find_min hex (m := i - 1) (by omega) ⟨by omega, v i, ?_, hin⟩
      rw [show i - 1 + 1 = i by omega, Nat.mod_eq_of_lt a]
      exact end_mem _ _

/-- A triangle with a corner in a quarter of a disc. -/
example : sectorIntersectPolygon 0 0 0 2 0 (π / 2) (tri (5, 5) (1, 0) (5, 0)) 3 = true := by
  have hpi := pi_pos
  refine (C178_polygon_partial _ 3 le_rfl (by norm_num) (by positivity) (.inl (by unfold tri; norm_num))).2 ⟨0, by norm_num, (1, 0), end_mem _ _, 1, 0, by norm_num, by norm_num, le_rfl, by linarith, ?_⟩
  unfold polar; norm_num

/-- C178 fails if the polygon is understood with its interior: one that has the sector within it does not intersect it. -/
theorem C178_inside_counterexample : sectorIntersectPolygon 0 0 0 1 0 (π / 2) (tri (-9, -9) (9, -9) (0, 9)) 3 = false ∧ ∀ p ∈ SectorAt 0 0 0 1 0 (π / 2), InsideTriangle (-9, -9) (9, -9) (0, 9) p := by
  have hpi := pi_pos
  have hbox : ∀ p ∈ SectorAt 0 0 0 1 0 (π / 2), p.1 ^ 2 + p.2 ^ 2 ≤ 1 := by
    rintro p ⟨ρ, θ, a, b, -, -, e⟩
    have := polar_sq ρ θ
    rw [← e] at this
    dsimp only at this
    nlinarith
  constructor
  · rw [← Bool.not_eq_true, C178_polygon_partial _ 3 le_rfl zero_lt_one (by positivity) (.inl (by unfold tri; norm_num))]
    rintro ⟨i, hi, p, ⟨t, t0, t1, rfl⟩, hp⟩
    have h1 := hbox _ hp
    have : i = 0 ∨ i = 1 ∨ i = 2 := by omega
    rcases this with rfl | rfl | rfl <;> (unfold along tri at h1; norm_num at h1; nlinarith [sq_nonneg (t - 1 / 2), sq_nonneg (5 * t - 2), sq_nonneg (5 * t - 3)])
  · intro p hp
    have h1 := hbox p hp
    have b1 : -1 ≤ p.1 := by nlinarith
    have b2 : p.1 ≤ 1 := by nlinarith
    have b3 : -1 ≤ p.2 := by nlinarith
    have b4 : p.2 ≤ 1 := by nlinarith
    refine ⟨by norm_num, (9 - p.2 - p.1 * 2) / 36, (9 - p.2 + p.1 * 2) / 36, (9 + p.2) / 18, by linarith, by linarith, by linarith, by ring, ?_⟩
    ext <;> dsimp only <;> ring

end Verif.Geo
