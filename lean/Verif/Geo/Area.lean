import Verif.Geo.Polygon
import Mathlib.Algebra.BigOperators.Intervals
import Mathlib.Algebra.BigOperators.Ring.Finset

/-!
# Area, centroid and convexity of polygons (C116)
-/

namespace Verif.Geo

/-! ## Code -/

/-- `Triangle::Area`, `Geometry.h:388`, with `Cross`, `vector.h:645` and `:652`. -/
noncomputable def triangleArea (a b c : ℝ × ℝ) : ℝ := ((b.1 - a.1) * (c.2 - a.2) - (c.1 - a.1) * (b.2 - a.2)) / 2

/-- `PolygonArea`, `Collision.h:629-638`. -/
noncomputable def polygonArea (v : ℕ → ℝ × ℝ) (n : ℕ) : ℝ :=
  (List.range n).foldl (fun area i => area + ((v (prev n i)).1 * (v i).2 - (v i).1 * (v (prev n i)).2)) 0 / 2

/-- `PolygonCentroid`, `Collision.h:641-652`. The sum is started with a vector whose default constructor (`vector.h:636`) sets nothing: `junk` is what is there. `none` is a division by zero. -/
noncomputable def polygonCentroid (junk : ℝ × ℝ) (v : ℕ → ℝ × ℝ) (n : ℕ) : Option (ℝ × ℝ) :=
  let c := (List.range n).foldl (fun (c : ℝ × ℝ) i =>
    (c.1 + ((v (prev n i)).1 + (v i).1) * ((v (prev n i)).1 * (v i).2 - (v i).1 * (v (prev n i)).2),
     c.2 + ((v (prev n i)).2 + (v i).2) * ((v (prev n i)).1 * (v i).2 - (v i).1 * (v (prev n i)).2))) junk
  open Classical in if polygonArea v n * 6 = 0 then none else some (c.1 / (polygonArea v n * 6), c.2 / (polygonArea v n * 6))

/-- `Polygon::CenterPolygon`, `Geometry.h:706-711`. -/
noncomputable def centerPolygon (junk : ℝ × ℝ) (v : ℕ → ℝ × ℝ) (n : ℕ) : Option (ℕ → ℝ × ℝ) :=
  (polygonCentroid junk v n).map fun c i => ((v i).1 - c.1, (v i).2 - c.2)

/-- The value `z` in `PolygonIsConvex`, `Collision.h:605`. -/
def turn (v : ℕ → ℝ × ℝ) (n i : ℕ) : ℝ :=
  ((v i).1 - (v (prev n i)).1) * ((v ((i + 1) % n)).2 - (v i).2) - ((v i).2 - (v (prev n i)).2) * ((v ((i + 1) % n)).1 - (v i).1)

open Classical in
/-- `PolygonIsConvex`, `Collision.h:595-609`: the two bits of the flag. -/
noncomputable def polygonIsConvex (v : ℕ → ℝ × ℝ) (n : ℕ) : Bool :=
  let flag := (List.range n).foldl (fun (f : Bool × Bool) i => (f.1 || decide (turn v n i < 0), f.2 || decide (turn v n i > 0))) (false, false)
  !(flag.1 && flag.2)

/-- The expression for the side of a point in `ConvexPolygonContainsPoint`, `Collision.h:617` and `:621`, for the vertices numbered 0 and 1 in its comment. -/
def sideOf (p a b : ℝ × ℝ) : ℝ := (p.2 - a.2) * (b.1 - a.1) - (p.1 - a.1) * (b.2 - a.2)

open Classical in
/-- `ConvexPolygonContainsPoint`, `Collision.h:612-626`, without the assertion. -/
noncomputable def convexPolygonContainsPoint (p : ℝ × ℝ) (v : ℕ → ℝ × ℝ) (n : ℕ) : Bool :=
  let last := sideOf p (v 0) (v (n - 1))
  (List.range (n - 1)).all fun i =>
    let cur := sideOf p (v i) (v (i + 1))
    !((decide (cur < 0) && decide (last > 0)) || (decide (cur > 0) && decide (last < 0)))

/-! ## Specification -/

/-- The mean of three points. -/
noncomputable def mean3 (a b c : ℝ × ℝ) : ℝ × ℝ := ((a.1 + b.1 + c.1) / 3, (a.2 + b.2 + c.2) / 3)

/-! ## Areas -/

theorem foldl_sum (f : ℕ → ℝ) (n : ℕ) (a : ℝ) : (List.range n).foldl (fun s i => s + f i) a = a + ∑ i ∈ Finset.range n, f i := by
  induction n with
  | zero => simp
  | succ n ih => rw [List.range_succ, List.foldl_append, ih, Finset.sum_range_succ]; simp [add_assoc]

/-- A sum over the edges of a polygon, as a sum over the fan of triangles from the first vertex, for a function of two vertices that changes its sign with their order. -/
theorem edges_fan (g : ℝ × ℝ → ℝ × ℝ → ℝ) (hg : ∀ a b, g a b = -g b a) (v : ℕ → ℝ × ℝ) (n : ℕ) :
    ∑ i ∈ Finset.range (n + 2), g (v (prev (n + 2) i)) (v i) = ∑ i ∈ Finset.range n, (g (v 0) (v (i + 1)) + g (v (i + 1)) (v (i + 2)) + g (v (i + 2)) (v 0)) := by
  have h : ∀ m, ∑ i ∈ Finset.range (m + 1), g (v (prev (m + 1) i)) (v i) = g (v m) (v 0) + ∑ i ∈ Finset.range m, g (v i) (v (i + 1)) := by
    intro m
    rw [Finset.sum_range_succ', add_comm]
    congr 1
  rw [h]
  induction n with
  | zero =>
    simp only [zero_add, Finset.sum_range_one, Finset.sum_range_zero]
    rw [hg (v 1)]
    ring
  | succ n ih =>
    rw [Finset.sum_range_succ, Finset.sum_range_succ (fun i => g (v 0) (v (i + 1)) + g (v (i + 1)) (v (i + 2)) + g (v (i + 2)) (v 0)), ← ih]
    have := hg (v (n + 1)) (v 0)
    linarith

/-- The sum over the edges does not change if a function is added whose values cancel around the polygon. -/
theorem edges_cancel (g : ℝ × ℝ → ℝ) (v : ℕ → ℝ × ℝ) (n : ℕ) : ∑ i ∈ Finset.range n, (g (v i) - g (v (prev n i))) = 0 := by
  rcases n with _ | n
  · simp
  · rw [Finset.sum_range_succ']
    have : ∀ m, ∑ i ∈ Finset.range m, (g (v (i + 1)) - g (v (prev (n + 1) (i + 1)))) = g (v m) - g (v 0) := by
      intro m
      induction m with
      | zero => simp
      | succ m ih =>
        rw [Finset.sum_range_succ, ih]
        simp only [prev, Nat.add_eq_zero_iff, one_ne_zero, and_false, if_false, Nat.add_sub_cancel]
        ring
    rw [this]
    simp [prev]

theorem area_eq (v : ℕ → ℝ × ℝ) (n : ℕ) : polygonArea v n = (∑ i ∈ Finset.range n, ((v (prev n i)).1 * (v i).2 - (v i).1 * (v (prev n i)).2)) / 2 := by
  rw [polygonArea, foldl_sum, zero_add]

/-- **C116**: the area of any polygon is the sum of the signed areas of the triangles between its edges and an arbitrary point, and of the triangles of the fan from its first vertex.
It does not depend on the position and is negated if the order of the vertices is reversed; a strictly convex polygon has a positive area counterclockwise. -/
theorem C116_area (v : ℕ → ℝ × ℝ) (n : ℕ) :
    (∀ o, polygonArea v n = ∑ i ∈ Finset.range n, triangleArea o (v (prev n i)) (v i)) ∧
    (∀ m, n = m + 2 → polygonArea v n = ∑ i ∈ Finset.range m, triangleArea (v 0) (v (i + 1)) (v (i + 2))) ∧
    (∀ d : ℝ × ℝ, polygonArea (fun i => ((v i).1 + d.1, (v i).2 + d.2)) n = polygonArea v n) ∧
    (∀ m, n = m + 2 → polygonArea (fun i => v (n - 1 - i)) n = -polygonArea v n) ∧
    (Convex' v n → 0 < polygonArea v n) := by
  have h1 : ∀ o, polygonArea v n = ∑ i ∈ Finset.range n, triangleArea o (v (prev n i)) (v i) := by
    intro o
    have c1 := edges_cancel (fun a => o.1 * a.2 - a.1 * o.2) v n
    rw [area_eq, ← sub_eq_zero, div_eq_mul_inv, Finset.sum_mul, ← Finset.sum_sub_distrib]
    have : ∑ i ∈ Finset.range n, (((v (prev n i)).1 * (v i).2 - (v i).1 * (v (prev n i)).2) * 2⁻¹ - triangleArea o (v (prev n i)) (v i)) =
        (∑ i ∈ Finset.range n, ((o.1 * (v i).2 - (v i).1 * o.2) - (o.1 * (v (prev n i)).2 - (v (prev n i)).1 * o.2))) * 2⁻¹ := by
      rw [Finset.sum_mul]
      apply Finset.sum_congr rfl
      intro i _
      unfold triangleArea
      ring
    rw [this, c1, zero_mul]
  have h2 : ∀ w : ℕ → ℝ × ℝ, ∀ m, n = m + 2 → polygonArea w n = ∑ i ∈ Finset.range m, triangleArea (w 0) (w (i + 1)) (w (i + 2)) := by
    rintro w m rfl
    rw [area_eq, edges_fan (fun a b => a.1 * b.2 - b.1 * a.2) (fun a b => by ring), div_eq_mul_inv, Finset.sum_mul]
    apply Finset.sum_congr rfl
    intro i _
    unfold triangleArea
    ring
  refine ⟨h1, h2 v, ?_, ?_, ?_⟩
  · intro d
    have c1 := edges_cancel (fun a => d.1 * a.2 - a.1 * d.2) v n
    rw [area_eq, area_eq, ← sub_eq_zero, ← sub_div, ← Finset.sum_sub_distrib]
    rw [div_eq_zero_iff]
    left
    rw [← c1]
    apply Finset.sum_congr rfl
    intro i _
    dsimp only
    ring
  · rintro m rfl
    have h : ∀ (w : ℕ → ℝ × ℝ) k, ∑ i ∈ Finset.range (k + 1), ((w (prev (k + 1) i)).1 * (w i).2 - (w i).1 * (w (prev (k + 1) i)).2) =
        ((w k).1 * (w 0).2 - (w 0).1 * (w k).2) + ∑ i ∈ Finset.range k, ((w i).1 * (w (i + 1)).2 - (w (i + 1)).1 * (w i).2) := by
      intro w k
      rw [Finset.sum_range_succ', add_comm]
      congr 1
    rw [area_eq, area_eq, h (fun i => v (m + 2 - 1 - i)), h v, ← neg_div, ← Finset.sum_range_reflect (fun i => (v i).1 * (v (i + 1)).2 - (v (i + 1)).1 * (v i).2)]
    congr 1
    rw [neg_add, ← Finset.sum_neg_distrib]
    congr 1
    · simp only [show m + 2 - 1 - 0 = m + 1 by omega, show m + 2 - 1 - (m + 1) = 0 by omega]
      ring
    · apply Finset.sum_congr rfl
      intro i hi
      rw [Finset.mem_range] at hi
      simp only [show m + 2 - 1 - i = m + 1 - 1 - i + 1 by omega, show m + 2 - 1 - (i + 1) = m + 1 - 1 - i by omega]
      ring
  · rintro ⟨hn, hc⟩
    obtain ⟨m, rfl⟩ : ∃ m, n = m + 2 := ⟨n - 2, by omega⟩
    rw [h2 v m rfl]
    apply Finset.sum_pos
    · intro i hi
      rw [Finset.mem_range] at hi
      have := hc (i + 1) (by omega) 0 (by omega) (by omega) (by rw [Nat.mod_eq_of_lt (by omega)]; omega)
      rw [Nat.mod_eq_of_lt (by omega)] at this
      unfold side at this
      unfold triangleArea
      linarith
    · exact ⟨0, by simp; omega⟩

/-! ## The centroid -/

theorem foldl_sum2 (f g : ℕ → ℝ) (n : ℕ) (a : ℝ × ℝ) :
    (List.range n).foldl (fun (s : ℝ × ℝ) i => (s.1 + f i, s.2 + g i)) a = (a.1 + ∑ i ∈ Finset.range n, f i, a.2 + ∑ i ∈ Finset.range n, g i) := by
  induction n with
  | zero => simp
  | succ n ih => rw [List.range_succ, List.foldl_append, ih, Finset.sum_range_succ, Finset.sum_range_succ]; simp [add_assoc]

/-- **C116**, if the memory of the sum happens to be zero: the centroid of a polygon whose area is not zero is the mean of the centroids of the triangles of the fan from its first vertex,
weighted with their signed areas. -/
theorem C116_centroid_partial (v : ℕ → ℝ × ℝ) (m : ℕ) (h : polygonArea v (m + 2) ≠ 0) : ∃ c, polygonCentroid (0, 0) v (m + 2) = some c ∧
    polygonArea v (m + 2) * c.1 = ∑ i ∈ Finset.range m, triangleArea (v 0) (v (i + 1)) (v (i + 2)) * (mean3 (v 0) (v (i + 1)) (v (i + 2))).1 ∧
    polygonArea v (m + 2) * c.2 = ∑ i ∈ Finset.range m, triangleArea (v 0) (v (i + 1)) (v (i + 2)) * (mean3 (v 0) (v (i + 1)) (v (i + 2))).2 := by
  have h6 : polygonArea v (m + 2) * 6 ≠ 0 := mul_ne_zero h (by norm_num)
  unfold polygonCentroid
  dsimp only
  rw [if_neg h6, foldl_sum2]
  refine ⟨_, rfl, ?_, ?_⟩
  · dsimp only
    rw [zero_add, edges_fan (fun a b => (a.1 + b.1) * (a.1 * b.2 - b.1 * a.2)) (fun a b => by ring)]
    rw [mul_comm, ← div_div, div_right_comm, div_mul_cancel₀ _ h, div_eq_mul_inv, Finset.sum_mul]
    apply Finset.sum_congr rfl
    intro i _
    unfold triangleArea mean3
    ring
  · dsimp only
    rw [zero_add, edges_fan (fun a b => (a.2 + b.2) * (a.1 * b.2 - b.1 * a.2)) (fun a b => by ring)]
    rw [mul_comm, ← div_div, div_right_comm, div_mul_cancel₀ _ h, div_eq_mul_inv, Finset.sum_mul]
    apply Finset.sum_congr rfl
    intro i _
    unfold triangleArea mean3
    ring

/-- **C116**, under the same condition: after `CenterPolygon` the centroid is the origin. -/
theorem C116_center_partial (v : ℕ → ℝ × ℝ) (m : ℕ) (h : polygonArea v (m + 2) ≠ 0) : ∃ w, centerPolygon (0, 0) v (m + 2) = some w ∧ polygonCentroid (0, 0) w (m + 2) = some (0, 0) ∧
    polygonArea w (m + 2) = polygonArea v (m + 2) ∧ ∃ d : ℝ × ℝ, ∀ i, w i = ((v i).1 + d.1, (v i).2 + d.2) := by
  obtain ⟨c, hc, h1, h2⟩ := C116_centroid_partial v m h
  refine ⟨fun i => ((v i).1 - c.1, (v i).2 - c.2), by rw [centerPolygon, hc]; rfl, ?_, ?_, (-c.1, -c.2), fun i => by simp [sub_eq_add_neg]⟩
  · have ha : polygonArea (fun i => ((v i).1 - c.1, (v i).2 - c.2)) (m + 2) = polygonArea v (m + 2) := by
      have := (C116_area v (m + 2)).2.2.1 (-c.1, -c.2)
      simpa only [← sub_eq_add_neg] using this
    obtain ⟨d, hd, e1, e2⟩ := C116_centroid_partial (fun i => ((v i).1 - c.1, (v i).2 - c.2)) m (by rwa [ha])
    rw [hd]
    have fan := (C116_area v (m + 2)).2.1 m rfl
    rw [ha] at e1 e2
    have t : ∀ i, triangleArea ((v 0).1 - c.1, (v 0).2 - c.2) ((v (i + 1)).1 - c.1, (v (i + 1)).2 - c.2) ((v (i + 2)).1 - c.1, (v (i + 2)).2 - c.2) = triangleArea (v 0) (v (i + 1)) (v (i + 2)) := by
      intro i
      unfold triangleArea
      ring
    simp only [t] at e1 e2
    have s1 : ∑ i ∈ Finset.range m, triangleArea (v 0) (v (i + 1)) (v (i + 2)) * (mean3 ((v 0).1 - c.1, (v 0).2 - c.2) ((v (i + 1)).1 - c.1, (v (i + 1)).2 - c.2) ((v (i + 2)).1 - c.1, (v (i + 2)).2 - c.2)).1 =
        (∑ i ∈ Finset.range m, triangleArea (v 0) (v (i + 1)) (v (i + 2)) * (mean3 (v 0) (v (i + 1)) (v (i + 2))).1) - (∑ i ∈ Finset.range m, triangleArea (v 0) (v (i + 1)) (v (i + 2))) * c.1 := by
      rw [Finset.sum_mul, ← Finset.sum_sub_distrib]
      apply Finset.sum_congr rfl
      intro i _
      unfold mean3
      ring
    have s2 : ∑ i ∈ Finset.range m, triangleArea (v 0) (v (i + 1)) (v (i + 2)) * (mean3 ((v 0).1 - c.1, (v 0).2 - c.2) ((v (i + 1)).1 - c.1, (v (i + 1)).2 - c.2) ((v (i + 2)).1 - c.1, (v (i + 2)).2 - c.2)).2 =
        (∑ i ∈ Finset.range m, triangleArea (v 0) (v (i + 1)) (v (i + 2)) * (mean3 (v 0) (v (i + 1)) (v (i + 2))).2) - (∑ i ∈ Finset.range m, triangleArea (v 0) (v (i + 1)) (v (i + 2))) * c.2 := by
      rw [Finset.sum_mul, ← Finset.sum_sub_distrib]
      apply Finset.sum_congr rfl
      intro i _
      unfold mean3
      ring
    rw [s1, ← h1, ← fan, sub_self] at e1
    rw [s2, ← h2, ← fan, sub_self] at e2
    have d1 := (mul_eq_zero.1 e1).resolve_left h
    have d2 := (mul_eq_zero.1 e2).resolve_left h
    rw [show d = (0, 0) from Prod.ext d1 d2]
  · have := (C116_area v (m + 2)).2.2.1 (-c.1, -c.2)
    simpa only [← sub_eq_add_neg] using this

/-- The square with the corners (0, 0) and (2, 2). -/
def square : ℕ → ℝ × ℝ := fun i => if i = 0 then (0, 0) else if i = 1 then (2, 0) else if i = 2 then (2, 2) else (0, 2)

theorem square_area : polygonArea square (2 + 2) = 4 := by
  rw [area_eq]
  simp [Finset.sum_range_succ, prev, square]
  norm_num

example : polygonArea square (2 + 2) ≠ 0 := by rw [square_area]; norm_num

/-- Whatever point is wanted, there is a content of the memory with which the result is that point: the sum is never set to zero. -/
theorem C116_centroid_counterexample (c : ℝ × ℝ) : ∃ junk, polygonCentroid junk square 4 = some c := by
  refine ⟨(24 * c.1 - 24, 24 * c.2 - 24), ?_⟩
  unfold polygonCentroid
  have : polygonArea square 4 = 4 := square_area
  dsimp only
  rw [this, if_neg (by norm_num), foldl_sum2]
  simp [Finset.sum_range_succ, prev, square]
  ext
  · dsimp only; ring
  · dsimp only; ring

/-! ## Convexity -/

theorem flags (f g : ℕ → Bool) (n : ℕ) (a : Bool × Bool) : (List.range n).foldl (fun (s : Bool × Bool) i => (s.1 || f i, s.2 || g i)) a = (a.1 || (List.range n).any f, a.2 || (List.range n).any g) := by
  induction n with
  | zero => simp
  | succ n ih => rw [List.range_succ, List.foldl_append, ih, List.any_append, List.any_append]; simp [Bool.or_assoc]

theorem turn_eq (v : ℕ → ℝ × ℝ) (n i : ℕ) : turn v n i = side (v (prev n i)) (v i) (v ((i + 1) % n)) := by
  unfold turn side
  ring

/-- **C116**: the test accepts exactly the polygons that do not turn both to the left and to the right; so it accepts every strictly convex polygon, in both orders. -/
theorem C116_convex_partial (v : ℕ → ℝ × ℝ) (n : ℕ) :
    (polygonIsConvex v n = true ↔ ¬ ((∃ i < n, side (v (prev n i)) (v i) (v ((i + 1) % n)) < 0) ∧ ∃ i < n, 0 < side (v (prev n i)) (v i) (v ((i + 1) % n)))) ∧
    (Convex' v n → polygonIsConvex v n = true ∧ polygonIsConvex (fun i => v (n - 1 - i)) n = true) := by
  have h : ∀ v : ℕ → ℝ × ℝ, polygonIsConvex v n = true ↔ ¬ ((∃ i < n, side (v (prev n i)) (v i) (v ((i + 1) % n)) < 0) ∧ ∃ i < n, 0 < side (v (prev n i)) (v i) (v ((i + 1) % n))) := by
    intro v
    unfold polygonIsConvex
    dsimp only
    rw [flags]
    simp only [turn_eq, Bool.false_or, Bool.not_eq_true', Bool.and_eq_false_iff, gt_iff_lt]
    rw [← not_iff_not]
    simp only [not_or, Bool.not_eq_false, List.any_eq_true, List.mem_range, decide_eq_true_iff, not_not]
  refine ⟨h v, fun hc => ?_⟩
  obtain ⟨hn, hc⟩ := hc
  have pos : ∀ j < n, 0 < side (v j) (v ((j + 1) % n)) (v ((j + 2) % n)) := by
    intro j hj
    have lt : ∀ a, a % n < n := fun a => Nat.mod_lt _ (by omega)
    apply hc j hj _ (lt _)
    · intro e
      rcases Nat.lt_or_ge (j + 2) n with a | a
      · rw [Nat.mod_eq_of_lt a] at e; omega
      · rw [show j + 2 = n + (j + 2 - n) by omega, Nat.add_mod_left, Nat.mod_eq_of_lt (by omega)] at e; omega
    · intro e
      rcases Nat.lt_or_ge (j + 2) n with a | a
      · rw [Nat.mod_eq_of_lt a, Nat.mod_eq_of_lt (by omega)] at e; omega
      · rw [show j + 2 = n + (j + 2 - n) by omega, Nat.add_mod_left, Nat.mod_eq_of_lt (by omega : j + 2 - n < n)] at e
        rcases Nat.lt_or_ge (j + 1) n with b | b
        · rw [Nat.mod_eq_of_lt b] at e; omega
        · rw [show j + 1 = n by omega, Nat.mod_self] at e; omega
  rw [h, h]
  constructor
  · rintro ⟨⟨i, hi, hs⟩, -⟩
    have e : (prev n i + 1) % n = i := by
      unfold prev
      split
      · rw [show n - 1 + 1 = n by omega, Nat.mod_self]; omega
      · rw [show i - 1 + 1 = i by omega, Nat.mod_eq_of_lt hi]
    have e2 : (prev n i + 2) % n = (i + 1) % n := by
      conv_rhs => rw [← e]
      rw [Nat.mod_add_mod]
    have := pos (prev n i) (by unfold prev; split <;> omega)
    rw [e, e2] at this
    linarith
  · rintro ⟨-, ⟨i, hi, hs⟩⟩
    have q : n - 1 - (i + 1) % n < n := by omega
    have e : (n - 1 - (i + 1) % n + 1) % n = n - 1 - i := by
      rcases Nat.lt_or_ge (i + 1) n with a | a
      · rw [Nat.mod_eq_of_lt a, Nat.mod_eq_of_lt (by omega)]; omega
      · rw [show i + 1 = n by omega, Nat.mod_self, show n - 1 - 0 + 1 = n by omega, Nat.mod_self]; omega
    have e2 : (n - 1 - (i + 1) % n + 2) % n = n - 1 - prev n i := by
      unfold prev
      rcases Nat.lt_or_ge (i + 1) n with a | a
      · rw [Nat.mod_eq_of_lt a]
        split
        · subst i
          rw [show n - 1 - (0 + 1) + 2 = n by omega, Nat.mod_self]; omega
        · rw [Nat.mod_eq_of_lt (by omega)]; omega
      · rw [show i + 1 = n by omega, Nat.mod_self, show n - 1 - 0 + 2 = n + 1 by omega, Nat.add_mod_left, Nat.mod_eq_of_lt (by omega), if_neg (by omega)]
        omega
    have := pos _ q
    rw [e, e2] at this
    unfold side at this hs
    linarith

/-- A star with five points. -/
def star : ℕ → ℝ × ℝ := fun i => if i = 0 then (0, 3) else if i = 1 then (-2, -3) else if i = 2 then (3, 1) else if i = 3 then (-3, 1) else (2, -3)

/-- A star turns to the left at all of its points and is accepted, though it is not convex in either order. -/
theorem C116_star_counterexample : polygonIsConvex star 5 = true ∧ ¬ Convex' star 5 ∧ ¬ Convex' (fun i => star (5 - 1 - i)) 5 := by
  refine ⟨?_, ?_, ?_⟩
  · rw [(C116_convex_partial star 5).1]
    rintro ⟨⟨i, hi, hs⟩, -⟩
    have : i = 0 ∨ i = 1 ∨ i = 2 ∨ i = 3 ∨ i = 4 := by omega
    rcases this with rfl | rfl | rfl | rfl | rfl <;> norm_num [side, prev, star] at hs
  · rintro ⟨-, h⟩
    have := h 0 (by omega) 3 (by omega) (by omega) (by omega)
    norm_num [side, star] at this
  · rintro ⟨-, h⟩
    have := h 0 (by omega) 2 (by omega) (by omega) (by omega)
    norm_num [side, star] at this

/-- `ConvexPolygonContainsPoint` rejects every point strictly inside a strictly convex polygon, in both orders: the first side is measured along the closing edge in the wrong direction. -/
theorem C116_contains_false (p : ℝ × ℝ) (v : ℕ → ℝ × ℝ) (n : ℕ) (hc : Convex' v n) (hp : ∀ i < n, 0 < side (v i) (v ((i + 1) % n)) p) :
    convexPolygonContainsPoint p v n = false ∧ convexPolygonContainsPoint p (fun i => v (n - 1 - i)) n = false := by
  have hn := hc.1
  have s0 := hp 0 (by omega)
  have s1 := hp (n - 1) (by omega)
  have s2 := hp (n - 2) (by omega)
  rw [Nat.mod_eq_of_lt (by omega)] at s0
  rw [show n - 1 + 1 = n by omega, Nat.mod_self] at s1
  rw [show n - 2 + 1 = n - 1 by omega, Nat.mod_eq_of_lt (by omega)] at s2
  unfold side at s0 s1 s2
  constructor
  · unfold convexPolygonContainsPoint
    dsimp only
    rw [List.all_eq_false]
    refine ⟨0, by simp; omega, ?_⟩
    have a : sideOf p (v 0) (v (0 + 1)) > 0 := by unfold sideOf; linarith
    have b : sideOf p (v 0) (v (n - 1)) < 0 := by unfold sideOf; linarith
    simp [a, b]
  · unfold convexPolygonContainsPoint
    dsimp only
    rw [List.all_eq_false]
    refine ⟨0, by simp; omega, ?_⟩
    have a : sideOf p (v (n - 1 - 0)) (v (n - 1 - (0 + 1))) < 0 := by
      rw [show n - 1 - (0 + 1) = n - 2 by omega, Nat.sub_zero]
      unfold sideOf
      linarith
    have b : sideOf p (v (n - 1 - 0)) (v (n - 1 - (n - 1))) > 0 := by
      rw [Nat.sub_self, Nat.sub_zero]
      unfold sideOf
      linarith
    simp only [a, b]
    simp

/-- It accepts a point outside of the square. -/
theorem C116_outside_counterexample : convexPolygonContainsPoint (-1, 1) square 4 = true := by
  unfold convexPolygonContainsPoint
  simp [List.range, List.range.loop, sideOf, square]
  norm_num

end Verif.Geo
