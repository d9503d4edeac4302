import Verif.Geo.RectLine
import Mathlib.Analysis.Convex.Hull
import Mathlib.Algebra.Ring.Parity

/-!
# Points in triangles and polygons (C115)
-/

namespace Verif.Geo

/-! ## Code -/

open Classical in
/-- `TriangleContainsPoint`, `Collision.h:463-486`. The code calls `DotProduct` with one argument, which no vector has (`vector.h:653` takes four): it compiles only as long as nobody uses
it. The model takes it for `Dot`. If the corners are on a line the code multiplies an infinity by zero, and the comparisons with NaN
are false. -/
noncomputable def triangleContainsPoint (p0 p1 p2 : ℝ × ℝ) (X Y : ℝ) : Bool :=
  let dot (a b : ℝ × ℝ) : ℝ := b.1 * a.1 + b.2 * a.2
  let v0 := (p2.1 - p0.1, p2.2 - p0.2)
  let v1 := (p1.1 - p0.1, p1.2 - p0.2)
  let v2 := (X - p0.1, Y - p0.2)
  let dot00 := dot v0 v0
  let dot01 := dot v0 v1
  let dot02 := dot v0 v2
  let dot11 := dot v1 v1
  let dot12 := dot v1 v2
  if dot00 * dot11 - dot01 * dot01 = 0 then false
  else
    let inv := 1 / (dot00 * dot11 - dot01 * dot01)
    let u := (dot11 * dot02 - dot01 * dot12) * inv
    let v := (dot00 * dot12 - dot01 * dot02) * inv
    decide (u > 0) && decide (v > 0) && decide (u + v < 1)

open Classical in
/-- The condition in `PolygonContainsPoint`, `Collision.h:586-587`, for `a = verts[i]` and `b = verts[j]`. The division is done only if the ordinates differ. -/
noncomputable def edgeCrosses (p a b : ℝ × ℝ) : Bool :=
  (decide (a.2 > p.2) != decide (b.2 > p.2)) && decide (p.1 < (b.1 - a.1) * (p.2 - a.2) / (b.2 - a.2) + a.1)

/-- The index before `i` in the loops over the edges, `j` in `Collision.h:584` and others. -/
def prev (n i : ℕ) : ℕ := if i = 0 then n - 1 else i - 1

/-- `PolygonContainsPoint`, `Collision.h:580-591`, for the vertices `v 0` to `v (n - 1)`. -/
noncomputable def polygonContainsPoint (p : ℝ × ℝ) (v : ℕ → ℝ × ℝ) (n : ℕ) : Bool :=
  (List.range n).foldl (fun c i => if edgeCrosses p (v i) (v (prev n i)) then !c else c) false

/-! ## Specification -/

/-- The point is strictly inside the triangle: a mean of the corners with positive weights, and the corners are not on a line. -/
def InsideTriangle (a b c p : ℝ × ℝ) : Prop :=
  (b.1 - a.1) * (c.2 - a.2) - (b.2 - a.2) * (c.1 - a.1) ≠ 0 ∧
  ∃ α β γ : ℝ, 0 < α ∧ 0 < β ∧ 0 < γ ∧ α + β + γ = 1 ∧ p = (α * a.1 + β * b.1 + γ * c.1, α * a.2 + β * b.2 + γ * c.2)

/-- Twice the signed area of the triangle a, b, p: positive if p is to the left of the way from a to b (with the second axis up). -/
def side (a b p : ℝ × ℝ) : ℝ := (b.1 - a.1) * (p.2 - a.2) - (b.2 - a.2) * (p.1 - a.1)

/-- A polygon with `n` vertices is strictly convex, counterclockwise: all other vertices are to the left of every edge. -/
def Convex' (v : ℕ → ℝ × ℝ) (n : ℕ) : Prop := 3 ≤ n ∧ ∀ i < n, ∀ j < n, j ≠ i → j ≠ (i + 1) % n → 0 < side (v i) (v ((i + 1) % n)) (v j)

/-! ## Triangles -/

/-- **C115**: the barycentric test finds exactly the points strictly inside. -/
theorem C115_triangle (p0 p1 p2 : ℝ × ℝ) (X Y : ℝ) : triangleContainsPoint p0 p1 p2 X Y = true ↔ InsideTriangle p0 p1 p2 (X, Y) := by
  unfold triangleContainsPoint InsideTriangle
  dsimp only
  set ax := p2.1 - p0.1 with hax
  set ay := p2.2 - p0.2 with hay
  set bx := p1.1 - p0.1 with hbx
  set by' := p1.2 - p0.2 with hby
  have hden : (ax * ax + ay * ay) * (bx * bx + by' * by') - (bx * ax + by' * ay) * (bx * ax + by' * ay) = (bx * ay - by' * ax) * (bx * ay - by' * ax) := by ring
  rw [hden]
  by_cases h0 : bx * ay - by' * ax = 0
  · rw [h0, if_pos (by ring)]
    simp
  · have h2 : (bx * ay - by' * ax) * (bx * ay - by' * ax) ≠ 0 := mul_self_ne_zero.2 h0
    rw [if_neg h2]
    set S := bx * ay - by' * ax with hS
    set qx := X - p0.1 with hqx
    set qy := Y - p0.2 with hqy
    have eu : ((bx * bx + by' * by') * (qx * ax + qy * ay) - (bx * ax + by' * ay) * (qx * bx + qy * by')) * (1 / (S * S)) = (bx * qy - by' * qx) / S := by
      have : (bx * bx + by' * by') * (qx * ax + qy * ay) - (bx * ax + by' * ay) * (qx * bx + qy * by') = (bx * qy - by' * qx) * S := by rw [hS]; ring
      rw [this]
      field_simp
    have ev : ((ax * ax + ay * ay) * (qx * bx + qy * by') - (bx * ax + by' * ay) * (qx * ax + qy * ay)) * (1 / (S * S)) = (qx * ay - qy * ax) / S := by
      have : (ax * ax + ay * ay) * (qx * bx + qy * by') - (bx * ax + by' * ay) * (qx * ax + qy * ay) = (qx * ay - qy * ax) * S := by rw [hS]; ring
      rw [this]
      field_simp
    rw [eu, ev]
    set u := (bx * qy - by' * qx) / S with hu
    set w := (qx * ay - qy * ax) / S with hw
    have hu' : u * S = bx * qy - by' * qx := by rw [hu, div_mul_cancel₀ _ h0]
    have hw' : w * S = qx * ay - qy * ax := by rw [hw, div_mul_cancel₀ _ h0]
    simp only [Bool.and_eq_true, decide_eq_true_iff, gt_iff_lt]
    constructor
    · rintro ⟨⟨h3, h4⟩, h5⟩
      refine ⟨h0, 1 - u - w, w, u, by linarith, h4, h3, by ring, ?_⟩
      have ex : qx = w * bx + u * ax := mul_right_cancel₀ h0 (by linear_combination (-bx) * hw' - ax * hu' + qx * hS)
      have ey : qy = w * by' + u * ay := mul_right_cancel₀ h0 (by linear_combination (-by') * hw' - ay * hu' + qy * hS)
      ext
      · dsimp only
        linear_combination ex - hqx + w * hbx + u * hax
      · dsimp only
        linear_combination ey - hqy + w * hby + u * hay
    · rintro ⟨-, α, β, γ, ha, hb, hc, hsum, he⟩
      rw [Prod.mk.injEq] at he
      have ex : qx = β * bx + γ * ax := by linear_combination he.1 + hqx - β * hbx - γ * hax + p0.1 * hsum
      have ey : qy = β * by' + γ * ay := by linear_combination he.2 + hqy - β * hby - γ * hay + p0.2 * hsum
      have h6 : u = γ := mul_right_cancel₀ h0 (by rw [hu', ex, ey, hS]; ring)
      have h7 : w = β := mul_right_cancel₀ h0 (by rw [hw', ex, ey, hS]; ring)
      rw [h6, h7]
      exact ⟨⟨hc, hb⟩, by linarith⟩

/-- A point inside a triangle. -/
example : InsideTriangle (0, 0) (4, 0) (0, 4) (1, 1) := by
  refine ⟨by norm_num, 1 / 2, 1 / 4, 1 / 4, by norm_num, by norm_num, by norm_num, by norm_num, by norm_num⟩

/-! ## The crossing test -/

theorem div_form {a b p : ℝ × ℝ} (h : b.2 ≠ a.2) : (b.1 - a.1) * (p.2 - a.2) / (b.2 - a.2) + a.1 = (a.1 - b.1) * (p.2 - b.2) / (a.2 - b.2) + b.1 := by
  have h1 : b.2 - a.2 ≠ 0 := sub_ne_zero.2 h
  have h2 : a.2 - b.2 ≠ 0 := sub_ne_zero.2 h.symm
  field_simp
  ring

/-- The test does not depend on the direction of the edge. -/
theorem edge_comm (p a b : ℝ × ℝ) : edgeCrosses p a b = edgeCrosses p b a := by
  unfold edgeCrosses
  by_cases h : b.2 = a.2
  · rw [h]
    simp
  · rw [div_form h]
    congr 1
    exact Bool.xor_comm _ _

/-- The test in terms of the side of the edge: a crossing upwards counts if the point is to the left of the edge, a crossing downwards if it is to the right. -/
theorem edge_iff (p a b : ℝ × ℝ) : edgeCrosses p a b = true ↔ (a.2 ≤ p.2 ∧ p.2 < b.2 ∧ 0 < side a b p) ∨ (b.2 ≤ p.2 ∧ p.2 < a.2 ∧ side a b p < 0) := by
  unfold edgeCrosses side
  simp only [Bool.and_eq_true, decide_eq_true_iff, bne_iff_ne, ne_eq, decide_eq_decide]
  rcases le_or_gt a.2 p.2 with ha | ha <;> rcases le_or_gt b.2 p.2 with hb | hb
  · constructor
    · rintro ⟨h, -⟩
      exact absurd ⟨fun h => by linarith, fun h => by linarith⟩ h
    · rintro (⟨-, h, -⟩ | ⟨-, h, -⟩) <;> linarith
  · have hd : 0 < b.2 - a.2 := by linarith
    have : p.1 < (b.1 - a.1) * (p.2 - a.2) / (b.2 - a.2) + a.1 ↔ 0 < (b.1 - a.1) * (p.2 - a.2) - (b.2 - a.2) * (p.1 - a.1) := by
      rw [← sub_lt_iff_lt_add, lt_div_iff₀ hd, sub_pos, mul_comm (b.2 - a.2)]
    rw [this]
    constructor
    · rintro ⟨-, h⟩
      exact .inl ⟨ha, hb, h⟩
    · rintro (⟨-, -, h⟩ | ⟨h, -, -⟩)
      · exact ⟨fun h' => by have := h'.2 hb; linarith, h⟩
      · linarith
  · have hd : b.2 - a.2 < 0 := by linarith
    have : p.1 < (b.1 - a.1) * (p.2 - a.2) / (b.2 - a.2) + a.1 ↔ (b.1 - a.1) * (p.2 - a.2) - (b.2 - a.2) * (p.1 - a.1) < 0 := by
      rw [← sub_lt_iff_lt_add, lt_div_iff_of_neg hd, sub_neg, mul_comm (b.2 - a.2)]
    rw [this]
    constructor
    · rintro ⟨-, h⟩
      exact .inr ⟨hb, ha, h⟩
    · rintro (⟨h, -, -⟩ | ⟨-, -, h⟩)
      · linarith
      · exact ⟨fun h' => by have := h'.1 ha; linarith, h⟩
  · constructor
    · rintro ⟨h, -⟩
      exact absurd ⟨fun _ => hb, fun _ => ha⟩ h
    · rintro (⟨h, -, -⟩ | ⟨h, -, -⟩) <;> linarith

theorem fold_xor {α : Type} (f : α → Bool) (l : List α) (c : Bool) : l.foldl (fun c i => if f i then !c else c) c = Bool.xor c (decide (Odd (l.countP f))) := by
  induction l generalizing c with
  | nil => simp
  | cons x l ih =>
    rw [List.foldl_cons, ih, List.countP_cons]
    cases hf : f x
    · simp
    · by_cases hO : Odd (l.countP f) <;> cases c <;> simp [Nat.odd_add_one, hO, -Nat.not_odd_iff_even]

theorem contains_eq (p : ℝ × ℝ) (v : ℕ → ℝ × ℝ) (n : ℕ) : polygonContainsPoint p v n = decide (Odd ((List.range n).countP fun i => edgeCrosses p (v i) (v (prev n i)))) := by
  rw [polygonContainsPoint, fold_xor (fun i => edgeCrosses p (v i) (v (prev n i))), Bool.false_xor]

/-- The three vertices of a triangle as the code gets them. -/
def tri (a b c : ℝ × ℝ) : ℕ → ℝ × ℝ
  | 0 => a
  | 1 => b
  | _ => c

theorem tri_eq (p a b c : ℝ × ℝ) : polygonContainsPoint p (tri a b c) 3 = Bool.xor (Bool.xor (edgeCrosses p a c) (edgeCrosses p b a)) (edgeCrosses p c b) := by
  show (if edgeCrosses p c b then !(if edgeCrosses p b a then !(if edgeCrosses p a c then !false else false) else (if edgeCrosses p a c then !false else false))
    else (if edgeCrosses p b a then !(if edgeCrosses p a c then !false else false) else (if edgeCrosses p a c then !false else false))) = _
  cases edgeCrosses p a c <;> cases edgeCrosses p b a <;> cases edgeCrosses p c b <;> rfl

/-- The point where an edge crosses the height of p, and on which side of it p is. -/
theorem crossing {p a b : ℝ × ℝ} (h : decide (a.2 > p.2) ≠ decide (b.2 > p.2)) : ∃ q ∈ segment ℝ a b, q.2 = p.2 ∧ (edgeCrosses p a b = true ↔ p.1 < q.1) := by
  have hne : b.2 ≠ a.2 := by
    intro e
    rw [e] at h
    exact h rfl
  have hd : b.2 - a.2 ≠ 0 := sub_ne_zero.2 hne
  set t := (p.2 - a.2) / (b.2 - a.2) with ht
  have et : t * (b.2 - a.2) = p.2 - a.2 := by rw [ht, div_mul_cancel₀ _ hd]
  have h01 : 0 ≤ t ∧ t ≤ 1 := by
    simp only [ne_eq, decide_eq_decide] at h
    rcases le_or_gt a.2 p.2 with ha | ha
    · have hb : p.2 < b.2 := by
        by_contra hb
        exact h ⟨fun h => by linarith, fun h => by linarith⟩
      exact ⟨div_nonneg (by linarith) (by linarith), (div_le_one (by linarith)).2 (by linarith)⟩
    · have hb : b.2 ≤ p.2 := by
        by_contra hb
        exact h ⟨fun _ => by linarith, fun _ => ha⟩
      exact ⟨div_nonneg_of_nonpos (by linarith) (by linarith), by rw [ht, div_le_one_of_neg (by linarith)]; linarith⟩
  refine ⟨(a.1 + t * (b.1 - a.1), a.2 + t * (b.2 - a.2)), ⟨1 - t, t, by linarith [h01.2], h01.1, by ring, ?_⟩, by dsimp only; linarith, ?_⟩
  · ext
    · simp only [Prod.fst_add, Prod.smul_fst, smul_eq_mul]
      ring
    · simp only [Prod.snd_add, Prod.smul_snd, smul_eq_mul]
      ring
  · unfold edgeCrosses
    have e : (b.1 - a.1) * (p.2 - a.2) / (b.2 - a.2) + a.1 = a.1 + t * (b.1 - a.1) := by rw [ht]; ring
    rw [e, Bool.and_eq_true, bne_iff_ne, decide_eq_true_iff]
    exact ⟨fun h => h.2, fun h' => ⟨h, h'⟩⟩

theorem edge_false {p a b : ℝ × ℝ} (h : decide (a.2 > p.2) = decide (b.2 > p.2)) : edgeCrosses p a b = false := by
  unfold edgeCrosses
  rw [h]
  simp

theorem seg_hull {s : Set (ℝ × ℝ)} {a b q : ℝ × ℝ} (ha : a ∈ s) (hb : b ∈ s) (hq : q ∈ segment ℝ a b) : q ∈ convexHull ℝ s :=
  (convex_convexHull ℝ s).segment_subset (subset_convexHull ℝ s ha) (subset_convexHull ℝ s hb) hq

/-- If exactly one of two crossings counts, the point is between them. -/
theorem between {s : Set (ℝ × ℝ)} {p q r : ℝ × ℝ} (hq : q ∈ convexHull ℝ s) (hr : r ∈ convexHull ℝ s) (eq : q.2 = p.2) (er : r.2 = p.2) (h1 : p.1 < q.1) (h2 : r.1 ≤ p.1) : p ∈ convexHull ℝ s := by
  refine (convex_convexHull ℝ s).segment_subset hr hq ?_
  have hd : 0 < q.1 - r.1 := by linarith
  have et : (p.1 - r.1) / (q.1 - r.1) * (q.1 - r.1) = p.1 - r.1 := div_mul_cancel₀ _ hd.ne'
  refine ⟨1 - (p.1 - r.1) / (q.1 - r.1), (p.1 - r.1) / (q.1 - r.1), ?_, div_nonneg (by linarith) hd.le, by ring, ?_⟩
  · have := (div_le_one hd).2 (show p.1 - r.1 ≤ q.1 - r.1 by linarith)
    linarith
  · ext
    · simp only [Prod.fst_add, Prod.smul_fst, smul_eq_mul]
      linear_combination et
    · simp only [Prod.snd_add, Prod.smul_snd, smul_eq_mul]
      rw [eq, er]
      ring

theorem tri_true {p a b c : ℝ × ℝ} (h : polygonContainsPoint p (tri a b c) 3 = true) : p ∈ convexHull ℝ {a, b, c} := by
  rw [tri_eq] at h
  have two : ∀ x y z : ℝ × ℝ, x ∈ ({a, b, c} : Set (ℝ × ℝ)) → y ∈ ({a, b, c} : Set (ℝ × ℝ)) → z ∈ ({a, b, c} : Set (ℝ × ℝ)) →
      decide (x.2 > p.2) ≠ decide (y.2 > p.2) → decide (y.2 > p.2) ≠ decide (z.2 > p.2) → edgeCrosses p x y ≠ edgeCrosses p y z → p ∈ convexHull ℝ {a, b, c} := by
    intro x y z hx hy hz h1 h2 h3
    obtain ⟨q, q1, q2, q3⟩ := crossing h1
    obtain ⟨r, r1, r2, r3⟩ := crossing h2
    have hq := seg_hull hx hy q1
    have hr := seg_hull hy hz r1
    cases e1 : edgeCrosses p x y <;> cases e2 : edgeCrosses p y z
    · rw [e1, e2] at h3; exact absurd rfl h3
    · rw [e1] at q3; rw [e2] at r3
      exact between hr hq r2 q2 (r3.1 rfl) (not_lt.1 fun h => by simpa using q3.2 h)
    · rw [e1] at q3; rw [e2] at r3
      exact between hq hr q2 r2 (q3.1 rfl) (not_lt.1 fun h => by simpa using r3.2 h)
    · rw [e1, e2] at h3; exact absurd rfl h3
  by_cases hab : decide (a.2 > p.2) = decide (b.2 > p.2)
  · by_cases hbc : decide (b.2 > p.2) = decide (c.2 > p.2)
    · rw [edge_false hab.symm, edge_false hbc.symm, edge_false (hab.trans hbc)] at h
      simp at h
    · rw [edge_false hab.symm] at h
      refine two b c a (by simp) (by simp) (by simp) hbc (by rw [hab]; exact Ne.symm hbc) ?_
      rw [edge_comm p b c, edge_comm p c a]
      intro e
      rw [e] at h
      simp at h
  · by_cases hbc : decide (b.2 > p.2) = decide (c.2 > p.2)
    · rw [edge_false hbc.symm] at h
      refine two b a c (by simp) (by simp) (by simp) (Ne.symm hab) (by rw [← hbc]; exact hab) ?_
      intro e
      rw [e] at h
      simp at h
    · have hac : decide (a.2 > p.2) = decide (c.2 > p.2) := by
        revert hab hbc
        cases decide (a.2 > p.2) <;> cases decide (b.2 > p.2) <;> cases decide (c.2 > p.2) <;> simp
      rw [edge_false hac] at h
      refine two a b c (by simp) (by simp) (by simp) hab hbc ?_
      rw [edge_comm p a b, edge_comm p b c]
      intro e
      rw [e] at h
      simp at h

theorem once_down {a b c p : ℝ} (hi : ¬ (p < a ∧ p < b ∧ p < c)) (lo : ¬ (a ≤ p ∧ b ≤ p ∧ c ≤ p)) :
    Bool.xor (Bool.xor (decide (a ≤ p ∧ p < c)) (decide (b ≤ p ∧ p < a))) (decide (c ≤ p ∧ p < b)) = true := by
  rcases le_or_gt a p with xa | xa <;> rcases le_or_gt b p with xb | xb <;> rcases le_or_gt c p with xc | xc
  · exact absurd ⟨xa, xb, xc⟩ lo
  · simp [xa, xb, xc, not_le.2 xc, not_lt.2 xa, not_lt.2 xb]
  · simp [xa, xb, xc, not_le.2 xb, not_lt.2 xa, not_lt.2 xc]
  · simp [xa, xb, xc, not_le.2 xb, not_le.2 xc, not_lt.2 xa]
  · simp [xa, xb, xc, not_le.2 xa, not_lt.2 xb, not_lt.2 xc]
  · simp [xa, xb, xc, not_le.2 xa, not_le.2 xc, not_lt.2 xb]
  · simp [xa, xb, xc, not_le.2 xa, not_le.2 xb, not_lt.2 xc]
  · exact absurd ⟨xa, xb, xc⟩ hi

theorem once_up {a b c p : ℝ} (hi : ¬ (p < a ∧ p < b ∧ p < c)) (lo : ¬ (a ≤ p ∧ b ≤ p ∧ c ≤ p)) :
    Bool.xor (Bool.xor (decide (c ≤ p ∧ p < a)) (decide (a ≤ p ∧ p < b))) (decide (b ≤ p ∧ p < c)) = true := by
  rcases le_or_gt a p with xa | xa <;> rcases le_or_gt b p with xb | xb <;> rcases le_or_gt c p with xc | xc
  · exact absurd ⟨xa, xb, xc⟩ lo
  · simp [xa, xb, xc, not_le.2 xc, not_lt.2 xa, not_lt.2 xb]
  · simp [xa, xb, xc, not_le.2 xb, not_lt.2 xa, not_lt.2 xc]
  · simp [xa, xb, xc, not_le.2 xb, not_le.2 xc, not_lt.2 xa]
  · simp [xa, xb, xc, not_le.2 xa, not_lt.2 xb, not_lt.2 xc]
  · simp [xa, xb, xc, not_le.2 xa, not_le.2 xc, not_lt.2 xb]
  · simp [xa, xb, xc, not_le.2 xa, not_le.2 xb, not_lt.2 xc]
  · exact absurd ⟨xa, xb, xc⟩ hi

theorem tri_inside {p a b c : ℝ × ℝ} (h : InsideTriangle a b c p) : polygonContainsPoint p (tri a b c) 3 = true := by
  obtain ⟨hS, α, β, γ, h1, h2, h3, hsum, he⟩ := h
  have ep1 : p.1 = α * a.1 + β * b.1 + γ * c.1 := by rw [he]
  have ep2 : p.2 = α * a.2 + β * b.2 + γ * c.2 := by rw [he]
  have hα : α = 1 - β - γ := by linarith
  have sab : side a b p = γ * ((b.1 - a.1) * (c.2 - a.2) - (b.2 - a.2) * (c.1 - a.1)) := by
    unfold side
    rw [ep1, ep2, hα]
    ring
  have sbc : side b c p = α * ((b.1 - a.1) * (c.2 - a.2) - (b.2 - a.2) * (c.1 - a.1)) := by
    unfold side
    rw [ep1, ep2, hα]
    ring
  have sca : side c a p = β * ((b.1 - a.1) * (c.2 - a.2) - (b.2 - a.2) * (c.1 - a.1)) := by
    unfold side
    rw [ep1, ep2, hα]
    ring
  set S := (b.1 - a.1) * (c.2 - a.2) - (b.2 - a.2) * (c.1 - a.1) with hSd
  rw [tri_eq, edge_comm p b a, edge_comm p c b, edge_comm p a c]
  -- not all corners are on one side of the height of p
  have hi : ¬ (p.2 < a.2 ∧ p.2 < b.2 ∧ p.2 < c.2) := by
    rintro ⟨x, y, z⟩
    have hp : p.2 = α * p.2 + β * p.2 + γ * p.2 := by rw [← add_mul, ← add_mul, hsum, one_mul]
    linarith [mul_lt_mul_of_pos_left x h1, mul_lt_mul_of_pos_left y h2, mul_lt_mul_of_pos_left z h3]
  have lo : ¬ (a.2 ≤ p.2 ∧ b.2 ≤ p.2 ∧ c.2 ≤ p.2) := by
    rintro ⟨x, y, z⟩
    have x' := mul_le_mul_of_nonneg_left x h1.le
    have y' := mul_le_mul_of_nonneg_left y h2.le
    have z' := mul_le_mul_of_nonneg_left z h3.le
    have hp : p.2 = α * p.2 + β * p.2 + γ * p.2 := by rw [← add_mul, ← add_mul, hsum, one_mul]
    have xa : a.2 = p.2 := by
      have : α * a.2 = α * p.2 := by linarith
      exact mul_left_cancel₀ h1.ne' this
    have xb : b.2 = p.2 := by
      have : β * b.2 = β * p.2 := by linarith
      exact mul_left_cancel₀ h2.ne' this
    have xc : c.2 = p.2 := by
      have : γ * c.2 = γ * p.2 := by linarith
      exact mul_left_cancel₀ h3.ne' this
    apply hS
    rw [hSd, xa, xb, xc]
    ring
  have val : ∀ (x y : ℝ × ℝ) (b' : Bool), (edgeCrosses p x y = true ↔ b' = true) → edgeCrosses p x y = b' := by
    intro x y b' h
    rwa [Bool.eq_iff_iff]
  rcases lt_or_gt_of_ne hS with hneg | hpos
  · have nab : side a b p < 0 := by rw [sab]; exact mul_neg_of_pos_of_neg h3 hneg
    have nbc : side b c p < 0 := by rw [sbc]; exact mul_neg_of_pos_of_neg h1 hneg
    have nca : side c a p < 0 := by rw [sca]; exact mul_neg_of_pos_of_neg h2 hneg
    rw [val a b (decide (b.2 ≤ p.2 ∧ p.2 < a.2)) (by rw [edge_iff, decide_eq_true_iff]; exact ⟨fun h => h.elim (fun h => by linarith [h.2.2]) (fun h => ⟨h.1, h.2.1⟩), fun h => .inr ⟨h.1, h.2, nab⟩⟩),
      val b c (decide (c.2 ≤ p.2 ∧ p.2 < b.2)) (by rw [edge_iff, decide_eq_true_iff]; exact ⟨fun h => h.elim (fun h => by linarith [h.2.2]) (fun h => ⟨h.1, h.2.1⟩), fun h => .inr ⟨h.1, h.2, nbc⟩⟩),
      val c a (decide (a.2 ≤ p.2 ∧ p.2 < c.2)) (by rw [edge_iff, decide_eq_true_iff]; exact ⟨fun h => h.elim (fun h => by linarith [h.2.2]) (fun h => ⟨h.1, h.2.1⟩), fun h => .inr ⟨h.1, h.2, nca⟩⟩)]
    exact once_down hi lo
  · have nab : 0 < side a b p := by rw [sab]; exact mul_pos h3 hpos
    have nbc : 0 < side b c p := by rw [sbc]; exact mul_pos h1 hpos
    have nca : 0 < side c a p := by rw [sca]; exact mul_pos h2 hpos
    rw [val a b (decide (a.2 ≤ p.2 ∧ p.2 < b.2)) (by rw [edge_iff, decide_eq_true_iff]; exact ⟨fun h => h.elim (fun h => ⟨h.1, h.2.1⟩) (fun h => by linarith [h.2.2]), fun h => .inl ⟨h.1, h.2, nab⟩⟩),
      val b c (decide (b.2 ≤ p.2 ∧ p.2 < c.2)) (by rw [edge_iff, decide_eq_true_iff]; exact ⟨fun h => h.elim (fun h => ⟨h.1, h.2.1⟩) (fun h => by linarith [h.2.2]), fun h => .inl ⟨h.1, h.2, nbc⟩⟩),
      val c a (decide (c.2 ≤ p.2 ∧ p.2 < a.2)) (by rw [edge_iff, decide_eq_true_iff]; exact ⟨fun h => h.elim (fun h => ⟨h.1, h.2.1⟩) (fun h => by linarith [h.2.2]), fun h => .inl ⟨h.1, h.2, nca⟩⟩)]
    exact once_up hi lo

/-- **C115**, polygons with three vertices: a point strictly inside is contained, and a contained point is in the triangle or on its border. -/
theorem C115_three (p a b c : ℝ × ℝ) : (InsideTriangle a b c p → polygonContainsPoint p (tri a b c) 3 = true) ∧ (polygonContainsPoint p (tri a b c) 3 = true → p ∈ convexHull ℝ {a, b, c}) :=
  ⟨tri_inside, tri_true⟩

/-! ## All polygons -/

/-- Every fold is the edge from the last vertex to the first and the edges between neighbours. -/
theorem fold (p : ℝ × ℝ) (v : ℕ → ℝ × ℝ) (m : ℕ) (hm : 1 ≤ m) : polygonContainsPoint p v m =
    Bool.xor (edgeCrosses p (v 0) (v (m - 1))) (decide (Odd ((List.range (m - 1)).countP fun i => edgeCrosses p (v (i + 1)) (v i)))) := by
  obtain ⟨k, rfl⟩ : ∃ k, m = k + 1 := ⟨m - 1, by omega⟩
  rw [contains_eq, List.range_succ_eq_map, List.countP_cons, List.countP_map, Nat.add_sub_cancel]
  have e : ((fun i => edgeCrosses p (v i) (v (prev (k + 1) i))) ∘ Nat.succ) = fun i => edgeCrosses p (v (i + 1)) (v i) := by
    funext i
    simp [prev]
  rw [e]
  have e0 : v (prev (k + 1) 0) = v k := by simp [prev]
  rw [e0]
  cases edgeCrosses p (v 0) (v k)
  · simp
  · by_cases hO : Odd ((List.range k).countP fun i => edgeCrosses p (v (i + 1)) (v i)) <;> simp [Nat.odd_add_one, hO, -Nat.not_odd_iff_even]

theorem step (p : ℝ × ℝ) (v : ℕ → ℝ × ℝ) (n : ℕ) (hn : 2 ≤ n) :
    polygonContainsPoint p v (n + 1) = Bool.xor (polygonContainsPoint p v n) (polygonContainsPoint p (tri (v 0) (v (n - 1)) (v n)) 3) := by
  rw [fold p v (n + 1) (by omega), fold p v n (by omega), tri_eq, Nat.add_sub_cancel]
  obtain ⟨k, rfl⟩ : ∃ k, n = k + 1 := ⟨n - 1, by omega⟩
  rw [Nat.add_sub_cancel, List.range_succ, List.countP_append]
  rw [edge_comm p (v k) (v 0)]
  generalize edgeCrosses p (v 0) (v k) = x
  generalize edgeCrosses p (v 0) (v (k + 1)) = y
  have e1 : (List.countP (fun i => edgeCrosses p (v (i + 1)) (v i)) [k]) = if edgeCrosses p (v (k + 1)) (v k) = true then 1 else 0 := by
    rw [List.countP_cons]
    simp
  rw [e1]
  cases edgeCrosses p (v (k + 1)) (v k)
  · cases x <;> cases y <;> simp
  · by_cases hO : Odd ((List.range k).countP fun i => edgeCrosses p (v (i + 1)) (v i)) <;> cases x <;> cases y <;> simp [Nat.odd_add_one, hO, -Nat.not_odd_iff_even]

/-- **C115**, all polygons, also those that cross themselves: a point is contained if and only if it is contained in an odd number of the triangles of the fan from the first vertex. -/
theorem C115_fan (p : ℝ × ℝ) (v : ℕ → ℝ × ℝ) (n : ℕ) :
    polygonContainsPoint p v (n + 2) = decide (Odd ((List.range n).countP fun i => polygonContainsPoint p (tri (v 0) (v (i + 1)) (v (i + 2))) 3)) := by
  induction n with
  | zero =>
    unfold polygonContainsPoint
    simp only [List.range, List.range.loop, List.foldl_cons, List.foldl_nil, prev]
    simp only [↓reduceIte, Nat.add_one_sub_one, one_ne_zero, Nat.reduceAdd, Nat.sub_self, List.countP_nil, Nat.not_odd_zero, decide_false]
    rw [edge_comm p (v 1) (v 0)]
    cases edgeCrosses p (v 0) (v 1) <;> rfl
  | succ n ih =>
    rw [step p v (n + 2) (by omega), ih, List.range_succ, List.countP_append]
    have e1 : (List.countP (fun i => polygonContainsPoint p (tri (v 0) (v (i + 1)) (v (i + 2))) 3) [n]) = if polygonContainsPoint p (tri (v 0) (v (n + 1)) (v (n + 2))) 3 = true then 1 else 0 := by
      rw [List.countP_cons]
      simp
    rw [e1, show n + 2 - 1 = n + 1 by omega]
    cases polygonContainsPoint p (tri (v 0) (v (n + 1)) (v (n + 2))) 3
    · simp
    · by_cases hO : Odd ((List.range n).countP fun i => polygonContainsPoint p (tri (v 0) (v (i + 1)) (v (i + 2))) 3) <;> simp [Nat.odd_add_one, hO, -Nat.not_odd_iff_even]

/-- **C115**: a contained point is in the convex hull of the vertices. -/
theorem C115_hull (p : ℝ × ℝ) (v : ℕ → ℝ × ℝ) (n : ℕ) (h : polygonContainsPoint p v n = true) : p ∈ convexHull ℝ (v '' {i | i < n}) := by
  rcases n with _ | _ | n
  · simp [polygonContainsPoint] at h
  · unfold polygonContainsPoint at h
    simp only [List.range, List.range.loop, List.foldl_cons, List.foldl_nil, prev] at h
    simp [edgeCrosses] at h
  · rw [C115_fan, decide_eq_true_iff] at h
    have : 0 < (List.range n).countP fun i => polygonContainsPoint p (tri (v 0) (v (i + 1)) (v (i + 2))) 3 := h.pos
    rw [List.countP_pos_iff] at this
    obtain ⟨i, hi, ht⟩ := this
    rw [List.mem_range] at hi
    refine convexHull_mono ?_ (tri_true ht)
    rintro x (rfl | rfl | rfl)
    · exact ⟨0, by simp, rfl⟩
    · exact ⟨i + 1, by simp; omega, rfl⟩
    · exact ⟨i + 2, by simp; omega, rfl⟩

/-- **C115**: the order of the vertices does not matter, clockwise or counterclockwise. -/
theorem C115_reverse (p : ℝ × ℝ) (v : ℕ → ℝ × ℝ) (n : ℕ) : polygonContainsPoint p (fun i => v (n - 1 - i)) n = polygonContainsPoint p v n := by
  rcases n with _ | n
  · rfl
  · rw [fold _ _ _ (by omega), fold _ _ _ (by omega)]
    simp only [Nat.add_sub_cancel, Nat.sub_zero, Nat.sub_self]
    rw [edge_comm p (v n) (v 0)]
    have e : (List.range n).countP (fun i => edgeCrosses p (v (n - (i + 1))) (v (n - i))) = (List.range n).countP (fun i => edgeCrosses p (v (i + 1)) (v i)) := by
      have h : (List.range n).map (fun i => n - 1 - i) = (List.range n).reverse := by
        apply List.ext_getElem
        · simp
        · intro i h1 h2
          simp
      rw [← List.countP_reverse (l := List.range n) (p := fun i => edgeCrosses p (v (i + 1)) (v i)), ← h, List.countP_map]
      apply List.countP_congr
      intro i hi
      rw [List.mem_range] at hi
      simp only [Function.comp]
      rw [edge_comm p (v (n - (i + 1))), show n - 1 - i + 1 = n - i by omega, show n - (i + 1) = n - 1 - i by omega]
    rw [e]

theorem side_at {a b q r : ℝ × ℝ} (hq : q ∈ segment ℝ a b) (h : r.2 = q.2) : side a b r = (b.2 - a.2) * (q.1 - r.1) := by
  obtain ⟨s, t, -, -, hst, rfl⟩ := hq
  obtain rfl : s = 1 - t := by linarith
  simp only [Prod.snd_add, Prod.smul_snd, smul_eq_mul, Prod.fst_add, Prod.smul_fst] at h ⊢
  unfold side
  rw [h]
  ring

theorem side_seg {a b c d q : ℝ × ℝ} (hq : q ∈ segment ℝ c d) (h1 : 0 < side a b c) (h2 : 0 < side a b d) : 0 < side a b q := by
  obtain ⟨s, t, hs, ht, hst, rfl⟩ := hq
  have e : side a b (s • c + t • d) = s * side a b c + t * side a b d := by
    obtain rfl : s = 1 - t := by linarith
    unfold side
    simp only [Prod.snd_add, Prod.smul_snd, smul_eq_mul, Prod.fst_add, Prod.smul_fst]
    ring
  rw [e]
  rcases hs.lt_or_eq with hs | hs
  · have := mul_pos hs h1
    have := mul_nonneg ht h2.le
    linarith
  · rw [← hs] at hst
    have : t = 1 := by linarith
    rw [← hs, this]
    linarith

/-- An edge from below to above the height of p. -/
def Up (p : ℝ × ℝ) (v : ℕ → ℝ × ℝ) (n i : ℕ) : Prop := (v i).2 ≤ p.2 ∧ p.2 < (v ((i + 1) % n)).2

theorem up_unique {p : ℝ × ℝ} {v : ℕ → ℝ × ℝ} {n : ℕ} (hc : Convex' v n) {i k : ℕ} (hi : i < n) (hk : k < n) (h1 : Up p v n i) (h2 : Up p v n k) : i = k := by
  by_contra hne
  obtain ⟨hn, hc⟩ := hc
  have hi' : (i + 1) % n < n := Nat.mod_lt _ (by omega)
  have hk' : (k + 1) % n < n := Nat.mod_lt _ (by omega)
  have cr : ∀ {i}, Up p v n i → ∃ q ∈ segment ℝ (v i) (v ((i + 1) % n)), q.2 = p.2 := by
    intro i h
    obtain ⟨q, h1, h2, -⟩ := crossing (p := p) (a := v i) (b := v ((i + 1) % n)) (by simp [not_lt.2 h.1, h.2])
    exact ⟨q, h1, h2⟩
  obtain ⟨q, q1, q2⟩ := cr h1
  obtain ⟨r, r1, r2⟩ := cr h2
  have ne1 : k ≠ (i + 1) % n := by
    rintro rfl
    linarith [h1.2, h2.1]
  have ne2 : (k + 1) % n ≠ i := by
    rintro rfl
    linarith [h2.2, h1.1]
  have ne3 : (k + 1) % n ≠ (i + 1) % n := by
    intro h
    rcases Nat.lt_or_ge (i + 1) n with a | a <;> rcases Nat.lt_or_ge (k + 1) n with b | b
    · rw [Nat.mod_eq_of_lt a, Nat.mod_eq_of_lt b] at h; omega
    · rw [Nat.mod_eq_of_lt a, show k + 1 = n by omega, Nat.mod_self] at h; omega
    · rw [Nat.mod_eq_of_lt b, show i + 1 = n by omega, Nat.mod_self] at h; omega
    · omega
  have s1 := side_seg r1 (hc i hi k hk (Ne.symm hne) ne1) (hc i hi _ hk' ne2 ne3)
  have s2 := side_seg q1 (hc k hk i hi hne (Ne.symm ne2)) (hc k hk _ hi' (Ne.symm ne1) (Ne.symm ne3))
  rw [side_at q1 (by rw [r2, q2])] at s1
  rw [side_at r1 (by rw [r2, q2])] at s2
  have d1 : 0 < (v ((i + 1) % n)).2 - (v i).2 := by linarith [h1.1, h1.2]
  have d2 : 0 < (v ((k + 1) % n)).2 - (v k).2 := by linarith [h2.1, h2.2]
  have := (pos_iff_pos_of_mul_pos s1).1 d1
  have := (pos_iff_pos_of_mul_pos s2).1 d2
  linarith

/-- No point strictly left of the two edges at a corner is above or below both ends of them. -/
theorem corner {p b a c : ℝ × ℝ} (h1 : 0 < side b a p) (h2 : 0 < side a c p) (h3 : 0 < side b a c) :
    ¬ (a.2 ≤ p.2 ∧ b.2 ≤ a.2 ∧ c.2 ≤ a.2) ∧ ¬ (p.2 < a.2 ∧ a.2 ≤ b.2 ∧ a.2 ≤ c.2) := by
  have key : side b a p * (c.2 - a.2) + side a c p * (b.2 - a.2) + side b a c * (a.2 - p.2) = 0 := by
    unfold side
    ring
  constructor
  · rintro ⟨x, y, z⟩
    have k1 := mul_nonneg h1.le (sub_nonneg.2 z)
    have k2 := mul_nonneg h2.le (sub_nonneg.2 y)
    have k3 := mul_nonneg h3.le (sub_nonneg.2 x)
    have e1 : side b a p * (a.2 - c.2) = 0 := by linarith
    have e2 : side a c p * (a.2 - b.2) = 0 := by linarith
    have e3 : a.2 - c.2 = 0 := (mul_eq_zero.1 e1).resolve_left h1.ne'
    have e4 : a.2 - b.2 = 0 := (mul_eq_zero.1 e2).resolve_left h2.ne'
    have : side b a c = 0 := by
      unfold side
      linear_combination (-(a.1 - b.1)) * e3 + (a.1 - b.1) * e4 - (c.1 - b.1) * e4
    linarith
  · rintro ⟨x, y, z⟩
    have k1 := mul_nonneg h1.le (sub_nonneg.2 z)
    have k2 := mul_nonneg h2.le (sub_nonneg.2 y)
    have k3 := mul_pos h3 (sub_pos.2 x)
    linarith

theorem up_exists {p : ℝ × ℝ} {v : ℕ → ℝ × ℝ} {n : ℕ} (hc : Convex' v n) (hp : ∀ i < n, 0 < side (v i) (v ((i + 1) % n)) p) : ∃ i < n, Up p v n i := by
  obtain ⟨hn, hc⟩ := hc
  have hne : (Finset.range n).Nonempty := ⟨0, by simp; omega⟩
  have wrap : ∀ k < n, ∃ j < n, (j + 1) % n = k := by
    intro k hk
    rcases k with _ | k
    · exact ⟨n - 1, by omega, by rw [show n - 1 + 1 = n by omega, Nat.mod_self]⟩
    · exact ⟨k, by omega, Nat.mod_eq_of_lt hk⟩
  have loc : ∀ k < n, ∃ j < n, (j + 1) % n = k ∧ 0 < side (v j) (v k) p ∧ 0 < side (v k) (v ((k + 1) % n)) p ∧ 0 < side (v j) (v k) (v ((k + 1) % n)) := by
    intro k hk
    obtain ⟨j, hj, e⟩ := wrap k hk
    refine ⟨j, hj, e, ?_, hp k hk, ?_⟩
    · have := hp j hj
      rwa [e] at this
    · have := hc j hj ((k + 1) % n) (Nat.mod_lt _ (by omega))
      rw [e] at this
      apply this
      · intro h
        rcases Nat.lt_or_ge (j + 1) n with a | a <;> rcases Nat.lt_or_ge (k + 1) n with b | b
        · rw [Nat.mod_eq_of_lt a] at e; rw [Nat.mod_eq_of_lt b] at h; omega
        · rw [Nat.mod_eq_of_lt a] at e; rw [show k + 1 = n by omega, Nat.mod_self] at h; omega
        · rw [show j + 1 = n by omega, Nat.mod_self] at e; rw [Nat.mod_eq_of_lt b] at h; omega
        · rw [show j + 1 = n by omega, Nat.mod_self] at e; omega
      · intro h
        rcases Nat.lt_or_ge (k + 1) n with b | b
        · rw [Nat.mod_eq_of_lt b] at h; omega
        · rw [show k + 1 = n by omega, Nat.mod_self] at h; omega
  -- the highest corner is above p, the lowest is not
  obtain ⟨m, hm, hmax⟩ := Finset.exists_max_image (Finset.range n) (fun i => (v i).2) hne
  obtain ⟨l, hl, hmin⟩ := Finset.exists_min_image (Finset.range n) (fun i => (v i).2) hne
  simp only [Finset.mem_range] at hm hl hmax hmin
  have above : p.2 < (v m).2 := by
    obtain ⟨j, hj, -, x, y, z⟩ := loc m hm
    by_contra h
    exact (corner x y z).1 ⟨not_lt.1 h, hmax j hj, hmax _ (Nat.mod_lt _ (by omega))⟩
  have below : (v l).2 ≤ p.2 := by
    obtain ⟨j, hj, -, x, y, z⟩ := loc l hl
    by_contra h
    exact (corner x y z).2 ⟨not_le.1 h, hmin j hj, hmin _ (Nat.mod_lt _ (by omega))⟩
  by_contra hno
  have all : ∀ d, (v ((l + d) % n)).2 ≤ p.2 := by
    intro d
    induction d with
    | zero => rw [Nat.add_zero, Nat.mod_eq_of_lt hl]; exact below
    | succ d ih =>
      by_contra h
      refine hno ⟨(l + d) % n, Nat.mod_lt _ (by omega), ih, ?_⟩
      rw [Nat.mod_add_mod]
      exact not_le.1 h
  have := all (n - l + m)
  rw [show l + (n - l + m) = n + m by omega, Nat.add_mod_left, Nat.mod_eq_of_lt hm] at this
  linarith

/-- **C115**: every point strictly inside a strictly convex polygon is contained in it. -/
theorem C115_convex (p : ℝ × ℝ) (v : ℕ → ℝ × ℝ) (n : ℕ) (hc : Convex' v n) (hp : ∀ i < n, 0 < side (v i) (v ((i + 1) % n)) p) :
    polygonContainsPoint p v n = true ∧ polygonContainsPoint p (fun i => v (n - 1 - i)) n = true := by
  rw [C115_reverse, and_self, contains_eq, decide_eq_true_iff]
  obtain ⟨i, hi, hu⟩ := up_exists hc hp
  have hn := hc.1
  have one : (List.range n).countP (fun k => edgeCrosses p (v k) (v (prev n k))) = 1 := by
    have : (List.range n).countP (fun k => edgeCrosses p (v k) (v (prev n k))) = (List.range n).countP (fun k => k == (i + 1) % n) := by
      apply List.countP_congr
      intro k hk
      rw [List.mem_range] at hk
      have hj : prev n k < n := by unfold prev; split <;> omega
      have e : (prev n k + 1) % n = k := by
        unfold prev
        split
        · rw [show n - 1 + 1 = n by omega, Nat.mod_self]; omega
        · rw [show k - 1 + 1 = k by omega, Nat.mod_eq_of_lt hk]
      have pos := hp _ hj
      rw [e] at pos
      rw [edge_comm, edge_iff, beq_iff_eq]
      constructor
      · rintro (⟨a, b, -⟩ | ⟨-, -, h⟩)
        · have := up_unique hc hj hi ⟨a, by rwa [e]⟩ hu
          rw [← this, e]
        · linarith
      · intro h
        have : prev n k = i := by
          unfold prev
          rcases Nat.lt_or_ge (i + 1) n with a | a
          · rw [Nat.mod_eq_of_lt a] at h
            rw [if_neg (by omega)]
            omega
          · rw [show i + 1 = n by omega, Nat.mod_self] at h
            rw [if_pos h]
            omega
        rw [this] at pos ⊢
        obtain ⟨a, b⟩ := hu
        rw [← h] at b
        exact .inl ⟨a, b, pos⟩
    rw [this]
    exact List.count_eq_one_of_mem List.nodup_range (List.mem_range.2 (Nat.mod_lt _ (by omega)))
  rw [one]
  exact odd_one

/-- A square, and a point inside. -/
example : Convex' (fun i => if i = 0 then (0, 0) else if i = 1 then (2, 0) else if i = 2 then (2, 2) else (0, 2)) 4 ∧
    ∀ i < 4, 0 < side ((fun i => if i = 0 then (0, 0) else if i = 1 then (2, 0) else if i = 2 then (2, 2) else (0, 2)) i)
      ((fun i => if i = 0 then (0, 0) else if i = 1 then (2, 0) else if i = 2 then (2, 2) else (0, 2)) ((i + 1) % 4)) (1, 1) := by
  refine ⟨⟨by omega, ?_⟩, ?_⟩
  · intro i hi j hj h1 h2
    have hI : i = 0 ∨ i = 1 ∨ i = 2 ∨ i = 3 := by omega
    have hJ : j = 0 ∨ j = 1 ∨ j = 2 ∨ j = 3 := by omega
    rcases hI with rfl | rfl | rfl | rfl <;> rcases hJ with rfl | rfl | rfl | rfl <;> first | omega | norm_num [side]
  · intro i hi
    have : i = 0 ∨ i = 1 ∨ i = 2 ∨ i = 3 := by omega
    rcases this with rfl | rfl | rfl | rfl <;> norm_num [side]

end Verif.Geo
