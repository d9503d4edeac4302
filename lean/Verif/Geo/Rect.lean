import Verif.Geo.Cross

/-!
# Rectangles (C113)
-/

namespace Verif.Geo

/-! ## Code -/

/-- `Rect<T>`, `Geometry.h:255-369`: the fields. -/
structure Rect where
  left : ℝ
  top : ℝ
  right : ℝ
  bottom : ℝ

open Classical in
/-- `RectContainsPoint`, `Collision.h:443-446`. -/
noncomputable def Rect.containsPoint (a : Rect) (X Y : ℝ) : Bool := decide (X ≥ a.left ∧ Y ≥ a.top ∧ X < a.right ∧ Y < a.bottom)

open Classical in
/-- `RectContainsRect`, `Collision.h:449-452`. -/
noncomputable def Rect.containsRect (a b : Rect) : Bool := decide (b.left ≥ a.left ∧ b.top ≥ a.top ∧ b.right ≤ a.right ∧ b.bottom ≤ a.bottom)

open Classical in
/-- `RectRectCollide`, `Collision.h:455-458`. -/
noncomputable def Rect.rectCollide (a b : Rect) : Bool := decide (b.left ≤ a.right ∧ b.top ≤ a.bottom ∧ b.right ≥ a.left ∧ b.bottom ≥ a.top)

open Classical in
/-- `bssmin`, `defines.h:16`. -/
noncomputable def bssmin (a b : ℝ) : ℝ := if a < b then a else b

open Classical in
/-- `bssmax`, `defines.h:15`. -/
noncomputable def bssmax (a b : ℝ) : ℝ := if a > b then a else b

open Classical in
/-- `IsCanonical`, `Geometry.h:280`. -/
noncomputable def Rect.isCanonical (a : Rect) : Bool := decide (a.left ≤ a.right ∧ a.top ≤ a.bottom)

/-- `Canonical`, `Geometry.h:282`. -/
noncomputable def Rect.canonical (a : Rect) : Rect := ⟨bssmin a.left a.right, bssmin a.top a.bottom, bssmax a.left a.right, bssmax a.top a.bottom⟩

/-- `ExpandTo`, `Geometry.h:284`. -/
noncomputable def Rect.expandTo (a : Rect) (p : ℝ × ℝ) : Rect := ⟨bssmin a.left p.1, bssmin a.top p.2, bssmax a.right p.1, bssmax a.bottom p.2⟩

/-- `Union`, `Geometry.h:286`. -/
noncomputable def Rect.union (a b : Rect) : Rect := ⟨bssmin a.left b.left, bssmin a.top b.top, bssmax a.right b.right, bssmax a.bottom b.bottom⟩

/-- `Intersection`, `Geometry.h:288`. -/
noncomputable def Rect.intersection (a b : Rect) : Rect :=
  if !a.rectCollide b then ⟨a.left, a.top, a.left, a.top⟩
  else ⟨bssmax a.left b.left, bssmax a.top b.top, bssmin a.right b.right, bssmin a.bottom b.bottom⟩

/-- `Inflate`, `Geometry.h:276`. -/
def Rect.inflate (a : Rect) (amount : ℝ) : Rect := ⟨a.left - amount, a.top - amount, a.right + amount, a.bottom + amount⟩

/-- `Area`, `Geometry.h:271`. -/
def Rect.area (a : Rect) : ℝ := (a.right - a.left) * (a.bottom - a.top)

/-- `BoundingCircle`, `Geometry.h:273`, with `Dist`, `bss_util.h:675-678`. -/
noncomputable def Rect.boundingCircle (a : Rect) : (ℝ × ℝ) × ℝ :=
  let center := ((a.left + a.right) / 2, (a.top + a.bottom) / 2)
  (center, √((center.1 - a.left) * (center.1 - a.left) + (center.2 - a.top) * (center.2 - a.top)))

open Classical in
/-- `RectExpandTo`, `Geometry.h:372-378`. -/
noncomputable def rectExpandTo (r : Rect) (p : ℝ × ℝ) : Rect :=
  let r := if p.1 < r.left then { r with left := p.1 } else if p.1 > r.right then { r with right := p.1 } else r
  if p.2 < r.top then { r with top := p.2 } else if p.2 > r.bottom then { r with bottom := p.2 } else r

/-- `PolygonAABB`, `Geometry.h:672-679`, for the first vertex and the others. -/
noncomputable def polygonAABB (v : ℝ × ℝ) (vs : List (ℝ × ℝ)) : Rect := vs.foldl rectExpandTo ⟨v.1, v.2, v.1, v.2⟩

open Classical in
/-- `RectCircleCollide`, `Collision.h:385-399`; `abs` is the one of floating point numbers. -/
noncomputable def rectCircleCollide (left top right bottom X Y R : ℝ) : Bool :=
  let rwh := (right - left) / 2
  let rhh := (bottom - top) / 2
  let cx := |X - (right + left) / 2|
  let cy := |Y - (bottom + top) / 2|
  if cx > rwh + R ∨ cy > rhh + R then false
  else if cx ≤ rwh ∨ cy ≤ rhh then true
  else
    let cx := cx - rwh
    let cy := cy - rhh
    let rwh := cx * cx + cy * cy
    decide (rwh ≤ R * R)

/-- `EllipseContainsPoint`, `Collision.h:491-496`. -/
noncomputable def ellipseContainsPoint (X Y A B x y : ℝ) : Prop :=
  let tx := X - x
  let ty := Y - y
  tx * tx / (A * A) + ty * ty / (B * B) ≤ 1

/-- `EllipseRectCollide`, `Collision.h:540-544`. -/
noncomputable def ellipseRectCollide (X Y A B left top right bottom : ℝ) : Bool :=
  let s := A / B
  rectCircleCollide left (top * s) right (bottom * s) X (Y * s) A

open Classical in
/-- `RectLineCollide`, `Collision.h:402-440`. -/
noncomputable def rectLineCollide (left top right bottom X1 Y1 X2 Y2 : ℝ) : Bool :=
  let m := X2 - X1
  if m = 0 then !decide (X1 < left ∨ X2 > right ∨ (Y1 < top ∧ Y2 < top) ∨ (Y1 > bottom ∧ Y2 < bottom))
  else
    let m := (Y2 - Y1) / m
    let c := Y1 - m * X1
    let ti := if m > 0 then m * left + c else m * right + c
    let bi := if m > 0 then m * right + c else m * left + c
    let tp := if Y1 < Y2 then Y1 else Y2
    let bp := if Y1 < Y2 then Y2 else Y1
    let ti := if ti > tp then ti else tp
    let bi := if bi < bp then bi else bp
    decide (ti < bi) && !(decide (bi < top) || decide (ti > bottom))

/-! ## Specification -/

/-- The points of a rectangle with its borders. -/
def Rect.box (a : Rect) : Set (ℝ × ℝ) := {p | a.left ≤ p.1 ∧ p.1 ≤ a.right ∧ a.top ≤ p.2 ∧ p.2 ≤ a.bottom}

/-! ## Points and rectangles -/

theorem bssmin_eq (a b : ℝ) : bssmin a b = min a b := by
  unfold bssmin
  split
  · rw [min_eq_left (by linarith)]
  · rw [min_eq_right (by linarith)]

theorem bssmax_eq (a b : ℝ) : bssmax a b = max a b := by
  unfold bssmax
  split
  · rw [max_eq_left (by linarith)]
  · rw [max_eq_right (by linarith)]

theorem containsPoint_iff (a : Rect) (X Y : ℝ) : a.containsPoint X Y = true ↔ (a.left ≤ X ∧ X < a.right) ∧ a.top ≤ Y ∧ Y < a.bottom := by
  rw [Rect.containsPoint, decide_eq_true_iff]
  tauto

/-- **C113**: the decisions about rectangles agree with the sets of points; the left and top border belong to a rectangle, the others count for collisions only. -/
theorem C113_decisions (a b : Rect) (hb : b.isCanonical = true) (ha : a.isCanonical = true) :
    (∀ X Y, a.containsPoint X Y = true → (X, Y) ∈ a.box) ∧ (a.containsRect b = true ↔ b.box ⊆ a.box) ∧ (a.rectCollide b = true ↔ (a.box ∩ b.box).Nonempty) := by
  rw [Rect.isCanonical, decide_eq_true_iff] at ha hb
  refine ⟨?_, ?_, ?_⟩
  · intro X Y h
    rw [containsPoint_iff] at h
    exact ⟨h.1.1, h.1.2.le, h.2.1, h.2.2.le⟩
  · rw [Rect.containsRect, decide_eq_true_iff]
    constructor
    · rintro ⟨h1, h2, h3, h4⟩ p ⟨p1, p2, p3, p4⟩
      exact ⟨by linarith, by linarith, by linarith, by linarith⟩
    · intro h
      have h1 := h (show (b.left, b.top) ∈ b.box from ⟨le_rfl, hb.1, le_rfl, hb.2⟩)
      have h2 := h (show (b.right, b.bottom) ∈ b.box from ⟨hb.1, le_rfl, hb.2, le_rfl⟩)
      exact ⟨h1.1, h1.2.2.1, h2.2.1, h2.2.2.2⟩
  · rw [Rect.rectCollide, decide_eq_true_iff]
    constructor
    · rintro ⟨h1, h2, h3, h4⟩
      refine ⟨(max a.left b.left, max a.top b.top), ⟨le_max_left _ _, ?_, le_max_left _ _, ?_⟩, le_max_right _ _, ?_, le_max_right _ _, ?_⟩
      · exact max_le ha.1 h1
      · exact max_le ha.2 h2
      · exact max_le h3 hb.1
      · exact max_le h4 hb.2
    · rintro ⟨p, ⟨p1, p2, p3, p4⟩, q1, q2, q3, q4⟩
      exact ⟨by linarith, by linarith, by linarith, by linarith⟩

/-- **C113**: if a rectangle is cut in two, every point of it is in exactly one of the parts. -/
theorem C113_split (a : Rect) (x y X Y : ℝ) (hx : a.left ≤ x ∧ x ≤ a.right) (hy : a.top ≤ y ∧ y ≤ a.bottom) :
    a.containsPoint X Y = Bool.xor (Rect.containsPoint { a with right := x } X Y) (Rect.containsPoint { a with left := x } X Y) ∧
    a.containsPoint X Y = Bool.xor (Rect.containsPoint { a with bottom := y } X Y) (Rect.containsPoint { a with top := y } X Y) := by
  have key : ∀ (p q r : Bool), (p = true ↔ (q = true ∨ r = true)) → ¬ (q = true ∧ r = true) → p = Bool.xor q r := by decide
  constructor
  · apply key
    · simp only [containsPoint_iff]
      constructor
      · rintro ⟨⟨h1, h2⟩, h3⟩
        rcases lt_or_ge X x with h | h
        · exact .inl ⟨⟨h1, h⟩, h3⟩
        · exact .inr ⟨⟨h, h2⟩, h3⟩
      · rintro (⟨⟨h1, h2⟩, h3⟩ | ⟨⟨h1, h2⟩, h3⟩)
        · exact ⟨⟨h1, h2.trans_le hx.2⟩, h3⟩
        · exact ⟨⟨hx.1.trans h1, h2⟩, h3⟩
    · simp only [containsPoint_iff]
      rintro ⟨⟨⟨-, h1⟩, -⟩, ⟨⟨h2, -⟩, -⟩⟩
      linarith
  · apply key
    · simp only [containsPoint_iff]
      constructor
      · rintro ⟨h3, h1, h2⟩
        rcases lt_or_ge Y y with h | h
        · exact .inl ⟨h3, h1, h⟩
        · exact .inr ⟨h3, h, h2⟩
      · rintro (⟨h3, h1, h2⟩ | ⟨h3, h1, h2⟩)
        · exact ⟨h3, h1, h2.trans_le hy.2⟩
        · exact ⟨h3, hy.1.trans h1, h2⟩
    · simp only [containsPoint_iff]
      rintro ⟨⟨-, -, h1⟩, ⟨-, h2, -⟩⟩
      linarith

/-- **C113**: for any two rectangles a point is in the intersection if and only if it is in both. -/
theorem C113_intersection (a b : Rect) (X Y : ℝ) : (a.intersection b).containsPoint X Y = true ↔ a.containsPoint X Y = true ∧ b.containsPoint X Y = true := by
  simp only [containsPoint_iff]
  unfold Rect.intersection
  split
  · rename_i h
    rw [Rect.rectCollide] at h
    simp only [Bool.not_eq_true', decide_eq_false_iff_not] at h
    dsimp only
    constructor
    · rintro ⟨⟨h1, h2⟩, -⟩
      linarith
    · rintro ⟨⟨⟨h1, h2⟩, h3, h4⟩, ⟨h5, h6⟩, h7, h8⟩
      exact absurd ⟨by linarith, by linarith, by linarith, by linarith⟩ h
  · dsimp only
    rw [bssmax_eq, bssmax_eq, bssmin_eq, bssmin_eq, max_le_iff, max_le_iff, lt_min_iff, lt_min_iff]
    tauto

/-- **C113**: the union is the least rectangle that contains both, and expanding to a point gives the least rectangle that contains the rectangle and the point. -/
theorem C113_union (a b : Rect) (p : ℝ × ℝ) (ha : a.isCanonical = true) (hb : b.isCanonical = true) :
    (∀ c : Rect, (a.union b).box ⊆ c.box ↔ a.box ⊆ c.box ∧ b.box ⊆ c.box) ∧ (∀ c : Rect, (a.expandTo p).box ⊆ c.box ↔ a.box ⊆ c.box ∧ p ∈ c.box) := by
  have key : ∀ u c : Rect, u.isCanonical = true → (u.box ⊆ c.box ↔ c.left ≤ u.left ∧ c.top ≤ u.top ∧ u.right ≤ c.right ∧ u.bottom ≤ c.bottom) := by
    intro u c hu
    rw [Rect.isCanonical, decide_eq_true_iff] at hu
    constructor
    · intro h
      have h1 := h (show (u.left, u.top) ∈ u.box from ⟨le_rfl, hu.1, le_rfl, hu.2⟩)
      have h2 := h (show (u.right, u.bottom) ∈ u.box from ⟨hu.1, le_rfl, hu.2, le_rfl⟩)
      exact ⟨h1.1, h1.2.2.1, h2.2.1, h2.2.2.2⟩
    · rintro ⟨h1, h2, h3, h4⟩ p ⟨p1, p2, p3, p4⟩
      exact ⟨by linarith, by linarith, by linarith, by linarith⟩
  have ha' := ha
  have hb' := hb
  rw [Rect.isCanonical, decide_eq_true_iff] at ha' hb'
  constructor
  · intro c
    rw [key a c ha, key b c hb, key]
    · simp only [Rect.union, bssmax_eq, bssmin_eq, le_min_iff, max_le_iff]
      tauto
    · rw [Rect.isCanonical, decide_eq_true_iff]
      simp only [Rect.union, bssmax_eq, bssmin_eq, min_le_iff, le_max_iff]
      exact ⟨.inl (.inl ha'.1), .inl (.inl ha'.2)⟩
  · intro c
    rw [key a c ha, key]
    · simp only [Rect.expandTo, bssmax_eq, bssmin_eq, le_min_iff, max_le_iff, Rect.box, Set.mem_setOf_eq]
      tauto
    · rw [Rect.isCanonical, decide_eq_true_iff]
      simp only [Rect.expandTo, bssmax_eq, bssmin_eq, min_le_iff, le_max_iff]
      exact ⟨.inl (.inl ha'.1), .inl (.inl ha'.2)⟩

/-- **C113**: the canonical form has the same corners in order and, up to the sign, the same area. -/
theorem C113_canonical (a : Rect) : a.canonical.isCanonical = true ∧ a.canonical.area = |a.area| ∧
    ((a.canonical.left = a.left ∧ a.canonical.right = a.right) ∨ (a.canonical.left = a.right ∧ a.canonical.right = a.left)) ∧
    ((a.canonical.top = a.top ∧ a.canonical.bottom = a.bottom) ∨ (a.canonical.top = a.bottom ∧ a.canonical.bottom = a.top)) := by
  simp only [Rect.isCanonical, Rect.canonical, Rect.area, bssmin_eq, bssmax_eq, decide_eq_true_iff]
  refine ⟨⟨min_le_max, min_le_max⟩, ?_, ?_, ?_⟩
  · rw [max_sub_min_eq_abs, max_sub_min_eq_abs, abs_mul]
  · rcases le_total a.left a.right with h | h
    · exact .inl ⟨min_eq_left h, max_eq_right h⟩
    · exact .inr ⟨min_eq_right h, max_eq_left h⟩
  · rcases le_total a.top a.bottom with h | h
    · exact .inl ⟨min_eq_left h, max_eq_right h⟩
    · exact .inr ⟨min_eq_right h, max_eq_left h⟩

/-- **C113**: every point of a rectangle is within its bounding circle, and the corners are on it. -/
theorem C113_boundingCircle (a : Rect) : (∀ p ∈ a.box, InDisc a.boundingCircle.1.1 a.boundingCircle.1.2 a.boundingCircle.2 p) ∧
    ∀ p ∈ [(a.left, a.top), (a.right, a.top), (a.left, a.bottom), (a.right, a.bottom)], OnCircle a.boundingCircle.1.1 a.boundingCircle.1.2 a.boundingCircle.2 p := by
  have hr : a.boundingCircle.2 ^ 2 = ((a.right - a.left) / 2) ^ 2 + ((a.bottom - a.top) / 2) ^ 2 := by
    unfold Rect.boundingCircle
    dsimp only
    rw [Real.sq_sqrt (by nlinarith [mul_self_nonneg ((a.left + a.right) / 2 - a.left), mul_self_nonneg ((a.top + a.bottom) / 2 - a.top)])]
    ring
  constructor
  · rintro p ⟨h1, h2, h3, h4⟩
    unfold InDisc
    rw [hr]
    unfold Rect.boundingCircle
    dsimp only
    nlinarith [mul_nonneg (sub_nonneg.2 h1) (sub_nonneg.2 h2), mul_nonneg (sub_nonneg.2 h3) (sub_nonneg.2 h4)]
  · simp only [List.mem_cons, List.not_mem_nil, or_false, forall_eq_or_imp, forall_eq]
    unfold OnCircle
    rw [hr]
    unfold Rect.boundingCircle
    dsimp only
    refine ⟨?_, ?_, ?_, ?_⟩ <;> ring

theorem rectExpandTo_eq (a : Rect) (p : ℝ × ℝ) (h : a.left ≤ a.right ∧ a.top ≤ a.bottom) : rectExpandTo a p = a.expandTo p := by
  unfold rectExpandTo Rect.expandTo
  simp only [bssmin_eq, bssmax_eq]
  rcases lt_or_ge p.1 a.left with h1 | h1
  · rw [if_pos h1, min_eq_right h1.le, max_eq_left (by linarith)]
    rcases lt_or_ge p.2 a.top with h2 | h2
    · rw [if_pos h2, min_eq_right h2.le, max_eq_left (by linarith)]
    · rw [if_neg (not_lt.2 h2), min_eq_left h2]
      rcases lt_or_ge a.bottom p.2 with h3 | h3
      · rw [if_pos h3, max_eq_right h3.le]
      · rw [if_neg (not_lt.2 h3), max_eq_left h3]
  · rw [if_neg (not_lt.2 h1), min_eq_left h1]
    rcases lt_or_ge a.right p.1 with h4 | h4
    · rw [if_pos h4, max_eq_right h4.le]
      rcases lt_or_ge p.2 a.top with h2 | h2
      · rw [if_pos h2, min_eq_right h2.le, max_eq_left (by linarith)]
      · rw [if_neg (not_lt.2 h2), min_eq_left h2]
        rcases lt_or_ge a.bottom p.2 with h3 | h3
        · rw [if_pos h3, max_eq_right h3.le]
        · rw [if_neg (not_lt.2 h3), max_eq_left h3]
    · rw [if_neg (not_lt.2 h4), max_eq_left h4]
      rcases lt_or_ge p.2 a.top with h2 | h2
      · rw [if_pos h2, min_eq_right h2.le, max_eq_left (by linarith)]
      · rw [if_neg (not_lt.2 h2), min_eq_left h2]
        rcases lt_or_ge a.bottom p.2 with h3 | h3
        · rw [if_pos h3, max_eq_right h3.le]
        · rw [if_neg (not_lt.2 h3), max_eq_left h3]

/-- **C113**: the bounding box of a polygon is the least rectangle that contains all vertices. -/
theorem C113_aabb (v : ℝ × ℝ) (vs : List (ℝ × ℝ)) : (polygonAABB v vs).isCanonical = true ∧ ∀ c : Rect, (polygonAABB v vs).box ⊆ c.box ↔ ∀ p ∈ v :: vs, p ∈ c.box := by
  have gen : ∀ (vs : List (ℝ × ℝ)) (a : Rect), a.isCanonical = true → (vs.foldl rectExpandTo a).isCanonical = true ∧
      ∀ c : Rect, (vs.foldl rectExpandTo a).box ⊆ c.box ↔ a.box ⊆ c.box ∧ ∀ p ∈ vs, p ∈ c.box := by
    intro vs
    induction vs with
    | nil => intro a ha; exact ⟨ha, fun c => by simp⟩
    | cons p vs ih =>
      intro a ha
      have ha' := ha
      rw [Rect.isCanonical, decide_eq_true_iff] at ha'
      rw [List.foldl_cons, rectExpandTo_eq _ _ ha']
      have hc : (a.expandTo p).isCanonical = true := by
        rw [Rect.isCanonical, decide_eq_true_iff]
        simp only [Rect.expandTo, bssmax_eq, bssmin_eq, min_le_iff, le_max_iff]
        exact ⟨.inl (.inl ha'.1), .inl (.inl ha'.2)⟩
      obtain ⟨h1, h2⟩ := ih _ hc
      refine ⟨h1, fun c => ?_⟩
      rw [h2 c, (C113_union a a p ha ha).2 c, List.forall_mem_cons, and_assoc]
  obtain ⟨h1, h2⟩ := gen vs ⟨v.1, v.2, v.1, v.2⟩ (by simp [Rect.isCanonical])
  refine ⟨h1, fun c => ?_⟩
  rw [polygonAABB, h2 c, List.forall_mem_cons]
  refine and_congr_left fun _ => ?_
  constructor
  · intro h
    exact h ⟨le_rfl, le_rfl, le_rfl, le_rfl⟩
  · rintro h q ⟨q1, q2, q3, q4⟩
    have : q = v := by
      ext
      · exact le_antisymm q2 q1
      · exact le_antisymm q4 q3
    rwa [this]

/-! ## Circles and ellipses -/

/-- **C113**: a rectangle and a circle collide if and only if they have a common point, borders included. -/
theorem C113_circle (a : Rect) (X Y R : ℝ) (ha : a.isCanonical = true) (hR : 0 ≤ R) :
    rectCircleCollide a.left a.top a.right a.bottom X Y R = true ↔ ∃ p ∈ a.box, InDisc X Y R p := by
  rw [Rect.isCanonical, decide_eq_true_iff] at ha
  obtain ⟨l, t, r, b⟩ := a
  dsimp only at ha ⊢
  obtain ⟨hx, hy⟩ := ha
  -- distance to an interval of the line
  have low : ∀ l r X p : ℝ, l ≤ p → p ≤ r → |X - (r + l) / 2| - (r - l) / 2 ≤ |p - X| := by
    intro l r X p h1 h2
    rcases abs_cases (X - (r + l) / 2) with h | h <;> rcases abs_cases (p - X) with h' | h' <;> linarith
  have near : ∀ l r X : ℝ, l ≤ r → (r - l) / 2 < |X - (r + l) / 2| → ∃ p, l ≤ p ∧ p ≤ r ∧ |p - X| = |X - (r + l) / 2| - (r - l) / 2 := by
    intro l r X h1 h2
    rcases abs_cases (X - (r + l) / 2) with ⟨h, h'⟩ | ⟨h, h'⟩
    · refine ⟨r, h1, le_rfl, ?_⟩
      rw [h] at h2 ⊢
      rw [abs_of_nonpos (by linarith)]
      ring
    · refine ⟨l, le_rfl, h1, ?_⟩
      rw [h] at h2 ⊢
      rw [abs_of_nonneg (by linarith)]
      ring
  have inside : ∀ l r X : ℝ, |X - (r + l) / 2| ≤ (r - l) / 2 → l ≤ X ∧ X ≤ r := by
    intro l r X h
    rw [abs_le] at h
    constructor <;> linarith [h.1, h.2]
  unfold rectCircleCollide
  dsimp only
  by_cases h1 : |X - (r + l) / 2| > (r - l) / 2 + R ∨ |Y - (b + t) / 2| > (b - t) / 2 + R
  · rw [if_pos h1]
    simp only [Bool.false_eq_true, false_iff]
    rintro ⟨p, ⟨p1, p2, p3, p4⟩, hp⟩
    unfold InDisc at hp
    have e1 := low l r X p.1 p1 p2
    have e2 := low t b Y p.2 p3 p4
    have f1 : |p.1 - X| ≤ R := abs_le_of_sq_le_sq (by nlinarith [sq_nonneg (p.2 - Y)]) hR
    have f2 : |p.2 - Y| ≤ R := abs_le_of_sq_le_sq (by nlinarith [sq_nonneg (p.1 - X)]) hR
    rcases h1 with h | h <;> linarith
  · rw [if_neg h1]
    push Not at h1
    by_cases h2 : |X - (r + l) / 2| ≤ (r - l) / 2 ∨ |Y - (b + t) / 2| ≤ (b - t) / 2
    · rw [if_pos h2]
      simp only [true_iff]
      have px : ∃ p, l ≤ p ∧ p ≤ r ∧ |p - X| ≤ R ∧ (|X - (r + l) / 2| ≤ (r - l) / 2 → p = X) := by
        by_cases h : |X - (r + l) / 2| ≤ (r - l) / 2
        · exact ⟨X, (inside l r X h).1, (inside l r X h).2, by simpa using hR, fun _ => rfl⟩
        · obtain ⟨p, a, b, c⟩ := near l r X hx (not_le.1 h)
          exact ⟨p, a, b, by rw [c]; linarith [h1.1], fun h' => absurd h' h⟩
      have py : ∃ p, t ≤ p ∧ p ≤ b ∧ |p - Y| ≤ R ∧ (|Y - (b + t) / 2| ≤ (b - t) / 2 → p = Y) := by
        by_cases h : |Y - (b + t) / 2| ≤ (b - t) / 2
        · exact ⟨Y, (inside t b Y h).1, (inside t b Y h).2, by simpa using hR, fun _ => rfl⟩
        · obtain ⟨p, a, b, c⟩ := near t b Y hy (not_le.1 h)
          exact ⟨p, a, b, by rw [c]; linarith [h1.2], fun h' => absurd h' h⟩
      obtain ⟨p, a1, a2, a3, a4⟩ := px
      obtain ⟨q, b1, b2, b3, b4⟩ := py
      refine ⟨(p, q), ⟨a1, a2, b1, b2⟩, ?_⟩
      unfold InDisc
      dsimp only
      rcases h2 with h | h
      · rw [a4 h, sub_self]
        have := sq_le_sq' (by linarith [abs_le.1 b3 |>.1]) (abs_le.1 b3 |>.2)
        linarith
      · rw [b4 h, sub_self]
        have := sq_le_sq' (by linarith [abs_le.1 a3 |>.1]) (abs_le.1 a3 |>.2)
        linarith
    · rw [if_neg h2, decide_eq_true_iff]
      push Not at h2
      constructor
      · intro h
        obtain ⟨p, a1, a2, a3⟩ := near l r X hx h2.1
        obtain ⟨q, b1, b2, b3⟩ := near t b Y hy h2.2
        refine ⟨(p, q), ⟨a1, a2, b1, b2⟩, ?_⟩
        unfold InDisc
        dsimp only
        rw [← sq_abs (p - X), ← sq_abs (q - Y), a3, b3]
        nlinarith
      · rintro ⟨p, ⟨p1, p2, p3, p4⟩, hp⟩
        unfold InDisc at hp
        have e1 := low l r X p.1 p1 p2
        have e2 := low t b Y p.2 p3 p4
        rw [← sq_abs (p.1 - X), ← sq_abs (p.2 - Y)] at hp
        nlinarith [h2.1, h2.2]

/-- **C113**: a rectangle and an ellipse with axes A and B collide if and only if they have a common point. -/
theorem C113_ellipse (a : Rect) (X Y A B : ℝ) (ha : a.isCanonical = true) (hA : 0 < A) (hB : 0 < B) :
    ellipseRectCollide X Y A B a.left a.top a.right a.bottom = true ↔ ∃ p ∈ a.box, ellipseContainsPoint X Y A B p.1 p.2 := by
  have ha' := ha
  rw [Rect.isCanonical, decide_eq_true_iff] at ha'
  have hs : 0 < A / B := by positivity
  unfold ellipseRectCollide
  dsimp only
  have := C113_circle ⟨a.left, a.top * (A / B), a.right, a.bottom * (A / B)⟩ X (Y * (A / B)) A
    (by rw [Rect.isCanonical, decide_eq_true_iff]; exact ⟨ha'.1, mul_le_mul_of_nonneg_right ha'.2 hs.le⟩) hA.le
  dsimp only at this
  rw [this]
  have eq : ∀ x y : ℝ, InDisc X (Y * (A / B)) A (x, y * (A / B)) ↔ ellipseContainsPoint X Y A B x y := by
    intro x y
    unfold InDisc ellipseContainsPoint
    dsimp only
    have : A * A * ((X - x) * (X - x) / (A * A) + (Y - y) * (Y - y) / (B * B)) = (x - X) ^ 2 + (y * (A / B) - Y * (A / B)) ^ 2 := by
      field_simp
      ring
    rw [← this, sq A]
    exact mul_le_iff_le_one_right (by positivity)
  constructor
  · rintro ⟨p, ⟨p1, p2, p3, p4⟩, hp⟩
    dsimp only at p1 p2 p3 p4
    refine ⟨(p.1, p.2 / (A / B)), ⟨p1, p2, ?_, ?_⟩, ?_⟩
    · exact (le_div_iff₀ hs).2 p3
    · exact (div_le_iff₀ hs).2 p4
    · rw [← eq, div_mul_cancel₀ _ hs.ne']
      exact hp
  · rintro ⟨p, ⟨p1, p2, p3, p4⟩, hp⟩
    exact ⟨(p.1, p.2 * (A / B)), ⟨p1, p2, mul_le_mul_of_nonneg_right p3 hs.le, mul_le_mul_of_nonneg_right p4 hs.le⟩, (eq _ _).2 hp⟩

/-- A circle near a corner. -/
example : rectCircleCollide 0 0 2 2 3 3 1 = false ∧ rectCircleCollide 0 0 2 2 3 3 (3 / 2) = true := by
  unfold rectCircleCollide
  constructor <;> norm_num [abs_of_pos]

end Verif.Geo
