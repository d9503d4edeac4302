import Verif.Geo.Rect

/-!
# Rectangle against segment (C114)

The model is in `Verif/Geo/Rect.lean`.
-/

namespace Verif.Geo

theorem seg_graph {X1 Y1 X2 Y2 m : ℝ} (hX : X1 ≠ X2) (em : m * (X2 - X1) = Y2 - Y1) (p : ℝ × ℝ) :
    p ∈ segOf (X1, Y1) (X2, Y2) ↔ min X1 X2 ≤ p.1 ∧ p.1 ≤ max X1 X2 ∧ p.2 = m * p.1 + (Y1 - m * X1) := by
  constructor
  · rintro ⟨t, h0, h1, rfl⟩
    unfold along
    dsimp only
    refine ⟨?_, ?_, by linear_combination -t * em⟩
    · rcases le_total X1 X2 with h | h
      · rw [min_eq_left h]; nlinarith
      · rw [min_eq_right h]; nlinarith
    · rcases le_total X1 X2 with h | h
      · rw [max_eq_right h]; nlinarith
      · rw [max_eq_left h]; nlinarith
  · rintro ⟨h1, h2, h3⟩
    have hd : X2 - X1 ≠ 0 := sub_ne_zero.2 hX.symm
    have e : (p.1 - X1) / (X2 - X1) * (X2 - X1) = p.1 - X1 := div_mul_cancel₀ _ hd
    refine ⟨(p.1 - X1) / (X2 - X1), ?_, ?_, ?_⟩
    · rcases lt_or_gt_of_ne hX with h | h
      · rw [min_eq_left h.le] at h1
        exact div_nonneg (by linarith) (by linarith)
      · rw [max_eq_left h.le] at h2
        exact div_nonneg_of_nonpos (by linarith) (by linarith)
    · rcases lt_or_gt_of_ne hX with h | h
      · rw [max_eq_right h.le] at h2
        exact (div_le_one (by linarith)).2 (by linarith)
      · rw [min_eq_right h.le] at h1
        rw [div_le_one_of_neg (by linarith)]
        linarith
    · unfold along
      ext
      · dsimp only
        linear_combination -e
      · dsimp only
        rw [h3]
        linear_combination -m * e - (p.1 - X1) / (X2 - X1) * (-em)

theorem slanted {left top right bottom X1 Y1 X2 Y2 : ℝ} (hlr : left < right) (htb : top ≤ bottom) (hX : X1 ≠ X2) (hY : Y1 ≠ Y2) (h1 : max X1 X2 ≠ left) (h2 : min X1 X2 ≠ right) :
    rectLineCollide left top right bottom X1 Y1 X2 Y2 = true ↔ ∃ p ∈ (Rect.mk left top right bottom).box, p ∈ segOf (X1, Y1) (X2, Y2) := by
  have hm : X2 - X1 ≠ 0 := sub_ne_zero.2 hX.symm
  have hy : Y2 - Y1 ≠ 0 := sub_ne_zero.2 hY.symm
  unfold rectLineCollide
  dsimp only
  rw [if_neg hm]
  set m := (Y2 - Y1) / (X2 - X1) with hmd
  have em : m * (X2 - X1) = Y2 - Y1 := by rw [hmd, div_mul_cancel₀ _ hm]
  have m0 : m ≠ 0 := by
    intro h
    rw [h, zero_mul] at em
    exact hy em.symm
  have htp : (if Y1 < Y2 then Y1 else Y2) = min Y1 Y2 := by
    split
    · rw [min_eq_left (by linarith)]
    · rw [min_eq_right (by linarith)]
  have hbp : (if Y1 < Y2 then Y2 else Y1) = max Y1 Y2 := by
    split
    · rw [max_eq_right (by linarith)]
    · rw [max_eq_left (by linarith)]
  rw [htp, hbp]
  have hmx : ∀ a b : ℝ, (if a > b then a else b) = max a b := by
    intro a b
    split
    · rw [max_eq_left (by linarith)]
    · rw [max_eq_right (by linarith)]
  have hmn : ∀ a b : ℝ, (if a < b then a else b) = min a b := by
    intro a b
    split
    · rw [min_eq_left (by linarith)]
    · rw [min_eq_right (by linarith)]
  rw [hmx, hmn]
  set c := Y1 - m * X1 with hc
  set a := max left (min X1 X2) with ha
  set b := min right (max X1 X2) with hb
  have hXX : min X1 X2 < max X1 X2 := by
    rcases lt_or_gt_of_ne hX with h | h
    · rw [min_eq_left h.le, max_eq_right h.le]; exact h
    · rw [min_eq_right h.le, max_eq_left h.le]; exact h
  have eY1 : Y1 = m * X1 + c := by rw [hc]; ring
  have eY2 : Y2 = m * X2 + c := by rw [hc]; linarith
  obtain ⟨lo, hi, elo, ehi, hA, hB, hC⟩ : ∃ lo hi, max (if m > 0 then m * left + c else m * right + c) (min Y1 Y2) = lo ∧ min (if m > 0 then m * right + c else m * left + c) (max Y1 Y2) = hi ∧
      (∀ x, a ≤ x → x ≤ b → lo ≤ m * x + c ∧ m * x + c ≤ hi) ∧ (∀ y, lo ≤ y → y ≤ hi → ∃ x, a ≤ x ∧ x ≤ b ∧ y = m * x + c) ∧ (lo < hi ↔ a < b) := by
    rcases lt_or_gt_of_ne m0 with hneg | hpos
    · rw [if_neg (by linarith), if_neg (by linarith)]
      have anti : ∀ x y, x ≤ y → m * y + c ≤ m * x + c := fun x y h => by nlinarith
      have e1 : max (m * right + c) (min Y1 Y2) = m * b + c := by
        rw [eY1, eY2, hb]
        rcases le_total X1 X2 with h | h
        · rw [max_eq_right h, min_eq_right (anti _ _ h)]
          rcases le_total right X2 with h' | h'
          · rw [min_eq_left h', max_eq_left (anti _ _ h')]
          · rw [min_eq_right h', max_eq_right (anti _ _ h')]
        · rw [max_eq_left h, min_eq_left (anti _ _ h)]
          rcases le_total right X1 with h' | h'
          · rw [min_eq_left h', max_eq_left (anti _ _ h')]
          · rw [min_eq_right h', max_eq_right (anti _ _ h')]
      have e2 : min (m * left + c) (max Y1 Y2) = m * a + c := by
        rw [eY1, eY2, ha]
        rcases le_total X1 X2 with h | h
        · rw [min_eq_left h, max_eq_left (anti _ _ h)]
          rcases le_total left X1 with h' | h'
          · rw [max_eq_right h', min_eq_right (anti _ _ h')]
          · rw [max_eq_left h', min_eq_left (anti _ _ h')]
        · rw [min_eq_right h, max_eq_right (anti _ _ h)]
          rcases le_total left X2 with h' | h'
          · rw [max_eq_right h', min_eq_right (anti _ _ h')]
          · rw [max_eq_left h', min_eq_left (anti _ _ h')]
      refine ⟨_, _, e1, e2, fun x h h' => ⟨anti _ _ h', anti _ _ h⟩, fun y h h' => ⟨(y - c) / m, ?_, ?_, ?_⟩, ?_⟩
      · rw [le_div_iff_of_neg hneg]; linarith
      · rw [div_le_iff_of_neg hneg]; linarith
      · rw [mul_div_cancel₀ _ m0]; ring
      · constructor
        · intro h; by_contra hcon; push Not at hcon; nlinarith
        · intro h; nlinarith
    · rw [if_pos hpos, if_pos hpos]
      have mono : ∀ x y, x ≤ y → m * x + c ≤ m * y + c := fun x y h => by nlinarith
      have e1 : max (m * left + c) (min Y1 Y2) = m * a + c := by
        rw [eY1, eY2, ha]
        rcases le_total X1 X2 with h | h
        · rw [min_eq_left h, min_eq_left (mono _ _ h)]
          rcases le_total left X1 with h' | h'
          · rw [max_eq_right h', max_eq_right (mono _ _ h')]
          · rw [max_eq_left h', max_eq_left (mono _ _ h')]
        · rw [min_eq_right h, min_eq_right (mono _ _ h)]
          rcases le_total left X2 with h' | h'
          · rw [max_eq_right h', max_eq_right (mono _ _ h')]
          · rw [max_eq_left h', max_eq_left (mono _ _ h')]
      have e2 : min (m * right + c) (max Y1 Y2) = m * b + c := by
        rw [eY1, eY2, hb]
        rcases le_total X1 X2 with h | h
        · rw [max_eq_right h, max_eq_right (mono _ _ h)]
          rcases le_total right X2 with h' | h'
          · rw [min_eq_left h', min_eq_left (mono _ _ h')]
          · rw [min_eq_right h', min_eq_right (mono _ _ h')]
        · rw [max_eq_left h, max_eq_left (mono _ _ h)]
          rcases le_total right X1 with h' | h'
          · rw [min_eq_left h', min_eq_left (mono _ _ h')]
          · rw [min_eq_right h', min_eq_right (mono _ _ h')]
      refine ⟨_, _, e1, e2, fun x h h' => ⟨mono _ _ h, mono _ _ h'⟩, fun y h h' => ⟨(y - c) / m, ?_, ?_, ?_⟩, ?_⟩
      · rw [le_div_iff₀ hpos]; linarith
      · rw [div_le_iff₀ hpos]; linarith
      · rw [mul_div_cancel₀ _ m0]; ring
      · constructor
        · intro h; by_contra hcon; push Not at hcon; nlinarith
        · intro h; nlinarith
  rw [elo, ehi]
  simp only [Bool.and_eq_true, decide_eq_true_iff, Bool.not_eq_true', Bool.or_eq_false_iff, decide_eq_false_iff_not, not_lt, gt_iff_lt]
  have hp : ∀ p : ℝ × ℝ, p ∈ (Rect.mk left top right bottom).box ∧ p ∈ segOf (X1, Y1) (X2, Y2) ↔ (a ≤ p.1 ∧ p.1 ≤ b) ∧ p.2 = m * p.1 + c ∧ top ≤ p.2 ∧ p.2 ≤ bottom := by
    intro p
    rw [seg_graph hX em, ha, hb, max_le_iff, le_min_iff]
    unfold Rect.box
    simp only [Set.mem_setOf_eq]
    tauto
  simp only [hp]
  constructor
  · rintro ⟨hlt, h3, h4⟩
    obtain ⟨x, hx1, hx2, hx3⟩ := hB (max lo top) (le_max_left _ _) (max_le hlt.le h3)
    exact ⟨(x, max lo top), ⟨hx1, hx2⟩, hx3, le_max_right _ _, max_le h4 htb⟩
  · rintro ⟨p, ⟨p1, p2⟩, p3, p4, p5⟩
    obtain ⟨q1, q2⟩ := hA p.1 p1 p2
    rw [← p3] at q1 q2
    refine ⟨hC.2 ?_, by linarith, by linarith⟩
    rw [ha, hb, max_lt_iff, lt_min_iff, lt_min_iff]
    have hab : a ≤ b := p1.trans p2
    rw [ha, hb, max_le_iff, le_min_iff, le_min_iff] at hab
    exact ⟨⟨hlr, lt_of_le_of_ne hab.1.2 (Ne.symm h1)⟩, lt_of_le_of_ne hab.2.1 h2, hXX⟩

/-- **C114**: a rectangle and a segment collide if and only if they have a common point, for segments that are neither horizontal nor vertical and do not touch the left or right
border with an end from outside, and for vertical ones with the first point not below the rectangle. Missing: the other segments, see the counterexamples. -/
theorem C114_partial (left top right bottom X1 Y1 X2 Y2 : ℝ) (hlr : left < right) (htb : top ≤ bottom)
    (h : (X1 ≠ X2 ∧ Y1 ≠ Y2 ∧ max X1 X2 ≠ left ∧ min X1 X2 ≠ right) ∨ (X1 = X2 ∧ Y1 ≤ bottom)) :
    rectLineCollide left top right bottom X1 Y1 X2 Y2 = true ↔ ∃ p ∈ (Rect.mk left top right bottom).box, p ∈ segOf (X1, Y1) (X2, Y2) := by
  rcases h with ⟨hX, hY, h1, h2⟩ | ⟨rfl, hY⟩
  · exact slanted hlr htb hX hY h1 h2
  · unfold rectLineCollide
    dsimp only
    rw [if_pos (sub_self _)]
    simp only [Bool.not_eq_true', decide_eq_false_iff_not]
    push Not
    constructor
    · rintro ⟨h1, h2, h3, -⟩
      -- the end that is not above, or the border
      by_cases hy1 : top ≤ Y1
      · exact ⟨(X1, Y1), ⟨h1, h2, hy1, hY⟩, 0, le_rfl, zero_le_one, by unfold along; ext <;> dsimp only <;> ring⟩
      · have hy2 := h3 (by linarith)
        have hd : 0 < Y2 - Y1 := by linarith
        refine ⟨(X1, top), ⟨h1, h2, le_rfl, htb⟩, (top - Y1) / (Y2 - Y1), div_nonneg (by linarith) hd.le, (div_le_one hd).2 (by linarith), ?_⟩
        unfold along
        ext
        · dsimp only
          ring
        · dsimp only
          rw [mul_div_cancel₀ _ hd.ne']
          ring
    · rintro ⟨p, ⟨p1, p2, p3, p4⟩, t, t0, t1, rfl⟩
      unfold along at p1 p2 p3 p4
      dsimp only at p1 p2 p3 p4
      rw [sub_self, zero_mul, add_zero] at p1 p2
      refine ⟨p1, p2, fun h => ?_, fun h => ?_⟩
      · by_contra hc
        push Not at hc
        rcases le_total t (1 / 2) with h' | h'
        · nlinarith [mul_pos (show 0 < 1 - t by linarith) (sub_pos.2 h), mul_nonneg t0 (sub_pos.2 hc).le]
        · nlinarith [mul_pos (show 0 < t by linarith) (sub_pos.2 hc), mul_nonneg (sub_nonneg.2 t1) (sub_pos.2 h).le]
      · linarith

/-- A diagonal through a corner region. -/
example : (3 : ℝ) ≠ 5 ∧ rectLineCollide 0 0 4 4 3 5 5 3 = true := by
  refine ⟨by norm_num, ?_⟩
  unfold rectLineCollide
  norm_num

/-- Horizontal segments are never found. -/
theorem C114_horizontal_counterexample : rectLineCollide 0 0 4 4 1 1 3 1 = false ∧ (1, 1) ∈ (Rect.mk 0 0 4 4).box ∧ (1, 1) ∈ segOf (1, 1) (3, 1) := by
  refine ⟨?_, ⟨by norm_num, by norm_num, by norm_num, by norm_num⟩, 0, le_rfl, zero_le_one, by norm_num [along]⟩
  unfold rectLineCollide
  norm_num

/-- A vertical segment below the rectangle is taken for a collision, and one that enters from below is not. -/
theorem C114_vertical_counterexample : rectLineCollide 0 0 4 4 1 8 1 9 = true ∧ (∀ p ∈ segOf (1, 8) (1, 9), p ∉ (Rect.mk 0 0 4 4).box) ∧
    rectLineCollide 0 0 4 4 1 8 1 2 = false ∧ (1, 2) ∈ segOf (1, 8) (1, 2) ∧ (1, 2) ∈ (Rect.mk 0 0 4 4).box := by
  refine ⟨?_, ?_, ?_, ⟨1, zero_le_one, le_rfl, by norm_num [along]⟩, ⟨by norm_num, by norm_num, by norm_num, by norm_num⟩⟩
  · unfold rectLineCollide
    norm_num
  · rintro _ ⟨t, h0, h1, rfl⟩ ⟨-, -, -, h⟩
    unfold along at h
    dsimp only at h
    linarith
  · unfold rectLineCollide
    norm_num

/-- A segment that ends on the left border is not found. -/
theorem C114_touch_counterexample : rectLineCollide 0 0 4 4 (-1) 1 0 2 = false ∧ (0, 2) ∈ (Rect.mk 0 0 4 4).box ∧ (0, 2) ∈ segOf (-1, 1) (0, 2) := by
  refine ⟨?_, ⟨by norm_num, by norm_num, by norm_num, by norm_num⟩, 1, zero_le_one, le_rfl, by norm_num [along]⟩
  unfold rectLineCollide
  norm_num

end Verif.Geo
