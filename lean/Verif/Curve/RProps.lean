import Verif.Curve.AModel
import Mathlib.Tactic.Ring
import Mathlib.Tactic.FieldSimp
import Mathlib.Tactic.Linarith
import Mathlib.Tactic.LinearCombination
import Mathlib.Tactic.NormNum
import Mathlib.Analysis.SpecialFunctions.Trigonometric.Inverse
import Mathlib.Analysis.SpecialFunctions.Pow.Real

/-!
# The cubic equation (C79) and the bracketing root finder (C81)
-/

namespace Verif.Curve

variable {K : Type} [Field K] [LinearOrder K] [IsStrictOrderedRing K]

omit [LinearOrder K] [IsStrictOrderedRing K] in
/-- The substitution that removes the quadratic term. -/
theorem depress [CharZero K] {A B C D : K} (hA : A ≠ 0) (y : K) :
    A * y ^ 3 + B * y ^ 2 + C * y + D = A * ((y - -(B / A) / 3) ^ 3 + (C / A - B / A * (B / A) / 3) * (y - -(B / A) / 3) +
      (B / A * (2 * (B / A) * (B / A) - 9 * (C / A)) / 27 + D / A)) := by
  field_simp
  ring

/-- Cubes are injective. -/
theorem cube_inj {x y : K} (h : x ^ 3 = y ^ 3) : x = y := by
  by_contra hne
  have h1 : (x - y) * (x ^ 2 + x * y + y ^ 2) = 0 := by linear_combination h
  rcases mul_eq_zero.1 h1 with h2 | h2
  · exact hne (sub_eq_zero.1 h2)
  · have h3 : (x + y / 2) ^ 2 + 3 / 4 * y ^ 2 = 0 := by linear_combination h2
    have hy : y = 0 := by
      have : y ^ 2 = 0 := by nlinarith [sq_nonneg (x + y / 2), sq_nonneg y]
      exact pow_eq_zero_iff (two_ne_zero) |>.1 this
    subst hy
    have : x ^ 2 = 0 := by linear_combination h2
    exact hne (pow_eq_zero_iff (two_ne_zero) |>.1 this)

/-- The functions of the library, in exact arithmetic. -/
structure Exact (sqrt cbrt acos cos sin : K → K) (w : K) : Prop where
  sqrt_ok : ∀ x, 0 ≤ x → 0 ≤ sqrt x ∧ sqrt x * sqrt x = x
  cbrt_ok : ∀ x, cbrt x ^ 3 = x
  cos_ok : ∀ y, -1 ≤ y → y ≤ 1 → 4 * cos (acos y / 3) ^ 3 - 3 * cos (acos y / 3) = y
  sin_ok : ∀ v, cos v ^ 2 + sin v ^ 2 = 1
  w_ok : w * w = 3

/-- **C79**: every number `solveCubic` returns is a root, and every simple root is returned. (Missing: a double root beside another root is not returned, see `C79_double_counterexample`.) -/
theorem C79_cubic_partial {sqrt cbrt acos cos sin : K → K} {w : K} (hx : Exact sqrt cbrt acos cos sin w) {A B C D : K} (hA : A ≠ 0) :
    (∀ r ∈ solveCubic sqrt cbrt acos cos sin w A B C D, A * r ^ 3 + B * r ^ 2 + C * r + D = 0) ∧
    (∀ y, A * y ^ 3 + B * y ^ 2 + C * y + D = 0 → 3 * A * y ^ 2 + 2 * B * y + C ≠ 0 → y ∈ solveCubic sqrt cbrt acos cos sin w A B C D) := by
  have hdep := depress (A := A) (B := B) (C := C) (D := D) hA
  have hder : ∀ y, 3 * A * y ^ 2 + 2 * B * y + C = A * (3 * (y - -(B / A) / 3) ^ 2 + (C / A - B / A * (B / A) / 3)) := fun y => by field_simp; ring
  simp only [solveCubic]
  generalize hp : C / A - B / A * (B / A) / 3 = p at *
  generalize hq : B / A * (2 * (B / A) * (B / A) - 9 * (C / A)) / 27 + D / A = q at *
  generalize -(B / A) / 3 = o at *
  by_cases hd : 0 ≤ q * q + 4 * (p * p * p) / 27
  · rw [if_pos hd]
    obtain ⟨-, hz⟩ := hx.sqrt_ok _ hd
    generalize sqrt (q * q + 4 * (p * p * p) / 27) = z at hz
    have hu := hx.cbrt_ok ((-q + z) / 2)
    have hv := hx.cbrt_ok ((-q - z) / 2)
    generalize cbrt ((-q + z) / 2) = u at hu ⊢
    generalize cbrt ((-q - z) / 2) = v at hv ⊢
    have huv : u * v = -p / 3 := by
      apply cube_inj
      rw [mul_pow, hu, hv]
      field_simp
      linear_combination (-27 : K) * hz
    have hroot : (u + v) ^ 3 + p * (u + v) + q = 0 := by
      linear_combination hu + hv + 3 * (u + v) * huv
    constructor
    · intro r hr
      rw [List.mem_singleton] at hr
      subst hr
      rw [hdep, show o + u + v - o = u + v by ring, hroot, mul_zero]
    · intro y hy hs
      rw [hdep] at hy
      rw [hder] at hs
      rw [List.mem_singleton]
      have hy' := (mul_eq_zero.1 hy).resolve_left hA
      have hs' := right_ne_zero_of_mul hs
      generalize hY : y - o = Y at hy' hs'
      have h1 : (Y - (u + v)) * (Y ^ 2 + Y * (u + v) + (u + v) ^ 2 + p) = 0 := by linear_combination hy' - hroot
      rcases mul_eq_zero.1 h1 with h2 | h2
      · linear_combination hY + h2
      · exfalso
        have hp' : p = -3 * (u * v) := by linear_combination (3 : K) * huv
        have h3 : (2 * Y + (u + v)) ^ 2 + 3 * (u - v) ^ 2 = 0 := by rw [hp'] at h2; linear_combination 4 * h2
        have h4 : (u - v) ^ 2 = 0 := by nlinarith [sq_nonneg (2 * Y + (u + v)), sq_nonneg (u - v)]
        have h5 : (2 * Y + (u + v)) ^ 2 = 0 := by nlinarith [sq_nonneg (2 * Y + (u + v)), sq_nonneg (u - v)]
        have h6 := pow_eq_zero_iff (two_ne_zero) |>.1 h4
        have h7 := pow_eq_zero_iff (two_ne_zero) |>.1 h5
        have h8 : u = v := sub_eq_zero.1 h6
        subst h8
        have h9 : Y = -u := by linear_combination h7 / 2
        exact hs' (by rw [hp', h9]; ring)
  · rw [if_neg hd]
    have hd' : q * q + 4 * (p * p * p) / 27 < 0 := not_le.1 hd
    have hp3 : p * p * p < 0 := by nlinarith [mul_self_nonneg q]
    have hp0 : p < 0 := by
      by_contra h
      have h := not_lt.1 h
      have := mul_nonneg (mul_nonneg h h) h
      linarith
    obtain ⟨hu0, hu⟩ := hx.sqrt_ok (-p / 3) (by linarith)
    obtain ⟨hk0, hk⟩ := hx.sqrt_ok (-27 / (p * p * p)) (le_of_lt (div_pos_of_neg_of_neg (by norm_num) hp3))
    generalize sqrt (-p / 3) = u at hu0 hu ⊢
    generalize sqrt (-27 / (p * p * p)) = k at hk0 hk ⊢
    -- `u³ k = 1`
    have huk : u ^ 3 * k = 1 := by
      have h1 : (u ^ 3 * k) ^ 2 = 1 := by
        calc (u ^ 3 * k) ^ 2 = (u * u) ^ 3 * (k * k) := by ring
          _ = 1 := by rw [hu, hk]; have := hp3.ne; have := hp0.ne; field_simp; norm_num
      have h2 : 0 ≤ u ^ 3 * k := mul_nonneg (pow_nonneg hu0 3) hk0
      have h3 : (u ^ 3 * k - 1) * (u ^ 3 * k + 1) = 0 := by linear_combination h1
      rcases mul_eq_zero.1 h3 with h4 | h4
      · linarith
      · linarith
    have hy2 : (-k * q / 2) ^ 2 ≤ 1 := by
      have : (-k * q / 2) ^ 2 = (k * k) * (q * q) / 4 := by ring
      rw [this, hk, div_mul_eq_mul_div, div_div, div_le_one_of_neg (by linarith)]
      linarith
    have hcos := hx.cos_ok (-k * q / 2) (by nlinarith) (by nlinarith)
    have hsin := hx.sin_ok (acos (-k * q / 2) / 3)
    generalize acos (-k * q / 2) / 3 = t at hcos hsin ⊢
    generalize cos t = m at hcos hsin ⊢
    generalize sin t = s at hsin ⊢
    have hw := hx.w_ok
    have hfac : ∀ Y : K, Y ^ 3 + p * Y + q = (Y - u * (m + m)) * (Y + u * (s * w + m)) * (Y - u * (s * w - m)) := by
      intro Y
      have hp' : p = -3 * (u * u) := by rw [hu]; ring
      have hs2 : s ^ 2 = 1 - m ^ 2 := by linear_combination hsin
      have hq' : q = -2 * u ^ 3 * (4 * m ^ 3 - 3 * m) := by rw [hcos]; linear_combination (-q) * huk
      rw [hq', hp']
      linear_combination (3 * u ^ 2 * (Y - 2 * u * m)) * hs2 + (u ^ 2 * s ^ 2 * (Y - 2 * u * m)) * hw
    constructor
    · intro r hr
      rw [hdep, hfac]
      simp only [List.mem_cons, List.not_mem_nil, or_false] at hr
      rcases hr with rfl | rfl | rfl <;> ring
    · intro y hy _
      rw [hdep, hfac] at hy
      have hy' := (mul_eq_zero.1 hy).resolve_left hA
      simp only [List.mem_cons, List.not_mem_nil, or_false]
      rcases mul_eq_zero.1 hy' with h | h
      · rcases mul_eq_zero.1 h with h | h
        · exact .inl (by linear_combination h)
        · exact .inr (.inl (by linear_combination h))
      · exact .inr (.inr (by linear_combination h))

/-- The functions of the library over the real numbers are as the theorem asks. -/
example : ∃ cbrt : ℝ → ℝ, Exact Real.sqrt cbrt Real.arccos Real.cos Real.sin (Real.sqrt 3) := by
  refine ⟨fun x => if 0 ≤ x then x ^ ((1 : ℝ) / 3) else -(-x) ^ ((1 : ℝ) / 3), ⟨fun x hx => ⟨Real.sqrt_nonneg x, Real.mul_self_sqrt hx⟩, fun x => ?_, fun y h1 h2 => ?_,
    fun v => Real.cos_sq_add_sin_sq v, Real.mul_self_sqrt (by norm_num)⟩⟩
  · have key : ∀ x : ℝ, 0 ≤ x → (x ^ ((1 : ℝ) / 3)) ^ 3 = x := fun x hx => by
      rw [← Real.rpow_natCast, ← Real.rpow_mul hx]
      norm_num
    split
    · exact key x ‹_›
    · rw [Odd.neg_pow (by decide), key (-x) (by linarith)]
      ring
  · rw [← Real.cos_three_mul, mul_div_cancel₀ _ (by norm_num), Real.cos_arccos h1 h2]

/-- **C79**: a double root is missed: `solveCubic` returns only -2 for `x³ - 3x + 2 = (x - 1)² (x + 2)`. -/
theorem C79_double_counterexample (acos cos sin : ℝ → ℝ) (w : ℝ) :
    ∃ sqrt cbrt : ℝ → ℝ, (∀ x, 0 ≤ x → 0 ≤ sqrt x ∧ sqrt x * sqrt x = x) ∧ (∀ x, cbrt x ^ 3 = x) ∧
      (1 : ℝ) * 1 ^ 3 + 0 * 1 ^ 2 + (-3) * 1 + 2 = 0 ∧ solveCubic sqrt cbrt acos cos sin w 1 0 (-3) 2 = [-2] := by
  have key : ∀ x : ℝ, 0 ≤ x → (x ^ ((1 : ℝ) / 3)) ^ 3 = x := fun x hx => by
    rw [← Real.rpow_natCast, ← Real.rpow_mul hx]
    norm_num
  refine ⟨Real.sqrt, fun x => if 0 ≤ x then x ^ ((1 : ℝ) / 3) else -(-x) ^ ((1 : ℝ) / 3), fun x hx => ⟨Real.sqrt_nonneg x, Real.mul_self_sqrt hx⟩, fun x => ?_, by norm_num, ?_⟩
  · dsimp only
    split
    · exact key x ‹_›
    · rw [Odd.neg_pow (by decide), key (-x) (by linarith)]
      ring
  · norm_num [solveCubic]

/-! ## The bracketing root finder -/

/-- **C81**: `NewtonRaphsonBisection`, started inside a bracket (`F` is not positive at `min` and not negative at `max`), returns a point where `F` is within `epsilon` of zero, or a point
inside a smaller bracket. It never leaves the original interval. -/
theorem C81_bracket (F dF : K → K) (eps : K) : ∀ (n : Nat) (x lo hi : K), lo ≤ x → x ≤ hi → F lo ≤ 0 → 0 ≤ F hi →
    lo ≤ newtonBisection F dF eps n x lo hi ∧ newtonBisection F dF eps n x lo hi ≤ hi ∧
    (|F (newtonBisection F dF eps n x lo hi)| ≤ eps ∨
      ∃ a b, lo ≤ a ∧ a ≤ newtonBisection F dF eps n x lo hi ∧ newtonBisection F dF eps n x lo hi ≤ b ∧ b ≤ hi ∧ F a ≤ 0 ∧ 0 ≤ F b)
  | 0, x, lo, hi, h1, h2, h3, h4 => ⟨h1, h2, .inr ⟨lo, hi, le_refl _, h1, h2, le_refl _, h3, h4⟩⟩
  | n + 1, x, lo, hi, h1, h2, h3, h4 => by
    simp only [newtonBisection]
    by_cases hs : small (F x) eps
    · rw [if_pos hs]
      exact ⟨h1, h2, .inl hs⟩
    · rw [if_neg hs]
      have hin : ∀ lo' hi' : K, lo' ≤ hi' → lo' ≤ (if x - F x / dF x ≤ lo' ∨ hi' ≤ x - F x / dF x then 1 / 2 * (lo' + hi') else x - F x / dF x) ∧
          (if x - F x / dF x ≤ lo' ∨ hi' ≤ x - F x / dF x then 1 / 2 * (lo' + hi') else x - F x / dF x) ≤ hi' := by
        intro lo' hi' h
        split
        · constructor <;> linarith
        · rename_i hn
          rw [not_or, not_le, not_le] at hn
          exact ⟨hn.1.le, hn.2.le⟩
      by_cases hf : 0 < F x
      · simp only [if_pos hf]
        obtain ⟨i1, i2⟩ := hin lo x h1
        obtain ⟨r1, r2, r3⟩ := C81_bracket F dF eps n _ lo x i1 i2 h3 hf.le
        refine ⟨r1, r2.trans h2, r3.imp id ?_⟩
        rintro ⟨a, b, k1, k2, k3, k4, k5⟩
        exact ⟨a, b, k1, k2, k3, k4.trans h2, k5⟩
      · simp only [if_neg hf]
        obtain ⟨i1, i2⟩ := hin x hi h2
        obtain ⟨r1, r2, r3⟩ := C81_bracket F dF eps n _ x hi i1 i2 (not_lt.1 hf) h4
        refine ⟨h1.trans r1, r2, r3.imp id ?_⟩
        rintro ⟨a, b, k1, k2, k3, k4, k5⟩
        exact ⟨a, b, h1.trans k1, k2, k3, k4, k5⟩

/-- **C81**: over the real numbers, for a continuous function: the result is within `epsilon`, or there is a root in a bracket around it, inside the original interval. -/
theorem C81_root (F dF : ℝ → ℝ) (hF : Continuous F) (eps : ℝ) (n : Nat) (x lo hi : ℝ) (h1 : lo ≤ x) (h2 : x ≤ hi) (h3 : F lo ≤ 0) (h4 : 0 ≤ F hi) :
    |F (newtonBisection F dF eps n x lo hi)| ≤ eps ∨
      ∃ a b r, lo ≤ a ∧ b ≤ hi ∧ a ≤ newtonBisection F dF eps n x lo hi ∧ newtonBisection F dF eps n x lo hi ≤ b ∧ a ≤ r ∧ r ≤ b ∧ F r = 0 := by
  obtain ⟨-, -, h⟩ := C81_bracket F dF eps n x lo hi h1 h2 h3 h4
  refine h.imp id ?_
  rintro ⟨a, b, k1, k2, k3, k4, k5, k6⟩
  obtain ⟨r, hr, hr0⟩ := intermediate_value_Icc (k2.trans k3) hF.continuousOn ⟨k5, k6⟩
  exact ⟨a, b, r, k1, k4, k2, k3, hr.1, hr.2, hr0⟩

/-- **C81**: `NewtonRaphson` only reports success at a point where `F` is within `epsilon` of zero. -/
theorem C81_newton (F dF : K → K) (eps : K) : ∀ (n : Nat) (x r : K), newtonRaphson F dF eps n x = some r → |F r| ≤ eps
  | 0, _, _, h => by simp [newtonRaphson] at h
  | n + 1, x, r, h => by
    simp only [newtonRaphson] at h
    split at h
    · cases h
      assumption
    · exact C81_newton F dF eps n _ r h

/-- **C81**: the bracket does not shrink as by bisection: after three iterations for `x³` in `[-2, 2]` the distance from the root is more than an eighth of the interval. -/
theorem C81_slow_counterexample : (2 - -2) / 2 ^ 3 < newtonBisection (fun x : ℚ => x ^ 3) (fun x => 3 * x ^ 2) (1 / 1000) 3 2 (-2) 2 := by
  norm_num [newtonBisection, small, abs_of_pos]

/-- A run that ends near the root of `x² - 2`. -/
example : |(newtonBisection (fun x : ℚ => x ^ 2 - 2) (fun x => 2 * x) (1 / 100) 5 2 0 2) ^ 2 - 2| ≤ 1 / 100 := by
  norm_num [newtonBisection, small, abs_of_pos]

end Verif.Curve
