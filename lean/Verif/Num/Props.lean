import Verif.Num.Model
import Mathlib.Analysis.SpecialFunctions.Integrals.Basic
import Mathlib.Algebra.Polynomial.Eval.Degree

/-! # Theorems about quadrature, angles and lengths -/

namespace Verif.Num

open Real

noncomputable section

/-! ## C142: quadrature -/

/-- The value of a rule on the interval from -1 to 1. -/
def rule (n : Nat) (f : ℝ → ℝ) : ℝ := ((List.zip (weights n) (points n)).map fun x => x.1 * f x.2).sum

theorem foldl_sum {α : Type} (g : α → ℝ) (l : List α) : ∀ r, l.foldl (fun r x => r + g x) r = r + (l.map g).sum := by
  induction l with
  | nil => intro r; simp
  | cons a l ih => intro r; simp only [List.foldl_cons, ih, List.map_cons, List.sum_cons]; ring

theorem quadrature_eq (n : Nat) (a b : ℝ) (f : ℝ → ℝ) : quadrature n a b f = (b - a) / 2 * rule n fun u => f ((b - a) / 2 * u + (a + b) / 2) := by
  unfold quadrature rule
  dsimp only
  cases hp : points n with
  | nil => rcases n with _ | _ | _ | _ | n <;> simp [points] at hp
  | cons p ps =>
    cases hw : weights n with
    | nil => rcases n with _ | _ | _ | _ | n <;> simp [weights] at hw
    | cons w ws =>
      dsimp only
      rw [foldl_sum (fun x : ℝ × ℝ => x.1 * f ((b - a) / 2 * x.2 + (a + b) / 2))]
      simp

theorem rule_add (n : Nat) (f g : ℝ → ℝ) : rule n (fun u => f u + g u) = rule n f + rule n g := by
  unfold rule
  induction List.zip (weights n) (points n) with
  | nil => simp
  | cons x l ih => simp only [List.map_cons, List.sum_cons, ih]; ring

theorem rule_smul (n : Nat) (c : ℝ) (f : ℝ → ℝ) : rule n (fun u => c * f u) = c * rule n f := by
  unfold rule
  induction List.zip (weights n) (points n) with
  | nil => simp
  | cons x l ih => simp only [List.map_cons, List.sum_cons, ih]; ring

theorem rule_sum (n m : Nat) (c : Nat → ℝ) : rule n (fun u => ∑ i ∈ Finset.range m, c i * u ^ i) = ∑ i ∈ Finset.range m, c i * rule n fun u => u ^ i := by
  induction m with
  | zero => simp [rule]
  | succ m ih =>
    simp only [Finset.sum_range_succ]
    rw [rule_add, ih, rule_smul]

/-- What the rule with five points lacks: the middle point has weight 0 instead of 128 / 225. -/
def lack (n : Nat) (f : ℝ → ℝ) : ℝ := if n = 4 then 128 / 225 * f 0 else 0

/-- The moments of a rule. -/
theorem moments (n : Nat) (hn : n < 5) : ∀ k < 2 * (n + 1), rule n (fun u => u ^ k) + lack n (fun u => u ^ k) = ∫ u in (-1 : ℝ)..1, u ^ k := by
  intro k hk
  rw [integral_pow]
  have h13 : √(1 / 3 : ℝ) ^ 2 = 1 / 3 := Real.sq_sqrt (by norm_num)
  have h35 : √(3 / 5 : ℝ) ^ 2 = 3 / 5 := Real.sq_sqrt (by norm_num)
  have h30 : √(30 : ℝ) ^ 2 = 30 := Real.sq_sqrt (by norm_num)
  have h70 : √(70 : ℝ) ^ 2 = 70 := Real.sq_sqrt (by norm_num)
  have h65 : √(6 / 5 : ℝ) = √30 / 5 := by
    rw [show (6 / 5 : ℝ) = 30 / 5 ^ 2 by norm_num, Real.sqrt_div (by norm_num), Real.sqrt_sq (by norm_num)]
  have h107 : √(10 / 7 : ℝ) = √70 / 7 := by
    rw [show (10 / 7 : ℝ) = 70 / 7 ^ 2 by norm_num, Real.sqrt_div (by norm_num), Real.sqrt_sq (by norm_num)]
  have hlt : √(30 : ℝ) < 6 := by rw [Real.sqrt_lt' (by norm_num)]; norm_num
  have hlt7 : √(70 : ℝ) < 9 := by rw [Real.sqrt_lt' (by norm_num)]; norm_num
  have hnn : 0 ≤ √(30 : ℝ) := Real.sqrt_nonneg _
  have hnn7 : 0 ≤ √(70 : ℝ) := Real.sqrt_nonneg _
  have hp : √(3 / 7 - 2 / 7 * √(6 / 5) : ℝ) ^ 2 = 3 / 7 - 2 / 35 * √30 := by
    rw [Real.sq_sqrt (by rw [h65]; linarith), h65]; ring
  have hq : √(3 / 7 + 2 / 7 * √(6 / 5) : ℝ) ^ 2 = 3 / 7 + 2 / 35 * √30 := by
    rw [Real.sq_sqrt (by rw [h65]; linarith), h65]; ring
  have hr : √(5 - 2 * √(10 / 7) : ℝ) ^ 2 = 5 - 2 / 7 * √70 := by
    rw [Real.sq_sqrt (by rw [h107]; linarith), h107]; ring
  have ht : √(5 + 2 * √(10 / 7) : ℝ) ^ 2 = 5 + 2 / 7 * √70 := by
    rw [Real.sq_sqrt (by rw [h107]; linarith), h107]; ring
  interval_cases n
  · interval_cases k <;> norm_num [rule, points, weights, lack]
  · simp only [rule, points, weights, lack, List.zip_cons_cons, List.zip_nil_right, List.map_cons, List.map_nil, List.sum_cons, List.sum_nil]
    generalize √(1 / 3 : ℝ) = x at *
    interval_cases k <;> norm_num <;> ring_nf <;> (try rw [h13]) <;> norm_num
  · simp only [rule, points, weights, lack, List.zip_cons_cons, List.zip_nil_right, List.map_cons, List.map_nil, List.sum_cons, List.sum_nil]
    generalize √(3 / 5 : ℝ) = x at *
    have h4 : x ^ 4 = 9 / 25 := by rw [show x ^ 4 = (x ^ 2) ^ 2 by ring, h35]; norm_num
    interval_cases k <;> norm_num <;> ring_nf <;> (try simp only [h35, h4]) <;> norm_num
  · simp only [rule, points, weights, lack, List.zip_cons_cons, List.zip_nil_right, List.map_cons, List.map_nil, List.sum_cons, List.sum_nil]
    generalize √(3 / 7 - 2 / 7 * √(6 / 5) : ℝ) = x at *
    generalize √(3 / 7 + 2 / 7 * √(6 / 5) : ℝ) = y at *
    generalize √(30 : ℝ) = s at *
    have s3 : s ^ 3 = 30 * s := by rw [show s ^ 3 = s ^ 2 * s by ring, h30]
    have s4 : s ^ 4 = 900 := by rw [show s ^ 4 = (s ^ 2) ^ 2 by ring, h30]; norm_num
    have x4 : x ^ 4 = (3 / 7 - 2 / 35 * s) ^ 2 := by rw [show x ^ 4 = (x ^ 2) ^ 2 by ring, hp]
    have x6 : x ^ 6 = (3 / 7 - 2 / 35 * s) ^ 3 := by rw [show x ^ 6 = (x ^ 2) ^ 3 by ring, hp]
    have y4 : y ^ 4 = (3 / 7 + 2 / 35 * s) ^ 2 := by rw [show y ^ 4 = (y ^ 2) ^ 2 by ring, hq]
    have y6 : y ^ 6 = (3 / 7 + 2 / 35 * s) ^ 3 := by rw [show y ^ 6 = (y ^ 2) ^ 3 by ring, hq]
    interval_cases k <;> norm_num <;> ring_nf <;> (try simp only [hp, hq, x4, x6, y4, y6]) <;> ring_nf <;> (try simp only [h30, s3, s4]) <;> ring_nf
  · simp only [rule, points, weights, lack, List.zip_cons_cons, List.zip_nil_right, List.map_cons, List.map_nil, List.sum_cons, List.sum_nil]
    generalize √(5 - 2 * √(10 / 7) : ℝ) = x at *
    generalize √(5 + 2 * √(10 / 7) : ℝ) = y at *
    generalize √(70 : ℝ) = s at *
    have s3 : s ^ 3 = 70 * s := by rw [show s ^ 3 = s ^ 2 * s by ring, h70]
    have s4 : s ^ 4 = 4900 := by rw [show s ^ 4 = (s ^ 2) ^ 2 by ring, h70]; norm_num
    have s5 : s ^ 5 = 4900 * s := by rw [show s ^ 5 = (s ^ 2) ^ 2 * s by ring, h70]; norm_num
    have x4 : x ^ 4 = (5 - 2 / 7 * s) ^ 2 := by rw [show x ^ 4 = (x ^ 2) ^ 2 by ring, hr]
    have x6 : x ^ 6 = (5 - 2 / 7 * s) ^ 3 := by rw [show x ^ 6 = (x ^ 2) ^ 3 by ring, hr]
    have x8 : x ^ 8 = (5 - 2 / 7 * s) ^ 4 := by rw [show x ^ 8 = (x ^ 2) ^ 4 by ring, hr]
    have y4 : y ^ 4 = (5 + 2 / 7 * s) ^ 2 := by rw [show y ^ 4 = (y ^ 2) ^ 2 by ring, ht]
    have y6 : y ^ 6 = (5 + 2 / 7 * s) ^ 3 := by rw [show y ^ 6 = (y ^ 2) ^ 3 by ring, ht]
    have y8 : y ^ 8 = (5 + 2 / 7 * s) ^ 4 := by rw [show y ^ 8 = (y ^ 2) ^ 4 by ring, ht]
    interval_cases k <;> norm_num <;> ring_nf <;> (try simp only [hr, ht, x4, x6, x8, y4, y6, y8]) <;> ring_nf <;> (try simp only [h70, s3, s4, s5]) <;> ring_nf

theorem rule_lack (n : Nat) (hn : n < 5) (q : Polynomial ℝ) (hq : q.natDegree < 2 * (n + 1)) : rule n (fun u => q.eval u) + lack n (fun u => q.eval u) = ∫ u in (-1 : ℝ)..1, q.eval u := by
  have e : (fun u => q.eval u) = fun u => ∑ i ∈ Finset.range (2 * (n + 1)), q.coeff i * u ^ i := by
    funext u; exact Polynomial.eval_eq_sum_range' hq u
  rw [e, rule_sum, intervalIntegral.integral_finset_sum]
  · have h2 : lack n (fun u => ∑ i ∈ Finset.range (2 * (n + 1)), q.coeff i * u ^ i) = ∑ i ∈ Finset.range (2 * (n + 1)), q.coeff i * lack n fun u => u ^ i := by
      unfold lack
      by_cases h : n = 4
      · simp only [if_pos h, Finset.mul_sum]
        exact Finset.sum_congr rfl fun i _ => by ring
      · simp [if_neg h]
    rw [h2, ← Finset.sum_add_distrib]
    refine Finset.sum_congr rfl fun i hi => ?_
    rw [intervalIntegral.integral_const_mul, ← moments n hn i (Finset.mem_range.1 hi)]
    ring
  · intro i _
    exact (Continuous.intervalIntegrable (by fun_prop) _ _)

theorem quadrature_lack (n : Nat) (hn : n < 5) (a b : ℝ) (p : Polynomial ℝ) (hp : p.natDegree < 2 * (n + 1)) : quadrature n a b (fun x => p.eval x) + (b - a) / 2 * lack n (fun u => p.eval ((b - a) / 2 * u + (a + b) / 2)) = ∫ x in a..b, p.eval x := by
  have hq : (p.comp (Polynomial.C ((b - a) / 2) * Polynomial.X + Polynomial.C ((a + b) / 2))).natDegree < 2 * (n + 1) := by
    refine lt_of_le_of_lt (le_trans Polynomial.natDegree_comp_le ?_) hp
    have := Polynomial.natDegree_linear_le (a := (b - a) / 2) (b := (a + b) / 2)
    calc _ ≤ p.natDegree * 1 := Nat.mul_le_mul_left _ this
      _ = _ := Nat.mul_one _
  have h := rule_lack n hn _ hq
  simp only [Polynomial.eval_comp, Polynomial.eval_add, Polynomial.eval_mul, Polynomial.eval_C, Polynomial.eval_X] at h
  rw [quadrature_eq, ← mul_add, h]
  have h3 := intervalIntegral.smul_integral_comp_mul_add (fun x => p.eval x) (a := -1) (b := 1) ((b - a) / 2) ((a + b) / 2)
  rw [smul_eq_mul] at h3
  rw [h3]
  congr 1 <;> ring

/-- **C142** (partial: at most four points). Quadrature with one to four points integrates every polynomial of degree below twice the number of points exactly, over every interval. The version with five points is missing because its result is wrong: see `C142_five_points_counterexample`. -/
theorem C142_exact_partial (n : Nat) (hn : n < 4) (a b : ℝ) (p : Polynomial ℝ) (hp : p.natDegree < 2 * (n + 1)) : quadrature n a b (fun x => p.eval x) = ∫ x in a..b, p.eval x := by
  have := quadrature_lack n (by omega) a b p hp
  rw [← this, lack, if_neg (by omega)]; ring

/-- **C142**: with five points, the integral of every polynomial of degree below ten is missed by `128 / 225` of its value in the middle, times half the length of the interval. -/
theorem C142_five_points (a b : ℝ) (p : Polynomial ℝ) (hp : p.natDegree < 10) : quadrature 4 a b (fun x => p.eval x) = (∫ x in a..b, p.eval x) - (b - a) / 2 * (128 / 225 * p.eval ((a + b) / 2)) := by
  have := quadrature_lack 4 (by omega) a b p hp
  rw [← this, lack, if_pos rfl]; simp

/-- **C142** counterexample: with five points the integral of the constant 1 from 0 to 1 is not 1. -/
theorem C142_five_points_counterexample : quadrature 4 0 1 (fun _ => 1) ≠ ∫ _x in (0 : ℝ)..1, (1 : ℝ) := by
  have := C142_five_points 0 1 1 (by simp)
  simp only [Polynomial.eval_one] at this
  rw [this]; norm_num

/-- The degree is sharp: one point does not suffice for squares. -/
theorem C142_sharp : quadrature 0 0 1 (fun x => x ^ 2) ≠ ∫ x in (0 : ℝ)..1, x ^ 2 := by
  rw [integral_pow]; norm_num [quadrature, points, weights]

/-- A cubic over an interval that is not symmetric, with two points. -/
example : quadrature 1 1 3 (fun x => x ^ 3 + 1) = 22 := by
  have := C142_exact_partial 1 (by omega) 1 3 (Polynomial.X ^ 3 + 1) (by
    have : (Polynomial.X ^ 3 + 1 : Polynomial ℝ).natDegree = 3 := by compute_degree!
    omega)
  simp only [Polynomial.eval_add, Polynomial.eval_pow, Polynomial.eval_X, Polynomial.eval_one] at this
  rw [this, intervalIntegral.integral_add (by exact (Continuous.intervalIntegrable (by fun_prop) _ _)) (by simp), integral_pow]
  norm_num

/-! ## C143: angles -/

theorem bssFMod_pos {x m : ℝ} (hm : 0 < m) : 0 ≤ bssFMod x m ∧ bssFMod x m < m := by
  have h1 := Int.floor_le (x / m)
  have h2 := Int.lt_floor_add_one (x / m)
  rw [le_div_iff₀ hm] at h1
  rw [div_lt_iff₀ hm] at h2
  unfold bssFMod
  constructor <;> linarith

/-- **C143**: the modulo operation gives the representative of `x` between 0 and the modulus, for positive and negative `x`. -/
theorem C143_modulo (x m : ℝ) (hm : 0 < m) : (0 ≤ bssFMod x m ∧ bssFMod x m < m) ∧ (∃ k : ℤ, x = bssFMod x m + k * m) ∧ ∀ r, 0 ≤ r → r < m → (∃ k : ℤ, x = r + k * m) → r = bssFMod x m := by
  refine ⟨bssFMod_pos hm, ⟨⌊x / m⌋, by unfold bssFMod; ring⟩, ?_⟩
  rintro r h0 h1 ⟨k, hk⟩
  have : ⌊x / m⌋ = k := by
    rw [Int.floor_eq_iff, le_div_iff₀ hm, div_lt_iff₀ hm]
    constructor <;> linarith
  unfold bssFMod
  rw [this]; linarith

/-- **C143**: with a negative modulus the result lies between the modulus and 0. -/
theorem C143_modulo_negative (x m : ℝ) (hm : m < 0) : (m < bssFMod x m ∧ bssFMod x m ≤ 0) ∧ ∃ k : ℤ, x = bssFMod x m + k * m := by
  have h1 := Int.floor_le (x / m)
  have h2 := Int.lt_floor_add_one (x / m)
  rw [le_div_iff_of_neg hm] at h1
  rw [div_lt_iff_of_neg hm] at h2
  refine ⟨?_, ⟨⌊x / m⌋, by unfold bssFMod; ring⟩⟩
  unfold bssFMod
  constructor <;> linarith

theorem fmod_of_nonneg {x m : ℝ} (hx : 0 ≤ x) (hm : 0 < m) : fmod x m = bssFMod x m := by
  unfold fmod bssFMod
  rw [if_pos (div_nonneg hx hm.le)]; ring

theorem twoPi : 0 < π * 2 := by have := pi_pos; linarith

/-- The distance from 0 of the nearest representative. -/
theorem dist_mod (x : ℝ) : (∃ k : ℤ, π - |bssFMod x (π * 2) - π| = |x + 2 * π * k|) ∧ ∀ k : ℤ, π - |bssFMod x (π * 2) - π| ≤ |x + 2 * π * k| := by
  have hb := bssFMod_pos (x := x) twoPi
  obtain ⟨k, hk⟩ := (C143_modulo x _ twoPi).2.1
  generalize bssFMod x (π * 2) = r at *
  have hpi := pi_pos
  constructor
  · rcases le_total r π with h | h
    · refine ⟨-k, ?_⟩
      rw [abs_of_nonpos (by linarith), show x + 2 * π * ((-k : ℤ) : ℝ) = r by push_cast; rw [hk]; ring, abs_of_nonneg hb.1]; ring
    · refine ⟨-k - 1, ?_⟩
      rw [abs_of_nonneg (by linarith), show x + 2 * π * ((-k - 1 : ℤ) : ℝ) = r - 2 * π by push_cast; rw [hk]; ring, abs_of_nonpos (by linarith)]; ring
  · intro j
    have e : x + 2 * π * (j : ℝ) = r + 2 * π * ((k + j : ℤ) : ℝ) := by push_cast; rw [hk]; ring
    rw [e]
    rcases lt_or_ge (k + j) 0 with h | h
    · have h' : ((k + j : ℤ) : ℝ) ≤ -1 := by exact_mod_cast Int.le_sub_one_of_lt h
      have : r + 2 * π * ((k + j : ℤ) : ℝ) ≤ r - 2 * π := by nlinarith
      rw [abs_of_nonpos (a := r + _) (by linarith)]
      have := le_abs_self (r - π)
      linarith
    · have h' : (0 : ℝ) ≤ ((k + j : ℤ) : ℝ) := by exact_mod_cast h
      have : r ≤ r + 2 * π * ((k + j : ℤ) : ℝ) := by nlinarith
      rw [abs_of_nonneg (a := r + _) (by linarith)]
      have := neg_abs_le (r - π)
      linarith

/-- **C143**: the distance of two angles is the least distance of their representatives. -/
theorem C143_distance (a b : ℝ) : IsLeast {d | ∃ k : ℤ, d = |a - b + 2 * π * k|} (angleDist a b) := by
  unfold angleDist
  rw [fmod_of_nonneg (abs_nonneg _) twoPi]
  obtain ⟨⟨k, hk⟩, hl⟩ := dist_mod |a - b|
  rcases abs_choice (a - b) with h | h
  · rw [h] at hk hl ⊢
    exact ⟨⟨k, hk⟩, by rintro d ⟨j, rfl⟩; exact hl j⟩
  · rw [h] at hk hl ⊢
    have e : ∀ j : ℤ, |-(a - b) + 2 * π * (j : ℝ)| = |a - b + 2 * π * ((-j : ℤ) : ℝ)| := by
      intro j; rw [← abs_neg]; congr 1; push_cast; ring
    refine ⟨⟨-k, by rw [hk, e]⟩, ?_⟩
    rintro d ⟨j, rfl⟩
    have := hl (-j)
    rw [e, neg_neg] at this
    exact this

/-- **C143**: the distance of two angles is the angle between 0 and `π` with the cosine of their difference. -/
theorem C143_distance_arccos (a b : ℝ) : angleDist a b = arccos (cos (a - b)) := by
  obtain ⟨⟨k, hk⟩, hl⟩ := C143_distance a b
  have h1 : angleDist a b ≤ π := by
    unfold angleDist; have := abs_nonneg (fmod |a - b| (π * 2) - π); linarith
  have h0 : 0 ≤ angleDist a b := hk ▸ abs_nonneg _
  have hc : cos (angleDist a b) = cos (a - b) := by
    rw [hk, cos_abs, show a - b + 2 * π * (k : ℝ) = a - b + k * (2 * π) by ring, cos_add_int_mul_two_pi]
  rw [← hc, arccos_cos h0 h1]

/-- **C143**: the signed distance lies between `-π` and `π` and leads from the first angle to the second, by the shortest way. -/
theorem C143_signed (a b : ℝ) : (-π ≤ angleDistSigned a b ∧ angleDistSigned a b < π) ∧ (∃ k : ℤ, b = a + angleDistSigned a b + 2 * π * k) ∧ |angleDistSigned a b| = angleDist a b := by
  have hpi := pi_pos
  have hb := bssFMod_pos (x := b - a) twoPi
  have e : angleDistSigned a b = bssFMod (bssFMod (b - a) (π * 2) + π) (π * 2) - π := by
    unfold angleDistSigned
    rw [fmod_of_nonneg (by linarith) twoPi]
  have hb2 := bssFMod_pos (x := bssFMod (b - a) (π * 2) + π) twoPi
  obtain ⟨k, hk⟩ := (C143_modulo (b - a) _ twoPi).2.1
  obtain ⟨j, hj⟩ := (C143_modulo (bssFMod (b - a) (π * 2) + π) _ twoPi).2.1
  have hr : -π ≤ angleDistSigned a b ∧ angleDistSigned a b < π := by rw [e]; constructor <;> linarith
  have hk2 : b = a + angleDistSigned a b + 2 * π * ((k + j : ℤ) : ℝ) := by push_cast; linarith
  refine ⟨hr, ⟨_, hk2⟩, ?_⟩
  rw [C143_distance_arccos]
  have : cos (a - b) = cos |angleDistSigned a b| := by
    rw [cos_abs, ← cos_neg, show -(a - b) = angleDistSigned a b + ((k + j : ℤ) : ℝ) * (2 * π) by linarith, cos_add_int_mul_two_pi]
  rw [this, arccos_cos (abs_nonneg _) (abs_le.2 ⟨hr.1, hr.2.le⟩)]

/-- **C143**: so two angles have distance 0 exactly if they are the same direction. -/
theorem C143_zero (a b : ℝ) : angleDist a b = 0 ↔ ∃ k : ℤ, b = a + 2 * π * k := by
  constructor
  · intro h
    obtain ⟨-, ⟨k, hk⟩, h2⟩ := C143_signed a b
    rw [h, abs_eq_zero] at h2
    exact ⟨k, by rw [h2] at hk; linarith⟩
  · rintro ⟨k, rfl⟩
    rw [C143_distance_arccos, show a - (a + 2 * π * (k : ℝ)) = 0 - k * (2 * π) by ring, cos_sub_int_mul_two_pi, cos_zero, arccos_one]

/-- From 350 to 10 degrees is 20 degrees forward. -/
example : angleDistSigned (35 * π / 18) (π / 18) = π / 9 := by
  have hpi := pi_pos
  obtain ⟨⟨h1, h2⟩, ⟨k, hk⟩, -⟩ := C143_signed (35 * π / 18) (π / 18)
  generalize angleDistSigned (35 * π / 18) (π / 18) = r at *
  have e : r = π / 9 - 2 * π * (k + 1) := by linarith
  have k1 : (-1 : ℝ) - 1 < k := by by_contra hh; push Not at hh; nlinarith
  have k2 : (k : ℝ) < -1 + 1 := by by_contra hh; push Not at hh; nlinarith
  have : k = -1 := by
    have a1 : (-2 : ℤ) < k := by exact_mod_cast (by linarith : (-2 : ℝ) < k)
    have a2 : k < (0 : ℤ) := by exact_mod_cast (by linarith : (k : ℝ) < 0)
    omega
  rw [this] at e
  push_cast at e; linarith

/-! ## C144: lengths -/

/-- **C144**: the quick length is at least 85.6 and at most 92.7 percent of the length. -/
theorem C144_bounds (x y : ℝ) : 0.856 * √(x ^ 2 + y ^ 2) ≤ fLength x y ∧ fLength x y ≤ 0.927 * √(x ^ 2 + y ^ 2) := by
  have hs := Real.sq_sqrt (show 0 ≤ x ^ 2 + y ^ 2 by positivity)
  have hn := Real.sqrt_nonneg (x ^ 2 + y ^ 2)
  have hx := abs_nonneg x
  have hy := abs_nonneg y
  rw [← sq_abs x, ← sq_abs y] at *
  unfold fLength
  dsimp only
  generalize |x| = u at *
  generalize |y| = v at *
  generalize √(u ^ 2 + v ^ 2) = r at *
  have hu : u ≤ r := abs_le_of_sq_le_sq' (by nlinarith) hn |>.2
  have hv : v ≤ r := abs_le_of_sq_le_sq' (by nlinarith) hn |>.2
  have hh : 0.7071067811865475 * (u + v) ≤ r := abs_le_of_sq_le_sq' (by nlinarith [sq_nonneg (u - v)]) hn |>.2
  have low : ∀ p q : ℝ, 0 ≤ p → 0 ≤ q → r ^ 2 = p ^ 2 + q ^ 2 → q ≤ p → 0.856 * r ≤ 0.92677669529663688 * (if 0.7071067811865475 * (u + v) > p then 0.7071067811865475 * (u + v) else p) ∨ u + v ≠ p + q := by
    intro p q hp hq hr hqp
    by_cases e : u + v = p + q
    · left
      rw [e]
      by_cases h : 0.7071067811865475 * (p + q) > p
      · rw [if_pos h]
        refine abs_le_of_sq_le_sq' ?_ (by positivity) |>.2
        nlinarith [mul_nonneg (show 0 ≤ q - 0.41421356 * p by linarith) (sub_nonneg.2 hqp), mul_nonneg hp hq]
      · rw [if_neg h]
        refine abs_le_of_sq_le_sq' ?_ (by positivity) |>.2
        have h' : q ≤ 0.4142136 * p := by linarith
        nlinarith [mul_le_mul h' h' hq (by positivity)]
    · exact Or.inr e
  by_cases h : u > v
  · rw [if_pos h]
    refine ⟨(low u v hx hy hs h.le).resolve_right (by simp), ?_⟩
    by_cases h2 : 0.7071067811865475 * (u + v) > u
    · rw [if_pos h2]; linarith
    · rw [if_neg h2]; linarith
  · rw [if_neg h]
    refine ⟨(low v u hy hx (by linarith) (not_lt.1 h)).resolve_right (by simp [add_comm]), ?_⟩
    by_cases h2 : 0.7071067811865475 * (u + v) > v
    · rw [if_pos h2]; linarith
    · rw [if_neg h2]; linarith

/-- **C144**: the quick length of a scaled vector is the scaled quick length. -/
theorem C144_scale (c x y : ℝ) : fLength (c * x) (c * y) = |c| * fLength x y := by
  unfold fLength
  dsimp only
  rw [abs_mul, abs_mul]
  rcases (abs_nonneg c).eq_or_lt with h | h
  · rw [← h]; simp
  · have e1 : (|c| * |x| > |c| * |y|) ↔ |x| > |y| := mul_lt_mul_iff_right₀ h
    have e2 : (if |c| * |x| > |c| * |y| then |c| * |x| else |c| * |y|) = |c| * (if |x| > |y| then |x| else |y|) := by
      by_cases h3 : |x| > |y|
      · rw [if_pos (e1.2 h3), if_pos h3]
      · rw [if_neg (fun q => h3 (e1.1 q)), if_neg h3]
    rw [e2, ← mul_add, mul_left_comm (0.7071067811865475 : ℝ)]
    generalize (if |x| > |y| then |x| else |y|) = m
    have e3 : (|c| * (0.7071067811865475 * (|x| + |y|)) > |c| * m) ↔ 0.7071067811865475 * (|x| + |y|) > m := mul_lt_mul_iff_right₀ h
    by_cases h3 : 0.7071067811865475 * (|x| + |y|) > m
    · rw [if_pos (e3.2 h3), if_pos h3]; ring
    · rw [if_neg (fun q => h3 (e3.1 q)), if_neg h3]; ring

/-- **C144**: the quick length does not depend on the order of the coordinates. -/
theorem C144_symmetric (x y : ℝ) : fLength x y = fLength y x := by
  unfold fLength
  dsimp only
  rw [add_comm |y|]
  rcases lt_trichotomy |x| |y| with h | h | h
  · rw [if_neg (not_lt.2 h.le), if_pos h]
  · rw [h]
  · rw [if_pos h, if_neg (not_lt.2 h.le)]

/-- **C144**: the bounds are nearly attained, so the result is never within 7 percent of the length and misses it by more than 14 percent for some vectors. -/
theorem C144_sharp : fLength 1 0 > 0.9267 * √(1 ^ 2 + 0 ^ 2) ∧ fLength 12 5 < 0.857 * √(12 ^ 2 + 5 ^ 2) := by
  have : √((12 : ℝ) ^ 2 + 5 ^ 2) = 13 := by
    rw [show (12 : ℝ) ^ 2 + 5 ^ 2 = 13 ^ 2 by norm_num]; exact Real.sqrt_sq (by norm_num)
  rw [this]
  constructor <;> norm_num [fLength, abs_of_pos]

/-- A vector of length 5. -/
example : 4.28 ≤ fLength (-3) 4 ∧ fLength (-3) 4 ≤ 4.635 := by
  have := C144_bounds (-3) 4
  rw [show (-3 : ℝ) ^ 2 + 4 ^ 2 = 5 ^ 2 by norm_num, Real.sqrt_sq (by norm_num)] at this
  constructor <;> linarith [this.1, this.2]

end

end Verif.Num
