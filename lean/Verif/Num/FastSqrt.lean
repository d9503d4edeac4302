import Mathlib.Analysis.Real.Sqrt
import Mathlib.Tactic.Linarith
import Mathlib.Tactic.NormNum
import Mathlib.Tactic.FieldSimp
import Mathlib.Data.Rat.Cast.Order
import Mathlib.Algebra.Order.Field.Power

/-!
# `fFastSqrt` and `dFastSqrt` (C196)

The fast square roots of `/repo/include/bss-util/bss_util.h:603-633`. The estimate made from the bits of the number is exact; the products and differences that
follow are in exact arithmetic over the rational numbers.
-/

namespace Verif.Num.FastSqrt

/-! ## Code -/

/-- The value of the bits of a `float` (positive, and not an infinity). -/
def f32 (i : ℕ) : ℚ :=
  if i / 2 ^ 23 = 0 then (i % 2 ^ 23 : ℕ) / 2 ^ 23 * 2 ^ (-126 : ℤ)
  else (1 + (i % 2 ^ 23 : ℕ) / 2 ^ 23) * 2 ^ (((i / 2 ^ 23 : ℕ) : ℤ) - 127)

/-- The value of the bits of a `double` (positive, and not an infinity). -/
def f64 (i : ℕ) : ℚ :=
  if i / 2 ^ 52 = 0 then (i % 2 ^ 52 : ℕ) / 2 ^ 52 * 2 ^ (-1022 : ℤ)
  else (1 + (i % 2 ^ 52 : ℕ) / 2 ^ 52) * 2 ^ (((i / 2 ^ 52 : ℕ) : ℤ) - 1023)

/-- `y = y * (f - (x * y * y))`, `bss_util.h:611-612, 628-630`. -/
def newton (x y : ℚ) : ℚ := y * (1.5 - x * y * y)

/-- `fFastSqrt(number)`, `bss_util.h:604-614`; the argument is given by its bits. -/
def fFastSqrt (i : ℕ) : ℚ :=
  let number := f32 i
  let x := number * 0.5
  let y := f32 (0x5f3759df - i / 2)
  number * newton x (newton x y)

/-- `dFastSqrt(number)`, `bss_util.h:617-633`; the argument is given by its bits, of which the upper 32 are changed. -/
def dFastSqrt (i : ℕ) : ℚ :=
  let number := f64 i
  let x := number * 0.5
  let y := f64 ((0xbfcdd90a - i / 2 ^ 32) / 2 * 2 ^ 32 + i % 2 ^ 32)
  number * newton x (newton x (newton x y))

/-! ## Proofs -/

/-- One step: the error of x y² is squared. -/
theorem newton_step {n y e : ℚ} (h1 : -e ≤ 1 - n * y ^ 2) (h2 : 1 - n * y ^ 2 ≤ e) (he : e ≤ 1) :
    0 ≤ 1 - n * newton (n * 0.5) y ^ 2 ∧ 1 - n * newton (n * 0.5) y ^ 2 ≤ e ^ 2 * (3 + e) / 4 := by
  obtain ⟨w, hw⟩ : ∃ w, w = 1 - n * y ^ 2 := ⟨_, rfl⟩
  have e1 : 1 - n * newton (n * 0.5) y ^ 2 = w ^ 2 * (3 + w) / 4 := by
    unfold newton
    rw [hw]
    ring
  rw [← hw] at h1 h2
  rw [e1]
  have hsq : w ^ 2 ≤ e ^ 2 := sq_le_sq' h1 h2
  have h3 : 0 ≤ 3 + w := by linarith
  constructor
  · exact div_nonneg (mul_nonneg (sq_nonneg w) h3) (by norm_num)
  · have : w ^ 2 * (3 + w) ≤ e ^ 2 * (3 + e) := mul_le_mul hsq (by linarith) h3 (sq_nonneg e)
    linarith

/-- The estimate without a borrow. -/
theorem est1 {p q : ℚ} (h1 : 1 ≤ q) (h2 : q ≤ 1.8656) (h3 : 1.9324 ≤ p + q / 2) (h4 : p + q / 2 ≤ 1.9328) :
    0.93 ≤ p ^ 2 * q / 2 ∧ p ^ 2 * q / 2 ≤ 1.07 := by
  have hp : 0.99 ≤ p := by linarith
  constructor
  · have : (1.9324 - q / 2) ^ 2 ≤ p ^ 2 := pow_le_pow_left₀ (by linarith) (by linarith) 2
    have h5 : (1.9324 - q / 2) ^ 2 * q ≤ p ^ 2 * q := mul_le_mul_of_nonneg_right this (by linarith)
    nlinarith [mul_nonneg (sub_nonneg.2 h1) (sub_nonneg.2 h2)]
  · have : p ^ 2 ≤ (1.9328 - q / 2) ^ 2 := pow_le_pow_left₀ (by linarith) (by linarith) 2
    have h5 : p ^ 2 * q ≤ (1.9328 - q / 2) ^ 2 * q := mul_le_mul_of_nonneg_right this (by linarith)
    nlinarith [mul_nonneg (sq_nonneg (q - 1.288)) (by linarith : 0 ≤ 5.16 - q)]

/-- The estimate with a borrow, for even exponents. -/
theorem est2 {p q : ℚ} (h1 : 1.864 ≤ q) (h2 : q ≤ 2) (h3 : 2.9324 ≤ p + q / 2) (h4 : p + q / 2 ≤ 2.9328) :
    0.93 ≤ p ^ 2 * q / 8 ∧ p ^ 2 * q / 8 ≤ 1.07 := by
  constructor
  · have : (2.9324 - q / 2) ^ 2 ≤ p ^ 2 := pow_le_pow_left₀ (by linarith) (by linarith) 2
    have h5 : (2.9324 - q / 2) ^ 2 * q ≤ p ^ 2 * q := mul_le_mul_of_nonneg_right this (by linarith)
    nlinarith [mul_nonneg (sub_nonneg.2 h1) (sub_nonneg.2 h2)]
  · have : p ^ 2 ≤ (2.9328 - q / 2) ^ 2 := pow_le_pow_left₀ (by linarith) (by linarith) 2
    have h5 : p ^ 2 * q ≤ (2.9328 - q / 2) ^ 2 * q := mul_le_mul_of_nonneg_right this (by linarith)
    nlinarith [mul_nonneg (sq_nonneg (q - 1.955)) (by linarith : 0 ≤ 7.8 - q)]

/-- The estimate for odd exponents. -/
theorem est3 {p q : ℚ} (h1 : 1 ≤ q) (h2 : q ≤ 2) (h3 : 2.4324 ≤ p + q / 2) (h4 : p + q / 2 ≤ 2.4328) :
    0.93 ≤ p ^ 2 * q / 4 ∧ p ^ 2 * q / 4 ≤ 1.07 := by
  constructor
  · have : (2.4324 - q / 2) ^ 2 ≤ p ^ 2 := pow_le_pow_left₀ (by linarith) (by linarith) 2
    have h5 : (2.4324 - q / 2) ^ 2 * q ≤ p ^ 2 * q := mul_le_mul_of_nonneg_right this (by linarith)
    nlinarith [mul_nonneg (sub_nonneg.2 h1) (sub_nonneg.2 h2)]
  · have : p ^ 2 ≤ (2.4328 - q / 2) ^ 2 := pow_le_pow_left₀ (by linarith) (by linarith) 2
    have h5 : p ^ 2 * q ≤ (2.4328 - q / 2) ^ 2 * q := mul_le_mul_of_nonneg_right this (by linarith)
    nlinarith [mul_nonneg (sq_nonneg (q - 1.622)) (by linarith : 0 ≤ 6.48 - q)]

theorem f32_norm {e m : ℕ} (he : e ≠ 0) (hm : m < 2 ^ 23) : f32 (e * 2 ^ 23 + m) = (1 + (m : ℚ) / 2 ^ 23) * 2 ^ ((e : ℤ) - 127) := by
  unfold f32
  have h1 : (e * 2 ^ 23 + m) / 2 ^ 23 = e := by omega
  have h2 : (e * 2 ^ 23 + m) % 2 ^ 23 = m := by omega
  rw [h1, h2, if_neg he]

theorem f64_norm {e m : ℕ} (he : e ≠ 0) (hm : m < 2 ^ 52) : f64 (e * 2 ^ 52 + m) = (1 + (m : ℚ) / 2 ^ 52) * 2 ^ ((e : ℤ) - 1023) := by
  unfold f64
  have h1 : (e * 2 ^ 52 + m) / 2 ^ 52 = e := by omega
  have h2 : (e * 2 ^ 52 + m) % 2 ^ 52 = m := by omega
  rw [h1, h2, if_neg he]

theorem pow_comb {p q : ℚ} (x y k : ℤ) (h : x + 2 * y = k) : q * 2 ^ x * (p * 2 ^ y) ^ 2 = p ^ 2 * q * 2 ^ k := by
  have e : (2 : ℚ) ^ (2 * y) = (2 ^ y) ^ 2 := by
    rw [mul_comm, zpow_mul]
    norm_cast
  rw [← h, zpow_add₀ (by norm_num), e]
  ring

/-- The estimate of the code: x y² is near one. -/
theorem f32_est {e m : ℕ} (he : 1 ≤ e) (he' : e ≤ 254) (hm : m < 2 ^ 23) :
    0.93 ≤ f32 (e * 2 ^ 23 + m) * f32 (0x5f3759df - (e * 2 ^ 23 + m) / 2) ^ 2 ∧
    f32 (e * 2 ^ 23 + m) * f32 (0x5f3759df - (e * 2 ^ 23 + m) / 2) ^ 2 ≤ 1.07 := by
  rw [f32_norm (by omega) hm]
  have hq1 : (1 : ℚ) ≤ 1 + (m : ℚ) / 2 ^ 23 := by
    have : (0 : ℚ) ≤ (m : ℚ) / 2 ^ 23 := by positivity
    linarith
  have hm' : (m : ℚ) ≤ 2 ^ 23 := by exact_mod_cast hm.le
  have hq2 : 1 + (m : ℚ) / 2 ^ 23 ≤ 2 := by
    have : (m : ℚ) / 2 ^ 23 ≤ 1 := by rw [div_le_one (by positivity)]; exact hm'
    linarith
  obtain ⟨h, l, hl, rfl⟩ : ∃ h l, l < 2 ∧ m = 2 * h + l := ⟨m / 2, m % 2, by omega, by omega⟩
  have hlq : (l : ℚ) ≤ 1 := by exact_mod_cast (show l ≤ 1 by omega)
  have hl0 : (0 : ℚ) ≤ l := by positivity
  rcases Nat.even_or_odd' e with ⟨a, rfl | rfl⟩
  · by_cases hb : h ≤ 3627487
    · have e1 : 0x5f3759df - (2 * a * 2 ^ 23 + (2 * h + l)) / 2 = (190 - a) * 2 ^ 23 + (3627487 - h) := by omega
      rw [e1, f32_norm (by omega) (by omega), pow_comb _ _ (-1) (by push_cast [show a ≤ 190 by omega]; ring)]
      have := est1 (p := 1 + ((3627487 - h : ℕ) : ℚ) / 2 ^ 23) (q := 1 + ((2 * h + l : ℕ) : ℚ) / 2 ^ 23) hq1
        (by push_cast; have : (h : ℚ) ≤ 3627487 := by exact_mod_cast hb
            rw [← le_sub_iff_add_le', div_le_iff₀ (by positivity)]; norm_num; linarith)
        (by rw [Nat.cast_sub hb]; push_cast; norm_num; linarith) (by rw [Nat.cast_sub hb]; push_cast; norm_num; linarith)
      norm_num at this ⊢
      constructor <;> linarith
    · have e1 : 0x5f3759df - (2 * a * 2 ^ 23 + (2 * h + l)) / 2 = (189 - a) * 2 ^ 23 + (2 ^ 23 + 3627487 - h) := by omega
      have hle : h ≤ 2 ^ 23 + 3627487 := by omega
      rw [e1, f32_norm (by omega) (by omega), pow_comb _ _ (-3) (by push_cast [show a ≤ 189 by omega]; ring)]
      have := est2 (p := 1 + ((2 ^ 23 + 3627487 - h : ℕ) : ℚ) / 2 ^ 23) (q := 1 + ((2 * h + l : ℕ) : ℚ) / 2 ^ 23)
        (by push_cast; have : (3627488 : ℚ) ≤ h := by exact_mod_cast (show 3627488 ≤ h by omega)
            rw [← sub_le_iff_le_add', le_div_iff₀ (by positivity)]; norm_num; linarith) hq2
        (by rw [Nat.cast_sub hle]; push_cast; norm_num; linarith) (by rw [Nat.cast_sub hle]; push_cast; norm_num; linarith)
      norm_num at this ⊢
      constructor <;> linarith
  · have e1 : 0x5f3759df - ((2 * a + 1) * 2 ^ 23 + (2 * h + l)) / 2 = (189 - a) * 2 ^ 23 + (2 ^ 23 - 2 ^ 22 + 3627487 - h) := by omega
    have hle : h ≤ 2 ^ 23 - 2 ^ 22 + 3627487 := by omega
    rw [e1, f32_norm (by omega) (by omega), pow_comb _ _ (-2) (by push_cast [show a ≤ 189 by omega]; ring)]
    have := est3 (p := 1 + ((2 ^ 23 - 2 ^ 22 + 3627487 - h : ℕ) : ℚ) / 2 ^ 23) (q := 1 + ((2 * h + l : ℕ) : ℚ) / 2 ^ 23) hq1 hq2
      (by rw [Nat.cast_sub hle]; push_cast; norm_num; linarith) (by rw [Nat.cast_sub hle]; push_cast; norm_num; linarith)
    norm_num at this ⊢
    constructor <;> linarith

/-- The same for `double`: `h` are the upper and `l` the lower bits of the mantissa. -/
theorem f64_est {e h l : ℕ} (he : 1 ≤ e) (he' : e ≤ 2046) (hh : h < 2 ^ 20) (hl : l < 2 ^ 32) :
    let i := e * 2 ^ 52 + (h * 2 ^ 32 + l)
    0.93 ≤ f64 i * f64 ((0xbfcdd90a - i / 2 ^ 32) / 2 * 2 ^ 32 + i % 2 ^ 32) ^ 2 ∧
    f64 i * f64 ((0xbfcdd90a - i / 2 ^ 32) / 2 * 2 ^ 32 + i % 2 ^ 32) ^ 2 ≤ 1.07 := by
  dsimp only
  have d1 : (e * 2 ^ 52 + (h * 2 ^ 32 + l)) / 2 ^ 32 = e * 2 ^ 20 + h := by omega
  have d2 : (e * 2 ^ 52 + (h * 2 ^ 32 + l)) % 2 ^ 32 = l := by omega
  rw [f64_norm (by omega) (by omega), d1, d2]
  have hq1 : (1 : ℚ) ≤ 1 + ((h * 2 ^ 32 + l : ℕ) : ℚ) / 2 ^ 52 := by
    have : (0 : ℚ) ≤ ((h * 2 ^ 32 + l : ℕ) : ℚ) / 2 ^ 52 := div_nonneg (Nat.cast_nonneg _) (by norm_num)
    linarith
  have hm' : ((h * 2 ^ 32 + l : ℕ) : ℚ) ≤ 2 ^ 52 := by exact_mod_cast (show h * 2 ^ 32 + l ≤ 2 ^ 52 by omega)
  have hq2 : 1 + ((h * 2 ^ 32 + l : ℕ) : ℚ) / 2 ^ 52 ≤ 2 := by
    have : ((h * 2 ^ 32 + l : ℕ) : ℚ) / 2 ^ 52 ≤ 1 := by rw [div_le_one (by positivity)]; exact hm'
    linarith
  have hl0 : (0 : ℚ) ≤ l := by positivity
  have hl1 : (l : ℚ) ≤ 4294967296 := by exact_mod_cast (show l ≤ 4294967296 by omega)
  rcases Nat.even_or_odd' e with ⟨a, rfl | rfl⟩
  · by_cases hb : h ≤ 907530
    · obtain ⟨k, hk⟩ : ∃ k, k = (907530 - h) / 2 := ⟨_, rfl⟩
      have e1 : (0xbfcdd90a - (2 * a * 2 ^ 20 + h)) / 2 * 2 ^ 32 + l = (1534 - a) * 2 ^ 52 + (k * 2 ^ 32 + l) := by omega
      have k1 : (2 * k + h : ℚ) ≤ 907530 := by exact_mod_cast (show 2 * k + h ≤ 907530 by omega)
      have k2 : (907529 : ℚ) ≤ 2 * k + h := by exact_mod_cast (show 907529 ≤ 2 * k + h by omega)
      have hbq : (h : ℚ) ≤ 907530 := by exact_mod_cast hb
      rw [e1, f64_norm (by omega) (by omega), pow_comb _ _ (-1) (by push_cast [show a ≤ 1534 by omega]; ring)]
      have := est1 (p := 1 + ((k * 2 ^ 32 + l : ℕ) : ℚ) / 2 ^ 52) (q := 1 + ((h * 2 ^ 32 + l : ℕ) : ℚ) / 2 ^ 52) hq1
        (by push_cast; norm_num; linarith)
        (by push_cast; norm_num; linarith) (by push_cast; norm_num; linarith)
      norm_num at this ⊢
      constructor <;> linarith
    · obtain ⟨k, hk⟩ : ∃ k, k = (2 ^ 21 + 907530 - h) / 2 := ⟨_, rfl⟩
      have e1 : (0xbfcdd90a - (2 * a * 2 ^ 20 + h)) / 2 * 2 ^ 32 + l = (1533 - a) * 2 ^ 52 + (k * 2 ^ 32 + l) := by omega
      have k1 : (2 * k + h : ℚ) ≤ 3004682 := by exact_mod_cast (show 2 * k + h ≤ 3004682 by omega)
      have k2 : (3004681 : ℚ) ≤ 2 * k + h := by exact_mod_cast (show 3004681 ≤ 2 * k + h by omega)
      have hbq : (907530 : ℚ) ≤ h := by exact_mod_cast (show 907530 ≤ h by omega)
      rw [e1, f64_norm (by omega) (by omega), pow_comb _ _ (-3) (by push_cast [show a ≤ 1533 by omega]; ring)]
      have := est2 (p := 1 + ((k * 2 ^ 32 + l : ℕ) : ℚ) / 2 ^ 52) (q := 1 + ((h * 2 ^ 32 + l : ℕ) : ℚ) / 2 ^ 52)
        (by push_cast; norm_num; linarith) hq2
        (by push_cast; norm_num; linarith) (by push_cast; norm_num; linarith)
      norm_num at this ⊢
      constructor <;> linarith
  · obtain ⟨k, hk⟩ : ∃ k, k = (2 ^ 20 + 907530 - h) / 2 := ⟨_, rfl⟩
    have e1 : (0xbfcdd90a - ((2 * a + 1) * 2 ^ 20 + h)) / 2 * 2 ^ 32 + l = (1533 - a) * 2 ^ 52 + (k * 2 ^ 32 + l) := by omega
    have k1 : (2 * k + h : ℚ) ≤ 1956106 := by exact_mod_cast (show 2 * k + h ≤ 1956106 by omega)
    have k2 : (1956105 : ℚ) ≤ 2 * k + h := by exact_mod_cast (show 1956105 ≤ 2 * k + h by omega)
    rw [e1, f64_norm (by omega) (by omega), pow_comb _ _ (-2) (by push_cast [show a ≤ 1533 by omega]; ring)]
    have := est3 (p := 1 + ((k * 2 ^ 32 + l : ℕ) : ℚ) / 2 ^ 52) (q := 1 + ((h * 2 ^ 32 + l : ℕ) : ℚ) / 2 ^ 52) hq1 hq2
      (by push_cast; norm_num; linarith) (by push_cast; norm_num; linarith)
    norm_num at this ⊢
    constructor <;> linarith

theorem f64_est' {i : ℕ} (h1 : 2 ^ 52 ≤ i) (h2 : i < 2047 * 2 ^ 52) :
    0.93 ≤ f64 i * f64 ((0xbfcdd90a - i / 2 ^ 32) / 2 * 2 ^ 32 + i % 2 ^ 32) ^ 2 ∧
    f64 i * f64 ((0xbfcdd90a - i / 2 ^ 32) / 2 * 2 ^ 32 + i % 2 ^ 32) ^ 2 ≤ 1.07 := by
  have he : 1 ≤ i / 2 ^ 52 := by omega
  have he' : i / 2 ^ 52 ≤ 2046 := by omega
  have hh : i % 2 ^ 52 / 2 ^ 32 < 2 ^ 20 := by omega
  have hl : i % 2 ^ 32 < 2 ^ 32 := by omega
  have := f64_est he he' hh hl
  dsimp only at this
  rwa [show i / 2 ^ 52 * 2 ^ 52 + (i % 2 ^ 52 / 2 ^ 32 * 2 ^ 32 + i % 2 ^ 32) = i by omega] at this

theorem f64_pos {i : ℕ} (h : 2 ^ 52 ≤ i) : 0 < f64 i := by
  unfold f64
  rw [if_neg (by omega)]
  positivity

theorem newton_pos {n y : ℚ} (hy : 0 < y) (h : n * y ^ 2 < 3) : 0 < newton (n * 0.5) y := by
  unfold newton
  apply mul_pos hy
  nlinarith

/-- From x y² near one to the square root. -/
theorem root_bounds {n y e : ℚ} (hn : 0 < n) (hy : 0 < y) (h1 : 0 ≤ 1 - n * y ^ 2) (h2 : 1 - n * y ^ 2 ≤ e) (he : e ≤ 1) :
    (1 - (e : ℝ)) * √(n : ℝ) ≤ ((n * y : ℚ) : ℝ) ∧ ((n * y : ℚ) : ℝ) ≤ √(n : ℝ) := by
  have hn' : (0 : ℝ) < n := by exact_mod_cast hn
  have hy' : (0 : ℝ) < y := by exact_mod_cast hy
  have h1' : (0 : ℝ) ≤ 1 - n * y ^ 2 := by exact_mod_cast h1
  have h2' : (1 : ℝ) - n * y ^ 2 ≤ e := by exact_mod_cast h2
  have he' : (e : ℝ) ≤ 1 := by exact_mod_cast he
  push_cast
  have hs := Real.sqrt_pos.2 hn'
  have hss := Real.mul_self_sqrt hn'.le
  generalize √(n : ℝ) = s at hs hss
  rw [← hss] at h1' h2' ⊢
  have hz : 0 < s * (y : ℝ) := mul_pos hs hy'
  have hz1 : s * (y : ℝ) ≤ 1 := by nlinarith
  have hz2 : 1 - (e : ℝ) ≤ s * y := by nlinarith
  constructor
  · nlinarith
  · nlinarith

/-- **C196**: for every positive normal `float` the result of `fFastSqrt` (with the products in exact arithmetic) is at most the square root, and less than it by
at most 11 millionths. -/
theorem C196_float_partial {i : ℕ} (h1 : 2 ^ 23 ≤ i) (h2 : i < 255 * 2 ^ 23) :
    (1 - 0.000011) * √(f32 i : ℝ) ≤ (fFastSqrt i : ℝ) ∧ (fFastSqrt i : ℝ) ≤ √(f32 i : ℝ) := by
  obtain ⟨e, m, hm, rfl⟩ : ∃ e m, m < 2 ^ 23 ∧ i = e * 2 ^ 23 + m := ⟨i / 2 ^ 23, i % 2 ^ 23, by omega, by omega⟩
  have he : 1 ≤ e := by omega
  have he' : e ≤ 254 := by omega
  obtain ⟨k1, k2⟩ := f32_est he he' hm
  have hn : 0 < f32 (e * 2 ^ 23 + m) := by
    rw [f32_norm (by omega) hm]
    positivity
  have hy : 0 < f32 (0x5f3759df - (e * 2 ^ 23 + m) / 2) := by
    unfold f32
    rw [if_neg (by omega)]
    positivity
  unfold fFastSqrt
  dsimp only
  generalize f32 (e * 2 ^ 23 + m) = n at *
  generalize f32 (0x5f3759df - (e * 2 ^ 23 + m) / 2) = y at *
  obtain ⟨a1, a2⟩ := newton_step (n := n) (y := y) (e := 0.07) (by linarith) (by linarith) (by norm_num)
  have p1 := newton_pos hy (n := n) (by linarith)
  obtain ⟨b1, b2⟩ := newton_step (n := n) (y := newton (n * 0.5) y) (e := 0.00377) (by linarith) (by norm_num at a2 ⊢; linarith) (by norm_num)
  have p2 := newton_pos p1 (n := n) (by linarith)
  have := root_bounds hn p2 b1 (e := 0.000011) (by norm_num at b2 ⊢; linarith) (by norm_num)
  push_cast at this ⊢
  exact this

/-- 2 as a `float`. -/
example : f32 0x40000000 = 2 ∧ 2 ^ 23 ≤ 0x40000000 ∧ 0x40000000 < 255 * 2 ^ 23 := by
  refine ⟨?_, by norm_num, by norm_num⟩
  rw [show 0x40000000 = 128 * 2 ^ 23 + 0 by norm_num, f32_norm (by norm_num) (by norm_num)]
  norm_num

/-- **C196**: the same for every positive normal `double`, where the error is below 10⁻¹⁰. -/
theorem C196_double_partial {i : ℕ} (h1 : 2 ^ 52 ≤ i) (h2 : i < 2047 * 2 ^ 52) :
    (1 - 0.0000000001) * √(f64 i : ℝ) ≤ (dFastSqrt i : ℝ) ∧ (dFastSqrt i : ℝ) ≤ √(f64 i : ℝ) := by
  obtain ⟨k1, k2⟩ := f64_est' h1 h2
  have hn : 0 < f64 i := f64_pos h1
  have hy : 0 < f64 ((0xbfcdd90a - i / 2 ^ 32) / 2 * 2 ^ 32 + i % 2 ^ 32) := f64_pos (by omega)
  unfold dFastSqrt
  dsimp only
  generalize f64 ((0xbfcdd90a - i / 2 ^ 32) / 2 * 2 ^ 32 + i % 2 ^ 32) = y at *
  generalize f64 i = n at *
  obtain ⟨a1, a2⟩ := newton_step (n := n) (y := y) (e := 0.07) (by linarith) (by linarith) (by norm_num)
  have p1 := newton_pos hy (n := n) (by linarith)
  obtain ⟨b1, b2⟩ := newton_step (n := n) (y := newton (n * 0.5) y) (e := 0.00377) (by linarith) (by norm_num at a2 ⊢; linarith) (by norm_num)
  have p2 := newton_pos p1 (n := n) (by linarith)
  obtain ⟨c1, c2⟩ := newton_step (n := n) (y := newton (n * 0.5) (newton (n * 0.5) y)) (e := 0.000011) (by linarith) (by norm_num at b2 ⊢; linarith) (by norm_num)
  have p3 := newton_pos p2 (n := n) (by linarith)
  have := root_bounds hn p3 c1 (e := 0.0000000001) (by norm_num at c2 ⊢; linarith) (by norm_num)
  push_cast at this ⊢
  exact this

/-- 2 as a `double`. -/
example : f64 0x4000000000000000 = 2 ∧ 2 ^ 52 ≤ 0x4000000000000000 ∧ 0x4000000000000000 < 2047 * 2 ^ 52 := by
  refine ⟨?_, by norm_num, by norm_num⟩
  rw [show 0x4000000000000000 = 1024 * 2 ^ 52 + 0 by norm_num, f64_norm (by norm_num) (by norm_num)]
  norm_num

/-- For denormal numbers the result is useless: that for the smallest positive `float` is less than a hundredth of its square root. -/
theorem C196_denormal_counterexample : 0 < f32 1 ∧ 0 ≤ fFastSqrt 1 ∧ fFastSqrt 1 ^ 2 < f32 1 / 10000 := by
  have e1 : f32 1 = 2 ^ (-149 : ℤ) := by
    unfold f32
    norm_num
  have e2 : f32 (0x5f3759df - 1 / 2) = (1 + 3627487 / 2 ^ 23) * 2 ^ (63 : ℤ) := by
    rw [show 0x5f3759df - 1 / 2 = 190 * 2 ^ 23 + 3627487 by norm_num, f32_norm (by norm_num) (by norm_num)]
    norm_num
  unfold fFastSqrt newton
  dsimp only
  rw [e1, e2]
  norm_num

end Verif.Num.FastSqrt
