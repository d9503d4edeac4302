import Mathlib.Algebra.Order.Ring.Rat
import Mathlib.Algebra.Order.Field.Basic
import Mathlib.Tactic.FieldSimp
import Mathlib.Tactic.LinearCombination
import Mathlib.Tactic.Linarith
import Verif.Arith.IntDiv
import Verif.Arith.MulExtract

/-!
# Fixed point numbers (C31), `FixedPt.h:11-34, 57-150`

`Fixed<D,T>` with raw bits `n` stands for the rational `n / 2^D`.  `T` is a signed type of `w` bits; a result
that does not fit is overflow (`none`).  Left shifts of negative numbers are multiplications (C++20 rules).
-/

namespace Verif.Arith

/-- Specification: the number represented. -/
def fval (D : Nat) (n : Int) : ℚ := n / 2 ^ D

/-- Signed overflow check. -/
def fit (w : Nat) (x : Int) : Option Int := if -2 ^ (w - 1) ≤ x ∧ x < 2 ^ (w - 1) then some x else none

/-- `SafeShift<T, S>`, `bss_util.h:166-175`, with the overflow of the left shift. -/
def fxShift (w : Nat) (s : Int) (v : Int) : Option Int :=
  if 0 < s then fit w (v * 2 ^ s.toNat)
  else if s < 0 then some (Int.fdiv v (2 ^ (-s).toNat))
  else some v

/-- `fixedpt_add<T, S_X, S_Y>`, `FixedPt.h:18-19`. -/
def fxAdd (w D B : Nat) (x y : Int) : Option Int := do
  let y' ← fxShift w (D - B) y
  fit w (x + y')

/-- `operator-` for another precision, `FixedPt.h:97, 121`. -/
def fxSub (w D B : Nat) (x y : Int) : Option Int := do
  let ny ← fit w (-y)
  fxAdd w D B x ny

/-- `fixedpt_mul<T>(x, y, S_Y)`, `FixedPt.h:20-21` over the double-width multiply-extract. -/
def fxMul (w B : Nat) (x y : Int) : Option Int := mulExtractWide w x y B

/-- `fixedpt_div<T>(x, y, S_Y)`, `FixedPt.h:25-30`: shift left in the double-width type, divide (truncating), narrow. -/
def fxDiv (w B : Nat) (x y : Int) : Option Int := do
  let num ← fit (2 * w) (x * 2 ^ B)
  if y = 0 then none
  else some (Int.bmod (Int.tdiv num y) (2 ^ w))

/-- `fixedpt_recip`, `FixedPt.h:23-24`. -/
def fxRecip (w : Nat) (x : Int) : Option Int := if x = 0 then none else some (Int.tdiv (2 ^ (w - 2)) x)

/-- `Reciprocal()`, `FixedPt.h:83-86`: the result has precision `w - D`. -/
def fxReciprocal (w : Nat) (x : Int) : Option Int := do
  let r ← fxRecip w x
  fit w (r * 4)

/-- The 64-bit specialisation of `fixedpt_div`, `FixedPt.h:33-34`: multiply by the reciprocal. `w = 64`. -/
def fxDivRecip (w B : Nat) (x y : Int) : Option Int := do
  let r ← fxRecip w y
  mulExtractWide w x r (w - 2 - B)

/-- `Fixed(const T v)`, `FixedPt.h:65`. -/
def fxOfInt (w D : Nat) (v : Int) : Option Int := fit w (v * 2 ^ D)

/-- `operator T()`, `FixedPt.h:72`. -/
def fxToInt (D : Nat) (n : Int) : Int := Int.fdiv n (2 ^ D)

/-- Conversion from precision `B` to precision `D`, `FixedPt.h:64, 78`: `SafeShift<T, B - D>`. -/
def fxConvert (w D B : Nat) (n : Int) : Option Int := fxShift w (B - D) n

/-! ### lemmas -/

theorem fit_some {w : Nat} {x y : Int} (h : fit w x = some y) : y = x ∧ -2 ^ (w - 1) ≤ x ∧ x < 2 ^ (w - 1) := by
  unfold fit at h
  split at h
  · next hc => simp at h; exact ⟨h.symm, hc⟩
  · cases h

theorem floor_bounds (v : Int) (k : Nat) :
    ((Int.fdiv v (2 ^ k) : Int) : ℚ) ≤ v / 2 ^ k ∧ (v : ℚ) / 2 ^ k < (Int.fdiv v (2 ^ k) : Int) + 1 := by
  have hp : (0 : Int) < 2 ^ k := by positivity
  have hpq : (0 : ℚ) < 2 ^ k := by positivity
  rw [Int.fdiv_eq_ediv_of_nonneg _ (le_of_lt hp)]
  have h1 := Int.ediv_mul_le v (b := 2 ^ k) (by omega)
  have h2 := Int.lt_ediv_add_one_mul_self v hp
  constructor
  · rw [le_div_iff₀ hpq]; exact_mod_cast h1
  · rw [div_lt_iff₀ hpq]; exact_mod_cast h2

theorem pow_split (a b : Nat) (h : a ≤ b) : (2 : ℚ) ^ b = 2 ^ a * 2 ^ (b - a) := by
  rw [← pow_add]; congr 1; omega

/-! ### properties -/

/-- C31, addition: adding a number of lower or equal precision is exact. -/
theorem C31_add_exact (w D B : Nat) (hBD : B ≤ D) (x y r : Int) (h : fxAdd w D B x y = some r) :
    fval D r = fval D x + fval B y := by
  unfold fxAdd fxShift at h
  have hp : ∀ k : Nat, (2 : ℚ) ^ k ≠ 0 := fun k => by positivity
  have e := pow_split B D hBD
  by_cases hc : B = D
  · subst hc
    simp only [Int.sub_self, Int.lt_irrefl, if_false, Option.bind_eq_bind, Option.bind_some] at h
    obtain ⟨rfl, -⟩ := fit_some h
    unfold fval; push_cast; ring
  · rw [if_pos (by omega)] at h
    simp only [Option.bind_eq_bind, Option.bind_eq_some_iff] at h
    obtain ⟨y', hy', h⟩ := h
    obtain ⟨rfl, -⟩ := fit_some hy'
    obtain ⟨rfl, -⟩ := fit_some h
    have : ((D : Int) - B).toNat = D - B := by omega
    rw [this]
    unfold fval
    push_cast
    rw [e]
    field_simp

/-- C31, addition of a number of higher precision: the addend is rounded down to the grid first, so the result is
the exact sum rounded down. -/
theorem C31_add_floor (w D B : Nat) (hBD : D ≤ B) (x y r : Int) (h : fxAdd w D B x y = some r) :
    fval D r ≤ fval D x + fval B y ∧ fval D x + fval B y < fval D (r + 1) := by
  by_cases hc : B = D
  · have := C31_add_exact w D B (by omega) x y r h
    rw [this]
    refine ⟨le_refl _, ?_⟩
    rw [← this]
    unfold fval
    have : (0 : ℚ) < 2 ^ D := by positivity
    rw [div_lt_div_iff_of_pos_right this]
    push_cast; linarith
  · unfold fxAdd fxShift at h
    rw [if_neg (by omega), if_pos (by omega)] at h
    simp only [Option.bind_eq_bind, Option.bind_some] at h
    obtain ⟨rfl, -⟩ := fit_some h
    have et : (-((D : Int) - B)).toNat = B - D := by omega
    rw [et]
    obtain ⟨f1, f2⟩ := floor_bounds y (B - D)
    have e := pow_split D B hBD
    have hp : (0 : ℚ) < 2 ^ D := by positivity
    unfold fval
    generalize Int.fdiv y (2 ^ (B - D)) = q at *
    rw [e, ← div_div, div_right_comm, ← add_div, div_le_div_iff_of_pos_right hp, div_lt_div_iff_of_pos_right hp]
    push_cast
    constructor <;> linarith

/-- C31, multiplication: the exact product rounded down to the left operand's grid. -/
theorem C31_mul (w D B : Nat) (hw : 0 < w) (hB : B < 2 * w) (x y : Int)
    (hx1 : -2 ^ (w - 1) ≤ x) (hx2 : x < 2 ^ (w - 1)) (hy1 : -2 ^ (w - 1) ≤ y) (hy2 : y < 2 ^ (w - 1))
    (hfit : -2 ^ (w - 1) ≤ x * y / (2 ^ B : Nat) ∧ x * y / (2 ^ B : Nat) < 2 ^ (w - 1)) :
    ∃ r, fxMul w B x y = some r ∧ fval D r ≤ fval D x * fval B y ∧ fval D x * fval B y < fval D (r + 1) := by
  refine ⟨x * y / (2 ^ B : Nat), ?_, ?_⟩
  · unfold fxMul
    rw [C69_wide w x y B hw hx1 hx2 hy1 hy2 hB]
    congr 1
    have hW : (2 ^ w : Nat) = 2 * 2 ^ (w - 1) := by rw [← Nat.pow_succ']; congr 1; omega
    apply Int.bmod_eq_of_le <;> rw [hW] <;> push_cast <;> push_cast at hfit <;> omega
  · have hp : (0 : Int) ≤ 2 ^ B := by positivity
    obtain ⟨f1, f2⟩ := floor_bounds (x * y) B
    rw [Int.fdiv_eq_ediv_of_nonneg _ hp] at f1 f2
    push_cast at f1 f2 ⊢
    generalize x * y / 2 ^ B = q at *
    have hpD : (0 : ℚ) < 2 ^ D := by positivity
    have e : fval D x * fval B y = ((x : ℚ) * y / 2 ^ B) / 2 ^ D := by unfold fval; field_simp
    rw [e]
    unfold fval
    rw [div_le_div_iff_of_pos_right hpD, div_lt_div_iff_of_pos_right hpD]
    push_cast
    exact ⟨f1, f2⟩

theorem tdiv_bounds (a b : Int) (hb : b ≠ 0) : |(a : ℚ) / b - (Int.tdiv a b : Int)| < 1 := by
  have h := (Int.mul_tdiv_add_tmod a b).symm
  have hlt := Int.natAbs_tmod a b
  have h1 : |(Int.tmod a b : Int)| < |b| := by
    rw [Int.abs_eq_natAbs, Int.abs_eq_natAbs, hlt]
    have : a.natAbs % b.natAbs < b.natAbs := Nat.mod_lt _ (by omega)
    omega
  have hbq : (b : ℚ) ≠ 0 := by exact_mod_cast hb
  have e : (a : ℚ) / b - (Int.tdiv a b : Int) = (Int.tmod a b : Int) / b := by
    field_simp
    have : (a : ℚ) = b * (Int.tdiv a b : Int) + (Int.tmod a b : Int) := by exact_mod_cast h
    linarith
  rw [e, abs_div, div_lt_one (abs_pos.2 hbq)]
  exact_mod_cast h1

/-- C31, division (types with a double-width counterpart): within one grid step of the exact quotient. -/
theorem C31_div (w D B : Nat) (hw : 0 < w) (x y num : Int) (hy : y ≠ 0) (hnum : fit (2 * w) (x * 2 ^ B) = some num)
    (hfit : -2 ^ (w - 1) ≤ Int.tdiv (x * 2 ^ B) y ∧ Int.tdiv (x * 2 ^ B) y < 2 ^ (w - 1)) :
    ∃ r, fxDiv w B x y = some r ∧ |fval D x / fval B y - fval D r| < 1 / 2 ^ D := by
  refine ⟨Int.tdiv (x * 2 ^ B) y, ?_, ?_⟩
  · unfold fxDiv
    obtain ⟨rfl, -⟩ := fit_some hnum
    simp only [hnum, Option.bind_eq_bind, Option.bind_some, if_neg hy]
    congr 1
    have hW : (2 ^ w : Nat) = 2 * 2 ^ (w - 1) := by rw [← Nat.pow_succ']; congr 1; omega
    apply Int.bmod_eq_of_le <;> rw [hW] <;> push_cast <;> omega
  · have h := tdiv_bounds (x * 2 ^ B) y hy
    generalize Int.tdiv (x * 2 ^ B) y = q at *
    have hpD : (0 : ℚ) < 2 ^ D := by positivity
    have hyq : (y : ℚ) ≠ 0 := by exact_mod_cast hy
    have e : fval D x / fval B y - fval D q = (((x * 2 ^ B : Int) : ℚ) / y - q) / 2 ^ D := by
      unfold fval; push_cast; field_simp
    rw [e, abs_div, abs_of_pos hpD, div_lt_div_iff_of_pos_right hpD]
    exact h

/-- C31, 64-bit division through the reciprocal: the error is below one grid step plus `|x| / 2^(w-2-B)` steps. -/
theorem C31_div_recip (w D B : Nat) (hw : 3 ≤ w) (hB : B ≤ w - 2) (x y : Int) (hy : y ≠ 0)
    (hx1 : -2 ^ (w - 1) ≤ x) (hx2 : x < 2 ^ (w - 1))
    (hfit : -2 ^ (w - 1) ≤ x * Int.tdiv (2 ^ (w - 2)) y / (2 ^ (w - 2 - B) : Nat) ∧
      x * Int.tdiv (2 ^ (w - 2)) y / (2 ^ (w - 2 - B) : Nat) < 2 ^ (w - 1)) :
    ∃ r, fxDivRecip w B x y = some r ∧
      |fval D x / fval B y - fval D r| < (1 + |(x : ℚ)| / 2 ^ (w - 2 - B)) / 2 ^ D := by
  have habs : |Int.tdiv (2 ^ (w - 2)) y| ≤ 2 ^ (w - 2) := by
    have h := Int.natAbs_tdiv (2 ^ (w - 2)) y
    have h2 : ((2 : Int) ^ (w - 2)).natAbs = 2 ^ (w - 2) := by rw [Int.natAbs_pow]; rfl
    rw [h2] at h
    rw [Int.abs_eq_natAbs, h]
    exact_mod_cast Nat.div_le_self _ _
  have hpw : (2 : Int) ^ (w - 1) = 2 * 2 ^ (w - 2) := by rw [← pow_succ']; congr 1; omega
  have hpp : (0 : Int) < 2 ^ (w - 2) := by positivity
  obtain ⟨l1, l2⟩ := abs_le.1 habs
  have hb := tdiv_bounds (2 ^ (w - 2)) y hy
  unfold fxDivRecip fxRecip
  simp only [if_neg hy, Option.bind_eq_bind, Option.bind_some]
  generalize Int.tdiv (2 ^ (w - 2)) y = q at *
  refine ⟨x * q / (2 ^ (w - 2 - B) : Nat), ?_, ?_⟩
  · rw [C69_wide w x q _ (by omega) hx1 hx2 (by omega) (by omega) (by omega)]
    congr 1
    have hW : (2 ^ w : Nat) = 2 * 2 ^ (w - 1) := by rw [← Nat.pow_succ']; congr 1; omega
    apply Int.bmod_eq_of_le <;> rw [hW] <;> push_cast <;> push_cast at hfit <;> omega
  · obtain ⟨f1, f2⟩ := floor_bounds (x * q) (w - 2 - B)
    rw [Int.fdiv_eq_ediv_of_nonneg _ (by positivity)] at f1 f2
    push_cast at f1 f2 ⊢
    generalize x * q / 2 ^ (w - 2 - B) = r at *
    have hpD : (0 : ℚ) < 2 ^ D := by positivity
    have hyq : (y : ℚ) ≠ 0 := by exact_mod_cast hy
    have hE : (0 : ℚ) < 2 ^ (w - 2 - B) := by positivity
    have e1 : (2 : ℚ) ^ (w - 2) = 2 ^ B * 2 ^ (w - 2 - B) := by rw [← pow_add]; congr 1; omega
    have e : fval D x / fval B y - fval D r =
        ((x : ℚ) * (((2 ^ (w - 2) : Int) : ℚ) / y - q) / 2 ^ (w - 2 - B) + ((x : ℚ) * q / 2 ^ (w - 2 - B) - r)) / 2 ^ D := by
      unfold fval; push_cast; rw [e1]; field_simp; ring
    rw [e, abs_div, abs_of_pos hpD, div_lt_div_iff_of_pos_right hpD]
    have g1 : |(x : ℚ) * (((2 ^ (w - 2) : Int) : ℚ) / y - q) / 2 ^ (w - 2 - B)| ≤ |(x : ℚ)| / 2 ^ (w - 2 - B) := by
      rw [abs_div, abs_of_pos hE, div_le_div_iff_of_pos_right hE, abs_mul]
      nlinarith [abs_nonneg (x : ℚ), abs_nonneg (((2 ^ (w - 2) : Int) : ℚ) / y - q)]
    have g2 : |(x : ℚ) * q / 2 ^ (w - 2 - B) - r| < 1 := by
      rw [abs_lt]; constructor <;> linarith
    linarith [abs_add_le ((x : ℚ) * (((2 ^ (w - 2) : Int) : ℚ) / y - q) / 2 ^ (w - 2 - B)) ((x : ℚ) * q / 2 ^ (w - 2 - B) - r)]

/-- C31, reciprocal: for a raw value of magnitude at least 3 there is no overflow, and the result, read with its
precision `w - D`, is within four grid steps of the exact reciprocal. -/
theorem C31_reciprocal (w D : Nat) (hw : 3 ≤ w) (hD : D ≤ w) (x : Int) (hx : 3 ≤ |x|) :
    ∃ r, fxReciprocal w x = some r ∧ |1 / fval D x - fval (w - D) r| < 4 / 2 ^ (w - D) := by
  have hx0 : x ≠ 0 := by rintro rfl; simp at hx
  have hq : |Int.tdiv (2 ^ (w - 2)) x| * 3 ≤ 2 ^ (w - 2) := by
    have h := Int.natAbs_tdiv (2 ^ (w - 2)) x
    have h2 : ((2 : Int) ^ (w - 2)).natAbs = 2 ^ (w - 2) := by rw [Int.natAbs_pow]; rfl
    rw [h2] at h
    have h3 : 3 ≤ x.natAbs := by have := Int.abs_eq_natAbs x; omega
    have h4 : 2 ^ (w - 2) / x.natAbs * 3 ≤ 2 ^ (w - 2) :=
      Nat.le_trans (Nat.mul_le_mul_left _ h3) (Nat.div_mul_le_self _ _)
    rw [Int.abs_eq_natAbs, h]
    exact_mod_cast h4
  have hpw : (2 : Int) ^ (w - 1) = 2 * 2 ^ (w - 2) := by rw [← pow_succ']; congr 1; omega
  have hpp : (0 : Int) < 2 ^ (w - 2) := by positivity
  refine ⟨Int.tdiv (2 ^ (w - 2)) x * 4, ?_, ?_⟩
  · unfold fxReciprocal fxRecip
    simp only [if_neg hx0, Option.bind_eq_bind, Option.bind_some]
    unfold fit
    rw [if_pos]
    rw [hpw]
    have := abs_le.1 (le_refl |Int.tdiv (2 ^ (w - 2)) x|)
    constructor <;> omega
  · have h := tdiv_bounds (2 ^ (w - 2)) x hx0
    generalize Int.tdiv (2 ^ (w - 2)) x = q at *
    have hxq : (x : ℚ) ≠ 0 := by exact_mod_cast hx0
    have hpD : (0 : ℚ) < 2 ^ (w - D) := by positivity
    have e1 : (2 : ℚ) ^ (w - 2) * 4 = 2 ^ D * 2 ^ (w - D) := by
      rw [← pow_add, show (4 : ℚ) = 2 ^ 2 by norm_num, ← pow_add]; congr 1; omega
    have e : 1 / fval D x - fval (w - D) (q * 4) = (((2 ^ (w - 2) : Int) : ℚ) / x - q) * 4 / 2 ^ (w - D) := by
      unfold fval; push_cast; field_simp
      linear_combination -e1
    rw [e, abs_div, abs_of_pos hpD, div_lt_div_iff_of_pos_right hpD, abs_mul, abs_of_pos (by norm_num : (0 : ℚ) < 4)]
    linarith

/-- C31: integers survive the round trip, and the conversion to an integer rounds down. -/
theorem C31_int (w D : Nat) (v n : Int) (h : fxOfInt w D v = some n) :
    fval D n = v ∧ fxToInt D n = v ∧ ∀ m : Int, ((fxToInt D m : Int) : ℚ) ≤ fval D m ∧ fval D m < (fxToInt D m : Int) + 1 := by
  obtain ⟨rfl, -⟩ := fit_some h
  have hp : (2 : ℚ) ^ D ≠ 0 := by positivity
  have hpi : (2 : Int) ^ D ≠ 0 := by positivity
  refine ⟨?_, ?_, fun m => floor_bounds m D⟩
  · unfold fval; push_cast; field_simp
  · unfold fxToInt
    rw [Int.fdiv_eq_ediv_of_nonneg _ (by positivity), Int.mul_ediv_cancel _ hpi]

/-- C31: comparing raw bits compares the numbers (same precision). -/
theorem C31_compare (D : Nat) (x y : Int) : (x < y ↔ fval D x < fval D y) ∧ (x = y ↔ fval D x = fval D y) := by
  have hp : (0 : ℚ) < 2 ^ D := by positivity
  unfold fval
  rw [div_lt_div_iff_of_pos_right hp, div_left_inj' (ne_of_gt hp)]
  exact ⟨by exact_mod_cast Iff.rfl, by exact_mod_cast Iff.rfl⟩

/-- C31, conversion between precisions: only right when the precisions agree. -/
theorem C31_convert_partial (w D : Nat) (n : Int) : fxConvert w D D n = some n := by
  simp [fxConvert, fxShift]

/-- C31 fails for conversion: the shift goes the wrong way; 1.0 with 4 fractional bits becomes 1/256 with 8 (and the
opposite conversion multiplies). -/
theorem C31_convert_counterexample :
    fxConvert 32 8 4 16 = some 1 ∧ fval 4 16 = 1 ∧ fval 8 1 ≠ 1 ∧ fxConvert 32 4 8 256 = some 4096 ∧ fval 4 4096 ≠ fval 8 256 := by
  refine ⟨by decide +kernel, by norm_num [fval], by norm_num [fval], by decide +kernel, by norm_num [fval]⟩

example : fxAdd 32 8 4 256 24 = some 640 ∧ fxMul 32 8 384 384 = some 576 ∧ fxDiv 32 8 384 (-256) = some (-384) ∧
    fxReciprocal 32 1024 = some 4194304 := by decide +kernel

end Verif.Arith
