import Mathlib.Algebra.Field.Defs
import Mathlib.Algebra.CharZero.Defs
import Mathlib.Algebra.BigOperators.Group.List.Basic
import Mathlib.Algebra.Order.Field.Rat
import Mathlib.Tactic.FieldSimp
import Mathlib.Tactic.Ring
import Mathlib.Tactic.LinearCombination
import Mathlib.Tactic.NormNum

/-!
# Running mean and variance (C83)

`bssAvg` and `bssVariance` of `/repo/include/bss-util/bss_util.h:680-700`, in exact arithmetic.
-/

namespace Verif.Arith

variable {K : Type} [Field K]

/-- `bssAvg`, `bss_util.h:682-687`. -/
def bssAvg (curavg nvalue : K) (nextnum : Nat) : K := curavg + (nvalue - curavg) / (nextnum : K)

/-- `bssVariance`, `:691-698`: the new variance and average. (The quotient is by the value, not by the count.) -/
def bssVariance (s : K × K) (nvalue : K) (_nextnum : Nat) : K × K :=
  let delta := nvalue - s.2
  let avg := s.2 + delta / nvalue
  (s.1 + delta * (nvalue - avg), avg)

/-- `for(v : values) avg = bssAvg(avg, v, ++total);`, the usage given at `:683`. -/
def avgLoop : List K → Nat → K → K
  | [], _, avg => avg
  | v :: vs, total, avg => avgLoop vs (total + 1) (bssAvg avg v (total + 1))

/-- `for(v : values) bssVariance(variance, avg, v, ++total);`, the usage given at `:692`. -/
def varLoop : List K → Nat → K × K → K × K
  | [], _, s => s
  | v :: vs, total, s => varLoop vs (total + 1) (bssVariance s v (total + 1))

theorem avgLoop_eq [CharZero K] : ∀ (vs : List K) (n : Nat) (avg sum : K), avg * n = sum → (0 < n ∨ vs ≠ []) → avgLoop vs n avg * ((n + vs.length : Nat) : K) = sum + vs.sum
  | [], n, avg, sum, h, _ => by simp [avgLoop, h]
  | v :: vs, n, avg, sum, h, _ => by
    have hn : ((n + 1 : Nat) : K) ≠ 0 := by exact_mod_cast Nat.succ_ne_zero n
    have h1 : bssAvg avg v (n + 1) * ((n + 1 : Nat) : K) = sum + v := by
      rw [bssAvg, add_mul, div_mul_cancel₀ _ hn]
      push_cast
      linear_combination h
    have := avgLoop_eq vs (n + 1) _ _ h1 (.inl (Nat.succ_pos n))
    rw [avgLoop, List.length_cons, List.sum_cons, show n + (vs.length + 1) = n + 1 + vs.length by omega, this]
    ring

/-- **C83**: feeding values one by one to `bssAvg` gives their mean, whatever the initial average is. -/
theorem C83_mean [CharZero K] (vs : List K) (hvs : vs ≠ []) (avg : K) : avgLoop vs 0 avg = vs.sum / (vs.length : K) := by
  have hl : (vs.length : K) ≠ 0 := by exact_mod_cast (List.length_pos_iff.2 hvs).ne'
  rw [eq_div_iff hl]
  have := avgLoop_eq vs 0 avg 0 (by simp) (.inr hvs)
  rw [Nat.zero_add, zero_add] at this
  exact this

example : avgLoop ([3, 5, 10] : List ℚ) 0 0 = 6 := by norm_num [avgLoop, bssAvg]

/-- **C83**: `bssVariance` computes neither the mean nor the sum of squared differences: it divides by the new value instead of the count. For 1 and 3 (mean 2, sum of squares 2). -/
theorem C83_variance_counterexample : varLoop ([1, 3] : List ℚ) 0 (0, 0) ≠ (2, 2) ∧ (varLoop ([1, 3] : List ℚ) 0 (0, 0)).2 ≠ 2 ∧ (varLoop ([1, 3] : List ℚ) 0 (0, 0)).1 ≠ 2 := by
  norm_num [varLoop, bssVariance]

end Verif.Arith
