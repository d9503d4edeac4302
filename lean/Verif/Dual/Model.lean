import Mathlib.Analysis.SpecialFunctions.Pow.Real
import Mathlib.Analysis.SpecialFunctions.Log.Base
import Mathlib.Analysis.SpecialFunctions.Trigonometric.Basic

/-!
# Dual numbers of any order (`Dual.h`)

Numbers are real; rounding is not modelled. The functions of `<cmath>` are those of Mathlib, used where both agree.
-/

noncomputable section

namespace Verif.Dual

/-- `Dual<T, O>`, `Dual.h:13-54`: `_x` and `_dx`; `Dual<T, 0>`, `:57-80`, only has `_x`. -/
def Dual : ℕ → Type
  | 0 => ℝ
  | n + 1 => ℝ × Dual n

/-- The constructor from a number, `Dual.h:18` and `:60`. -/
def ofNum : (n : ℕ) → ℝ → Dual n
  | 0, x => x
  | n + 1, x => (x, ofNum n 0)

/-- `_low`, `Dual.h:33`; the constructor of `:59` drops the second argument. -/
def low : (n : ℕ) → Dual (n + 1) → Dual n
  | 0, d => d.1
  | n + 1, d => (d.1, low n d.2)

/-- `operator+`, `Dual.h:24` and `:61`. -/
def add : (n : ℕ) → Dual n → Dual n → Dual n
  | 0, a, b => (show ℝ from a) + (show ℝ from b)
  | n + 1, a, b => (a.1 + b.1, add n a.2 b.2)

/-- `operator-`, `Dual.h:25` and `:62`. -/
def sub : (n : ℕ) → Dual n → Dual n → Dual n
  | 0, a, b => (show ℝ from a) - (show ℝ from b)
  | n + 1, a, b => (a.1 - b.1, sub n a.2 b.2)

/-- The unary `operator-`, `Dual.h:30` and `:67`. -/
def neg : (n : ℕ) → Dual n → Dual n
  | 0, a => -(show ℝ from a)
  | n + 1, a => (-a.1, neg n a.2)

/-- `operator*`, `Dual.h:26` and `:63`. -/
def mul : (n : ℕ) → Dual n → Dual n → Dual n
  | 0, a, b => (show ℝ from a) * (show ℝ from b)
  | n + 1, a, b => (a.1 * b.1, add n (mul n a.2 (low n b)) (mul n b.2 (low n a)))

/-- `operator/`, `Dual.h:27` and `:64`. -/
def div : (n : ℕ) → Dual n → Dual n → Dual n
  | 0, a, b => (show ℝ from a) / (show ℝ from b)
  | n + 1, a, b => (a.1 / b.1, div n (sub n (mul n a.2 (low n b)) (mul n b.2 (low n a))) (mul n (low n b) (low n b)))

/-- `operator^` with a number, `Dual.h:28` and `:65`. -/
def powNum : (n : ℕ) → Dual n → ℝ → Dual n
  | 0, a, k => (show ℝ from a) ^ k
  | n + 1, a, k => (a.1 ^ k, mul n (mul n a.2 (ofNum n k)) (powNum n (low n a) (k - 1)))

/-- `log`, `Dual.h:44` and `:75`. -/
def log : (n : ℕ) → Dual n → Dual n
  | 0, a => Real.log (show ℝ from a)
  | n + 1, a => (Real.log a.1, div n a.2 (low n a))

/-- `log10`, `Dual.h:45` and `:76`. -/
def log10 : (n : ℕ) → Dual n → Dual n
  | 0, a => Real.logb 10 (show ℝ from a)
  | n + 1, a => (Real.logb 10 a.1, div n a.2 (mul n (ofNum n (Real.log 10)) (low n a)))

/-- `operator^`, `Dual.h:29` and `:66`. -/
def pow : (n : ℕ) → Dual n → Dual n → Dual n
  | 0, a, b => (show ℝ from a) ^ (show ℝ from b)
  | n + 1, a, b =>
    (a.1 ^ b.1, mul n (pow n (low n a) (sub n (low n b) (ofNum n 1))) (add n (mul n (low n b) a.2) (mul n (mul n (low n a) b.2) (log n (low n a)))))

mutual
/-- `sin`, `Dual.h:41` and `:72`. -/
def sin : (n : ℕ) → Dual n → Dual n
  | 0, a => Real.sin (show ℝ from a)
  | n + 1, a => (Real.sin a.1, mul n a.2 (cos n (low n a)))
/-- `cos`, `Dual.h:42` and `:73`. -/
def cos : (n : ℕ) → Dual n → Dual n
  | 0, a => Real.cos (show ℝ from a)
  | n + 1, a => (Real.cos a.1, mul n a.2 (neg n (sin n (low n a))))
end

/-- `exp`, `Dual.h:43` and `:74`. -/
def exp : (n : ℕ) → Dual n → Dual n
  | 0, a => Real.exp (show ℝ from a)
  | n + 1, a => (Real.exp a.1, mul n a.2 (exp n (low n a)))

/-- `SGNCOMPARE(x, 0)`, `bss_util.h`: 1, 0 or -1. -/
def sgn (x : ℝ) : ℝ := (if 0 < x then 1 else 0) - (if x < 0 then 1 else 0)

/-- `Abs`, `Dual.h:31`; there is none of order 0. -/
def abs (n : ℕ) (a : Dual (n + 1)) : Dual (n + 1) := (|a.1|, mul n a.2 (ofNum n (sgn a.1)))

/-- `operator()`, `Dual.h:35` and `:69`. -/
def get : (n : ℕ) → Dual n → ℕ → ℝ
  | 0, a, _ => a
  | _ + 1, a, 0 => a.1
  | n + 1, a, i + 1 => get n a.2 i

end Verif.Dual
