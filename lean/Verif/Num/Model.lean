import Mathlib.Analysis.SpecialFunctions.Trigonometric.Basic

/-!
# Quadrature, angles and lengths

Models `GaussianQuadrature` of `/repo/include/bss-util/algo.h` and the functions about angles and lengths of `/repo/include/bss-util/bss_util.h` in exact arithmetic over the real numbers; `PI` is `π`.
-/

namespace Verif.Num

open Real

noncomputable section

/-- `points`, `algo.h:578-584`; `n` is `N - 1`. -/
def points : Nat → List ℝ
  | 0 => [0]
  | 1 => [-√(1 / 3), √(1 / 3)]
  | 2 => [0, -√(3 / 5), √(3 / 5)]
  | 3 => [-√(3 / 7 - 2 / 7 * √(6 / 5)), √(3 / 7 - 2 / 7 * √(6 / 5)), -√(3 / 7 + 2 / 7 * √(6 / 5)), √(3 / 7 + 2 / 7 * √(6 / 5))]
  | _ => [0, -√(5 - 2 * √(10 / 7)) / 3, √(5 - 2 * √(10 / 7)) / 3, -√(5 + 2 * √(10 / 7)) / 3, √(5 + 2 * √(10 / 7)) / 3]

/-- `weights`, `algo.h:586-592`. `128 / 225` is a quotient of integers. -/
def weights : Nat → List ℝ
  | 0 => [2]
  | 1 => [1, 1]
  | 2 => [8 / 9, 5 / 9, 5 / 9]
  | 3 => [(18 + √30) / 36, (18 + √30) / 36, (18 - √30) / 36, (18 - √30) / 36]
  | _ => [((128 / 225 : Nat) : ℝ), (322 + 13 * √70) / 900, (322 + 13 * √70) / 900, (322 - 13 * √70) / 900, (322 - 13 * √70) / 900]

/-- `GaussianQuadrature`, `algo.h:572-602`, with `n + 1` points, without the `static_assert` that forbids every instance. -/
def quadrature (n : Nat) (a b : ℝ) (f : ℝ → ℝ) : ℝ :=
  let scale := (b - a) / 2
  let avg := (a + b) / 2
  match points n, weights n with
  | p :: ps, w :: ws => scale * (List.zip ws ps).foldl (fun r x => r + x.1 * f (scale * x.2 + avg)) (w * f (scale * p + avg))
  | _, _ => 0

/-- `fmod` of the C library: the quotient is rounded towards zero. -/
def fmod (x m : ℝ) : ℝ := x - m * (if 0 ≤ x / m then (⌊x / m⌋ : ℝ) else (⌈x / m⌉ : ℝ))

/-- `bssFMod`, `bss_util.h:188-193`. -/
def bssFMod (x m : ℝ) : ℝ := x - ⌊x / m⌋ * m

/-- `AngleDist`, `bss_util.h:409-414`. -/
def angleDist (a b : ℝ) : ℝ := π - |fmod |a - b| (π * 2) - π|

/-- `AngleDistSigned`, `bss_util.h:417-422`. -/
def angleDistSigned (a b : ℝ) : ℝ := fmod (bssFMod (b - a) (π * 2) + π) (π * 2) - π

/-- `fLength`, `bss_util.h:594-601`. -/
def fLength (x y : ℝ) : ℝ :=
  let x := |x|
  let y := |y|
  let hold := 0.7071067811865475 * (x + y)
  let mval := if x > y then x else y
  0.92677669529663688 * (if hold > mval then hold else mval)

end

end Verif.Num
