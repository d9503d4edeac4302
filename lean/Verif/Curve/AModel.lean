import Verif.Curve.Model
import Mathlib.Algebra.Order.Field.Basic

/-!
# Model of the approximation of cubics by quadratics, the cubic equation and the root finder of `/repo/include/bss-util/algo.h`

In exact arithmetic over an ordered field; the square root and the other functions of the mathematical library are parameters.
-/

namespace Verif.Curve

variable {K : Type} [Field K] [LinearOrder K]

/-- A point of the plane. -/
abbrev Pt (K : Type) := Fin 2 → K

/-- `ApproxCubicError`, `algo.h:422-442`, for `I = 2`. -/
def approxError (sqrt : K → K) (P0 P1 P2 P3 : Pt K) : K :=
  let term : K := 336008945728118 / 1000000000000000
  let M := fun i => 3 * P1 i - 3 * P2 i - P0 i + P3 i
  let r := 0 + M 0 * M 0
  let r := r + M 1 * M 1
  term * sqrt r

/-- `C[i] = (3 * (P2[i] + P1[i]) - P3[i] - P0[i]) / 4`, `:464-466`, `:478-480`. -/
def approxControl (P0 P1 P2 P3 : Pt K) : Pt K := fun i => (3 * (P2 i + P1 i) - P3 i - P0 i) / 4

/-- `ApproxCubicR`, `:444-483`. The result lists the calls of `fn` in order; `none`: more than `fuel` nested calls. -/
def approxR (sqrt : K → K) (maxerror : K) : Nat → K → K → K → Pt K → Pt K → Pt K → Pt K → Option (List (Pt K × Pt K × Pt K))
  | 0, _, _, _, _, _, _, _ => none
  | fuel + 1, t0, t1, t2, P0, P1, P2, P3 =>
    let s := splitCubic t1 P0 P1 P2 P3
    let N1 := s.1
    let N2 := s.2.1
    let N3 := s.2.2.1
    let R1 := s.2.2.2.1
    let R2 := s.2.2.2.2
    let first := if maxerror < approxError sqrt P0 N1 N2 N3 then approxR sqrt maxerror fuel t0 ((t1 + t0) / 2) t1 P0 N1 N2 N3
      else some [(P0, approxControl P0 N1 N2 N3, N3)]
    let second := if maxerror < approxError sqrt N3 R1 R2 P3 then approxR sqrt maxerror fuel t1 ((t2 + t1) / 2) t2 N3 R1 R2 P3
      else some [(N3, approxControl N3 R1 R2 P3, P3)]
    first.bind fun l => second.map fun r => l ++ r

/-- The first split, `:490`. (A quotient by zero, which is 0 in a field, is no number in the code and leads to one half; the theorems hold for any start in `[0, 1]`.) -/
def approxStart (r : K × K) : K := if 0 ≤ r.1 ∧ r.1 ≤ 1 then r.1 else if 0 ≤ r.2 ∧ r.2 ≤ 1 then r.2 else 1 / 2

/-- `ApproxCubic`, `:485-492`. -/
def approxCubic (sqrt : K → K) (maxerror : K) (fuel : Nat) (P0 P1 P2 P3 : Pt K) : Option (List (Pt K × Pt K × Pt K)) :=
  approxR sqrt maxerror fuel 0 (approxStart (inflectionPoints sqrt (P0 0, P0 1) (P1 0, P1 1) (P2 0, P2 1) (P3 0, P3 1))) 1 P0 P1 P2 P3

/-- `solveCubic`, `:494-524`: the roots written to `r`. `w` is the constant 1.732050808, which stands for the square root of three. -/
def solveCubic (sqrt cbrt acos cos sin : K → K) (w : K) (at' bt ct dt : K) : List K :=
  let a := bt / at'
  let b := ct / at'
  let c := dt / at'
  let p := b - a * a / 3
  let q := a * (2 * a * a - 9 * b) / 27 + c
  let p3 := p * p * p
  let d := q * q + 4 * p3 / 27
  let offset := -a / 3
  if 0 ≤ d then
    let z := sqrt d
    let u := cbrt ((-q + z) / 2)
    let v := cbrt ((-q - z) / 2)
    [offset + u + v]
  else
    let u := sqrt (-p / 3)
    let v := acos (-sqrt (-27 / p3) * q / 2) / 3
    let m := cos v
    let n := sin v * w
    [offset + u * (m + m), offset - u * (n + m), offset + u * (n - m)]

/-- `fSmall` of the value, in exact arithmetic: `bss_util.h:570-577`. -/
def small (f eps : K) : Prop := |f| ≤ eps

instance (f eps : K) : Decidable (small f eps) := inferInstanceAs (Decidable (_ ≤ _))

/-- `NewtonRaphsonBisection`, `algo.h:546-571`. -/
def newtonBisection (F dF : K → K) (eps : K) : Nat → K → K → K → K
  | 0, x, _, _ => x
  | n + 1, x, min, max =>
    let f := F x
    if small f eps then x
    else
      let max' := if 0 < f then x else max
      let min' := if 0 < f then min else x
      let x' := x - f / dF x
      let x'' := if x' ≤ min' ∨ max' ≤ x' then 1 / 2 * (min' + max') else x'
      newtonBisection F dF eps n x'' min' max'

/-- `NewtonRaphson`, `:526-544`: the result, if it returns true. -/
def newtonRaphson (F dF : K → K) (eps : K) : Nat → K → Option K
  | 0, _ => none
  | n + 1, x =>
    let f := F x
    if small f eps then some x else newtonRaphson F dF eps n (x - f / dF x)

end Verif.Curve
