import Mathlib.Algebra.Field.Defs
import Mathlib.Data.Fin.VecNotation

/-!
# Model of the curve functions of `/repo/include/bss-util/algo.h`

In exact arithmetic: numbers are elements of a field (rounding is not modelled). A point with `I` coordinates is a function `Fin I → K`.
-/

namespace Verif.Curve

variable {K : Type} [Field K]

/-- `lerp`, `bss_util.h:1002-1006`. -/
def lerp (a b t : K) : K := (1 - t) * a + t * b

/-- `UniformQuadraticBSpline`, `algo.h:237-242`. -/
def uniformQuadratic (t p1 p2 p3 : K) : K :=
  let t2 := t * t
  (p1 * (1 - 2 * t + t2) + p2 * (1 + 2 * t - 2 * t2) + p3 * t2) / 2

/-- `UniformCubicBSpline`, `:249-255`. -/
def uniformCubic (t p1 p2 p3 p4 : K) : K :=
  let t2 := t * t
  let t3 := t2 * t
  (p1 * (1 - 3 * t + 3 * t2 - t3) + p2 * (4 - 6 * t2 + 3 * t3) + p3 * (1 + 3 * t + 3 * t2 - 3 * t3) + p4 * t3) / 6

/-- `CubicBSpline`, `:262-268`. -/
def cubic (t p1 p2 p3 p4 : K) : K :=
  let t2 := t * t
  let t3 := t2 * t
  (p1 * (-t3 + 2 * t2 - t) + p2 * (3 * t3 - 5 * t2 + 2) + p3 * (-3 * t3 + 4 * t2 + t) + p4 * (t3 - t2)) / 2

/-- `StaticGenericSpline`, `:271-280`, with the matrix given by its entries. -/
def staticSpline (m : Fin 4 → Fin 4 → K) (t : K) (p : Fin 4 → K) : K :=
  let t2 := t * t
  let t3 := t2 * t
  p 0 * (m 0 0 * t3 + m 1 0 * t2 + m 2 0 * t + m 3 0) + p 1 * (m 0 1 * t3 + m 1 1 * t2 + m 2 1 * t + m 3 1) +
    p 2 * (m 0 2 * t3 + m 1 2 * t2 + m 2 2 * t + m 3 2) + p 3 * (m 0 3 * t3 + m 1 3 * t2 + m 2 3 * t + m 3 3)

/-- The matrix of `BezierCurve`, `:290`. -/
def bezierMatrix : Fin 4 → Fin 4 → K :=
  ![![-1, 3, -3, 1], ![3, -6, 3, 0], ![-3, 3, 0, 0], ![1, 0, 0, 0]]

/-- `BezierCurve`, `:287-293`. The code copies the points to `float`s, so it only compiles for `T = float`. -/
def bezierCurve (t p1 p2 p3 p4 : K) : K := staticSpline bezierMatrix t ![p1, p2, p3, p4]

/-- `QuadraticBezierCurve`, `:325-330`. -/
def quadraticBezier (t p0 p1 p2 : K) : K :=
  let inv := 1 - t
  inv * inv * p0 + 2 * inv * t * p1 + t * t * p2

/-- `QuadraticCanonicalFit`, `:346-365`. -/
def canonicalFit (t x1 x2 x3 : K) : K :=
  let t := (t - x1) / (x3 - x1)
  let x := (x2 - x1) / (x3 - x1)
  let H : K := 1 / 2
  let A := (x - H) / (x - x * x)
  let B := H / x - A * x
  (A * t * t + B * t) * (x3 - x1) + x1

/-- `SplitCubic`, `:367-382`: `N1`, `N2`, `N3`, `R1`, `R2`. -/
def splitCubic {I : Nat} (t : K) (P0 P1 P2 P3 : Fin I → K) : (Fin I → K) × (Fin I → K) × (Fin I → K) × (Fin I → K) × (Fin I → K) :=
  let N1 := fun i => lerp (P0 i) (P1 i) t
  let F := fun i => lerp (P1 i) (P2 i) t
  let R2 := fun i => lerp (P2 i) (P3 i) t
  let N2 := fun i => lerp (N1 i) (F i) t
  let R1 := fun i => lerp (F i) (R2 i) t
  let N3 := fun i => lerp (N2 i) (R1 i) t
  (N1, N2, N3, R1, R2)

/-- `SplitQuadratic`, `:384-394`: `N1`, `N2`, `R1`. -/
def splitQuadratic {I : Nat} (t : K) (P0 P1 P2 : Fin I → K) : (Fin I → K) × (Fin I → K) × (Fin I → K) :=
  let N1 := fun i => lerp (P0 i) (P1 i) t
  let R1 := fun i => lerp (P1 i) (P2 i) t
  let N2 := fun i => lerp (N1 i) (R1 i) t
  (N1, N2, R1)

/-- `SolveQuadratic`, `:396-403`, for a square root function. -/
def solveQuadratic (sqrt : K → K) (a b c : K) : K × K :=
  let d := sqrt (b * b - 4 * a * c)
  ((-b - d) / (2 * a), (-b + d) / (2 * a))

/-- `CubicInflectionPoints`, `:405-421`, for points given by their two coordinates. -/
def inflectionPoints (sqrt : K → K) (P0 P1 P2 P3 : K × K) : K × K :=
  let a0 := P1.1 - P0.1
  let a1 := P1.2 - P0.2
  let b0 := P2.1 - P1.1 - a0
  let b1 := P2.2 - P1.2 - a1
  let c0 := P3.1 - P2.1 - a0 - 2 * b0
  let c1 := P3.2 - P2.2 - a1 - 2 * b1
  solveQuadratic sqrt (b0 * c1 - b1 * c0) (a0 * c1 - a1 * c0) (a0 * b1 - a1 * b0)

end Verif.Curve
