import Mathlib.LinearAlgebra.Matrix.Determinant.Basic
import Mathlib.LinearAlgebra.Matrix.Notation
import Mathlib.Tactic.FinCases
import Mathlib.Tactic.FieldSimp
import Mathlib.Tactic.LinearCombination

/-!
# Matrices of `vector.h` (C97, C98)

Elements are those of a field; rounding is not modelled. `T[M][N]` is a function of the row and the column. An SSE register is a function of the lane.
-/

namespace Verif.Vec

variable {K : Type} [Field K]

/-! ## Code: registers -/

/-- A register. -/
abbrev Reg (K : Type) := Fin 4 → K

/-- The lane that two bits of an immediate select. -/
def lane (imm k : ℕ) : Fin 4 := ⟨imm / 4 ^ k % 4, Nat.mod_lt _ (by decide)⟩

/-- `_mm_shuffle_ps` (`sseVec.h:244`, `:389`). -/
def shuf (a b : Reg K) (imm : ℕ) : Reg K := ![a (lane imm 0), a (lane imm 1), b (lane imm 2), b (lane imm 3)]

/-- `Shuffle<x, y, z, w>`, `sseVec.h:491`, `:543-546`. -/
def shuf4 (a : Reg K) (x y z w : Fin 4) : Reg K := ![a x, a y, a z, a w]

/-- `_mm_movelh_ps`. -/
def movelh (a b : Reg K) : Reg K := ![a 0, a 1, b 0, b 1]

/-- `_mm_movehl_ps`, `sseVec.h:150`. -/
def movehl (a b : Reg K) : Reg K := ![b 2, b 3, a 2, a 3]

/-- An operation on the lowest lane, such as `_mm_sub_ss`. -/
def single (f : K → K → K) (a b : Reg K) : Reg K := ![f (a 0) (b 0), a 1, a 2, a 3]

/-- `Sum`, `sseVec.h:548`. -/
def regSum (a : Reg K) : K :=
  let x := a + shuf4 a 1 0 3 2
  (x + shuf4 x 2 3 0 1) 0

/-! ## Code: determinants -/

/-- `__MatrixDeterminant<T, 2>`, `vector.h:437-442`. -/
def det2 (x : Matrix (Fin 2) (Fin 2) K) : K := x 0 0 * x 1 1 - x 0 1 * x 1 0

/-- `__MatrixDeterminant<T, 3>::D`, `vector.h:444-449`. -/
def det3 (a b c d e f g h i : K) : K := a * (e * i - f * h) - b * (i * d - f * g) + c * (d * h - e * g)

/-- `__MatrixDeterminant<float, 3>::D`, `vector.h:451-466`. -/
def det3s (a b c d e f g h i : K) : K :=
  let u : Reg K := ![a, b, c, 0]
  let v : Reg K := ![e, i, d, f]
  let w : Reg K := ![i, d, h, g]
  let r := u * (v * w - shuf4 v 3 3 0 0 * shuf4 w 2 3 3 0)
  (r - shuf4 r 1 1 1 1 + shuf4 r 2 2 2 2) 0

/-- `MD` of 3 by 3, `vector.h:447`, `:454`, with either `D`. -/
def md3 (D : K → K → K → K → K → K → K → K → K → K) (x : Matrix (Fin 3) (Fin 3) K) : K := D (x 0 0) (x 0 1) (x 0 2) (x 1 0) (x 1 1) (x 1 2) (x 2 0) (x 2 1) (x 2 2)

/-- `__MatrixDeterminant<T, 4>`, `vector.h:468-486`. -/
def det4 (x : Matrix (Fin 4) (Fin 4) K) : K :=
  x 0 0 * det3 (x 1 1) (x 1 2) (x 1 3) (x 2 1) (x 2 2) (x 2 3) (x 3 1) (x 3 2) (x 3 3) -
  x 0 1 * det3 (x 1 0) (x 1 2) (x 1 3) (x 2 0) (x 2 2) (x 2 3) (x 3 0) (x 3 2) (x 3 3) +
  x 0 2 * det3 (x 1 0) (x 1 1) (x 1 3) (x 2 0) (x 2 1) (x 2 3) (x 3 0) (x 3 1) (x 3 3) -
  x 0 3 * det3 (x 1 0) (x 1 1) (x 1 2) (x 2 0) (x 2 1) (x 2 2) (x 3 0) (x 3 1) (x 3 2)

/-- `_mm_ror_ps<I>`, `vector.h:491-492`. -/
def ror (i : Fin 4) (v : Reg K) : Reg K := ![v i, v (i + 1), v (i + 2), v (i + 3)]

/-- `__MatrixDeterminant<float, 4>::MD`, `vector.h:493-528`. -/
def det4s (x : Matrix (Fin 4) (Fin 4) K) : K :=
  let l1 : Reg K := x 0
  let l2 : Reg K := x 1
  let t1 : Reg K := x 3
  let t2 := ror 1 (x 2)
  let vc := t2 * ror 0 t1
  let va := t2 * ror 2 t1
  let vb := t2 * ror 3 t1
  let r1 := ror 1 va - ror 2 vc
  let r2 := ror 2 vb - ror 0 vb
  let r3 := ror 0 va - ror 1 vc
  let va := ror 1 l2
  let sum := va * r1
  let vb := ror 1 va
  let sum := sum + vb * r2
  let vc := ror 1 vb
  let sum := sum + vc * r3
  let det := sum * l1
  let det := det + movehl det det
  let det := single (· - ·) det (shuf det det 1)
  det 0

/-! ## Code: inverses -/

/-- `Matrix<T, 2, 2>::Inverse`, `vector.h:871`. -/
def inv2 (x : Matrix (Fin 2) (Fin 2) K) : Matrix (Fin 2) (Fin 2) K :=
  let invd := 1 / det2 x
  !![x 1 1 * invd, -x 0 1 * invd; -x 1 0 * invd, x 0 0 * invd]

/-- `Matrix<T, 3, 3>::Inverse`, `vector.h:918-925`, with either determinant. -/
def inv3 (D : K → K → K → K → K → K → K → K → K → K) (x : Matrix (Fin 3) (Fin 3) K) : Matrix (Fin 3) (Fin 3) K :=
  let invd := 1 / md3 D x
  let a := x 0 0
  let b := x 0 1
  let c := x 0 2
  let d := x 1 0
  let e := x 1 1
  let f := x 1 2
  let g := x 2 0
  let h := x 2 1
  let i := x 2 2
  !![invd * (e * i - f * h), invd * (c * h - b * i), invd * (b * f - c * e);
     invd * (f * g - d * i), invd * (a * i - c * g), invd * (c * d - a * f);
     invd * (d * h - e * g), invd * (b * g - a * h), invd * (a * e - b * d)]

/-- The sixteen numbers of `dst` before they are divided, in `MatrixInvert4x4`, `vector.h:201-260`; `s` is `src`, the transpose. -/
def cofactors (s : Fin 16 → K) : Fin 16 → K :=
  let t : Fin 12 → K := ![s 10 * s 15, s 11 * s 14, s 9 * s 15, s 11 * s 13, s 9 * s 14, s 10 * s 13, s 8 * s 15, s 11 * s 12, s 8 * s 14, s 10 * s 12, s 8 * s 13, s 9 * s 12]
  let u : Fin 12 → K := ![s 2 * s 7, s 3 * s 6, s 1 * s 7, s 3 * s 5, s 1 * s 6, s 2 * s 5, s 0 * s 7, s 3 * s 4, s 0 * s 6, s 2 * s 4, s 0 * s 5, s 1 * s 4]
  ![t 0 * s 5 + t 3 * s 6 + t 4 * s 7 - (t 1 * s 5 + t 2 * s 6 + t 5 * s 7),
    t 1 * s 4 + t 6 * s 6 + t 9 * s 7 - (t 0 * s 4 + t 7 * s 6 + t 8 * s 7),
    t 2 * s 4 + t 7 * s 5 + t 10 * s 7 - (t 3 * s 4 + t 6 * s 5 + t 11 * s 7),
    t 5 * s 4 + t 8 * s 5 + t 11 * s 6 - (t 4 * s 4 + t 9 * s 5 + t 10 * s 6),
    t 1 * s 1 + t 2 * s 2 + t 5 * s 3 - (t 0 * s 1 + t 3 * s 2 + t 4 * s 3),
    t 0 * s 0 + t 7 * s 2 + t 8 * s 3 - (t 1 * s 0 + t 6 * s 2 + t 9 * s 3),
    t 3 * s 0 + t 6 * s 1 + t 11 * s 3 - (t 2 * s 0 + t 7 * s 1 + t 10 * s 3),
    t 4 * s 0 + t 9 * s 1 + t 10 * s 2 - (t 5 * s 0 + t 8 * s 1 + t 11 * s 2),
    u 0 * s 13 + u 3 * s 14 + u 4 * s 15 - (u 1 * s 13 + u 2 * s 14 + u 5 * s 15),
    u 1 * s 12 + u 6 * s 14 + u 9 * s 15 - (u 0 * s 12 + u 7 * s 14 + u 8 * s 15),
    u 2 * s 12 + u 7 * s 13 + u 10 * s 15 - (u 3 * s 12 + u 6 * s 13 + u 11 * s 15),
    u 5 * s 12 + u 8 * s 13 + u 11 * s 14 - (u 4 * s 12 + u 9 * s 13 + u 10 * s 14),
    u 2 * s 10 + u 5 * s 11 + u 1 * s 9 - (u 4 * s 11 + u 0 * s 9 + u 3 * s 10),
    u 8 * s 11 + u 0 * s 8 + u 7 * s 10 - (u 6 * s 10 + u 9 * s 11 + u 1 * s 8),
    u 6 * s 9 + u 11 * s 11 + u 3 * s 8 - (u 10 * s 11 + u 2 * s 8 + u 7 * s 9),
    u 10 * s 10 + u 4 * s 8 + u 9 * s 9 - (u 8 * s 9 + u 11 * s 10 + u 5 * s 8)]

/-- `src` of `MatrixInvert4x4`, `vector.h:194-200`. -/
def transposed (x : Matrix (Fin 4) (Fin 4) K) : Fin 16 → K :=
  ![x 0 0, x 1 0, x 2 0, x 3 0, x 0 1, x 1 1, x 2 1, x 3 1, x 0 2, x 1 2, x 2 2, x 3 2, x 0 3, x 1 3, x 2 3, x 3 3]

/-- A matrix from the sixteen numbers of its rows. -/
def rows (d : Fin 16 → K) : Matrix (Fin 4) (Fin 4) K := !![d 0, d 1, d 2, d 3; d 4, d 5, d 6, d 7; d 8, d 9, d 10, d 11; d 12, d 13, d 14, d 15]

/-- `MatrixInvert4x4`, `vector.h:187-267`. -/
def inv4 (x : Matrix (Fin 4) (Fin 4) K) : Matrix (Fin 4) (Fin 4) K :=
  let s := transposed x
  let d := cofactors s
  let det := s 0 * d 0 + s 1 * d 1 + s 2 * d 2 + s 3 * d 3
  let det := 1 / det
  rows fun j => d j * det

/-- `MatrixInvert4x4<float>`, `vector.h:271-374`. -/
def inv4s (x : Matrix (Fin 4) (Fin 4) K) : Matrix (Fin 4) (Fin 4) K :=
  let l1 : Reg K := x 0
  let l2 : Reg K := x 1
  let l3 : Reg K := x 2
  let l4 : Reg K := x 3
  let A := movelh l1 l2
  let B := movehl l2 l1
  let C := movelh l3 l4
  let D := movehl l4 l3
  let AB := shuf A A 0x0F * B - shuf A A 0xA5 * shuf B B 0x4E
  let DC := shuf D D 0x0F * C - shuf D D 0xA5 * shuf C C 0x4E
  let dA := shuf A A 0x5F * A
  let dA := single (· - ·) dA (movehl dA dA)
  let dB := shuf B B 0x5F * B
  let dB := single (· - ·) dB (movehl dB dB)
  let dC := shuf C C 0x5F * C
  let dC := single (· - ·) dC (movehl dC dC)
  let dD := shuf D D 0x5F * D
  let dD := single (· - ·) dD (movehl dD dD)
  let d := shuf DC DC 0xD8 * AB
  let iD := shuf C C 0xA0 * movelh AB AB + shuf C C 0xF5 * movehl AB AB
  let iA := shuf B B 0xA0 * movelh DC DC + shuf B B 0xF5 * movehl DC DC
  let d := d + movehl d d
  let d := single (· + ·) d (shuf d d 1)
  let d1 := single (· * ·) dA dD
  let d2 := single (· * ·) dB dC
  let iD := D * shuf dA dA 0 - iD
  let iA := A * shuf dD dD 0 - iA
  let det := single (· - ·) (single (· + ·) d1 d2) d
  let rd := single (· / ·) ![1, 0, 0, 0] det
  let iB := D * shuf AB AB 0x33 - shuf D D 0xB1 * shuf AB AB 0x66
  let iC := A * shuf DC DC 0x33 - shuf A A 0xB1 * shuf DC DC 0x66
  let rd := shuf rd rd 0
  let rd : Reg K := ![rd 0, -rd 1, -rd 2, rd 3]
  let iB := C * shuf dB dB 0 - iB
  let iC := B * shuf dC dC 0 - iC
  let iA := iA * rd
  let iB := iB * rd
  let iC := iC * rd
  let iD := iD * rd
  ![shuf iA iB 0x77, shuf iA iB 0x22, shuf iC iD 0x77, shuf iC iD 0x22]

end Verif.Vec
