/-!
# `Rational` (`include/bss-util/Rational.h`)

`T` is a signed integer type at least as wide as `int`; its values are the integers in `[-B, B)` (`B = 2^31` for `int`).
Every arithmetic operation is checked: `none` stands for signed overflow or division by zero (both undefined behaviour).
`/` and `%` truncate towards zero. The comparisons of two `Rational`s and the conversions to `float`/`double` go through
floating point and are not modelled.
-/

namespace Verif.Rational

/-- An intermediate result of type `T`. -/
def chk (B x : Int) : Option Int := if -B ≤ x ∧ x < B then some x else none

/-- C division. -/
def cdiv (B a b : Int) : Option Int := if b = 0 then none else chk B (a.tdiv b)

/-- `abs`. -/
def cabs (B a : Int) : Option Int := chk B (if a < 0 then -a else a)

/-- The loop of `GCD` (`Rational.h:144-146`), with a bound on the iterations. -/
def gcdLoop : Nat → Int → Int → Option Int
  | 0, _, _ => none
  | f + 1, a, b => if b > 1 then gcdLoop f b (a.tmod b) else some (if b = 0 then a else b)

/-- `Rational.h:137-147` `GCD`. -/
def gcd (B a b : Int) : Option Int :=
  (cabs B a).bind fun a => (cabs B b).bind fun b =>
    if b > a then gcdLoop (a.toNat + 1) b a else gcdLoop (b.toNat + 1) a b

/-- `Rational.h:149-150`. -/
structure Q where
  n : Int
  d : Int
deriving DecidableEq, Repr

/-- `Rational.h:19`. -/
def ofInt (n : Int) : Q := ⟨n, 1⟩

/-- `Rational.h:37-41` (and `:104-108`, `:114`): making the denominator positive. -/
def fixSign (B n d : Int) : Option Q :=
  if d < 0 then (chk B (-d)).bind fun d => (chk B (-n)).map fun n => ⟨n, d⟩ else some ⟨n, d⟩

/-- `Rational.h:25-42` `Simplify`. -/
def simplify (B : Int) (r : Q) : Option Q :=
  if r.n = 0 then some ⟨r.n, 1⟩
  else
    (gcd B r.n r.d).bind fun g => (cdiv B r.n g).bind fun n => (cdiv B r.d g).bind fun d => fixSign B n d

/-- `Rational.h:20` and `SetFraction` (`:22`). -/
def mk (B n d : Int) : Option Q := simplify B ⟨n, d⟩

/-- `Rational.h:52-65` `operator+=`, `operator+` (`:44`). -/
def add (B : Int) (a b : Q) : Option Q :=
  (gcd B a.d b.d).bind fun g => (cdiv B a.d g).bind fun d => (cdiv B b.d g).bind fun t =>
    (chk B (a.n * t)).bind fun p => (chk B (b.n * d)).bind fun q => (chk B (p + q)).bind fun n =>
      (gcd B n g).bind fun g => (cdiv B n g).bind fun n => (cdiv B b.d g).bind fun u =>
        (chk B (d * u)).map fun d => ⟨n, d⟩

/-- `Rational.h:66-79` `operator-=`, `operator-` (`:45`). -/
def sub (B : Int) (a b : Q) : Option Q :=
  (gcd B a.d b.d).bind fun g => (cdiv B a.d g).bind fun d => (cdiv B b.d g).bind fun t =>
    (chk B (a.n * t)).bind fun p => (chk B (b.n * d)).bind fun q => (chk B (p - q)).bind fun n =>
      (gcd B n g).bind fun g => (cdiv B n g).bind fun n => (cdiv B b.d g).bind fun u =>
        (chk B (d * u)).map fun d => ⟨n, d⟩

/-- `Rational.h:80-90` `operator*=`, `operator*` (`:46`). -/
def mul (B : Int) (a b : Q) : Option Q :=
  (gcd B a.n b.d).bind fun g1 => (gcd B b.n a.d).bind fun g2 =>
    (cdiv B a.n g1).bind fun x => (cdiv B b.n g2).bind fun y => (chk B (x * y)).bind fun n =>
      (cdiv B a.d g2).bind fun z => (cdiv B b.d g1).bind fun w => (chk B (z * w)).map fun d => ⟨n, d⟩

/-- `Rational.h:91-110` `operator/=`, `operator/` (`:47`). -/
def div (B : Int) (a b : Q) : Option Q :=
  if a.n = 0 then some a
  else
    (gcd B a.n b.n).bind fun g1 => (gcd B b.d a.d).bind fun g2 =>
      (cdiv B a.n g1).bind fun x => (cdiv B b.d g2).bind fun y => (chk B (x * y)).bind fun n =>
        (cdiv B a.d g2).bind fun z => (cdiv B b.n g1).bind fun w => (chk B (z * w)).bind fun d => fixSign B n d

/-- `Rational.h:111` (`:48`, `:153`). -/
def addInt (B : Int) (a : Q) (i : Int) : Option Q :=
  (chk B (i * a.d)).bind fun p => (chk B (a.n + p)).map fun n => ⟨n, a.d⟩

/-- `Rational.h:112` (`:49`). -/
def subInt (B : Int) (a : Q) (i : Int) : Option Q :=
  (chk B (i * a.d)).bind fun p => (chk B (a.n - p)).map fun n => ⟨n, a.d⟩

/-- `Rational.h:113` (`:50`, `:155`). -/
def mulInt (B : Int) (a : Q) (i : Int) : Option Q :=
  (gcd B i a.d).bind fun g => (cdiv B i g).bind fun j => (chk B (a.n * j)).bind fun n =>
    (cdiv B a.d g).map fun d => ⟨n, d⟩

/-- `Rational.h:114` (`:51`). -/
def divInt (B : Int) (a : Q) (i : Int) : Option Q :=
  if a.n = 0 then some a
  else
    (gcd B a.n i).bind fun g => (cdiv B a.n g).bind fun n => (cdiv B i g).bind fun j =>
      (chk B (a.d * j)).bind fun d => fixSign B n d

/-- `Rational.h:154`: integer minus rational. -/
def intSub (B l : Int) (r : Q) : Option Q := sub B (ofInt l) r

/-- `Rational.h:156`: integer divided by rational. -/
def intDiv (B l : Int) (r : Q) : Option Q := div B (ofInt l) r

/-- `Rational.h:115`. -/
def inc (B : Int) (a : Q) : Option Q := (chk B (a.n + a.d)).map fun n => ⟨n, a.d⟩

/-- `Rational.h:116`. -/
def dec (B : Int) (a : Q) : Option Q := (chk B (a.n - a.d)).map fun n => ⟨n, a.d⟩

/-- `Rational.h:123`. -/
def eqQ (a b : Q) : Bool := a.n == b.n && a.d == b.d

/-- `Rational.h:131` `Abs`. -/
def abs (B : Int) (a : Q) : Option Q := (cabs B a.n).bind fun n => mk B n a.d

/-- `Rational.h:134` `Truncate`. -/
def truncate (B : Int) (a : Q) : Option Int := cdiv B a.n a.d

/-- `Rational.h:129` `operator==(T)`. -/
def eqInt (a : Q) (i : Int) : Bool := a.d == 1 && i == a.n

/-- The loop in `operator<(T)` (`Rational.h:125`), with a bound on the iterations. -/
def floorLoop (B d : Int) : Nat → Int → Int → Option Int
  | 0, _, _ => none
  | f + 1, q, r => if r < 0 then (chk B (r + d)).bind fun r => (chk B (q - 1)).bind fun q => floorLoop B d f q r else some q

/-- `Rational.h:125` `operator<(T)`. -/
def ltInt (B : Int) (a : Q) (i : Int) : Option Bool :=
  (cdiv B a.n a.d).bind fun q => (floorLoop B a.d 2 q (a.n.tmod a.d)).map fun q => decide (q < i)

/-- `Rational.h:126` `operator>(T)`. -/
def gtInt (B : Int) (a : Q) (i : Int) : Option Bool := if eqInt a i then some false else (ltInt B a i).map (!·)

/-- `Rational.h:127` `operator<=(T)`. -/
def leInt (B : Int) (a : Q) (i : Int) : Option Bool := if eqInt a i then some true else (gtInt B a i).map (!·)

/-- `Rational.h:128` `operator>=(T)`. -/
def geInt (B : Int) (a : Q) (i : Int) : Option Bool := if eqInt a i then some true else (ltInt B a i).map (!·)

end Verif.Rational
