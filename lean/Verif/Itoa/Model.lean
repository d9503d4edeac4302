import Verif.Common.Mem

/-!
# Model of `itoa_r`

`bss-util/bss_util_c.c:214-253`. Characters are their codes and a buffer is the list of its characters; `none` is undefined behaviour
(an access outside the buffer, or the overflow of `-val`). The buffer pointer is not null.
-/

namespace Verif.Itoa

/-- `(t > 9) ? (t + '7') : (t + '0')`, `:235`. -/
def digit (t : Nat) : Nat := if t > 9 then t + 55 else t + 48

/-- `while((cur - buf) < size)`, `:232-239`; `n` is `size - (cur - buf)`. The value is not negative here, so `%` and `/` on `unsigned int` are those of the naturals. -/
def emit (radix : Nat) : Nat → Nat → List Nat → Nat → Option (List Nat × Nat)
  | 0, _, buf, cur => some (buf, cur)
  | n + 1, val, buf, cur => (wr buf cur (digit (val % radix))).bind fun buf =>
    if val / radix = 0 then some (buf, cur + 1) else emit radix n (val / radix) buf (cur + 1)

/-- `while(p < cur)`, `:243-250`; `n` bounds the number of rounds (`cur` is enough). -/
def swaps : Nat → List Nat → Nat → Nat → Option (List Nat)
  | 0, buf, _, _ => some buf
  | n + 1, buf, p, cur =>
    if p < cur then (rd buf p).bind fun tmp => (rd buf cur).bind fun c => (wr buf p c).bind fun buf => (wr buf cur tmp).bind fun buf => swaps n buf (p + 1) (cur - 1)
    else some buf

/-- `:231-252`, with `p = cur`. -/
def finish (val : Nat) (buf : List Nat) (size radix p : Nat) : Option (Nat × List Nat) :=
  (emit radix (size - 1 - p) val buf p).bind fun r =>
    (wr r.1 r.2 0).bind fun buf => if r.2 = 0 then none else (swaps (r.2 - 1) buf p (r.2 - 1)).map fun buf => (0, buf)

/-- `itoa_r(val, buf, size, radix)`, `:214-253`: the return value and the buffer. -/
def itoa (val : Int) (buf : List Nat) (size : Int) (radix : Nat) : Option (Nat × List Nat) :=
  if radix < 2 ∨ size ≤ 1 then some (22, buf)
  else if val < 0 then (wr buf 0 45).bind fun buf => if val = -2 ^ 31 then none else finish val.natAbs buf size.toNat radix 1
  else finish val.natAbs buf size.toNat radix 0

end Verif.Itoa
