import Verif.Common.Mem

/-!
# Model of the xorshift generators and of `Shuffle`

`include/bss-util/XorshiftEngine.h` and `Shuffle` in `include/bss-util/algo.h`. A `uint64_t` is a `BitVec 64`. The truncation of draws to another type,
`std::random_device` and the floating point arithmetic of `bssrand` are not modelled.
-/

namespace Verif.Random

abbrev W := BitVec 64

/-- `xorshift64star`, `XorshiftEngine.h:14-20`: the draw and the new state. -/
def xorshift64star (x : W) : W × W :=
  let x := x ^^^ (x >>> 12)
  let x := x ^^^ (x <<< 25)
  let x := x ^^^ (x >>> 27)
  (x * 2685821657736338717#64, x)

/-- `xorshift1024star`, `:23-31`, on the array of 17 words; `none` is an access outside of it. -/
def xorshift1024star (x : List W) : Option (W × List W) := do
  let p ← rd x 16
  let x0 ← rd x p.toNat
  let q := (p + 1#64) &&& 15#64
  let x ← wr x 16 q
  let x1 ← rd x q.toNat
  let x1 := x1 ^^^ (x1 <<< 31)
  let x1 := x1 ^^^ (x1 >>> 11)
  let x0 := x0 ^^^ (x0 >>> 30)
  let x ← wr x q.toNat (x0 ^^^ x1)
  some ((x0 ^^^ x1) * 1181783497276652981#64, x)

/-- The loop of `GenXor1024Seed`, `:37-38`: `n` draws. -/
def draws64 : Nat → W → List W
  | 0, _ => []
  | n + 1, x => (xorshift64star x).1 :: draws64 n (xorshift64star x).2

/-- `GenXor1024Seed`, `:34-40`, and `XorshiftEngine::seed(uint64_t)`. -/
def seed1024 (x : W) : List W := draws64 16 (xorshift64star x).2 ++ [0#64]

/-- `n` draws (`discard`, `:97-101`, for `n` below `2^31`). -/
def draw : Nat → List W → Option (List W)
  | 0, x => some x
  | n + 1, x => (xorshift1024star x).bind fun r => draw n r.2

/-- `n` draws from the 64-bit generator. -/
def draw64 : Nat → W → W
  | 0, x => x
  | n + 1, x => draw64 n (xorshift64star x).2

/-- `std::swap(p[a], p[b])`. -/
def swap {α : Type _} (p : List α) (a b : Nat) : Option (List α) := do
  let x ← rd p a
  let y ← rd p b
  let p ← wr p a y
  wr p b x

/-- `Shuffle`, `algo.h:131-136`, from `i` downwards; `ds` is what `bssrand(0, i, e)` returns in turn. `none` is an access outside the array, or too few draws. -/
def shuffleFrom {α : Type _} : Nat → List α → List Nat → Option (List α)
  | 0, p, _ => some p
  | _ + 1, _, [] => none
  | i + 1, p, d :: ds => (swap p i d).bind fun p => shuffleFrom i p ds

def shuffle {α : Type _} (p : List α) (ds : List Nat) : Option (List α) := shuffleFrom p.length p ds

end Verif.Random
