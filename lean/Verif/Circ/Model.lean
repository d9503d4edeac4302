import Verif.Arith.IntDiv

/-!
# Model of `ArrayCircular` and `Queue`
(`/repo/include/bss-util/ArrayCircular.h`, `/repo/include/bss-util/Queue.h`)

The allocated block is a list of slots, `none` meaning raw memory and `some x` a constructed element.  `_cur` is the
signed integer of the code (no overflow is considered: capacities are far below the range of `CType`).  An operation
returns `none` for undefined behaviour: an access outside the block, using a raw slot as an element, or `% 0`.
-/

namespace Verif.Circ

structure Circ (α : Type) where
  arr : List (Option α)
  cur : Int
  len : Nat
  deriving DecidableEq, Repr

variable {α : Type}

/-- Constructor, `ArrayCircular.h:33`. -/
def new (size : Nat) : Circ α := ⟨List.replicate size none, -1, 0⟩

def Circ.cap (c : Circ α) : Nat := c.arr.length

/-- `bssMod<CT>(x, m)`, `bss_util.h:178-185` (remainder truncated towards zero, then corrected). -/
def cmod (x : Int) (m : Nat) : Int :=
  let r := x.tmod m
  if r < 0 then r + m else r

/-- `_modIndex`, `ArrayCircular.h:197`. -/
def modIndex (c : Circ α) (index : Int) : Option Nat :=
  if c.cap = 0 then none else some (cmod (c.cur - index) c.cap).toNat

/-- `_push`, `ArrayCircular.h:184-196`. -/
def push (c : Circ α) (x : α) : Option (Circ α) :=
  if c.cap = 0 then none
  else
    let cur := (c.cur + 1).tmod c.cap
    if c.len < c.cap then
      some { arr := c.arr.set cur.toNat (some x), cur := cur, len := c.len + 1 }
    else
      match c.arr[cur.toNat]? with
      | some (some _) => some { arr := c.arr.set cur.toNat (some x), cur := cur, len := c.len }
      | _ => none

/-- `Pop`, `ArrayCircular.h:37-45`. -/
def pop (c : Circ α) : Option (α × Circ α) :=
  if c.len = 0 then none
  else if c.cur < 0 then none
  else
    match c.arr[c.cur.toNat]? with
    | some (some r) => some (r, { arr := c.arr.set c.cur.toNat none, cur := cmod (c.cur - 1) c.cap, len := c.len - 1 })
    | _ => none

/-- `PopBack`, `ArrayCircular.h:46-53`. -/
def popBack (c : Circ α) : Option (α × Circ α) :=
  if c.len = 0 then none
  else do
    let l ← modIndex c ((c.len - 1 : Nat) : Int)
    match c.arr[l]? with
    | some (some r) => some (r, { c with arr := c.arr.set l none, len := c.len - 1 })
    | _ => none

/-- `operator[]`, `ArrayCircular.h:98-99`. -/
def at' (c : Circ α) (index : Nat) : Option α := do
  let i ← modIndex c (index : Int)
  let s ← c.arr[i]?
  s

/-- `Front`, `ArrayCircular.h:54-55`. -/
def front (c : Circ α) : Option α :=
  if c.len = 0 ∨ c.cur < 0 then none else (c.arr[c.cur.toNat]?).join

/-- `Back`, `ArrayCircular.h:56-57`. -/
def back (c : Circ α) : Option α :=
  if c.len = 0 then none else at' c (c.len - 1)

/-- Destroying `n` elements from slot `p` on (`_setLength(_array + p, n, 0)`, `Array.h:129-141`). -/
def destroy (arr : List (Option α)) (p n : Nat) : Option (List (Option α)) :=
  if p + n ≤ arr.length then some (arr.take p ++ List.replicate n none ++ arr.drop (p + n)) else none

/-- `_copyMove(dst + di, src + si, n)`, `Array.h:165-178`. -/
def blit (dst : List (Option α)) (di : Nat) (src : List (Option α)) (si n : Nat) : Option (List (Option α)) :=
  if di + n ≤ dst.length ∧ si + n ≤ src.length then
    some (dst.take di ++ (src.drop si).take n ++ dst.drop (di + n))
  else none

/-- `Clear`, `ArrayCircular.h:60-75`. -/
def clear (c : Circ α) : Option (Circ α) := do
  let arr ←
    if c.len = c.cap then destroy c.arr 0 c.len
    else if c.cur - c.len ≥ -1 then destroy c.arr (c.cur - c.len + 1).toNat c.len
    else do
      let i ← modIndex c ((c.len : Int) - 1)
      let a ← destroy c.arr i (c.cap - i)
      destroy a 0 (c.cur + 1).toNat
  some { arr := arr, cur := -1, len := 0 }

/-- `SetCapacity`, `ArrayCircular.h:76-97`. -/
def setCapacity (c : Circ α) (nsize : Nat) : Option (Circ α) :=
  if nsize < c.cap then do
    let c ← clear c
    some { c with arr := List.replicate nsize none }
  else if nsize > c.cap then do
    let n := List.replicate nsize none
    let arr ←
      if c.cur - c.len ≥ -1 then
        blit n (c.cur - c.len + 1).toNat c.arr (c.cur - c.len + 1).toNat c.len
      else do
        let i ← modIndex c ((c.len : Int) - 1)
        let n ← blit n (cmod (c.cur - c.len + 1) nsize).toNat c.arr i (c.cap - i)
        blit n 0 c.arr 0 (c.cur + 1).toNat
    some { c with arr := arr }
  else some c

/-- `operator=(const ArrayCircular&)` of a different object, `ArrayCircular.h:100-120`. -/
def assign (c right : Circ α) : Option (Circ α) := do
  let _ ← clear c
  let n := List.replicate right.cap none
  let arr ←
    if right.len = right.cap then blit n 0 right.arr 0 right.len
    else if right.cur - right.len ≥ -1 then
      blit n (right.cur - right.len + 1).toNat right.arr (right.cur - right.len + 1).toNat right.len
    else do
      let i ← modIndex right ((right.len : Int) - 1)
      let n ← blit n i right.arr i (right.cap - i)
      blit n 0 right.arr 0 (right.cur + 1).toNat
  some { arr := arr, cur := right.cur, len := right.len }

/-! ## `Queue` -/

/-- `Queue::_push`, `Queue.h:50-56`, with the growth function `T_FBNEXT`. -/
def qPush (c : Circ α) (x : α) : Option (Circ α) :=
  (if c.len ≥ c.cap then setCapacity c (Arith.fbnextN c.len) else some c).bind fun c => push c x

/-- `Queue::Pop`, `Queue.h:29`. -/
def qPop (c : Circ α) : Option (α × Circ α) := popBack c

/-- `Queue::Peek`, `Queue.h:31-32`. -/
def qPeek (c : Circ α) : Option α := back c

/-- `Queue::Discard`, `Queue.h:33`. -/
def qDiscard (c : Circ α) : Option (Circ α) := if c.len = 0 then none else some { c with len := c.len - 1 }

end Verif.Circ
