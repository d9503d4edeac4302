import Verif.Heap.Model
import Verif.Arith.IntDiv

/-!
# Model of `PriorityHeap` (`/repo/include/bss-util/PriorityQueue.h:57-128`)

A binary heap of pairs (handle, value) compared by value, with `MFUNC_PRIORITY` (`:49-53`): whenever a pair is put at an index, that index is stored in
`_subarray` under its handle. The cells of `_subarray` that are not in use form a list through `_freelist`; −1 is the end. Every access is checked (`none` =
undefined behaviour). Handles do not overflow.
-/

namespace Verif.Heap

variable {α : Type}

/-- `CompTSecond`, `compare.h`: pairs are compared by their second parts. -/
def cmp2 (cmp : α → α → Int) (x y : Nat × α) : Int := cmp x.2 y.2

/-- `MFUNC_PRIORITY::MFunc`, `PriorityQueue.h:51`. -/
def mfunc (sub : List Int) (item : Nat × α) (i : Nat) : Option (List Int) := wr sub item.1 (i : Int)

/-- `_array[k] = item; MFUNC::MFunc(_array[k], k, p);`. -/
def put (a : List (Nat × α)) (sub : List Int) (k : Nat) (item : Nat × α) : Option (List (Nat × α) × List Int) := do
  let a ← wr a k item
  let sub ← mfunc sub item k
  some (a, sub)

/-- `PercolateUp`, `BinaryHeap.h:83-102`, with the calls of `MFunc`. -/
def percolateUpT (cmp : α → α → Int) (a : List (Nat × α)) (sub : List Int) (k : Nat) (val : Nat × α) : Option (List (Nat × α) × List Int) :=
  if _h : k = 0 then put a sub k val
  else (rd a (parent k)).bind fun pv =>
    if cmp2 cmp val pv < 0 then put a sub k val
    else (put a sub k pv).bind fun r => percolateUpT cmp r.1 r.2 (parent k) val
termination_by k
decreasing_by unfold parent; omega

/-- `PercolateDown`, `BinaryHeap.h:105-134`, with the calls of `MFunc`. -/
def percolateDownT (cmp : α → α → Int) (a : List (Nat × α)) (sub : List Int) (n k : Nat) (val : Nat × α) : Option (List (Nat × α) × List Int) :=
  if _h : 2 * k + 2 < n then (rd a (2 * k + 1)).bind fun l => (rd a (2 * k + 2)).bind fun r =>
    let i := if cmp2 cmp l r > 0 then 2 * k + 1 else 2 * k + 2
    let c := if cmp2 cmp l r > 0 then l else r
    if cmp2 cmp val c > 0 then put a sub k val
    else (put a sub k c).bind fun r => percolateDownT cmp r.1 r.2 n i val
  else if 2 * k + 1 < n then (rd a (2 * k + 1)).bind fun l =>
    if cmp2 cmp val l ≤ 0 then (put a sub k l).bind fun r => put r.1 r.2 (2 * k + 1) val
    else put a sub k val
  else put a sub k val
termination_by n - k
decreasing_by split <;> omega

/-- A priority heap. -/
structure PH (α : Type) where
  arr : List (Nat × α)
  sub : List Int
  free : Int
  deriving DecidableEq

/-- `PriorityHeap()`, `PriorityQueue.h:74`. -/
def PH.new : PH α := ⟨[], [], -1⟩

/-- `_initFreeList(start)`, `:117-124`, for cells `start …` of which `n` are left (they are appended here: the new cells hold nothing before). -/
def initFree : Nat → List Int → Int → List Int × Int
  | 0, sub, free => (sub, free)
  | n + 1, sub, free => initFree n (sub ++ [free]) (sub.length : Int)

/-- `_getNext`, `:104-116`. -/
def getNext (p : PH α) : Option (Nat × PH α) :=
  let p := if p.free = -1 then
      let r := initFree (Arith.fbnextN p.sub.length - p.sub.length) p.sub p.free
      { p with sub := r.1, free := r.2 }
    else p
  if p.free < 0 then none else (rd p.sub p.free.toNat).map fun f => (p.free.toNat, { p with free := f })

/-- `Push`, `:76`; `_insert`, `BinaryHeap.h:177-183`. -/
def push (cmp : α → α → Int) (p : PH α) (v : α) : Option (PH α × Nat) :=
  (getNext p).bind fun (k, p) => (percolateUpT cmp (p.arr ++ [(k, v)]) p.sub p.arr.length (k, v)).map fun r =>
    ({ p with arr := r.1, sub := r.2 }, k)

/-- `BinaryHeap::Remove`, `BinaryHeap.h:72-79`, with the calls of `MFunc`. -/
def removeT (cmp : α → α → Int) (p : PH α) (index : Nat) : Option (PH α × Bool) :=
  if p.arr.length ≤ index then some (p, false)
  else if 1 < p.arr.length then (rd p.arr (p.arr.length - 1)).bind fun last =>
    (percolateDownT cmp p.arr p.sub (p.arr.length - 1) index last).map fun r => ({ p with arr := r.1.dropLast, sub := r.2 }, true)
  else some ({ p with arr := p.arr.dropLast }, true)

/-- The index of a handle: `_subarray[key]` (a cell on the free list may hold −1, which converts to an index out of range). -/
def indexOf (p : PH α) (key : Nat) : Option Nat := (rd p.sub key).map fun i => if i < 0 then p.arr.length else i.toNat

/-- `Remove(key)`, `PriorityQueue.h:83`. -/
def removeKey (cmp : α → α → Int) (p : PH α) (key : Nat) : Option (PH α × Bool) := (indexOf p key).bind (removeT cmp p)

/-- `Set(key, value)`, `:84-85`; `_set`, `BinaryHeap.h:187-198`. -/
def setKey (cmp : α → α → Int) (p : PH α) (key : Nat) (v : α) : Option (PH α × Bool) :=
  (indexOf p key).bind fun index =>
    if p.arr.length ≤ index then some (p, false)
    else (rd p.arr index).bind fun old =>
      (if cmp2 cmp old (key, v) ≤ 0 then percolateUpT cmp p.arr p.sub index (key, v)
        else percolateDownT cmp p.arr p.sub p.arr.length index (key, v)).map fun r => ({ p with arr := r.1, sub := r.2 }, true)

/-- `Get(key)`, `PriorityQueue.h:82`. -/
def getKey (p : PH α) (key : Nat) : Option α := (indexOf p key).bind fun i => (rd p.arr i).map (·.2)

/-- `Peek`, `:78`. -/
def peekP (p : PH α) : Option α := (rd p.arr 0).map (·.2)

/-- `Pop`, `:80`. -/
def popP (cmp : α → α → Int) (p : PH α) : Option (PH α × α) := (rd p.arr 0).bind fun r => (removeT cmp p 0).map fun q => (q.1, r.2)

/-- `Clear`, `:86`. -/
def clearP (p : PH α) : PH α := { p with arr := [] }

/-- `PriorityHeap(PriorityHeap&& mov)`, `:71`: the base class has moved `_subarray` already, so the body assigns it the empty array that is left in `mov`. -/
def moveCtor (p : PH α) : PH α := { p with sub := [] }

/-- The calls, and what they return. -/
inductive POp (α : Type) where
  | push (v : α)
  | pop
  | peek
  | get (h : Nat)
  | set (h : Nat) (v : α)
  | remove (h : Nat)
  | length
  | clear

inductive POut (α : Type) where
  | handle (h : Nat)
  | val (v : α)
  | ok (b : Bool)
  | num (n : Nat)
  | unit
  deriving DecidableEq

def stepP (cmp : α → α → Int) (p : PH α) : POp α → Option (PH α × POut α)
  | .push v => (push cmp p v).map fun r => (r.1, .handle r.2)
  | .pop => (popP cmp p).map fun r => (r.1, .val r.2)
  | .peek => (peekP p).map fun r => (p, .val r)
  | .get h => (getKey p h).map fun r => (p, .val r)
  | .set h v => (setKey cmp p h v).map fun r => (r.1, .ok r.2)
  | .remove h => (removeKey cmp p h).map fun r => (r.1, .ok r.2)
  | .length => some (p, .num p.arr.length)
  | .clear => some (clearP p, .unit)

end Verif.Heap
