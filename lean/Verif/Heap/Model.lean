import Verif.Common.Cmp
import Verif.Common.Mem
import Verif.Heap.Spec

/-!
# Model of `BinaryHeap` (`/repo/include/bss-util/BinaryHeap.h`)

The heap is the list of the first `_length` elements of the underlying `DynArray`.  The static functions
`PercolateDown`, `Heapify`, `HeapSort` work on a raw array and an explicit `length`, so they take the whole
list and `n`.  Reads and writes are checked (`none` = out-of-range access).  `MFUNC` is the default no-op
(`BinaryHeap.h:15`); the handle-tracking instance is modelled in `Verif/PriorityHeap`.  Index overflow
(`k << 1`) is excluded by unbounded `Nat` (the code asserts `k < max >> 1`, lines 108 and 122).
-/

namespace Verif.Heap

variable {α : Type _}

/-- `CBH_PARENT(i)`, `BinaryHeap.h:34`. -/
def parent (i : Nat) : Nat := (i - 1) / 2

/-- `PercolateUp`, `BinaryHeap.h:83-102` (the loop 88-98 and the final store 100). -/
def percolateUp (cmp : α → α → Int) (a : List α) (k : Nat) (val : α) : Option (List α) :=
  if _h : k = 0 then wr a k val
  else do
    let pv ← rd a (parent k)
    if cmp val pv < 0 then wr a k val
    else do
      let a' ← wr a k pv
      percolateUp cmp a' (parent k) val
termination_by k
decreasing_by unfold parent; omega

/-- `PercolateDown`, `BinaryHeap.h:105-134`.  `i = CBH_RIGHT(k)` on entry to each iteration; the branch
`n ≤ i` is the code after the loop (lines 125-132). -/
def percolateDown (cmp : α → α → Int) (a : List α) (n k : Nat) (val : α) : Option (List α) :=
  if _h : 2 * k + 2 < n then do
    let l ← rd a (2 * k + 1)
    let r ← rd a (2 * k + 2)
    let i := if cmp l r > 0 then 2 * k + 1 else 2 * k + 2
    let c := if cmp l r > 0 then l else r
    if cmp val c > 0 then wr a k val
    else do
      let a' ← wr a k c
      percolateDown cmp a' n i val
  else if 2 * k + 1 < n then do
    let l ← rd a (2 * k + 1)
    if cmp val l ≤ 0 then do
      let a' ← wr a k l
      wr a' (2 * k + 1) val
    else wr a k val
  else wr a k val
termination_by n - k
decreasing_by split <;> omega

/-- Loop of `Heapify`, `BinaryHeap.h:150-154`, with `i` iterations left. -/
def heapifyLoop (cmp : α → α → Int) (n : Nat) : Nat → List α → Option (List α)
  | 0, a => some a
  | i + 1, a => do
    let store ← rd a i
    let a' ← percolateDown cmp a n i store
    heapifyLoop cmp n i a'

/-- `Heapify`, `BinaryHeap.h:146-155`. -/
def heapify (cmp : α → α → Int) (a : List α) (n : Nat) : Option (List α) :=
  heapifyLoop cmp n (n / 2) a

/-- Loop of `HeapSort`, `BinaryHeap.h:163-168`, at current `length`. -/
def heapSortLoop (cmp : α → α → Int) : Nat → List α → Option (List α)
  | 0, a => some a
  | 1, a => some a
  | (m + 1) + 1, a => do
    let store ← rd a (m + 1)
    let x ← rd a 0
    let a ← wr a (m + 1) x
    let a ← percolateDown cmp a (m + 1) 0 store
    heapSortLoop cmp (m + 1) a

/-- `HeapSort`, `BinaryHeap.h:158-169`. -/
def heapSort (cmp : α → α → Int) (a : List α) (n : Nat) : Option (List α) := do
  let a ← heapify cmp a n
  heapSortLoop cmp n a

/-- `Insert` / `_insert`, `BinaryHeap.h:177-183`: the array is grown by one slot (a default constructed
`T`, here an arbitrary value: `val` itself, it is always overwritten), then percolated up. -/
def insert (cmp : α → α → Int) (a : List α) (val : α) : Option (List α) :=
  percolateUp cmp (a ++ [val]) a.length val

/-- `Remove`, `BinaryHeap.h:72-79`. -/
def remove (cmp : α → α → Int) (a : List α) (index : Nat) : Option (List α × Bool) :=
  if a.length ≤ index then some (a, false)
  else if 1 < a.length then do
    let last ← rd a (a.length - 1)
    let a' ← percolateDown cmp a (a.length - 1) index last
    some (a'.dropLast, true)
  else some (a.dropLast, true)

/-- `Peek`, `BinaryHeap.h:55`; UB on an empty heap. -/
def peek (a : List α) : Option α := rd a 0

/-- `Pop`, `BinaryHeap.h:57-61`; UB on an empty heap. -/
def pop (cmp : α → α → Int) (a : List α) : Option (List α × α) := do
  let r ← rd a 0
  let (a', _) ← remove cmp a 0
  some (a', r)

/-- `Set` / `_set`, `BinaryHeap.h:187-198`. -/
def set (cmp : α → α → Int) (a : List α) (index : Nat) (val : α) : Option (List α × Bool) :=
  if a.length ≤ index then some (a, false)
  else do
    let old ← rd a index
    let a' ← if cmp old val ≤ 0 then percolateUp cmp a index val
             else percolateDown cmp a a.length index val
    some (a', true)

/-- `BinaryHeap(const T* src, CT length)`, `BinaryHeap.h:44-49`: copies `length` elements (the byte count
passed to `_copy` is taken to mean the intended element count) and heapifies. -/
def ofArray (cmp : α → α → Int) (src : List α) : Option (List α) := heapify cmp src src.length

/-- One public call, with what the caller can observe.  `Insert` (66-67), `Pop` (57-61), `Set` (69-70)
preceded by `Get(i)` (56) to observe the replaced value. -/
def step (cmp : α → α → Int) (a : List α) : Spec.Op α → Option (List α × Spec.Out α)
  | .insert v => do let a' ← insert cmp a v; some (a', .unit)
  | .pop => do let (a', r) ← pop cmp a; some (a', .popped r)
  | .set i v => do let (a', ok) ← set cmp a i v; some (a', .set (if ok then rd a i else none))

/-- A history of public calls. -/
def run (cmp : α → α → Int) : List α → List (Spec.Op α) → Option (List α × List (Spec.Out α))
  | a, [] => some (a, [])
  | a, op :: ops => do
    let (a', o) ← step cmp a op
    let (a'', os) ← run cmp a' ops
    some (a'', o :: os)

end Verif.Heap
