import Verif.Common.Cmp
import Verif.Common.Mem
import Verif.Sorted.Spec

/-!
# Model of the binary searches (`algo.h`), `ArraySort` and `Map`

Arrays are lists, `operator[]` is a checked read.  `CT_` is unbounded: the signed/unsigned conversions of
`first`, `last` assume lengths below 2^63.  A returned `(CT_)-1` is the integer `-1`.
`DynArray::Insert/Remove` are the list operations (proved of the array code in `Verif/DynArray`).
-/

namespace Verif.Sorted

variable {α β κ ν : Type _}

/-- Loop of `BinarySearchNear`, `algo.h:26-48`; `test x` is `CompEQ(CompF(data, x), CompValue)`; `c` is the
remaining count (`last - first` initially, never negative). -/
def near (test : α → Bool) (arr : List α) (first c : Nat) : Option Nat :=
  if _h : c = 0 then some first
  else do
    let x ← rd arr (first + c / 2)
    if test x then near test arr (first + c / 2 + 1) (c - (c / 2 + 1))
    else near test arr first (c / 2)
termination_by c
decreasing_by all_goals omega

/-- `BinarySearchBefore`, `algo.h:57-61`: `CompEQ = NEQ`, `CompValue = -1`, result minus one. -/
def searchBefore (cmpF : β → α → Int) (arr : List α) (data : β) (first last : Nat) : Option Int := do
  let r ← near (fun x => cmpF data x != -1) arr first (last - first)
  some ((r : Int) - 1)

/-- `BinarySearchAfter`, `algo.h:70-74`: `CompEQ = EQ`, `CompValue = 1`. -/
def searchAfter (cmpF : β → α → Int) (arr : List α) (data : β) (first last : Nat) : Option Nat :=
  near (fun x => cmpF data x == 1) arr first (last - first)

/-- Loop of `BinarySearchExact`, `algo.h:89-99`, with inclusive signed bounds `f`, `l`.  A negative index
would be an out-of-range read. -/
def exactLoop (cmpF : α → β → Int) (arr : List α) (data : β) (f l : Int) : Option Int :=
  if _h : f ≤ l then do
    let m := f + (l - f) / 2
    let x ← if m < 0 then none else rd arr m.toNat
    if cmpF x data < 0 then exactLoop cmpF arr data (m + 1) l
    else if cmpF x data > 0 then exactLoop cmpF arr data f (m - 1)
    else some m
  else some (-1)
termination_by (l - f + 1).toNat
decreasing_by all_goals omega

/-- `BinarySearchExact`, `algo.h:83-102`. -/
def searchExact (cmpF : α → β → Int) (arr : List α) (data : β) (f l : Int) : Option Int :=
  exactLoop cmpF arr data f (l - 1)

/-! ## `ArraySort` -/

/-- `_insert` (location), `ArraySort.h:124-141`. -/
def insertLoc (cmp : α → α → Int) (a : List α) (item : α) : Option Nat :=
  if a.length = 0 then some 0
  else do
    let x0 ← rd a 0
    if cmp item x0 < 0 then some 0
    else do
      let xl ← rd a (a.length - 1)
      if cmp item xl ≥ 0 then some a.length
      else searchAfter cmp a item 0 a.length

/-- `Insert`, `ArraySort.h:30-36`. -/
def insert (cmp : α → α → Int) (a : List α) (item : α) : Option (List α × Nat) := do
  let loc ← insertLoc cmp a item
  if loc ≤ a.length then some (a.take loc ++ item :: a.drop loc, loc) else none

/-- First loop of `ReplaceData`, `ArraySort.h:57-62`. -/
def bubbleUp (cmp : α → α → Int) (a : List α) : Nat → Option (List α × Nat)
  | 0 => some (a, 0)
  | i + 1 => do
    let p ← rd a i
    let x ← rd a (i + 1)
    if cmp p x > 0 then do
      let a ← wr a (i + 1) p
      let a ← wr a i x
      bubbleUp cmp a i
    else some (a, i + 1)

/-- Second loop of `ReplaceData`, `ArraySort.h:63-68`; `fuel` is `Length() - 1 - index`, the number of
slots to the right, so that `fuel = 0` is the loop condition failing. -/
def bubbleDown (cmp : α → α → Int) (a : List α) (i : Nat) : Nat → Option (List α × Nat)
  | 0 => some (a, i)
  | k + 1 => do
    let y ← rd a (i + 1)
    let x ← rd a i
    if cmp y x < 0 then do
      let a ← wr a i y
      let a ← wr a (i + 1) x
      bubbleDown cmp a (i + 1) k
    else some (a, i)

/-- `ReplaceData`, `ArraySort.h:53-70`. -/
def replaceData (cmp : α → α → Int) (a : List α) (index : Nat) (item : α) : Option (List α × Nat) := do
  let a ← wr a index item
  let (a, i) ← bubbleUp cmp a index
  bubbleDown cmp a i (a.length - 1 - i)

/-- `Remove`, `ArraySort.h:72-77`. -/
def remove (a : List α) (index : Nat) : List α × Bool :=
  if a.length ≤ index then (a, false) else (a.take index ++ a.drop (index + 1), true)

/-- `Find`, `ArraySort.h:79-82`. -/
def find (cmp : α → α → Int) (a : List α) (item : α) : Option Int := searchExact cmp a item 0 a.length

/-- `FindNear`, `ArraySort.h:85-89`. -/
def findNear (cmp : α → α → Int) (a : List α) (item : α) (before : Bool) : Option Int := do
  let r ← if before then searchBefore cmp a item 0 a.length
          else (searchAfter cmp a item 0 a.length).map (fun n => (n : Int))
  some (if r < a.length then r else -1)

/-- `Discard`, `ArraySort.h:38` (`SetLength` to a smaller length keeps the prefix). -/
def discard (a : List α) (num : Nat) : List α := if num > a.length then a.take 0 else a.take (a.length - num)

/-- One public call; `Clear` is `ArraySort.h:37`. -/
def step (cmp : α → α → Int) (a : List α) : Spec.Op α → Option (List α × Spec.Out)
  | .insert v => do let (a', i) ← insert cmp a v; some (a', .idx i)
  | .remove i => let (a', b) := remove a i; some (a', .ok b)
  | .replace i v => do let (a', j) ← replaceData cmp a i v; some (a', .idx j)
  | .discard n => some (discard a n, .ok true)
  | .clear => some ([], .ok true)

/-- A history of public calls on an `ArraySort`. -/
def run (cmp : α → α → Int) : List α → List (Spec.Op α) → Option (List α × List Spec.Out)
  | a, [] => some (a, [])
  | a, op :: ops => do
    let (a', o) ← step cmp a op
    let (a'', os) ← run cmp a' ops
    some (a'', o :: os)

/-! ## `Map` -/

/-- `CompTuple<pair, 0, CFunc>`, `compare.h:43`. -/
def pcmp (cmp : κ → κ → Int) (p q : κ × ν) : Int := cmp p.1 q.1

/-- `mapComp`, `Map.h:68`. -/
def mapComp (cmp : κ → κ → Int) (k : κ) (q : κ × ν) : Int := cmp k q.1

/-- `GetNear(key, true)`, `Map.h:69-73` (`(CT)-1` is `-1`). -/
def getNear (cmp : κ → κ → Int) (a : List (κ × ν)) (k : κ) : Option Int := do
  let r ← searchBefore (mapComp cmp) a k 0 a.length
  some (if r < a.length then r else -1)

/-- `Get`, `Map.h:37-41`. -/
def mget (cmp : κ → κ → Int) (a : List (κ × ν)) (k : κ) : Option Int := do
  let r ← getNear cmp a k
  if r = -1 then some (-1)
  else do
    let p ← rd a r.toNat
    some (if cmp k p.1 = 0 then r else -1)

/-- `Set`, `Map.h:57-67`. -/
def mset (cmp : κ → κ → Int) (a : List (κ × ν)) (k : κ) (v : ν) : Option (List (κ × ν) × Int) := do
  let r ← getNear cmp a k
  if r = -1 then some (a, r)
  else do
    let p ← rd a r.toNat
    if cmp k p.1 = 0 then do
      let a' ← wr a r.toNat (p.1, v)
      some (a', r)
    else some (a, r)

/-- `Remove(key)`, `Map.h:45` (`BASE::Remove((CT)-1)` is refused by the bounds check). -/
def mremove (cmp : κ → κ → Int) (a : List (κ × ν)) (k : κ) : Option (List (κ × ν) × Int) := do
  let r ← mget cmp a k
  some (if r = -1 then a else (remove a r.toNat).1, r)

/-- `Insert`, `Map.h:35-36`. -/
def minsert (cmp : κ → κ → Int) (a : List (κ × ν)) (k : κ) (v : ν) : Option (List (κ × ν) × Nat) :=
  insert (pcmp cmp) a (k, v)

/-- The data found under a returned index (`DataIndex`, `Map.h:43`), nothing for `-1`. -/
def dataAt (a : List (κ × ν)) (r : Int) : Option (Option ν) :=
  if r = -1 then some none else (rd a r.toNat).map (fun p => some p.2)

def mstep (cmp : κ → κ → Int) (a : List (κ × ν)) : Spec.MOp κ ν → Option (List (κ × ν) × Option ν)
  | .insert k v => do let (a', _) ← minsert cmp a k v; some (a', none)
  | .set k v => do let (a', _) ← mset cmp a k v; some (a', none)
  | .remove k => do
    let (a', r) ← mremove cmp a k
    let o ← dataAt a r   -- the data that was stored at the returned index before removal
    some (a', o)
  | .get k => do
    let r ← mget cmp a k
    let o ← dataAt a r
    some (a, o)

/-- A history of public calls on a `Map`. -/
def mrun (cmp : κ → κ → Int) : List (κ × ν) → List (Spec.MOp κ ν) → Option (List (κ × ν) × List (Option ν))
  | a, [] => some (a, [])
  | a, op :: ops => do
    let (a', o) ← mstep cmp a op
    let (a'', os) ← mrun cmp a' ops
    some (a'', o :: os)

end Verif.Sorted
