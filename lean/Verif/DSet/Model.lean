/-!
# Model of `DisjointSet` (`/repo/include/bss-util/DisjointSet.h`)

The array of signed integers is a `List Int`; every access is checked (`none` = access outside the array).  A
negative entry is minus the size of a root's class, any other entry is the parent.  The two `while` loops of `Find`
carry fuel `capacity + 1`; that this is always enough (the loops terminate) is part of what is proved.
-/

namespace Verif.DSet

structure DSet where
  arr : List Int
  numsets : Int
  deriving DecidableEq, Repr

/-- `DisjointSet(T num)` / `Reset`, `DisjointSet.h:30, 107-111`. -/
def reset (n : Nat) : DSet := ⟨List.replicate n (-1), n⟩

/-- `_invalidIndex`, `DisjointSet.h:197`. -/
def invalidIndex (s : DSet) (x : Nat) : Bool :=
  match s.arr[x]? with
  | none => true
  | some v => decide (v ≥ 0)

/-- `Union`, `DisjointSet.h:40-61`. -/
def union (s : DSet) (set1 set2 : Nat) : Option (Bool × DSet) :=
  if invalidIndex s set1 || invalidIndex s set2 then some (false, s)
  else do
    let w1 ← s.arr[set1]?
    let w2 ← s.arr[set2]?
    if w1 > w2 then
      let arr := s.arr.set set2 (w2 + w1)
      some (true, ⟨arr.set set1 (set2 : Int), s.numsets - 1⟩)
    else
      let arr := s.arr.set set1 (w1 + w2)
      some (true, ⟨arr.set set2 (set1 : Int), s.numsets - 1⟩)

/-- First loop of `Find`, `DisjointSet.h:68-70`. -/
def findRoot (arr : List Int) : Nat → Nat → Option Nat
  | 0, _ => none
  | fuel + 1, r => do
    let v ← arr[r]?
    if v ≥ 0 then findRoot arr fuel v.toNat else some r

/-- Path compression loop, `DisjointSet.h:77-82`; `x` and `t` as there. -/
def compress (r : Nat) : Nat → List Int → Nat → Int → Option (List Int)
  | 0, _, _, _ => none
  | fuel + 1, arr, x, t =>
    if t ≠ (r : Int) then do
      let arr := arr.set x (r : Int)
      if t < 0 then none
      else do
        let t' ← arr[t.toNat]?
        compress r fuel arr t.toNat t'
    else some arr

/-- `Find`, `DisjointSet.h:64-86`. -/
def find (s : DSet) (x : Nat) : Option (Nat × DSet) := do
  let fuel := s.arr.length + 1
  let r ← findRoot s.arr fuel x
  if x ≠ r then do
    let t ← s.arr[x]?
    let arr ← compress r fuel s.arr x t
    some (r, { s with arr := arr })
  else some (r, s)

/-- `NumSets`, `DisjointSet.h:89`. -/
def numSets (s : DSet) : Int := s.numsets

/-- `IsSetName`, `DisjointSet.h:91`. -/
def isSetName (s : DSet) (x : Nat) : Bool :=
  match s.arr[x]? with
  | none => false
  | some v => decide (v < 0)

/-- `NumElements`, `DisjointSet.h:93-98`. -/
def numElements (s : DSet) (x : Nat) : Option (Int × DSet) :=
  if x ≥ s.arr.length then some (-1, s)
  else do
    let (r, s) ← find s x
    let v ← s.arr[r]?
    some (-v, s)

/-- Loop of `GetElements`, `DisjointSet.h:137-141`, over the remaining indices. -/
def getElementsLoop (set : Nat) : List Nat → DSet → List Nat → Option (List Nat × DSet)
  | [], s, acc => some (acc, s)
  | i :: is, s, acc => do
    let (r, s) ← find s i
    getElementsLoop set is s (if r = set then acc ++ [i] else acc)

/-- `GetElements(set, target)` with a target, `DisjointSet.h:130-143`. -/
def getElements (s : DSet) (set : Nat) : Option (List Nat × DSet) := do
  let (r, s) ← find s set
  getElementsLoop r (List.range s.arr.length) s []

/-- `AddSets`, `DisjointSet.h:100-106` (`_numsets` is not updated there). -/
def addSets (s : DSet) (n : Nat) : DSet := { s with arr := s.arr ++ List.replicate n (-1) }

/-- An edge of `MinSpanningTree`; the weight is not looked at by the code. -/
structure Edge where
  u : Nat
  v : Nat
  w : Int
  deriving DecidableEq, Repr

/-- Loop of `MinSpanningTree`, `DisjointSet.h:163-173`. -/
def mstLoop : List Edge → DSet → List Edge → Option (List Edge × DSet)
  | [], s, out => some (out, s)
  | e :: es, s, out => do
    let (a, s) ← find s e.u
    let (b, s) ← find s e.v
    if a ≠ b then do
      let (_, s) ← union s a b
      mstLoop es s (out ++ [e])
    else mstLoop es s out

/-- `MinSpanningTree(numverts, edges, edgeslast, out)`, `DisjointSet.h:155-177`. -/
def minSpanningTree (n : Nat) (edges : List Edge) : Option (List Edge) :=
  (mstLoop edges (reset n) []).map (·.1)

end Verif.DSet
