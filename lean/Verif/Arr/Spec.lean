import Verif.Arr.Model

/-!
# What arrays should do: independent sequences

The arrays of a program are a list of values, one for each array that was ever made; an array that was destroyed has none. Each call changes the value of one or two arrays, as a call on a sequence.
-/

namespace Verif.Arr
variable {α : Type}

/-- For each array whether it is a `DynArray`, and its elements. -/
abbrev Vals (α : Type) := List (Option (Bool × List α))

/-- The value of an array that exists. -/
def Vals.at (s : Vals α) (i : Nat) : Option (Bool × List α) := (s[i]?).join

/-- The value of an argument of a call on array `i`; an element of array `i` itself is not allowed. -/
def refVal (s : Vals α) (i : Nat) : Ref α → Option α
  | .ext x => some x
  | .elem j k => if j = i then none else (s.at j).bind fun v => v.2[k]?

/-- The elements of a slice given to array `i`, which must not be a slice of array `i` itself. -/
def partVal (s : Vals α) (i : Nat) : Part α → Option (List α)
  | .ext xs => some xs
  | .part j a n => if j = i then none else (s.at j).bind fun v => if a + n ≤ v.2.length then some ((v.2.drop a).take n) else none

/-- A call on sequences; `none` if it is not allowed: an array that does not exist, an index out of range, arrays of different types, or an array as its own argument (but a `DynArray` can be
appended to itself). -/
def Vals.step (dflt : α) (s : Vals α) : Op α → Option (Vals α)
  | .new dyn n => some (s ++ [some (dyn, if dyn then [] else List.replicate n dflt)])
  | .list dyn xs => some (s ++ [some (dyn, xs)])
  | .copy j => (s.at j).map fun v => s ++ [some v]
  | .move j => (s.at j).map fun v => s.set j (some (v.1, [])) ++ [some v]
  | .drop i => (s.at i).map fun _ => s.set i none
  | .add i r => (s.at i).bind fun v => (refVal s i r).map fun x => s.set i (some (v.1, v.2 ++ [x]))
  | .insert i r k => (s.at i).bind fun v => (refVal s i r).bind fun x =>
    if k ≤ v.2.length then some (s.set i (some (v.1, v.2.take k ++ x :: v.2.drop k))) else none
  | .remove i k => (s.at i).bind fun v => if k < v.2.length then some (s.set i (some (v.1, v.2.eraseIdx k))) else none
  | .set i p => (s.at i).bind fun v => (partVal s i p).map fun ys => s.set i (some (v.1, ys))
  | .resize i n => (s.at i).map fun v => s.set i (some (v.1, v.2.take n ++ List.replicate (n - v.2.length) dflt))
  | .reserve i _ => (s.at i).bind fun v => if v.1 then some s else none
  | .discard i n => (s.at i).bind fun v => if v.1 then none else if n = v.2.length then some s else some (s.set i (some (v.1, List.replicate n dflt)))
  | .assign i j => (s.at i).bind fun v => (s.at j).bind fun u => if i ≠ j ∧ u.1 = v.1 then some (s.set i (some u)) else none
  | .moveAssign i j => (s.at i).bind fun v => (s.at j).bind fun u => if i ≠ j ∧ u.1 = v.1 then some ((s.set i (some u)).set j (some (u.1, []))) else none
  | .append i j => (s.at i).bind fun v => (s.at j).bind fun u => if (i ≠ j ∨ v.1 = true) ∧ u.1 = v.1 then some (s.set i (some (v.1, v.2 ++ u.2))) else none
  | .plus i j => (s.at i).bind fun v => (s.at j).bind fun u => if u.1 = v.1 then some (s ++ [some (v.1, v.2 ++ u.2)]) else none

/-- A program on sequences. -/
def Vals.run (dflt : α) : Vals α → List (Op α) → Option (Vals α)
  | s, [] => some s
  | s, op :: ops => (s.step dflt op).bind fun s => Vals.run dflt s ops

end Verif.Arr
