import Verif.Prof.Model
import Mathlib.Algebra.BigOperators.Group.List.Basic

/-!
# What a profiler should report

A program is a list of regions with regions in them. The path of a call is the list of the regions that it is in, itself last.
-/

namespace Verif.Prof

/-- The clock does not run backwards. -/
def Ordered : Nat → Nat → Calls → Prop
  | lo, hi, .nil => lo ≤ hi
  | lo, hi, .cons _ b e inner rest => lo ≤ b ∧ b ≤ e ∧ Ordered b e inner ∧ Ordered e hi rest

/-- All regions have numbers from a set. -/
def Among (S : Nat → Prop) : Calls → Prop
  | .nil => True
  | .cons id _ _ inner rest => S id ∧ Among S inner ∧ Among S rest

/-- The time spent in the outermost regions. -/
def spent : Calls → Nat
  | .nil => 0
  | .cons _ b e _ rest => (e - b) + spent rest

/-- A call: its path, its time and the part of its time that was not spent in other regions. -/
structure Entry where
  path : List Nat
  time : Nat
  own : Nat
  deriving DecidableEq, Repr

/-- All calls, in the order in which they end. -/
def entries : List Nat → Calls → List Entry
  | _, .nil => []
  | p, .cons id b e inner rest => entries (p ++ [id]) inner ++ ⟨p ++ [id], e - b, (e - b) - spent inner⟩ :: entries p rest

/-- The mean of some numbers. -/
def mean (l : List Nat) : ℚ := (l.sum : ℚ) / l.length

/-- The digits of a number in base 16, the lowest first. -/
def digits (n : Nat) : List Nat := if 0 < n then (n % 16) :: digits (n / 16) else []

/-- The place of a path in the trie. -/
def key (p : List Nat) : List Nat := p.flatMap digits

/-- No number of the set is the beginning of another, read from the lowest digit. -/
def PrefixFree (S : Nat → Prop) : Prop := ∀ a b, S a → S b → digits a <+: digits b → a = b

/-- The calls with a path. -/
def callsOf (cs : Calls) (p : List Nat) : List Entry := (entries [] cs).filter fun e => e.path = p

/-- The calls of a region, wherever it was called. -/
def callsOfId (cs : Calls) (id : Nat) : List Entry := (entries [] cs).filter fun e => e.path.getLast? = some id

/-- The line that a tree should have for a path: it is indented once for each region around it. -/
def lineOf (cs : Calls) (p : List Nat) : Line := ⟨(p.length : Int) - 1, p.getLast?.getD 0, mean ((callsOf cs p).map Entry.time), (callsOf cs p).length⟩

end Verif.Prof
