import Mathlib.Algebra.Field.Defs
import Mathlib.Algebra.Order.Field.Basic

/-!
# `AliasTable` (`include/bss-util/AliasTable.h`)

Probabilities are elements of an ordered field instead of floating-point numbers (no rounding).  The work arrays `small`
and `large` are stacks, written as lists with the top first.  `_alias` is not initialised by the constructor: an entry
never written is `none`.
-/

namespace Verif.Alias

variable {K : Type} [Field K] [LinearOrder K]

/-- `AliasTable.h:31-44`: the arrays during construction. -/
structure St (K : Type) where
  small : List Nat
  large : List Nat
  pc : Nat → K
  prob : Nat → K
  al : Nat → Option Nat

/-- Array store. -/
def upd {β : Type} (f : Nat → β) (i : Nat) (v : β) : Nat → β := fun j => if j = i then v else f j

/-- `AliasTable.h:48-51`, `:65-68`: put an index on the stack it belongs to. -/
def push (avg : K) (i : Nat) (s : St K) : St K :=
  if s.pc i ≥ avg then { s with large := i :: s.large } else { s with small := i :: s.small }

/-- `AliasTable.h:46-52`: sort the indices into the two stacks. -/
def sort (avg : K) (is : List Nat) (s : St K) : St K := is.foldl (fun s i => push avg i s) s

/-- `AliasTable.h:58-68`: one iteration; `l` and `g` have been popped. -/
def pair (n : Nat) (avg : K) (l g : Nat) (s : St K) : St K :=
  push avg g { s with
    prob := upd s.prob l (s.pc l * (n : K))
    al := upd s.al l (some g)
    pc := upd s.pc g ((s.pc g + s.pc l) - avg) }

/-- `AliasTable.h:56-69`: the pairing loop, with a bound on the iterations. -/
def pairs (n : Nat) (avg : K) : Nat → St K → Option (St K)
  | 0, _ => none
  | f + 1, s =>
    match s.small, s.large with
    | l :: sm, g :: lg => pairs n avg f (pair n avg l g { s with small := sm, large := lg })
    | _, _ => some s

/-- `AliasTable.h:72-75`: everything left gets probability one. -/
def rest (is : List Nat) (prob : Nat → K) : Nat → K := is.foldl (fun p i => upd p i 1) prob

/-- The finished table. -/
structure Table (K : Type) where
  n : Nat
  prob : Nat → K
  al : Nat → Option Nat

/-- `AliasTable.h:26-85`: the constructor, for a non-empty list of `n` probabilities. -/
def build (n : Nat) (p : Nat → K) : Option (Table K) :=
  (pairs n (1 / (n : K)) (n + 1) (sort (1 / (n : K)) (List.range n) ⟨[], [], p, fun _ => 0, fun _ => none⟩)).map fun s =>
    ⟨n, rest s.small (rest s.large s.prob), s.al⟩

/-- `AliasTable.h:93-99` `Get`: `c` is the integer drawn and `u` the number drawn; `none` is the read of an `_alias`
entry that was never written. -/
def get (t : Table K) (c : Nat) (u : K) : Option Nat := if u ≤ t.prob c then some c else t.al c

end Verif.Alias
