import Verif.Var.Model

/-!
# What variants should do

A variant is empty or holds a type and a value. Each call changes only the variants it is about.
-/

namespace Verif.Var

/-- What a variant holds. -/
abbrev Held := Option (Nat × Option Int)

/-- All variants. -/
structure Spec where
  count : Nat
  var : Nat → Option Held

/-- A variant gets another content. -/
def Spec.set (s : Spec) (i : Nat) (h : Option Held) : Spec := { s with var := fun j => if j = i then h else s.var j }

/-- A new variant. -/
def Spec.add (s : Spec) (h : Held) : Spec := ⟨s.count + 1, fun j => if j = s.count then some h else s.var j⟩

/-- What is left after a move. -/
def moved (h : Held) : Held := h.map fun p => (p.1, none)

/-- Calls that are allowed. -/
inductive Step (all : List Nat) (dflt : Nat → Int) (s : Spec) : Op → Spec → Prop
  | new : Step all dflt s .new (s.add none)
  | newValue (t : Nat) (v : Option Int) : t ∈ all → Step all dflt s (.newValue t v) (s.add (some (t, v)))
  | newCopy (j : Nat) (h : Held) : s.var j = some h → Step all dflt s (.newCopy j) (s.add h)
  | newMove (j : Nat) (h : Held) : s.var j = some h → Step all dflt s (.newMove j) ((s.set j (some (moved h))).add h)
  | assign (i j : Nat) (g h : Held) : s.var i = some g → s.var j = some h → (g ≠ none ∨ h ≠ none) → Step all dflt s (.assign i j) (s.set i (some h))
  | moveAssign (i j : Nat) (g h : Held) : s.var i = some g → s.var j = some h → (g ≠ none ∨ h ≠ none) → i ≠ j → Step all dflt s (.moveAssign i j) ((s.set j (some (moved h))).set i (some h))
  | assignValue (i t : Nat) (v : Option Int) (g : Held) : s.var i = some g → t ∈ all → Step all dflt s (.assignValue i t v) (s.set i (some (some (t, v))))
  | typeset (i t : Nat) (g : Held) : s.var i = some g → t ∈ all → Step all dflt s (.typeset i t) (s.set i (some (some (t, some (dflt t)))))
  | put (i t : Nat) (v : Int) (o : Option Int) : s.var i = some (some (t, o)) → Step all dflt s (.put i t v) (s.set i (some (some (t, some v))))
  | destroy (i : Nat) (g : Held) : s.var i = some g → Step all dflt s (.destroy i) (s.set i none)

/-- A program. -/
inductive Run (all : List Nat) (dflt : Nat → Int) : Spec → List Op → Spec → Prop
  | nil (s : Spec) : Run all dflt s [] s
  | cons (s s' s'' : Spec) (op : Op) (ops : List Op) : Step all dflt s op s' → Run all dflt s' ops s'' → Run all dflt s (op :: ops) s''

/-- Before any variant exists. -/
def Spec.empty : Spec := ⟨0, fun _ => none⟩

end Verif.Var
