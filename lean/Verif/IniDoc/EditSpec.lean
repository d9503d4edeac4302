import Verif.IniDoc.Spec

/-!
# Specification of the editing of an INI storage, as a change of what can be looked up
-/

namespace Verif.IniDoc.Spec

open Verif.Ini.Spec (fold trim plain opens lines)

/-- A function changed at one place. -/
def put {B : Type} (f : List Int → B) (k : List Int) (x : B) : List Int → B := fun n => if n = k then x else f n

/-- An edit. A missing instance number asks for an insertion, a missing value for a removal. -/
inductive Edit where
  | addSection (name : List Int)
  | removeSection (name : List Int) (i : Nat)
  | entry (section_ key : List Int) (value : Option (List Int)) (keyInstance sectionInstance : Option Nat)
  | addEntry (section_ key : List Int) (value : Option (List Int)) (keyInstance sectionInstance : Nat)

/-- A new, empty section is the last of its name. -/
def addSec (v : View) (name : List Int) : View := put v (fold name) (v (fold name) ++ [fun _ => []])

/-- Editing an entry of a section: what is returned, and the values of the keys. -/
def editKey (s : List Int → List (List Int)) (key : List Int) (value : Option (List Int)) : Option Nat → Int × (List Int → List (List Int))
  | none => (0, put s (fold key) (s (fold key) ++ [value.getD []]))
  | some j =>
    if s (fold key) = [] then (-4, s)
    else if j < (s (fold key)).length then
      (0, put s (fold key) (match value with
        | none => (s (fold key)).eraseIdx j
        | some x => (s (fold key)).set j x))
    else (-5, s)

/-- Editing an entry of the `si`-th section of a name. -/
def editAt (v : View) (sec key : List Int) (value : Option (List Int)) (ki : Option Nat) (si : Nat) : Int × View :=
  if (v (fold sec)).length = 0 then (-1, v)
  else match (v (fold sec))[si]? with
    | none => (-2, v)
    | some s => ((editKey s key value ki).1, put v (fold sec) ((v (fold sec)).set si (editKey s key value ki).2))

/-- What is returned, and what can be looked up afterwards. -/
def edit (v : View) : Edit → Int × View
  | .addSection n => (0, addSec v n)
  | .removeSection n i => if i < (v (fold n)).length then (1, put v (fold n) ((v (fold n)).eraseIdx i)) else (0, v)
  | .entry sec key value ki (some si) => editAt v sec key value ki si
  | .entry sec key value ki none => editAt (addSec v sec) sec key value ki (v (fold sec)).length
  | .addEntry sec key value ki si =>
    match (v (fold sec))[si]? with
    | none => editAt (addSec v sec) sec key value none (v (fold sec)).length
    | some s => editAt v sec key value (if ki < (s (fold key)).length then some ki else none) si

/-- A section name that can be written between brackets: of ASCII characters, without white space around it. -/
structure GoodName (n : List Int) : Prop where
  pos : ∀ c ∈ n, 0 < c ∧ c ≠ 59 ∧ c ≠ 93 ∧ c ≠ 10
  trim : trim n = n
  ne : n ≠ []

/-- A key that can be written before `=`. -/
structure GoodKey (k : List Int) : Prop where
  pos : ∀ c ∈ k, 0 < c ∧ plain c = true ∧ c ≠ 10
  trim : trim k = k
  ne : k ≠ []

/-- A value that can be written after `=`. -/
structure GoodValue (v : List Int) : Prop where
  pos : ∀ c ∈ v, 0 < c ∧ c ≠ 59 ∧ c ≠ 10
  trim : trim v = v

/-- Sections and keys allowed in a text. -/
def EvGood (N K : List Int → Prop) : Ev → Prop
  | .sec w => N (fold w)
  | .ent k _ => K (fold k)

/-- A line of ASCII characters that is a valid section header if it opens a section, and has allowed names. -/
structure GoodLine (N K : List Int → Prop) (l : List Int) : Prop where
  pos : ∀ c ∈ l, 0 < c
  hdr : opens l = true → ∃ w, lineEv l = some (.sec w)
  ok : ∀ e, lineEv l = some e → EvGood N K e

/-- A text of good lines. -/
def Good (N K : List Int → Prop) (t : List Int) : Prop := ∀ l ∈ lines t, GoodLine N K l

/-- No name allowed begins with another, and none is blank. -/
structure Names (N : List Int → Prop) : Prop where
  pre : ∀ a b, N a → N b → a <+: b → a = b
  ne : ∀ a, N a → a ≠ []

/-- The edits that are right: names of the section names `N`, keys of the keys `K`, each of at most 15 characters. -/
def Edit.Allowed (N K : List Int → Prop) : Edit → Prop
  | .addSection n => GoodName n ∧ N (fold n)
  | .removeSection n _ => N (fold n) ∧ n.length ≤ 15
  | .entry sec key value _ _ => GoodName sec ∧ N (fold sec) ∧ GoodKey key ∧ K (fold key) ∧ key.length ≤ 15 ∧ ∀ x ∈ value, GoodValue x
  | .addEntry sec key value _ _ => GoodName sec ∧ N (fold sec) ∧ GoodKey key ∧ K (fold key) ∧ key.length ≤ 15 ∧ ∀ x ∈ value, GoodValue x

end Verif.IniDoc.Spec
