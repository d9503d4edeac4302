import Verif.Ini.Spec

/-!
# Specification of the content of an INI text: what its lines say, and which values a name, an instance number and a key lead to
-/

namespace Verif.IniDoc.Spec

open Verif.Ini.Spec

/-- What a line says: a section begins, or an entry with its key and value. -/
inductive Ev where
  | sec (name : List Int)
  | ent (key value : List Int)
  deriving DecidableEq

/-- The text between `[` and `]` (or a comment or the end of the line) of a line that opens a section. -/
def bracketed (l : List Int) : List Int := (l.dropWhile plain).tail.takeWhile fun c => c ≠ 59 ∧ c ≠ 93

/-- What a line says: names, keys and values are taken without the white space around them, and values without a comment. -/
def lineEv (l : List Int) : Option Ev :=
  match header l with
  | some w => some (.sec (trim w))
  | none =>
    if isEntry l = true then some (.ent (trim (l.takeWhile plain)) (trim ((l.dropWhile plain).tail.takeWhile fun c => c ≠ 59)))
    else none

/-- What a text says, line by line. -/
def events (t : List Int) : List Ev := (lines t).filterMap lineEv

/-- The value of the first entry. -/
def firstValue (evs : List Ev) : Option (List Int) := evs.findSome? fun
  | .ent _ v => some v
  | .sec _ => none

/-- The header of a section in the last line, if that line ends with a line break. -/
def lastHeader : List (List Int) → Option (List Int)
  | [] => none
  | [h, []] => header h
  | _ :: ls => lastHeader ls

/-- Sections in the order of the file, each with its entries in order. -/
abbrev Doc := List (List Int × List (List Int × List Int))

/-- Adds an entry to the last section; if there is none, a section without a name begins. -/
def addEnt (d : Doc) (e : List Int × List Int) : Doc :=
  match d.getLast? with
  | none => [([], [e])]
  | some s => d.dropLast ++ [(s.1, s.2 ++ [e])]

/-- The effect of one line. -/
def apply (d : Doc) : Ev → Doc
  | .sec n => d ++ [(n, [])]
  | .ent k v => addEnt d (k, v)

/-- The sections a text consists of. -/
def doc (evs : List Ev) : Doc := evs.foldl apply []

/-- What can be looked up: for each (lower-case) section name the sections of that name in order, and in each of them for each (lower-case) key the values in order. -/
abbrev View := List Int → List (List Int → List (List Int))

/-- The values of a key among the entries of a section. -/
def vals (es : List (List Int × List Int)) (key : List Int) : List (List Int) := (es.filter fun e => fold e.1 == key).map Prod.snd

/-- What can be looked up in a document. -/
def view (d : Doc) : View := fun n => (d.filter fun s => fold s.1 == n).map fun s => vals s.2

end Verif.IniDoc.Spec
