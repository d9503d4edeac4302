import Verif.Common.Run

/-!
# Specification of INI look-up: the lines of a text, its section headers and its entries
-/

namespace Verif.Ini.Spec

/-- The lines of a text. -/
def lines : List Int → List (List Int)
  | [] => [[]]
  | c :: l => if c = 10 then [] :: lines l else match lines l with
    | [] => [[c]]
    | x :: xs => (c :: x) :: xs

/-- White space. -/
def blank (c : Int) : Bool := decide (c < 33)

/-- `w` without the white space around it. -/
def trim (w : List Int) : List Int := ((w.dropWhile blank).reverse.dropWhile blank).reverse

/-- Upper-case letters as lower-case ones. -/
def fold (w : List Int) : List Int := w.map fun c => if 65 ≤ c ∧ c ≤ 90 then c + 32 else c

/-- Characters that do not decide what a line is: neither `;` nor `=` nor `[`. -/
def plain (c : Int) : Bool := c ≠ 59 ∧ c ≠ 61 ∧ c ≠ 91

/-- A named part of the text. -/
structure Item where
  /-- the name as it stands in the text -/
  text : List Int
  start : Nat
  stop : Nat
  deriving DecidableEq

/-- Does the line open a section: is `[` the first of `;`, `=`, `[`? -/
def opens (l : List Int) : Bool := (l.dropWhile plain).head? == some 91

/-- The name between `[` and `]` (or the end of the line) of a line that opens a section, if it is not empty and no `;` comes before its end. -/
def header (l : List Int) : Option (List Int) :=
  let r := (l.dropWhile plain).tail
  let w := r.takeWhile fun c => c ≠ 59 ∧ c ≠ 93
  if opens l = true ∧ w ≠ [] ∧ (r.drop w.length).head? ≠ some 59 then some w else none

/-- The end of a section whose remaining lines, from position `off` on, are `ls`: the line break before the next line that opens a section, or the end of the text. -/
def sectionEnd : Nat → List (List Int) → Nat
  | off, [] => off - 1
  | off, l :: ls => if opens l = true then off - 1 else sectionEnd (off + l.length + 1) ls

/-- The sections of a text whose lines, from position `off` on, are `ls`. -/
def sections : Nat → List (List Int) → List Item
  | _, [] => []
  | off, l :: ls =>
    (match header l with
      | some w => [⟨w, off + (l.takeWhile plain).length, sectionEnd (off + l.length + 1) ls⟩]
      | none => []) ++ sections (off + l.length + 1) ls

/-- Is the line an entry: is `=` the first of `;`, `=`, `[`, with something visible before it? -/
def isEntry (l : List Int) : Bool := (l.dropWhile plain).head? == some 61 && (l.takeWhile plain).any fun c => decide (33 ≤ c)

/-- The entries of lines `ls`, from position `off` on: each from its key to its end or the `;` of a comment. -/
def entries : Nat → List (List Int) → List Item
  | _, [] => []
  | off, l :: ls =>
    (if isEntry l = true then
      let k := l.takeWhile plain
      [⟨k, off + (k.takeWhile blank).length, off + k.length + 1 + ((l.drop (k.length + 1)).takeWhile fun c => c ≠ 59).length⟩]
    else []) ++ entries (off + l.length + 1) ls

/-- The same name, up to case and surrounding white space. -/
def same (name : List Int) (i : Item) : Bool := fold (trim i.text) == fold name

/-- The `n`-th of the items of that name. -/
def nth (items : List Item) (name : List Int) (n : Nat) : Option (Nat × Nat) := ((items.filter (same name))[n]?).map fun i => (i.start, i.stop)

/-- Names the code gets right: of ordinary characters, not blank, and, if one of it and the requested name begins with the other, equal to it. -/
def Plain (name : List Int) (i : Item) : Prop :=
  (∀ c ∈ i.text, 0 < c) ∧ trim i.text ≠ [] ∧ (fold (trim i.text) <+: fold name ∨ fold name <+: fold (trim i.text) → fold (trim i.text) = fold name)

end Verif.Ini.Spec
