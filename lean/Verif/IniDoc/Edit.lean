import Verif.IniDoc.Parse
import Verif.IniDoc.Group

/-!
# Model of loading and editing an INI storage (`/repo/bss-util/INIstorage.cpp:31-47`, `:62-72`, `:113-134`, `:165-285`, `:305-325`, `/repo/include/bss-util/INIstorage.h:44`)

A storage is its sections, each with its entries (of which the text of the value is modelled, not the numbers taken from it), and the text of the file, which the first edit reads
into memory and which is written back at the end. Instance numbers are natural numbers; `none` is `(size_t)~0`, which asks for an insertion.
-/

namespace Verif.IniDoc

open Verif.Ini (findSection findEntry trimR)
open Verif.IniDoc.Spec (Ev)

/-- The entries of a section. -/
abbrev Sec := Grp (List Int)

/-- `INIstorage`, `INIstorage.h:75-81`, with the file read into `_ini`. -/
structure Ini where
  secs : Grp Sec
  text : List Int

/-- One round of the loop of `_loadINI`, `INIstorage.cpp:310-319`; `cur` is `cursec`. -/
def loadStep (s : Grp Sec × Option Nat) : Ev → Option (Grp Sec × Option Nat)
  | .sec n => (s.1.add n Grp.empty).map fun r => (r.1, some r.2)
  | .ent k v =>
    match (match s.2 with
      | some p => some (s.1, p)
      | none => s.1.add [] Grp.empty) with
    | none => none
    | some (g, p) =>
      match g.mem p with
      | none => none
      | some n => match n.val.add k v with
        | none => none
        | some (e, _) => (g.setVal p e).map fun g => (g, some p)

/-- `_loadINI`, `INIstorage.cpp:305-325`, of what `bssParseLine` returns. -/
def loadEvents (evs : List Ev) : Option (Grp Sec) := (evs.foldlM loadStep (Grp.empty, none)).map Prod.fst

/-- The constructor `INIstorage(const char*, ...)`, `:62-72`, and `_openINI`, `:31-47`. -/
def load (file : List Int) : Option Ini :=
  match parse file with
  | none => none
  | some evs => (loadEvents evs).map fun s => ⟨s, file⟩

/-- The text up to the last character that is neither a space nor part of a line break, `:117-123`. -/
def stripEnd (t : List Int) : List Int := (t.reverse.dropWhile fun c => decide (c = 32 ∨ c = 10 ∨ c = 13)).reverse

/-- The text after `AddSection`, `:115-132`. -/
def addSectionText (t name : List Int) : List Int :=
  let s := stripEnd t
  (if s ≠ [] then s ++ [10, 10] else t) ++ [91] ++ name ++ [93]

/-- `AddSection`, `:113-134`: the storage and the node of the section. -/
def addSection (st : Ini) (name : List Int) : Option (Ini × Nat) :=
  (st.secs.add name Grp.empty).map fun r => (⟨r.1, addSectionText st.text name⟩, r.2)

/-- The text after erasing the characters from `a` up to `b`. -/
def eraseText (t : List Int) (a b : Nat) : List Int := t.take a ++ t.drop b

/-- `RemoveSection`, `:165-203`. -/
def removeSection (st : Ini) (name : List Int) (instance_ : Nat) : Option (Bool × Ini) :=
  match st.secs.find name, findSection st.text name instance_ with
  | none, _ => none
  | some none, _ => some (false, st)
  | some (some _), none => some (false, st)
  | some (some _), some (s, e) =>
    match st.secs.remove name instance_ with
    | none => none
    | some none => some (false, st)
    | some (some g) => some (true, ⟨g, eraseText st.text s (e + 1)⟩)

/-- `strchr(.., '\n')`. -/
def strBreak : List Int → Nat → Option Nat
  | [], _ => none
  | c :: l, p => if c = 10 then some p else strBreak l (p + 1)

/-- `strchr(.., '=')`. -/
def strEquals : List Int → Nat → Option Nat
  | [], _ => none
  | c :: l, p => if c = 61 then some p else strEquals l (p + 1)

/-- The text after the insertion of an entry into the section that ends at `e`, `:227-237`. -/
def insertText (t : List Int) (e : Nat) (key value : List Int) : List Int :=
  let construct := [10] ++ key ++ [61] ++ value
  match strBreak (t.drop (e - 1)) (e - 1) with
  | none => t ++ construct
  | some i => t.take i ++ construct ++ t.drop i

/-- The text after the removal of the entry from `s` to `e`, `:270-272`. -/
def deleteText (t : List Int) (s e : Nat) : List Int :=
  match strBreak (t.drop e) e with
  | none => eraseText t s e
  | some i => eraseText t s (i + 1)

/-- The text after a change of the value of the entry from `s` to `e`, `:277-281`; `none` if there is no `=`. -/
def changeText (t : List Int) (s e : Nat) (value : List Int) : Option (List Int) :=
  (strEquals (t.drop s) s).map fun q =>
    let start := q + 1
    let r := if e - 1 > start then trimR t start (e - 1 - start) else e - 1
    t.take start ++ value ++ t.drop (r + 1)

/-- `EditEntry` after the section is found, `:223-285`: `p` is the node of the section, `g` its entries, and `s`, `e` the part of the text that is the section. -/
def editIn (st : Ini) (p : Nat) (g : Sec) (s e : Nat) (key : List Int) (nvalue : Option (List Int)) (keyinstance : Option Nat) : Option (Int × Ini) :=
  match keyinstance with
  | none =>
    match g.add key (nvalue.getD []) with
    | none => none
    | some (g', _) => (st.secs.setVal p g').map fun secs => (0, ⟨secs, insertText st.text e key (nvalue.getD [])⟩)
  | some ki =>
    match g.find key with
    | none => none
    | some none => some (-4, st)
    | some (some _) =>
      match g.getNode key ki with
      | none => none
      | some none => some (-5, st)
      | some (some q) =>
        match findEntry st.text (s, e) key ki with
        | none => some (-7, st)
        | some (es, ee) =>
          match nvalue with
          | none =>
            match g.remove key ki with
            | none => none
            | some none => none
            | some (some g') => (st.secs.setVal p g').map fun secs => (0, ⟨secs, deleteText st.text es ee⟩)
          | some value =>
            match g.setVal q value with
            | none => none
            | some g' =>
              match st.secs.setVal p g' with
              | none => none
              | some secs => match changeText st.text es ee value with
                | none => some (-6, ⟨secs, st.text⟩)
                | some t => some (0, ⟨secs, t⟩)

/-- `EditEntry`, `:205-285`. -/
def editEntry (st : Ini) (section_ key : List Int) (nvalue : Option (List Int)) (keyinstance secinstance : Option Nat) : Option (Int × Ini) :=
  match (match secinstance with
    | some i => some (st, i)
    | none => match addSection st section_ with
      | none => none
      | some (st', p) => (st'.secs.mem p).map fun n : Node Sec => (st', n.idx)) with
  | none => none
  | some (st, si) =>
    match st.secs.find section_ with
    | none => none
    | some none => some (-1, st)
    | some (some _) =>
      match st.secs.getNode section_ si with
      | none => none
      | some none => some (-2, st)
      | some (some p) =>
        match st.secs.mem p with
        | none => none
        | some n =>
          match findSection st.text section_ si with
          | none => some (-3, st)
          | some (s, e) => editIn st p n.val s e key nvalue keyinstance

/-- `EditAddEntry`, `INIstorage.h:44`: inserts what is missing. -/
def editAddEntry (st : Ini) (section_ key : List Int) (nvalue : Option (List Int)) (keyinstance secinstance : Nat) : Option (Int × Ini) :=
  match st.secs.get section_ secinstance with
  | none => none
  | some none => editEntry st section_ key nvalue none none
  | some (some g) =>
    match g.get key keyinstance with
    | none => none
    | some none => editEntry st section_ key nvalue none (some secinstance)
    | some (some _) => editEntry st section_ key nvalue (some keyinstance) (some secinstance)

end Verif.IniDoc
