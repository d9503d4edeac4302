import Verif.Common.Mem

/-!
# Model of `StringTable` (`/repo/include/bss-util/StringTable.h`)

Characters are natural numbers, 0 is the terminator. The two arrays are lists (`Array` has no spare capacity). The size type does not overflow. `none` is undefined
behaviour: an access outside an array.
-/

namespace Verif.StrTable

/-- A table: `_strings` and `_indices`, `StringTable.h:135-136`. -/
structure Table where
  strings : List Nat
  indices : List Nat
  deriving DecidableEq

/-- The string that begins with these characters; `none` if there is no terminator. -/
def cstr : List Nat → Option (List Nat)
  | [] => none
  | c :: l => if c = 0 then some [] else (cstr l).map (c :: ·)

/-- `memcpy(a + p, src, …)`. -/
def copyAt (a : List Nat) (p : Nat) (src : List Nat) : Option (List Nat) :=
  if p + src.length ≤ a.length then some (a.take p ++ src ++ a.drop (p + src.length)) else none

/-- `Array::SetCapacity`, `Array.h:312-319`; new elements hold junk (7 here). -/
def setCapacity (a : List Nat) (n : Nat) : List Nat := a.take n ++ List.replicate (n - a.length) 7

/-- The first loop of `_construct`, `:116-120`: the lengths and their sum. -/
def lengths : List (List Nat) → Nat → List Nat → Nat → Option (List Nat × Nat)
  | [], _, idx, sz => some (idx, sz)
  | s :: ss, i, idx, sz => (wr idx i (s.length + 1)).bind fun idx => lengths ss (i + 1) idx (sz + (s.length + 1))

/-- The second loop of `_construct`, `:126-132`. -/
def copies : List (List Nat) → Nat → Nat → Table → Option Table
  | [], _, _, t => some t
  | s :: ss, i, cur, t =>
    (rd t.indices i).bind fun hold => (wr t.indices i cur).bind fun idx => (copyAt t.strings cur ((s ++ [0]).take hold)).bind fun str =>
      copies ss (i + 1) (cur + hold) ⟨str, idx⟩

/-- `_construct`, `:108-133`. -/
def construct (ss : List (List Nat)) : Option Table :=
  if ss.length = 0 then some ⟨[], []⟩
  else (lengths ss 0 (setCapacity [] ss.length) 0).bind fun r => copies ss 0 0 ⟨setCapacity [] r.2, r.1⟩

/-- `strccount`, `bss_util.h:145-152`: the loop looks at the first character each time. -/
def strccount (s : List Nat) (c : Nat) : Nat := if s.head? = some 0 then 0 else s.count c

/-- The loop of the stream constructor, `:43-52`, over the characters left. -/
def scan : List Nat → Nat → List Nat → Option (List Nat)
  | [], _, idx => some idx
  | c :: l, j, idx =>
    if j < idx.length then
      (rd idx j).bind fun v => (wr idx j (v + 1)).bind fun idx =>
        if c = 0 then
          if j + 1 < idx.length then (rd idx j).bind fun v => (wr idx (j + 1) v).bind fun idx => scan l (j + 1) idx
          else scan l (j + 1) idx
        else scan l j idx
    else some idx

/-- The constructor from a stream that yields all of the requested characters `bs`, `:30-53`. -/
def ofStream (bs : List Nat) : Option Table :=
  if bs.length = 0 then some ⟨[], []⟩
  else (wr bs (bs.length - 1) 0).bind fun str =>
    (scan str 1 (List.replicate (strccount str 0) 0)).map fun idx => ⟨str, idx⟩

/-- `GetString`, `:61`: the string at the pointer returned. -/
def Table.getString (t : Table) (i : Nat) : Option (List Nat) := (rd t.indices i).bind fun p => cstr (t.strings.drop p)

/-- `AppendString`, `:62-72`. -/
def Table.appendString (t : Table) (s : List Nat) : Option Table :=
  if t.indices.length = 0 then none
  else (rd t.indices (t.indices.length - 1)).bind fun p => (cstr (t.strings.drop p)).bind fun l =>
    let last := l.length + 1 + p
    let idx := setCapacity t.indices (t.indices.length + 1)
    (wr idx (idx.length - 1) last).bind fun idx =>
      (copyAt (setCapacity t.strings (t.strings.length + (s.length + 1))) t.strings.length (s ++ [0])).map fun str => ⟨str, idx⟩

/-- The loop of `operator+=`, `:99-100`, from index `i` on. -/
def shift (add : Nat) : Nat → Nat → List Nat → Option (List Nat)
  | 0, _, idx => some idx
  | n + 1, i, idx => (rd idx i).bind fun v => (wr idx i (v + add)).bind fun idx => shift add n (i + 1) idx

/-- `operator+=`, `:92-103`, for another table (a table added to itself is copied with its new size, beyond its end: not modelled). -/
def Table.append (t right : Table) : Option Table :=
  (shift t.strings.length right.indices.length t.indices.length (t.indices ++ right.indices)).map fun idx => ⟨t.strings ++ right.strings, idx⟩

end Verif.StrTable
