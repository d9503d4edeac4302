import Verif.Common.Run

/-!
# Model of the INI look-up (`/repo/bss-util/INIParser.c:54-58`, `:102-107`, `:181-296`)

Characters are integers: `char` is signed. The text `t` holds no NUL and is followed by one. Pointers into the text are positions. A half-open range of the text that a
loop runs over is given as its list of characters together with its position. Instance numbers are natural numbers (`size_t` does not wrap: there are fewer lines).
-/

namespace Verif.Ini

/-- The character at a position; at the end the terminating NUL. No function reads further: each of the loops without an explicit end stops at the NUL. -/
def ch (t : List Int) (i : Nat) : Int := t.getD i 0

/-- `_trimlstr`, `INIParser.c:54-58`, for a pointer at position `p` with the text `l` before it. -/
def trimL : List Int → Nat → Nat
  | [], p => p
  | c :: l, p => if 0 < c ∧ c < 33 then trimL l (p + 1) else p

/-- `_trimrstralt`, `:219-223`, for `end = begin + n`. -/
def trimR (t : List Int) (begin_ : Nat) : Nat → Nat
  | 0 => begin_
  | n + 1 => if ch t (begin_ + (n + 1)) < 33 then trimR t begin_ n else begin_ + (n + 1)

/-- What `_snextkeychar` finds. -/
inductive Key where
  | garbage
  | equals (pos : Nat)
  | bracket (pos : Nat)
  deriving DecidableEq

/-- `_snextkeychar`, `:181-198`. -/
def snextkeychar : List Int → Nat → Key
  | [], _ => .garbage
  | c :: l, p => if c = 59 then .garbage else if c = 61 then .equals p else if c = 91 then .bracket p else snextkeychar l (p + 1)

/-- `_svalidatesection`, `:200-211`; `none` is the null pointer. -/
def svalidatesection : List Int → Nat → Bool → Option Nat
  | [], p, valid => if valid = false then none else some p
  | c :: l, p, valid =>
    if c = 59 then none
    else if c = 93 then if valid = false then none else some p
    else svalidatesection l (p + 1) (valid || decide (c ≥ 33))

/-- `_svalidatevalue`, `:212-217`. -/
def svalidatevalue : List Int → Nat → Nat
  | [], p => p
  | c :: l, p => if c = 59 then p else svalidatevalue l (p + 1)

/-- `_validatekey`, `:102-107`. -/
def validatekey : List Int → Bool
  | [] => false
  | c :: l => if c ≥ 33 then true else validatekey l

/-- `tolower` in the C locale. -/
def lower (c : Int) : Int := if 65 ≤ c ∧ c ≤ 90 then c + 32 else c

/-- `strncasecmp(a, b, n) == 0` (`STRNICMP`, `defines.h:152`) on strings given with their NUL. -/
def strnicmp : Nat → List Int → List Int → Bool
  | 0, _, _ => true
  | n + 1, a :: l, b :: m => if lower a ≠ lower b then false else if a = 0 then true else strnicmp n l m
  | _ + 1, _, _ => true

/-- `comparevalues(start, end, comp) == 0`, `:225-233`: a negative length becomes a huge `size_t`. -/
def comparevalues (t : List Int) (start stop : Nat) (comp : List Int) : Bool :=
  let s := trimL (t.drop start) start
  let e := stop - 1
  let e := if e > s then trimR t s (e - s) else e
  let a : Int := (e : Int) - s + 1
  let n := min a comp.length
  strnicmp (if n < 0 then (n + 2 ^ 64).toNat else n.toNat) (t.drop s ++ [0]) (comp ++ [0])

/-- `strchr(cur, '\n')`, or `end` if there is none, `:247-248`, `:281-282`. -/
def lineEnd : List Int → Nat → Nat → Nat
  | [], _, stop => stop
  | c :: l, p, stop => if c = 10 then p else lineEnd l (p + 1) stop

/-- The characters in `[a, b)`. -/
def range (t : List Int) (a b : Nat) : List Int := (t.drop a).take (b - a)

/-- The loop of `bssFindINISection`, `:245-265`; `cnt` is `curinstance + 1`, `found` is `retval.start`. -/
def findSectionLoop (t name : List Int) (instance_ : Nat) : Nat → Nat → Nat → Option Nat → Option (Nat × Nat)
  | 0, _, _, _ => none
  | fuel + 1, cur, cnt, found =>
    if cur < t.length then
      let line := lineEnd (t.drop cur) cur t.length
      match snextkeychar (range t cur line) cur with
      | .bracket tc =>
        match found with
        | some s => some (s, cur - 1)
        | none =>
          match svalidatesection (range t tc line) tc false with
          | none => findSectionLoop t name instance_ fuel (line + 1) cnt none
          | some sec =>
            if sec ≠ tc + 1 ∧ comparevalues t (tc + 1) sec name = true then
              if cnt = instance_ then findSectionLoop t name instance_ fuel (line + 1) (cnt + 1) (some tc)
              else findSectionLoop t name instance_ fuel (line + 1) (cnt + 1) none
            else findSectionLoop t name instance_ fuel (line + 1) cnt none
      | _ => findSectionLoop t name instance_ fuel (line + 1) cnt found
    else found.map fun s => (s, t.length)

/-- `bssFindINISection`, `:234-266`: the positions `start` and `end` of the chunk, `none` for null pointers. -/
def findSection (t name : List Int) (instance_ : Nat) : Option (Nat × Nat) := findSectionLoop t name instance_ (t.length + 1) 0 0 none

/-- The loop of `bssFindINIEntry`, `:279-295`. -/
def findEntryLoop (t : List Int) (stop : Nat) (key : List Int) (instance_ : Nat) : Nat → Nat → Nat → Option (Nat × Nat)
  | 0, _, _ => none
  | fuel + 1, cur, cnt =>
    if cur < stop then
      let line := lineEnd (t.drop cur) cur stop
      match snextkeychar (range t cur line) cur with
      | .equals tc =>
        if validatekey (range t cur tc) = true ∧ comparevalues t cur tc key = true then
          if cnt = instance_ then some (trimL (t.drop cur) cur, svalidatevalue (range t (tc + 1) line) (tc + 1))
          else findEntryLoop t stop key instance_ fuel (line + 1) (cnt + 1)
        else findEntryLoop t stop key instance_ fuel (line + 1) cnt
      | _ => findEntryLoop t stop key instance_ fuel (line + 1) cnt
    else none

/-- `bssFindINIEntry`, `:268-296`. -/
def findEntry (t : List Int) (section_ : Nat × Nat) (key : List Int) (instance_ : Nat) : Option (Nat × Nat) :=
  findEntryLoop t section_.2 key instance_ (section_.2 + 1) section_.1 0

end Verif.Ini
