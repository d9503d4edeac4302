import Verif.Ini.Props
import Verif.IniDoc.Spec

/-!
# Model of the INI reader (`/repo/bss-util/INIParser.c:26-178`)

Characters are integers: `char` is signed. A NUL-terminated buffer is its characters before the NUL. Reading an uninitialized buffer or writing outside an allocation is
the outcome `none`. The file holds no NUL (a NUL would cut off its line) and is read without translation of line ends, as on POSIX systems.
-/

namespace Verif.IniDoc

open Verif.Ini (Key)
open Verif.IniDoc.Spec (Ev)

/-- `MAXLINELENGTH - 1`, `INIparse.h:15`. -/
def maxLine : Nat := 1023

/-- The characters `fgets` reads with room for `n`: up to and including a line end. -/
def takeLine : Nat → List Int → List Int
  | 0, _ => []
  | _ + 1, [] => []
  | n + 1, c :: l => if c = 10 then [10] else c :: takeLine n l

/-- A string on the heap: its characters and the size of its allocation. -/
structure Buf where
  str : List Int
  cap : Nat
  deriving DecidableEq

/-- `INIParser`, `INIparse.h:17-28`: the file (what is left of it, and the end-of-file indicator), the line buffer (`none` before anything was read), and the last key, value and
section. -/
structure St where
  rest : List Int
  eof : Bool
  buf : Option (List Int)
  curkey : Buf
  curvalue : Buf
  cursection : Buf

/-- `bssInitINI`, `INIParser.c:26-40`. -/
def initINI (file : List Int) : St := ⟨file, false, none, ⟨[], 1⟩, ⟨[], 1⟩, ⟨[], 1⟩⟩

/-- `fgets(parse->buf, MAXLINELENGTH, parse->file)`: at the end of the file the buffer keeps what it held; the indicator is set when the end was met. -/
def fgets (s : St) : St :=
  let l := takeLine maxLine s.rest
  if l = [] then { s with eof := true }
  else { s with rest := s.rest.drop l.length, buf := some l, eof := decide (l.length < maxLine ∧ l.getLast? ≠ some 10) }

/-- `_trimlstr`, `:54-58`. -/
def trimlstr (l : List Int) : List Int := l.dropWhile fun c => decide (0 < c ∧ c < 33)

/-- The scan of `_trimrstr`, `:63`, from the character at `n` down. -/
def scanR (l : List Int) : Nat → Nat
  | 0 => 0
  | n + 1 => if l.getD (n + 1) 0 < 33 then scanR l n else n + 1

/-- `_trimrstr`, `:59-66`, on a string in an allocation of `cap` characters: writes a NUL after the last visible character. -/
def trimrstr (b : Buf) : Option Buf :=
  let i := scanR b.str b.str.length + 1
  if i < b.cap then some ⟨b.str.take i, b.cap⟩ else none

/-- `_savestr`, `:117-135`. -/
def savestr (orig : Buf) (str : List Int) : Option Buf :=
  let s := trimlstr str
  trimrstr ⟨s, if orig.str.length < s.length then s.length + 1 else orig.cap⟩

/-- `_nextkeychar`, `:69-86`. -/
def nextkeychar : List Int → Nat → Key
  | [], _ => .garbage
  | c :: l, p => if c = 59 then .garbage else if c = 61 then .equals p else if c = 91 then .bracket p else nextkeychar l (p + 1)

/-- `_validatesection`, `:88-99`; `none` is the null pointer. -/
def validatesection : List Int → Nat → Bool → Option Nat
  | [], p, valid => if valid = false then none else some p
  | c :: l, p, valid =>
    if c = 59 then none
    else if c = 93 then if valid = false then none else some p
    else validatesection l (p + 1) (valid || decide (c ≥ 33))

/-- `_validatekey`, `:102-107`. -/
def validatekey : List Int → Bool
  | [] => false
  | c :: l => if c ≥ 33 then true else validatekey l

/-- `_validatevalue`, `:110-115`. -/
def validatevalue : List Int → Nat → Nat
  | [], p => p
  | c :: l, p => if c = 59 then p else validatevalue l (p + 1)

/-- The body of the loop of `bssParseLine` after `fgets`, `:159-174`: what is returned for the line in the buffer, if anything (`some none`: the loop goes on). -/
def parseBuf (s : St) : Option (Option Ev × St) :=
  match s.buf with
  | none => none
  | some b =>
    match nextkeychar b 0 with
    | .garbage => some (none, s)
    | .equals tc =>
      if validatekey (b.take tc) = true then
        let sec := validatevalue (b.drop (tc + 1)) (tc + 1)
        match savestr s.curkey (b.take tc), savestr s.curvalue ((b.take sec).drop (tc + 1)) with
        | some k, some v => some (some (.ent k.str v.str), { s with buf := some (b.take tc), curkey := k, curvalue := v })
        | _, _ => none
      else some (none, s)
    | .bracket tc =>
      match validatesection (b.drop tc) tc false with
      | none => some (none, s)
      | some sec =>
        if sec ≠ tc + 1 then
          match savestr s.cursection ((b.take sec).drop (tc + 1)) with
          | some n => some (some (.sec n.str), { s with buf := some (b.take sec), cursection := n })
          | none => none
        else some (none, s)

/-- `bssParseLine`, `:149-178`: `some (none, _)` is the return value 0, an entry is returned as 1 and a section as -1. -/
def parseLine : Nat → St → Option (Option Ev × St)
  | 0, _ => none
  | fuel + 1, s =>
    if s.eof = true then some (none, s)
    else match parseBuf (fgets s) with
      | none => none
      | some (some e, s') => some (some e, s')
      | some (none, s') => parseLine fuel s'

/-- The loop of `INIstorage::_loadINI`, `/repo/bss-util/INIstorage.cpp:310-319`, as the sequence of what the calls of `bssParseLine` return. -/
def parseAll : Nat → St → Option (List Ev)
  | 0, _ => none
  | fuel + 1, s =>
    match parseLine (s.rest.length + 2) s with
    | none => none
    | some (none, _) => some []
    | some (some e, s') => (parseAll fuel s').map (e :: ·)

/-- What is read from a file. The number of steps is sufficient: see the theorems, which give a result. -/
def parse (file : List Int) : Option (List Ev) := parseAll (file.length + 2) (initINI file)

/-- The characters of a string. -/
def chars (s : String) : List Int := s.toList.map fun c => (c.toNat : Int)

end Verif.IniDoc
