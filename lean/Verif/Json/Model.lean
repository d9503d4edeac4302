/-!
# Model of the JSON engine (`/repo/include/bss-util/JSON.h`, `JSONValue` only)

A byte is a `Char` (below 256), a stream the list of the bytes left to read. `peek()` returns -1 at the end and only there; every loop of the parser tests for -1, so the state flags
of the stream (`!!s`) never decide anything and are left out. `isspace` is that of the "C" locale. Doubles are an arbitrary type `D` with the text that `ostream << double` writes
(`showD`) and with `strtod`. The parser is given fuel; `none` means that the fuel ran out (`C88_terminates` shows that twice the length of the text is enough).
-/

namespace Verif.Json

/-- `JSONValue`, `JSON.h:146-166`; `null` is the tag -1. -/
inductive Value (D : Type) where
  | null
  | str (s : List Char)
  | dbl (d : D)
  | int (i : Int)
  | bool (b : Bool)
  | arr (l : List (Value D))
  | obj (l : List (List Char × Value D))

variable {D : Type}

/-! ## Library functions -/

/-- `isspace`. -/
def isSpace (c : Char) : Bool := c == ' ' || c == '\t' || c == '\n' || c == '\x0b' || c == '\x0c' || c == '\r'

/-- The low byte of an `int`. -/
def byte (n : Nat) : Char := Char.ofNat (n % 256)

/-- The C string in a buffer. -/
def cstr (s : List Char) : List Char := s.takeWhile (· != '\x00')

/-- The value of a hexadecimal digit. -/
def hexVal (c : Char) : Option Nat :=
  if '0' ≤ c ∧ c ≤ '9' then some (c.toNat - 48)
  else if 'a' ≤ c ∧ c ≤ 'f' then some (c.toNat - 87)
  else if 'A' ≤ c ∧ c ≤ 'F' then some (c.toNat - 55)
  else none

def hexNum : Nat → List Char → Nat
  | acc, [] => acc
  | acc, c :: s => match hexVal c with
    | some d => hexNum (16 * acc + d) s
    | none => acc

/-- An optional sign: whether it is a minus, and the rest. -/
def splitSign : List Char → Bool × List Char
  | [] => (false, [])
  | c :: r => if c = '-' then (true, r) else if c = '+' then (false, r) else (false, c :: r)

/-- An optional prefix `0x` before a digit. -/
def dropHexPrefix : List Char → List Char
  | a :: x :: c :: r => if a = '0' ∧ (x = 'x' ∨ x = 'X') ∧ (hexVal c).isSome = true then c :: r else a :: x :: c :: r
  | s => s

/-- `(int)strtoul(buf, 0, 16)` for a buffer of four characters: space, sign, prefix, digits. -/
def strtoul16 (s : List Char) : Int :=
  let a := splitSign (s.dropWhile isSpace)
  let v := hexNum 0 (dropHexPrefix a.2)
  if a.1 then -(v : Int) else v

def isDigit (c : Char) : Bool := decide ('0' ≤ c) && decide (c ≤ '9')

def decNum : Nat → List Char → Nat
  | acc, [] => acc
  | acc, c :: s => if isDigit c then decNum (10 * acc + (c.toNat - 48)) s else acc

/-- `strtoll(buf, 0, 10)`: space, sign, digits; out of range values are clamped. -/
def strtoll (s : List Char) : Int :=
  let a := splitSign (s.dropWhile isSpace)
  let v := decNum 0 a.2
  max (-2 ^ 63) (min (if a.1 then -(v : Int) else v) (2 ^ 63 - 1))

/-- `STRICMP(a, b) == 0`, ASCII letters. -/
def stricmpEq (a b : List Char) : Bool := a.map Char.toLower == b.map Char.toLower

/-- The digits of a number. -/
def digits (n : Nat) : List Char := if n < 10 then [Char.ofNat (48 + n)] else digits (n / 10) ++ [Char.ofNat (48 + n % 10)]

/-- `ostream << int64_t`. -/
def decimal (i : Int) : List Char := if i < 0 then '-' :: digits i.natAbs else digits i.natAbs

/-- `OutputUnicode`, `bss_util.h:329-336`: the bytes appended. -/
def outputUnicode (c : Int) : List Char :=
  if c < 0x80 then [byte (c % 256).toNat]
  else
    let n := c.toNat
    if n < 0x800 then [byte (0xC0 ||| n >>> 6), byte (0x80 ||| (n &&& 0x3F))]
    else if n < 0x10000 then [byte (0xE0 ||| n >>> 12), byte (0x80 ||| (n &&& 0x0FC0) >>> 6), byte (0x80 ||| (n &&& 0x3F))]
    else if n < 0x10FFFF then
      [byte (0xF0 ||| n >>> 18), byte (0x80 ||| (n &&& 0x03F000) >>> 12), byte (0x80 ||| (n &&& 0x0FC0) >>> 6), byte (0x80 ||| (n &&& 0x3F))]
    else []

/-! ## Parsing -/

/-- `ParseJSONEatWhitespace`, `JSON.h:74`. -/
def eatWs (s : List Char) : List Char := s.dropWhile isSpace

/-- `src.get()` as a `char`: the end of the stream is -1, the byte 255. -/
def getc : List Char → Char
  | [] => '\xff'
  | c :: _ => c

/-- `ParseJSONEatCharacter`, `:75-102`: the text appended and the rest of the stream. -/
def eatChar (s : List Char) : List Char × List Char :=
  let c := getc s
  let s := s.drop 1
  if c ≠ '\\' then ([c], s)
  else
    match s with
    | [] => ([], [])
    | e :: s =>
      if e = '"' then (['"'], s)
      else if e = '\\' then (['\\'], s)
      else if e = '/' then (['/'], s)
      else if e = 'b' then (['\x08'], s)
      else if e = 'f' then (['\x0c'], s)
      else if e = 'n' then (['\n'], s)
      else if e = 'r' then (['\r'], s)
      else if e = 't' then (['\t'], s)
      else if e = 'u' then
        (outputUnicode (strtoul16 [getc s, getc (s.drop 1), getc (s.drop 2), getc (s.drop 3)]), s.drop 4)
      else ([], s)

theorem eatChar_length (c : Char) (s : List Char) : (eatChar (c :: s)).2.length ≤ s.length := by
  rw [eatChar]
  simp only [List.drop_one, List.tail_cons]
  split
  · exact Nat.le_refl _
  · split
    · exact Nat.le_refl _
    · repeat' split
      all_goals simp only [List.length_cons, List.length_drop]; omega

/-- The loops `while(!!s && s.peek() != '"' && s.peek() != -1) ParseJSONEatCharacter(...)`, `:183-184`, `:233-234`. -/
def readStr : List Char → List Char × List Char
  | [] => ([], [])
  | c :: s =>
    if c = '"' then ([], c :: s)
    else
      let a := eatChar (c :: s)
      let b := readStr a.2
      (a.1 ++ b.1, b.2)
termination_by s => s.length
decreasing_by
  have := eatChar_length c s
  simp only [List.length_cons]
  omega

/-- The characters at which an unquoted value ends. -/
def isStop (c : Char) : Bool := c == ',' || c == '}' || c == ']'

/-- `ParseJSONBase<std::string>`, `:217-237`. -/
def parseStr : List Char → List Char × List Char
  | [] => (['\xff'], [])
  | c :: s =>
    if isStop c then ([], c :: s)
    else if c ≠ '"' then (c :: s.takeWhile (!isStop ·), s.dropWhile (!isStop ·))
    else
      let a := readStr s
      (a.1, a.2.drop 1)

/-- The cases of the switch, `:259-271`. -/
def numStart (c : Char) : Bool := isDigit c || c == '.' || c == '-' || c == '+'

/-- `if(s.peek() == ',') s.get();` -/
def eatComma : List Char → List Char
  | [] => []
  | c :: s => if c = ',' then s else c :: s

/-- The number, `:273-280`. -/
def number (strtod : List Char → D) (buf : List Char) : Value D :=
  if '.' ∈ cstr buf then .dbl (strtod (cstr buf)) else .int (strtoll (cstr buf))

/-- The words, `:285-290`. -/
def word (buf : List Char) : Value D :=
  if stricmpEq (cstr buf) "true".toList then .bool true
  else if stricmpEq (cstr buf) "false".toList then .bool false
  else if stricmpEq (cstr buf) "null".toList then .null
  else .str buf

mutual
/-- `ParseJSONBase<JSONValue>` on a new value, `:242-295`. -/
def parse (strtod : List Char → D) : Nat → List Char → Option (Value D × List Char)
  | 0, _ => none
  | n + 1, s =>
    match eatWs s with
    | [] => let a := parseStr []; some (word a.1, a.2)
    | c :: s =>
      if c = '{' then (fields strtod n (eatWs s)).map fun r => (.obj r.1, r.2)
      else if c = '[' then (elems strtod n (eatWs s)).map fun r => (.arr r.1, r.2)
      else
        let a := parseStr (c :: s)
        if c = '"' then some (.str a.1, a.2)
        else if numStart c then some (number strtod a.1, a.2)
        else some (word a.1, a.2)

/-- The loop of `ParseArray`, `:311-325`. -/
def elems (strtod : List Char → D) : Nat → List Char → Option (List (Value D) × List Char)
  | 0, _ => none
  | _ + 1, [] => some ([], [])
  | n + 1, c :: s =>
    if c = ']' then some ([], s)
    else
      match parse strtod n (c :: s) with
      | none => none
      | some (v, s) =>
        match elems strtod n (eatWs (eatComma (s.dropWhile fun c => c != ',' && c != ']'))) with
        | none => none
        | some (l, s) => some (v :: l, s)

/-- The loop of `ParseJSONObject`, `:177-203`. -/
def fields (strtod : List Char → D) : Nat → List Char → Option (List (List Char × Value D) × List Char)
  | 0, _ => none
  | _ + 1, [] => some ([], [])
  | n + 1, c :: s =>
    if c = '}' then some ([], s)
    else if c ≠ '"' ∨ s = [] then fields strtod n s
    else
      let k := readStr s
      match eatWs (k.2.drop 1) with
      | [] => fields strtod n []
      | c :: s =>
        if c ≠ ':' then fields strtod n s
        else
          match parse strtod n (eatWs s) with
          | none => none
          | some (v, s) =>
            match fields strtod n (eatWs (eatComma (s.dropWhile fun c => c != ',' && c != '}'))) with
            | none => none
            | some (l, s) => some ((cstr k.1, v) :: l, s)
end

/-- `ParseJSON` of a `JSONValue`, `:212-214`. -/
def parseJSON (strtod : List Char → D) (s : List Char) : Option (Value D × List Char) := parse strtod (2 * s.length + 1) s

/-! ## Writing -/

/-- `WriteJSONTabs`, `:108-113`; the level is at least 1. -/
def tabs (level : Nat) : List Char := List.replicate (level - 1) '\t'

/-- A line break and the indentation, if the output is pretty (`level > 0`). -/
def line (level : Nat) : List Char := if level > 0 then '\n' :: tabs level else []

/-- `WriteJSONId`, `:115-127`. -/
def writeId (level : Nat) : Option (List Char) → List Char
  | none => []
  | some id => line level ++ '"' :: (cstr id ++ ['"', ':', ' '])

/-- `WriteJSONComma`, `:129-134`: the flag tells that something has been written before. -/
def writeComma (flag : Bool) : List Char := if flag then [','] else []

/-- `WriteJSONPretty`, `:136`. -/
def deeper (level : Nat) : Nat := if level > 0 then level + 1 else 0

/-- The loop of `WriteJSONBase<std::string>`, `:385-399`. -/
def escape : List Char → List Char
  | [] => []
  | c :: s =>
    (if c = '"' then ['\\', '"']
    else if c = '\\' then ['\\', '\\']
    else if c = '/' then ['\\', '/']
    else if c = '\x08' then ['\\', 'b']
    else if c = '\x0c' then ['\\', 'f']
    else if c = '\n' then ['\\', 'n']
    else if c = '\r' then ['\\', 'r']
    else if c = '\t' then ['\\', 't']
    else [c]) ++ escape s

/-- Whether anything is written, and thus the flag set. -/
def Value.written : Value D → Bool
  | .null => false
  | _ => true

mutual
/-- `WriteJSONBase<JSONValue>`, `:414-429`, with `WriteJSONBase<std::string>` `:379-402`, `SerializeNumber` `:461-466`, `SerializeBool` `:33-38`, `SerializeArray` `:431-445` and
`WriteJSONObject` `:345-374`. -/
def write (showD : D → List Char) (level : Nat) (flag : Bool) (id : Option (List Char)) : Value D → List Char
  | .null => []
  | .str s => writeComma flag ++ writeId level id ++ '"' :: (escape s ++ ['"'])
  | .dbl d => writeComma flag ++ writeId level id ++ showD d
  | .int i => writeComma flag ++ writeId level id ++ decimal i
  | .bool b => writeComma flag ++ writeId level id ++ (if b then "true".toList else "false".toList)
  | .arr l => writeComma flag ++ writeId level id ++ '[' :: (writeL showD (deeper level) false l ++ [']'])
  | .obj l => writeComma flag ++ (if id.isNone then line level else writeId level id) ++ '{' :: (writeO showD (deeper level) false l ++ (line level ++ ['}']))

/-- The loop of `SerializeArray`, `:440-442`. -/
def writeL (showD : D → List Char) (level : Nat) (flag : Bool) : List (Value D) → List Char
  | [] => []
  | v :: l => write showD level flag none v ++ writeL showD level (flag || v.written) l

/-- The loop of `EvaluateKeyValue`, `Serializer.h:293-297`. -/
def writeO (showD : D → List Char) (level : Nat) (flag : Bool) : List (List Char × Value D) → List Char
  | [] => []
  | (k, v) :: l => write showD level flag (some k) v ++ writeO showD level (flag || v.written) l
end

/-- `WriteJSON`, `:408`. -/
def writeJSON (showD : D → List Char) (pretty : Nat) (v : Value D) : List Char := write showD pretty false none v

end Verif.Json
