import Verif.Json.Props

/-!
# JSON into typed objects (`/repo/include/bss-util/JSON.h`, `Serializer.h`)

`ParseJSON<T>` and `WriteJSON<T>` for the types built from `bool`, integers, characters, strings, vectors, fixed arrays, tuples and structures that list their members with `EvaluateType`.
An object in memory is a value of `T` that carries its type along: the range of an integer, the new element of a vector, the names of the members. The trie that finds a member by name
(`Serializer.h:272`) is replaced by the search through the list of names (the trie is the subject of other claims). An extraction `s >> x` that fails leaves a stream that delivers nothing
more; the model lets the rest of such a stream be empty. A negative number for an unsigned integer, floating point members, maps and variants are not modelled.
-/

namespace Verif.JsonTyped

open Verif.Json

/-- An object of the program. -/
inductive T where
  /-- `bool` -/
  | bool (b : Bool)
  /-- an integer type of at least 16 bits with the values from `lo` to `hi`, and the value -/
  | int (lo hi i : Int)
  /-- `char`, `int8_t` and `uint8_t`: an integer type that streams read and write as a character -/
  | chr (c : Char)
  /-- `std::string` and `Str` -/
  | str (s : List Char)
  /-- `std::vector` and `DynArray`: the value `E()` of the element type and the elements -/
  | vec (d : T) (l : List T)
  /-- `E[I]`, `std::array` and `std::tuple` -/
  | fix (l : List T)
  /-- a structure with its named members -/
  | obj (l : List (List Char × T))

/-! ## Parsing -/

/-- `s >> x` for an integer: blank space, sign, digits. The rest is empty after a failure (no digits, or out of range); at the end of the stream `x` keeps its value. -/
def scanInt (lo hi x : Int) (s : List Char) : Int × List Char :=
  let a := splitSign (s.dropWhile isSpace)
  let ds := a.2.takeWhile isDigit
  let v : Int := if a.1 then -(decNum 0 ds : Int) else decNum 0 ds
  if s.dropWhile isSpace = [] then (x, [])
  else if ds = [] then (0, [])
  else if v < lo then (lo, [])
  else if hi < v then (hi, [])
  else (v, a.2.dropWhile isDigit)

/-- The comparison with the word, `JSON.h:60-69`. -/
def boolWord : List Char → List Char → Bool × List Char
  | [], s => (true, s)
  | _ :: _, [] => (true, [])
  | v :: vs, c :: s => if isStop c then (true, c :: s) else if c = v then boolWord vs s else (false, s)

/-- `ParseBool`, `JSON.h:46-70`. -/
def parseBool : List Char → Bool × List Char
  | [] => (true, [])
  | c :: s =>
    if isDigit c then
      let a := scanInt 0 (2 ^ 64 - 1) 0 (c :: s)
      (a.1 != 0, a.2)
    else boolWord "true".toList (c :: s)

/-- `while(s.get() != '"'); s.get();`, `JSON.h:337-338`: the rest of a string, its quote, and one character more. -/
def eatQuoted (s : List Char) : List Char := (s.dropWhile (· != '"')).drop 2

/-- `ParseNumber` of an integer, `JSON.h:327-342`. -/
def parseInt (lo hi i : Int) : List Char → Int × List Char
  | [] => (i, [])
  | c :: s =>
    if isStop c then (i, c :: s)
    else if c = '"' then
      let a := scanInt lo hi i s
      (a.1, eatQuoted a.2)
    else scanInt lo hi i (c :: s)

/-- `s >> x` for a character. -/
def scanChar (x : Char) (s : List Char) : Char × List Char :=
  match s.dropWhile isSpace with
  | [] => (x, [])
  | c :: r => (c, r)

/-- `ParseNumber` of a character, `JSON.h:327-342`. -/
def parseChar (x : Char) : List Char → Char × List Char
  | [] => (x, [])
  | c :: s =>
    if isStop c then (x, c :: s)
    else if c = '"' then
      let a := scanChar x s
      (a.1, eatQuoted a.2)
    else scanChar x (c :: s)

/-- The member that `FindParse` chooses, `Serializer.h:328-359`. -/
def lookup (k : List Char) : List (List Char × T) → Option T
  | [] => none
  | (j, a) :: l => if j = k then some a else lookup k l

/-- The structure with the member replaced. -/
def replace (k : List Char) (b : T) : List (List Char × T) → List (List Char × T)
  | [] => []
  | (j, a) :: l => if j = k then (j, b) :: l else (j, a) :: replace k b l

mutual
/-- `Action::Parse`, `Serializer.h:73-88`, `:131`, `:138`, `:155-158`, `:178-181`, with `ParseArray` (`JSON.h:303-312`) and `ParseJSONObject` (`:170-176`): the object after parsing and the rest
of the stream. -/
def parseT : Nat → T → List Char → Option (T × List Char)
  | 0, _, _ => none
  | _ + 1, .bool _, s => let a := parseBool s; some (.bool a.1, a.2)
  | _ + 1, .int lo hi i, s => let a := parseInt lo hi i s; some (.int lo hi a.1, a.2)
  | _ + 1, .chr c, s => let a := parseChar c s; some (.chr a.1, a.2)
  | _ + 1, .str _, s => let a := parseStr s; some (.str a.1, a.2)
  | n + 1, .vec d l, s =>
    match eatWs s with
    | [] => some (.vec d l, [])
    | c :: s => if c ≠ '[' then some (.vec d l, s) else (vecL n d l (eatWs s)).map fun r => (.vec d r.1, r.2)
  | n + 1, .fix l, s =>
    match eatWs s with
    | [] => some (.fix l, [])
    | c :: s => if c ≠ '[' then some (.fix l, s) else (fixL n l (eatWs s)).map fun r => (.fix r.1, r.2)
  | n + 1, .obj l, s =>
    match eatWs s with
    | [] => some (.obj l, [])
    | c :: s => if c ≠ '{' then some (.obj l, s) else (objL n l (eatWs s)).map fun r => (.obj r.1, r.2)

/-- The loop of `ParseArray`, `JSON.h:314-325`, with the function `Add` of `std::vector` (`Serializer.h:145-149`) or `DynArray` (`DynArray.h:145-149`). -/
def vecL : Nat → T → List T → List Char → Option (List T × List Char)
  | 0, _, _, _ => none
  | _ + 1, _, l, [] => some (l, [])
  | n + 1, d, l, c :: s =>
    if c = ']' then some (l, s)
    else
      match parseT n d (c :: s) with
      | none => none
      | some (v, s) => vecL n d (l ++ [v]) (eatWs (eatComma (s.dropWhile fun c => c != ',' && c != ']')))

/-- The loop of `ParseArray` with `FixedAdd` (`Serializer.h:362`) or the function `Add` of a tuple (`:168-176`), for the elements that are left; without any left nothing is parsed. -/
def fixL : Nat → List T → List Char → Option (List T × List Char)
  | 0, _, _ => none
  | _ + 1, l, [] => some (l, [])
  | n + 1, [], c :: s =>
    if c = ']' then some ([], s)
    else fixL n [] (eatWs (eatComma ((c :: s).dropWhile fun c => c != ',' && c != ']')))
  | n + 1, a :: l, c :: s =>
    if c = ']' then some (a :: l, s)
    else
      match parseT n a (c :: s) with
      | none => none
      | some (v, s) => (fixL n l (eatWs (eatComma (s.dropWhile fun c => c != ',' && c != ']')))).map fun r => (v :: r.1, r.2)

/-- The loop of `ParseJSONObject`, `JSON.h:177-203`, with `FindParse` (`Serializer.h:284`, `:328-359`). -/
def objL : Nat → List (List Char × T) → List Char → Option (List (List Char × T) × List Char)
  | 0, _, _ => none
  | _ + 1, l, [] => some (l, [])
  | n + 1, l, c :: s =>
    if c = '}' then some (l, s)
    else if c ≠ '"' ∨ s = [] then objL n l s
    else
      let k := readStr s
      match eatWs (k.2.drop 1) with
      | [] => objL n l []
      | c :: s =>
        if c ≠ ':' then objL n l s
        else
          match lookup (cstr k.1) l with
          | none => objL n l (eatWs (eatComma ((eatWs s).dropWhile fun c => c != ',' && c != '}')))
          | some a =>
            match parseT n a (eatWs s) with
            | none => none
            | some (v, s) => objL n (replace (cstr k.1) v l) (eatWs (eatComma (s.dropWhile fun c => c != ',' && c != '}')))
end

/-- `ParseJSON`, `JSON.h:211-214`: the object after parsing. -/
def parseJ (a : T) (s : List Char) : Option T := (parseT (2 * s.length + 1) a s).map (·.1)

/-! ## Writing -/

mutual
/-- `Action::Serialize`, `Serializer.h:89-104`, `:132`, `:139`, `:159-162`, `:182-185`, with `SerializeBool` (`JSON.h:33-38`), `SerializeNumber` (`:460-466`), `WriteJSONBase<std::string>`
(`:378-402`), `SerializeArray` (`:430-445`), `SerializeTuple` (`:446-458`) and `WriteJSONObject` (`:344-372`). -/
def writeT (level : Nat) (flag : Bool) (id : Option (List Char)) : T → List Char
  | .bool b => writeComma flag ++ writeId level id ++ (if b then "true".toList else "false".toList)
  | .int _ _ i => writeComma flag ++ writeId level id ++ decimal i
  | .chr c => writeComma flag ++ writeId level id ++ [c]
  | .str s => writeComma flag ++ writeId level id ++ '"' :: (escape s ++ ['"'])
  | .vec _ l => writeComma flag ++ writeId level id ++ '[' :: (writeTL (deeper level) false l ++ [']'])
  | .fix l => writeComma flag ++ writeId level id ++ '[' :: (writeTL (deeper level) false l ++ [']'])
  | .obj l => writeComma flag ++ (if id.isNone then line level else writeId level id) ++ '{' :: (writeTO (deeper level) false l ++ (line level ++ ['}']))

/-- The loops over the elements, `JSON.h:441-442`, `:455`. -/
def writeTL (level : Nat) (flag : Bool) : List T → List Char
  | [] => []
  | v :: l => writeT level flag none v ++ writeTL level true l

/-- The members in the order of the list, `Serializer.h:274-275`. -/
def writeTO (level : Nat) (flag : Bool) : List (List Char × T) → List Char
  | [] => []
  | (k, v) :: l => writeT level flag (some k) v ++ writeTO level true l
end

/-- `WriteJSON`, `JSON.h:407-408`. -/
def writeJ (pretty : Nat) (v : T) : List Char := writeT pretty false none v

end Verif.JsonTyped
