import Verif.Json.Model
/-!
# Model of the TOML engine (`/repo/include/bss-util/TOML.h`) for typed objects

A byte is a `Char` below 256, `char` is signed as on x86, a stream is the list of the bytes left to read. A stream whose `failbit` is set answers -1 to every `peek()` and `get()`,
as a stream at its end does; it is modelled by the empty list. Two consequences of that are simplifications: when the text ends inside a string of three quotes, the model appends the
byte 255 in all cases, where the code appends it in all but a few (the text ends right after the opening quotes or after an escaped line break); and `assert(false)` does nothing.

The types that can be serialized are described by `Ty`: strings, `int64_t`, `double` (an arbitrary type `D` with its own reading and writing), `bool`, `std::vector` or `DynArray`, and
objects that list their fields with `EvaluateType` (`Serializer.h:269-287`). Dates (see `Date.lean`), tuples, arrays of fixed length, `Hash` and `TOMLValue` are not part of this model.

A loop is given as fuel one more than the number of bytes left when it starts. Every iteration that can lead to another one and does not consume a byte leaves all that the loop reads
unchanged, so that `Err.hang` stands for a loop that never ends. `Err.ub` is undefined behaviour.
-/

namespace Verif.Toml
open Verif.Json (isSpace isDigit decNum splitSign strtoul16 outputUnicode cstr getc decimal)

inductive Err where
  | hang
  | ub
  deriving DecidableEq, Repr

abbrev R := Except Err

abbrev Key := List Char

mutual
/-- The types with an `Action`, `Serializer.h:70-163`. -/
inductive Ty where
  | str
  | int
  | dbl
  | bool
  | arr (t : Ty)
  | obj (fs : Fields)

/-- The arguments of `EvaluateType`, `Serializer.h:269-270`. -/
inductive Fields where
  | nil
  | cons (k : Key) (t : Ty) (fs : Fields)
end

mutual
/-- The values of a type. -/
def Ty.Val (D : Type) : Ty → Type
  | .str => List Char
  | .int => Int
  | .dbl => D
  | .bool => Bool
  | .arr t => List (Ty.Val D t)
  | .obj fs => Fields.Val D fs

def Fields.Val (D : Type) : Fields → Type
  | .nil => Unit
  | .cons _ t fs => Ty.Val D t × Fields.Val D fs
end

/-- Reading and writing of a `double`: `get` is given a stream that is neither empty nor starts with a space, and returns an empty stream if it fails; `zero` is the value of `T()`. -/
structure FP (D : Type) where
  show' : D → List Char
  get : List Char → D × List Char
  zero : D

variable {D : Type}

mutual
/-- `T()`, `Serializer.h:147`, `DynArray.h:147`. A `DynArray` leaves numbers uninitialised where this model has 0. -/
def dflt (fp : FP D) : (t : Ty) → t.Val D
  | .str => ([] : List Char)
  | .int => (0 : Int)
  | .dbl => fp.zero
  | .bool => false
  | .arr _ => []
  | .obj fs => dfltF fp fs

def dfltF (fp : FP D) : (fs : Fields) → fs.Val D
  | .nil => ()
  | .cons _ t fs => (dflt fp t, dfltF fp fs)
end

/-! ## Reading characters and strings -/

def isNl (c : Char) : Bool := c == '\n' || c == '\r'

def isBlank (c : Char) : Bool := c == ' ' || c == '\t'

/-- `ParseTOMLEatWhitespace`, `TOML.h:76`. -/
def eatWs (s : List Char) : List Char := s.dropWhile isBlank

/-- The rest of a line. -/
def toNl (s : List Char) : List Char := s.dropWhile (!isNl ·)

theorem toNl_le (s : List Char) : (toNl s).length ≤ s.length := (List.dropWhile_sublist _).length_le

/-- `ParseTOMLEatAllspace`, `:77-85`. -/
def eatAll : List Char → List Char
  | [] => []
  | c :: s =>
    if c = '#' then eatAll (toNl s)
    else if isSpace c then eatAll s
    else c :: s
termination_by s => s.length
decreasing_by
  · have := toNl_le s
    simp only [List.length_cons]; omega
  · simp

/-- `if(s.peek() == c) s.get();` -/
def eat1 (c : Char) : List Char → List Char
  | [] => []
  | d :: s => if d = c then s else d :: s

/-- `ParseTOMLEatNewline`, `:86-96`. -/
def eatNewline (s : List Char) : List Char :=
  match eat1 '\n' s with
  | [] => []
  | c :: s => if c = '\r' then eat1 '\n' s else c :: s

/-- The bytes of `\u`, `:171-175`. -/
def uni4 (s : List Char) : List Char := outputUnicode (strtoul16 [getc s, getc (s.drop 1), getc (s.drop 2), getc (s.drop 3)])

/-- The bytes of `\U`, `:176-180`; the `unsigned long` becomes an `int`. -/
def uni8 (s : List Char) : List Char :=
  outputUnicode (Int.bmod (strtoul16 [getc s, getc (s.drop 1), getc (s.drop 2), getc (s.drop 3),
    getc (s.drop 4), getc (s.drop 5), getc (s.drop 6), getc (s.drop 7)]) (2 ^ 32))

/-- What follows a backslash, `:152-184`. -/
def eatEsc (ml : Bool) (e : Char) (s : List Char) : List Char × List Char :=
  if ml && isNl e then ([], eatWs (eatNewline (e :: s)))
  else if e = 'b' then (['\x08'], s)
  else if e = 't' then (['\t'], s)
  else if e = 'n' then (['\n'], s)
  else if e = 'f' then (['\x0c'], s)
  else if e = 'r' then (['\r'], s)
  else if e = '"' then (['"'], s)
  else if e = '\\' then (['\\'], s)
  else if e = 'u' then (uni4 s, s.drop 4)
  else if e = 'U' then (uni8 s, s.drop 8)
  else ([], s)

/-- `ParseTOMLCharacter`, `:144-188`: the text appended and the rest of the stream. -/
def eatChar (ml : Bool) : List Char → List Char × List Char
  | [] => (['\xff'], [])
  | [c] => if c = '\\' then ([], []) else ([c], [])
  | c :: e :: s => if c = '\\' then eatEsc ml e s else ([c], e :: s)

theorem dropWhile_suffix {α} (p : α → Bool) (s : List α) : s.dropWhile p <:+ s := List.dropWhile_suffix p

theorem eat1_suffix (c : Char) (s : List Char) : eat1 c s <:+ s := by
  cases s with
  | nil => exact List.suffix_refl _
  | cons d s =>
    rw [eat1]
    split
    · exact List.suffix_cons _ _
    · exact List.suffix_refl _

theorem eatNewline_suffix (s : List Char) : eatNewline s <:+ s := by
  rw [eatNewline]
  have h := eat1_suffix '\n' s
  split
  · exact List.nil_suffix
  next c r hr =>
    rw [hr] at h
    split
    · exact ((eat1_suffix _ _).trans (List.suffix_cons _ _)).trans h
    · exact h

theorem eatEsc_suffix (ml : Bool) (e : Char) (r : List Char) : (eatEsc ml e r).2 <:+ r := by
  rw [eatEsc]
  by_cases h : (ml && isNl e) = true
  · rw [if_pos h]
    have hn : eatNewline (e :: r) <:+ r := by
      rw [eatNewline, eat1]
      by_cases h1 : e = '\n'
      · rw [if_pos h1]
        split
        · exact List.nil_suffix
        · split
          · exact (eat1_suffix _ _).trans (List.suffix_cons _ _)
          · exact List.suffix_refl _
      · have h2 : e = '\r' := by
          simp only [isNl, Bool.and_eq_true, Bool.or_eq_true, beq_iff_eq] at h
          exact h.2.resolve_left h1
        rw [if_neg h1]
        simp only [h2, if_true]
        exact eat1_suffix _ _
    exact (dropWhile_suffix _ _).trans hn
  · rw [if_neg h]
    repeat' split
    all_goals first
      | exact List.suffix_refl _
      | exact List.drop_suffix _ _

theorem eatChar_suffix (ml : Bool) (c : Char) (s : List Char) : (eatChar ml (c :: s)).2 <:+ s := by
  cases s with
  | nil =>
    rw [eatChar]
    split <;> exact List.suffix_refl _
  | cons e r =>
    rw [eatChar]
    split
    · exact (eatEsc_suffix ml e r).trans (List.suffix_cons _ _)
    · exact List.suffix_refl _

theorem eatChar_length (ml : Bool) (c : Char) (s : List Char) : (eatChar ml (c :: s)).2.length ≤ s.length :=
  (eatChar_suffix ml c s).length_le

/-- The loop for a string in one pair of quotes, `:226-227`. -/
def single (ml : Bool) : List Char → List Char × List Char
  | [] => ([], [])
  | c :: s =>
    if isNl c || c == '"' then ([], c :: s)
    else
      let a := eatChar ml (c :: s)
      let b := single ml a.2
      (a.1 ++ b.1, b.2)
termination_by s => s.length
decreasing_by
  have := eatChar_length ml c s
  simp only [List.length_cons]; omega

/-- The loop for a string in three quotes, `:206-222`. -/
def multi : List Char → List Char × List Char
  | [] => (['\xff'], [])
  | c :: s =>
    if c = '"' then
      match s with
      | [] => let b := multi []; ('"' :: b.1, b.2)
      | d :: s =>
        if d = '"' then
          match s with
          | [] => let b := multi []; ('"' :: '"' :: b.1, b.2)
          | e :: s =>
            if e = '"' then ([], e :: s)
            else let b := multi (e :: s); ('"' :: '"' :: b.1, b.2)
        else let b := multi (d :: s); ('"' :: b.1, b.2)
    else
      let a := eatChar true (c :: s)
      let b := multi a.2
      (a.1 ++ b.1, b.2)
termination_by s => s.length
decreasing_by
  all_goals first
    | (have := eatChar_length true c s; simp only [List.length_cons]; omega)
    | (simp only [List.length_cons, List.length_nil]; omega)

/-- The loop for a literal string in three quotes, `:240-251`. -/
def multiLit : List Char → List Char × List Char
  | [] => (['\xff'], [])
  | c :: s =>
    if c = '\'' then
      match s with
      | [] => let b := multiLit []; (c :: b.1, b.2)
      | d :: s =>
        if d = '\'' then
          match s with
          | [] => let b := multiLit []; ('\'' :: d :: b.1, b.2)
          | e :: s =>
            if e = '\'' then ([], e :: s)
            else let b := multiLit (e :: s); ('\'' :: d :: b.1, b.2)
        else let b := multiLit (d :: s); (c :: b.1, b.2)
    else let b := multiLit s; (c :: b.1, b.2)
termination_by s => s.length
decreasing_by
  all_goals simp only [List.length_cons, List.length_nil]; omega

/-- `*inter < 33` for a signed `char`, `:266`. -/
def low (c : Char) : Bool := decide (c.toNat < 33) || decide (128 ≤ c.toNat)

/-- `:262-268`: the buffer up to its last character that is not low, and its first character in any case. -/
def stripEnd (raw : List Char) : List Char :=
  match (raw.reverse.dropWhile low).reverse with
  | [] => raw.take 1
  | c :: s => c :: s

/-- A bare string, `:259-270`. -/
def bare (e1 e2 : Char) (s : List Char) : List Char × List Char :=
  let p := fun c => !(isNl c || c == e1 || c == e2)
  (stripEnd (s.takeWhile p), s.dropWhile p)

/-- The case `'"'`, `:197-230`, after the first quote. -/
def basic (ml : Bool) (s : List Char) : List Char × List Char :=
  match s with
  | [] => ([], [])
  | c :: r =>
    if c = '"' then
      match r with
      | [] => ([], [])
      | d :: r =>
        if d = '"' ∧ ml = true then
          let b := multi (eatNewline r)
          (b.1, eat1 '"' b.2)
        else ([], eat1 '"' (d :: r))
    else
      let b := single ml (c :: r)
      (b.1, eat1 '"' b.2)

/-- The case `'\''`, `:231-258`, after the first quote. -/
def literal (ml : Bool) (s : List Char) : List Char × List Char :=
  match s with
  | [] => ([], [])
  | c :: r =>
    if c = '\'' then
      match r with
      | [] => ([], [])
      | d :: r =>
        if d = '\'' ∧ ml = true then
          let b := multiLit (eatNewline r)
          (b.1, eat1 '\'' b.2)
        else ([], eat1 '\'' (d :: r))
    else
      let p := fun c => !(isNl c || c == '\'')
      ((c :: r).takeWhile p, eat1 '\'' ((c :: r).dropWhile p))

/-- `ParseTOMLString`, `:190-272`. -/
def parseString (ml : Bool) (e1 e2 : Char) (s : List Char) : List Char × List Char :=
  match eatWs s with
  | [] => ([], [])
  | c :: s =>
    if c = '"' then basic ml s
    else if c = '\'' then literal ml s
    else bare e1 e2 (c :: s)

/-! ## Reading numbers and booleans -/

/-- `s >> o` for an `int64_t`: `none` if the stream ends before any character, which leaves `o` without a value; otherwise a failure gives the value 0 or the bound and a failed
stream. -/
def getInt (s : List Char) : Option (Int × List Char) :=
  match s.dropWhile isSpace with
  | [] => none
  | c :: s =>
    let a := splitSign (c :: s)
    let d := a.2.takeWhile isDigit
    if d = [] then some (0, [])
    else
      let v : Int := if a.1 then -(decNum 0 d : Int) else (decNum 0 d : Int)
      if v < -2 ^ 63 then some (-2 ^ 63, [])
      else if 2 ^ 63 - 1 < v then some (2 ^ 63 - 1, [])
      else some (v, a.2.dropWhile isDigit)

/-- `s >> o` for a `double`. -/
def getDbl (fp : FP D) (s : List Char) : Option (D × List Char) :=
  match s.dropWhile isSpace with
  | [] => none
  | c :: s => some (fp.get (c :: s))

/-- `ParseNumber`, `:371-388`. -/
def parseNumber {α : Type} (get : List Char → Option (α × List Char)) (old : α) (s : List Char) : R (α × List Char) :=
  let plain : R (α × List Char) := match get s with
    | none => .error .ub
    | some r => .ok r
  match s with
  | [] => plain
  | c :: r =>
    if isNl c || c == ',' then .ok (old, c :: r)
    else if c = '"' then
      match get r with
      | none => .error .ub
      | some (o, r) => .ok (o, (r.dropWhile (· != '"')).drop 2)
    else plain

/-- The loop of `ParseBool`, `:45-54`, with what is left of the word. -/
def matchWord : List Char → List Char → Bool × List Char
  | [], s => (true, s)
  | _ :: _, [] => (true, [])
  | w :: ws, c :: s =>
    if c == ',' || c == '}' || c == ']' then (true, c :: s)
    else if c ≠ w then (false, s)
    else matchWord ws s

/-- `ParseBool`, `:32-55`. -/
def parseBool (s : List Char) : Bool × List Char :=
  match eatWs s with
  | [] => (true, [])
  | c :: s =>
    if isDigit c then
      let n := decNum 0 ((c :: s).takeWhile isDigit)
      (decide (n ≠ 0), if n < 2 ^ 64 then (c :: s).dropWhile isDigit else [])
    else matchWord "true".toList (c :: s)

/-! ## Reading arrays, tables and documents -/

/-- `STATE`, `:138`, without `STATE_BEGIN`: that state is left in `parseTOML`. -/
inductive State where
  | normal
  | table
  | inline
  deriving DecidableEq

/-- The loop of `ParseArray`, `:584-590`. -/
def arrLoop {α : Type} (add : List Char → R (α × List Char)) : Nat → List α → List Char → R (List α × List Char)
  | 0, _, _ => .error .hang
  | _ + 1, v, [] => .ok (v, [])
  | n + 1, v, c :: s =>
    if c = ']' then .ok (v, c :: s)
    else
      match add (c :: s) with
      | .error e => .error e
      | .ok (x, s) => arrLoop add n (v ++ [x]) (eatAll (eat1 ',' (s.dropWhile fun c => !(c == ',' || c == ']'))))

/-- The key and the value of a pair, `:281-288`, `:303-309`: the result tells whether there was a value. -/
def keyVal {V : Type} (f : Key → V → List Char → R (V × List Char)) (v : V) (s : List Char) : R (Bool × V × List Char) :=
  let k := parseString false '=' '\x00' s
  match eatWs k.2 with
  | [] => .ok (false, v, [])
  | c :: s =>
    if c = '=' then
      match f (cstr k.1) v s with
      | .error e => .error e
      | .ok (v, s) => .ok (true, v, s)
    else .ok (false, v, c :: s)

/-- The loop of `ParseTOMLTable`, `:279-293`. -/
def tblLoop {V : Type} (f : Key → V → List Char → R (V × List Char)) : Nat → V → List Char → R (V × List Char)
  | 0, _, _ => .error .hang
  | _ + 1, v, [] => .ok (v, [])
  | n + 1, v, c :: s =>
    if c = '}' then .ok (v, s)
    else if isNl c then .ok (v, c :: s)
    else
      match keyVal f v (c :: s) with
      | .error e => .error e
      | .ok (_, v, s) => tblLoop f n v (eatWs (eat1 ',' (s.dropWhile fun c => !(isNl c || c == ',' || c == '}'))))

/-- The loop of `ParseTOMLPairs`, `:301-313`. -/
def pairsLoop {V : Type} (f : Key → V → List Char → R (V × List Char)) : Nat → V → List Char → R (V × List Char)
  | 0, _, _ => .error .hang
  | _ + 1, v, [] => .ok (v, [])
  | n + 1, v, c :: s =>
    if c = '[' then .ok (v, c :: s)
    else
      match keyVal f v (c :: s) with
      | .error e => .error e
      | .ok (b, v, s) => pairsLoop f n v (eatAll (if b then toNl s else s))

/-- `ParseTOMLPairs`, `:296-314`. -/
def pairs {V : Type} (f : Key → V → List Char → R (V × List Char)) (v : V) (s : List Char) : R (V × List Char) :=
  pairsLoop f ((eatAll s).length + 1) v (eatAll s)

/-- `ParseArray`, `:567-592`; `g` reads an element, `new` is a new one. -/
def parseArray {α : Type} (g : α → List Char → R (α × List Char)) (new : α) (st : State) (v : List α) (s : List Char) : R (List α × List Char) :=
  if st ≠ .normal ∧ s.head? = some '.' then
    match v.getLast? with
    | none => .error .ub
    | some x =>
      match g x s with
      | .error e => .error e
      | .ok (x, s) => .ok (v.dropLast ++ [x], s)
  else if st = .inline then
    match g new s with
    | .error e => .error e
    | .ok (x, s) => .ok (v ++ [x], s)
  else
    match eatWs s with
    | [] => .ok (v, [])
    | c :: s =>
      if c = '[' then arrLoop (g new) ((eatAll s).length + 1) v (eatAll s)
      else .ok (v, s)

/-- `ParseMany`, `:594-648`, of an object; `f` finds a field and reads it. -/
def parseMany {V : Type} (f : State → Key → V → List Char → R (V × List Char)) (st : State) (v : V) (s : List Char) : R (V × List Char) :=
  match st with
  | .normal =>
    match eatWs s with
    | [] => .ok (v, [])
    | c :: s =>
      if c = '{' then tblLoop (f .normal) ((eatAll s).length + 1) v (eatAll s)
      else .ok (v, c :: s)
  | .table =>
    match s with
    | [] => .ok (v, [])
    | c :: s =>
      if c = '.' then
        let k := parseString false '.' ']' s
        f .table (cstr k.1) v k.2
      else if c = ']' then pairs (f .normal) v s
      else .ok (v, c :: s)
  | .inline =>
    match s with
    | [] => .ok (v, [])
    | c :: s =>
      if c = '.' then
        let k := parseString false '.' ']' s
        f .inline (cstr k.1) v k.2
      else if c = ']' then pairs (f .normal) v (eat1 ']' s)
      else .ok (v, c :: s)

mutual
/-- `Action::Parse`, `Serializer.h:73-88`. -/
def parse (fp : FP D) : (t : Ty) → State → t.Val D → List Char → R (t.Val D × List Char)
  | .str, _, _, s => .ok (parseString true '\x00' '\x00' s)
  | .int, _, v, s => parseNumber getInt v s
  | .dbl, _, v, s => parseNumber (getDbl fp) v s
  | .bool, _, _, s => .ok (parseBool s)
  | .arr t, st, v, s => parseArray (fun x s => parse fp t st x s) (dflt fp t) st v s
  | .obj fs, st, v, s => parseMany (fun st k v s => find fp fs st k v s) st v s

/-- `FindParse`, `Serializer.h:354-359`, with `_findparse`, `:328-344`: the trie of the names finds exactly the names (`C26`). -/
def find (fp : FP D) : (fs : Fields) → State → Key → fs.Val D → List Char → R (fs.Val D × List Char)
  | .nil, _, _, v, s => .ok (v, s)
  | .cons k t fs, st, key, v, s =>
    if key = k then
      match parse fp t st v.1 s with
      | .error e => .error e
      | .ok (x, s) => .ok ((x, v.2), s)
    else
      match find fp fs st key v.2 s with
      | .error e => .error e
      | .ok (y, s) => .ok ((v.1, y), s)
end

theorem eatNewline_toNl_length (c : Char) (s : List Char) : (eatNewline (toNl (c :: s))).length < (c :: s).length := by
  by_cases h : isNl c = true
  · have ht : toNl (c :: s) = c :: s := by
      rw [toNl, List.dropWhile_cons, if_neg (by simp [h])]
    rw [ht, eatNewline, eat1]
    by_cases h1 : c = '\n'
    · rw [if_pos h1]
      have : (eatNewline s).length ≤ s.length := (eatNewline_suffix s).length_le
      split
      · simp
      next d r =>
        split
        · have := (eat1_suffix '\n' r).length_le
          simp only [List.length_cons]; omega
        · simp
    · have h2 : c = '\r' := by
        simp only [isNl, Bool.or_eq_true, beq_iff_eq] at h
        exact h.resolve_left h1
      rw [if_neg h1]
      simp only [h2, if_true]
      have := (eat1_suffix '\n' s).length_le
      simp only [List.length_cons]; omega
  · have ht : toNl (c :: s) = toNl s := by
      rw [toNl, List.dropWhile_cons, if_pos (by simp [h])]; rfl
    rw [ht]
    have h1 := (eatNewline_suffix (toNl s)).length_le
    have h2 := toNl_le s
    simp only [List.length_cons]; omega

/-- The loop at `:334-339`. -/
def eatLines : List Char → List Char
  | [] => []
  | c :: s => if c = '[' then c :: s else eatLines (eatNewline (toNl (c :: s)))
termination_by s => s.length
decreasing_by exact eatNewline_toNl_length c s

/-- The name in a header and the value it leads to, `:329-333`. -/
def header (fp : FP D) (fs : Fields) (st : State) (v : fs.Val D) (s : List Char) : R (fs.Val D × List Char) :=
  let k := parseString false ']' '.' s
  match eatWs k.2 with
  | [] => .ok (v, [])
  | c :: s => if c = ']' ∨ c = '.' then find fp fs st (cstr k.1) v (c :: s) else .ok (v, c :: s)

/-- The loop of `ParseTOMLRoot`, `:322-341`. -/
def rootLoop (fp : FP D) (fs : Fields) : Nat → fs.Val D → List Char → R (fs.Val D × List Char)
  | 0, _, _ => .error .hang
  | _ + 1, v, [] => .ok (v, [])
  | n + 1, v, c :: s =>
    if c ≠ '[' then .ok (v, s)
    else
      match (if s.head? = some '[' then header fp fs .inline v (s.drop 1) else header fp fs .table v s) with
      | .error e => .error e
      | .ok (v, s) => rootLoop fp fs n v (eatAll (eatLines s))

/-- `ParseTOML`, `:550-553`, of an object, with `ParseTOMLRoot`, `:317-342`. -/
def parseTOML (fp : FP D) (fs : Fields) (v : fs.Val D) (s : List Char) : R (fs.Val D × List Char) :=
  match pairs (fun k v s => find fp fs .normal k v s) v s with
  | .error e => .error e
  | .ok (v, s) => rootLoop fp fs (s.length + 1) v s

/-! ## Writing -/

/-- The loop that writes a string, `:758-771`. -/
def escape : List Char → List Char
  | [] => []
  | c :: s =>
    (if c = '"' then ['\\', '"']
    else if c = '\\' then ['\\', '\\']
    else if c = '\x08' then ['\\', 'b']
    else if c = '\x0c' then ['\\', 'f']
    else if c = '\n' then ['\\', 'n']
    else if c = '\r' then ['\\', 'r']
    else if c = '\t' then ['\\', 't']
    else [c]) ++ escape s

/-- `WriteTOMLId`, `:108-118`, in an array or an inline table; afterwards `first` is `false`. -/
def writeId (first : Bool) (id : Option Key) : List Char :=
  (if first then [] else [',', ' ']) ++ (match id with | none => [] | some k => k ++ [' ', '=', ' '])

/-- The loop of `SerializeArray`, `:663-664`. -/
def writeElems {α : Type} (w : Bool → α → List Char × Bool) : Bool → List α → List Char
  | _, [] => []
  | first, x :: l => let a := w first x; a.1 ++ writeElems w a.2 l

mutual
/-- `Action::Serialize`, `Serializer.h:89-104`, of an element of an array or a field of an inline table: the text and the flag `first` afterwards. The strings are written by
`Serialize`, `TOML.h:750-776`, numbers by `SerializeNumber`, `:689-699`, booleans by `SerializeBool`, `:65-74`, arrays by `SerializeArray`, `:650-669`, objects by `Serialize`,
`:792-796`, and `WriteTOMLPairs`, `:714-738`. -/
def writeInline (fp : FP D) : (t : Ty) → Option Key → Bool → t.Val D → List Char × Bool
  | .str, id, first, v => (writeId first id ++ '"' :: (escape v ++ ['"']), false)
  | .int, id, first, v => (writeId first id ++ decimal v, false)
  | .dbl, id, first, v => (writeId first id ++ fp.show' v, false)
  | .bool, id, first, v => (writeId first id ++ (bif v then "true".toList else "false".toList), false)
  | .arr t, id, first, v => (writeId first id ++ '[' :: (writeElems (fun b x => writeInline fp t none b x) true v ++ [']']), false)
  | .obj fs, id, first, v =>
    let a := writeFields fp fs true v
    (writeId first id ++ '{' :: ' ' :: (a.1 ++ [' ', '}']), a.2)

/-- `EvaluateType`, `Serializer.h:274-275`, in an inline table. -/
def writeFields (fp : FP D) : (fs : Fields) → Bool → fs.Val D → List Char × Bool
  | .nil, first, _ => ([], first)
  | .cons k t fs, first, v =>
    let a := writeInline fp t (some k) first v.1
    let b := writeFields fp fs a.2 v.2
    (a.1 ++ b.1, b.2)
end

/-- Whether a field is written as a section of its own. -/
def Ty.isObj : Ty → Bool
  | .obj _ => true
  | _ => false

/-- `EvaluateType` in the state `STATE_NORMAL`: one line per field, nothing for an object (`TOML.h:792-805`). -/
def writePairs (fp : FP D) : (fs : Fields) → fs.Val D → List Char
  | .nil, _ => []
  | .cons k t fs, v => (if t.isObj then [] else k ++ ' ' :: '=' :: ' ' :: ((writeInline fp t none true v.1).1 ++ ['\n'])) ++ writePairs fp fs v.2

/-- `lastid` and a name, `:706-708`, `:725-727`. -/
def joinId (last k : Key) : Key := if last = [] then k else last ++ '.' :: k

mutual
/-- `EvaluateType` in the state `STATE_TABLE`: the sections of the fields that are objects, `WriteTOMLPairs`, `:722-738`, and `WriteTOMLTables`, `:701-712`. -/
def writeTables (fp : FP D) : (fs : Fields) → Key → fs.Val D → List Char
  | .nil, _, _ => []
  | .cons k t fs, last, v => writeSection fp t (joinId last k) v.1 ++ writeTables fp fs last v.2

/-- A section. -/
def writeSection (fp : FP D) : (t : Ty) → Key → t.Val D → List Char
  | .obj gs, path, v => '[' :: (path ++ ']' :: '\n' :: (writePairs fp gs v ++ '\n' :: writeTables fp gs path v))
  | _, _, _ => []
end

/-- `WriteTOML`, `:740-743`, of an object, with `Serialize`, `:797-804`. -/
def writeTOML (fp : FP D) (fs : Fields) (v : fs.Val D) : List Char := writePairs fp fs v ++ '\n' :: writeTables fp fs [] v

end Verif.Toml
