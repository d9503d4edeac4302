import Verif.Toml.Model
import Verif.Json.Props
/-!
# The texts of TOML that the claims speak about

The part of the grammar of TOML (https://toml.io) that the engine is meant to read, with what the texts denote. It is stated without reference to the functions of the model, apart from
the description of types and values and from `dflt`, the value of a new element.
-/

namespace Verif.Toml
open Verif.Json (hexDigits utf8 decVal)

variable {D : Type}

def Blank (c : Char) : Prop := c = ' ' ∨ c = '\t'

def NL (c : Char) : Prop := c = '\n' ∨ c = '\r'

def Blanks (b : List Char) : Prop := ∀ c ∈ b, Blank c

/-- Spaces, line breaks and comments. -/
inductive Gap : List Char → Prop where
  | nil : Gap []
  | ws {c : Char} {g : List Char} : Blank c ∨ NL c → Gap g → Gap (c :: g)
  | comment {x : List Char} {c : Char} {g : List Char} : (∀ a ∈ x, ¬NL a) → NL c → Gap g → Gap ('#' :: (x ++ c :: g))

/-- The escapes of one character. -/
def escapes : List (Char × Char) := [('"', '"'), ('\\', '\\'), ('b', '\x08'), ('f', '\x0c'), ('n', '\n'), ('r', '\r'), ('t', '\t')]

/-- The UTF-8 form of a code point. -/
def utf8' (n : Nat) : List Char :=
  if n < 0x10000 then utf8 n
  else [Char.ofNat (240 + n / 262144), Char.ofNat (128 + n / 4096 % 64), Char.ofNat (128 + n / 64 % 64), Char.ofNat (128 + n % 64)]

/-- The value of a list of hexadecimal digits. -/
def hexVals (l : List (Char × Nat)) : Nat := l.foldl (fun acc p => 16 * acc + p.2) 0

/-- An escape and the bytes it denotes. -/
inductive EscText : List Char → List Char → Prop where
  | char {e c : Char} : (e, c) ∈ escapes → EscText [c] ['\\', e]
  | uni4 {l : List (Char × Nat)} : (∀ p ∈ l, p ∈ hexDigits) → l.length = 4 → EscText (utf8' (hexVals l)) ('\\' :: 'u' :: l.map Prod.fst)
  | uni8 {l : List (Char × Nat)} : (∀ p ∈ l, p ∈ hexDigits) → l.length = 8 → hexVals l < 0x10FFFF → EscText (utf8' (hexVals l)) ('\\' :: 'U' :: l.map Prod.fst)

/-- `t` is the inside of a string in one pair of quotes that denotes `s`. -/
inductive StrText : List Char → List Char → Prop where
  | nil : StrText [] []
  | char {c : Char} {s t : List Char} : c ≠ '"' → c ≠ '\\' → ¬NL c → StrText s t → StrText (c :: s) (c :: t)
  | esc {a x s t : List Char} : EscText a x → StrText s t → StrText (a ++ s) (x ++ t)

/-- `t` is the inside of a string in three quotes that denotes `s`: one or two quotes may occur inside, and a backslash at the end of a line hides the line break and the blanks after
it. -/
inductive MultiText : List Char → List Char → Prop where
  | nil : MultiText [] []
  | char {c : Char} {s t : List Char} : c ≠ '"' → c ≠ '\\' → MultiText s t → MultiText (c :: s) (c :: t)
  | quote {c : Char} {s t : List Char} : c ≠ '"' → MultiText s (c :: t) → MultiText ('"' :: s) ('"' :: c :: t)
  | quotes {c : Char} {s t : List Char} : c ≠ '"' → MultiText s (c :: t) → MultiText ('"' :: '"' :: s) ('"' :: '"' :: c :: t)
  | esc {a x s t : List Char} : EscText a x → MultiText s t → MultiText (a ++ s) (x ++ t)
  | cont {b s t : List Char} : Blanks b → (∀ c, t.head? = some c → ¬Blank c ∧ c ≠ '\r') → MultiText s t → MultiText s ('\\' :: '\n' :: (b ++ t))

/-- `t` is the inside of a literal string in three quotes: one or two quotes may occur inside. -/
inductive LitText : List Char → Prop where
  | nil : LitText []
  | char {c : Char} {t : List Char} : c ≠ '\'' → LitText t → LitText (c :: t)
  | quote {c : Char} {t : List Char} : c ≠ '\'' → LitText (c :: t) → LitText ('\'' :: c :: t)
  | quotes {c : Char} {t : List Char} : c ≠ '\'' → LitText (c :: t) → LitText ('\'' :: '\'' :: c :: t)

/-- A line break right after the opening quotes does not belong to the string. -/
def Opening (n t : List Char) : Prop :=
  n = [] ∧ (∀ c, t.head? = some c → ¬NL c) ∨ n = ['\n'] ∧ (∀ c, t.head? = some c → c ≠ '\r') ∨ n = ['\r', '\n']

/-- The four forms of a string. -/
inductive StrForm : List Char → List Char → Prop where
  | basic {s t : List Char} : StrText s t → StrForm s ('"' :: (t ++ ['"']))
  | literal {s : List Char} : (∀ c ∈ s, c ≠ '\'' ∧ ¬NL c) → StrForm s ('\'' :: (s ++ ['\'']))
  | multi {s n t : List Char} : Opening n t → MultiText s t → StrForm s ('"' :: '"' :: '"' :: (n ++ (t ++ ['"', '"', '"'])))
  | multiLit {s n : List Char} : Opening n s → LitText s → StrForm s ('\'' :: '\'' :: '\'' :: (n ++ (s ++ ['\'', '\'', '\''])))

/-- The characters of a bare key. -/
def BareChar (c : Char) : Prop := 'a' ≤ c ∧ c ≤ 'z' ∨ 'A' ≤ c ∧ c ≤ 'Z' ∨ '0' ≤ c ∧ c ≤ '9' ∨ c = '_' ∨ c = '-'

def BareKey (k : Key) : Prop := k ≠ [] ∧ ∀ c ∈ k, BareChar c

/-- A key, bare or quoted. -/
inductive KeyText : Key → List Char → Prop where
  | bare {k : Key} : BareKey k → KeyText k k
  | basic {k t : List Char} : '\x00' ∉ k → StrText k t → KeyText k ('"' :: (t ++ ['"']))
  | literal {k : List Char} : '\x00' ∉ k → (∀ c ∈ k, c ≠ '\'' ∧ ¬NL c) → KeyText k ('\'' :: (k ++ ['\'']))

/-- A decimal integer, with its sign. -/
inductive IntForm : Int → List Char → Prop where
  | pos {ds : List Char} : ds ≠ [] → (∀ c ∈ ds, '0' ≤ c ∧ c ≤ '9') → IntForm (decVal ds) ds
  | plus {ds : List Char} : ds ≠ [] → (∀ c ∈ ds, '0' ≤ c ∧ c ≤ '9') → IntForm (decVal ds) ('+' :: ds)
  | neg {ds : List Char} : ds ≠ [] → (∀ c ∈ ds, '0' ≤ c ∧ c ≤ '9') → IntForm (-(decVal ds : Int)) ('-' :: ds)

/-- An integer in the range of `int64_t`. -/
def Int64Form (i : Int) (x : List Char) : Prop := IntForm i x ∧ -2 ^ 63 ≤ i ∧ i < 2 ^ 63

/-- What can follow a value: the end, or one of these characters. -/
def Stops (r : List Char) : Prop := ∀ c, r.head? = some c → c = ',' ∨ c = ']' ∨ c = '}' ∨ c = '#' ∨ Blank c ∨ NL c

/-- A text of a `double`: it starts like a number or a word and the extraction reads it back. -/
def FP.Reads (fp : FP D) (d : D) (x : List Char) : Prop :=
  (∃ c y, x = c :: y ∧ (BareChar c ∨ c = '+' ∨ c = '.')) ∧ ∀ r, Stops r → fp.get (x ++ r) = (d, r)

/-- The elements of an array up to and including its bracket; `P` tells the texts of the elements. -/
inductive Items {α : Type} (P : α → List Char → Prop) : List α → List Char → Prop where
  | nil : Items P [] [']']
  | last {x : α} {t w : List Char} : P x t → (∀ c ∈ w, Blank c ∨ NL c) → Items P [x] (t ++ (w ++ [']']))
  | cons {x : α} {l : List α} {t w g b : List Char} : P x t → (∀ c ∈ w, Blank c ∨ NL c) → Gap g → Items P l b → Items P (x :: l) (t ++ (w ++ ',' :: (g ++ b)))

/-- An array of arrays with at most one element. -/
inductive Nested {α : Type} (P : α → List Char → Prop) : List α → List Char → Prop where
  | nil : Nested P [] [']']
  | one {x : α} {t w : List Char} : P x t → Blanks w → Nested P [x] (t ++ (w ++ [']']))

/-- The fields of an inline table up to and including its brace; `F` tells how the text of a value changes the object. -/
inductive Pairs {V : Type} (F : Key → V → V → List Char → Prop) : V → V → List Char → Prop where
  | nil {v : V} : Pairs F v v ['}']
  | last {k : Key} {v v' : V} {kt b1 b2 x w : List Char} : KeyText k kt → Blanks b1 → Blanks b2 → F k v v' x → Blanks w →
      Pairs F v v' (kt ++ (b1 ++ '=' :: (b2 ++ (x ++ (w ++ ['}'])))))
  | cons {k : Key} {v v' v'' : V} {kt b1 b2 x w b3 b : List Char} : KeyText k kt → Blanks b1 → Blanks b2 → F k v v' x → Blanks w → Blanks b3 → Pairs F v' v'' b →
      Pairs F v v'' (kt ++ (b1 ++ '=' :: (b2 ++ (x ++ (w ++ ',' :: (b3 ++ b))))))

/-- The lines of a section: each sets a field, the rest of the line is a comment or blank. The last line may lack its line break if the text ends there (`eof`). -/
inductive Body {V : Type} (F : Key → V → V → List Char → Prop) (eof : Bool) : V → V → List Char → Prop where
  | gap {v : V} {g : List Char} : Gap g → Body F eof v v g
  | line {k : Key} {v v' v'' : V} {g kt b1 b2 x y b : List Char} {c : Char} : Gap g → KeyText k kt → Blanks b1 → Blanks b2 → F k v v' x → Stops y → (∀ a ∈ y, ¬NL a) → NL c →
      Body F eof v' v'' b → Body F eof v v'' (g ++ (kt ++ (b1 ++ '=' :: (b2 ++ (x ++ (y ++ c :: b))))))
  | last {k : Key} {v v' : V} {g kt b1 b2 x y : List Char} : eof = true → Gap g → KeyText k kt → Blanks b1 → Blanks b2 → F k v v' x → Stops y → (∀ a ∈ y, ¬NL a) →
      Body F eof v v' (g ++ (kt ++ (b1 ++ '=' :: (b2 ++ (x ++ y)))))

/-- Whether the elements of an array are arrays. -/
def Ty.isArr : Ty → Bool
  | .arr _ => true
  | _ => false

/-- At which characters a value that nobody asked for ends, inside an inline table. -/
def InlineStop (c : Char) : Prop := NL c ∨ c = ',' ∨ c = '}'

mutual
/-- `x` is a text of type `t` that turns the value `old` of a variable into `new`: an array appends, an object keeps the fields that are not mentioned. An array of arrays has at most one
element here; see `C123_nested_counterexample` for the others. -/
def ValText (fp : FP D) : (t : Ty) → t.Val D → t.Val D → List Char → Prop
  | .str, _, new, x => StrForm new x
  | .int, _, new, x => Int64Form new x
  | .dbl, _, new, x => fp.Reads new x
  | .bool, _, new, x => x = bif new then "true".toList else "false".toList
  | .arr t, old, new, x => ∃ l g b, new = List.append old l ∧ Gap g ∧ x = '[' :: (g ++ b) ∧
      (bif t.isArr then Nested (fun y z => ValText fp t (dflt fp t) y z) l b else Items (fun y z => ValText fp t (dflt fp t) y z) l b)
  | .obj fs, old, new, x => ∃ g b, Gap g ∧ x = '{' :: (g ++ b) ∧ Pairs (fun k v v' z => FieldText fp fs InlineStop k v v' z) old new b

/-- `x` is a text for the field `k`; the other fields keep their values. A name that is not a field is followed by any text up to one of the characters `stop`. -/
def FieldText (fp : FP D) : (fs : Fields) → (stop : Char → Prop) → Key → fs.Val D → fs.Val D → List Char → Prop
  | .nil, stop, _, old, new, x => new = old ∧ ∀ c ∈ x, ¬stop c
  | .cons k t fs, stop, key, old, new, x =>
    (key = k ∧ ValText fp t old.1 new.1 x ∧ new.2 = old.2) ∨ (key ≠ k ∧ new.1 = old.1 ∧ FieldText fp fs stop key old.2 new.2 x)
end

mutual
/-- `x` is the text after the header of a section, `path` the names in the header that lead from here to the object of the section. A section of a table array (`elem`) appends a new
object; a name of an array leads to its last element. -/
def AtTy (fp : FP D) (eof elem : Bool) : (t : Ty) → (path : List Key) → t.Val D → t.Val D → List Char → Prop
  | .obj fs, [], old, new, x => elem = false ∧ Body (fun k v v' z => FieldText fp fs NL k v v' z) eof old new x
  | .obj fs, k :: ks, old, new, x => AtField fp eof elem fs k ks old new x
  | .arr t, k :: ks, old, new, x => ∃ l y y', old = List.append l [y] ∧ AtTy fp eof elem t (k :: ks) y y' x ∧ new = List.append l [y']
  | .arr (.obj fs), [], old, new, x => elem = true ∧ ∃ y, Body (fun k v v' z => FieldText fp fs NL k v v' z) eof (dfltF fp fs) y x ∧ new = List.append old [y]
  | _, _, _, _, _ => False

def AtField (fp : FP D) (eof elem : Bool) : (fs : Fields) → (k : Key) → (path : List Key) → fs.Val D → fs.Val D → List Char → Prop
  | .nil, _, _, _, _, _ => False
  | .cons k t fs, key, path, old, new, x =>
    (key = k ∧ AtTy fp eof elem t path old.1 new.1 x ∧ new.2 = old.2) ∨ (key ≠ k ∧ new.1 = old.1 ∧ AtField fp eof elem fs key path old.2 new.2 x)
end

/-- The names in a header, with a dot before each. -/
inductive Dots : List Key → List Char → Prop where
  | nil : Dots [] []
  | cons {k : Key} {ks : List Key} {kt t : List Char} : KeyText k kt → Dots ks t → Dots (k :: ks) ('.' :: (kt ++ t))

/-- The brackets around a header. -/
def opening (elem : Bool) : List Char := bif elem then ['[', '['] else ['[']

def closing (elem : Bool) : List Char := bif elem then [']', ']'] else [']']

/-- The sections of a document. -/
inductive Sections (fp : FP D) (fs : Fields) : fs.Val D → fs.Val D → List Char → Prop where
  | nil {v : fs.Val D} : Sections fp fs v v []
  | cons {v v' v'' : fs.Val D} {elem : Bool} {k : Key} {ks : List Key} {kt t x s : List Char} : KeyText k kt → Dots ks t → AtField fp false elem fs k ks v v' x → Sections fp fs v' v'' s →
      Sections fp fs v v'' (opening elem ++ (kt ++ (t ++ (closing elem ++ (x ++ s)))))
  | last {v v' : fs.Val D} {elem : Bool} {k : Key} {ks : List Key} {kt t x : List Char} : KeyText k kt → Dots ks t → AtField fp true elem fs k ks v v' x →
      Sections fp fs v v' (opening elem ++ (kt ++ (t ++ (closing elem ++ x))))

/-- A document that turns the object `v` into `v'`: lines for its own fields, then sections. -/
inductive Document (fp : FP D) (fs : Fields) : fs.Val D → fs.Val D → List Char → Prop where
  | sections {v v' v'' : fs.Val D} {x s : List Char} : Body (fun k v v' z => FieldText fp fs NL k v v' z) false v v' x → Sections fp fs v' v'' s → Document fp fs v v'' (x ++ s)
  | lines {v v' : fs.Val D} {x : List Char} : Body (fun k v v' z => FieldText fp fs NL k v v' z) true v v' x → Document fp fs v v' x

/-! ## The objects that are written -/

/-- The names of the fields. -/
def Fields.keys : Fields → List Key
  | .nil => []
  | .cons k _ fs => k :: fs.keys

mutual
/-- Types whose objects have at least one field and bare, distinct names. -/
def Ty.Wf : Ty → Prop
  | .arr t => t.Wf
  | .obj fs => fs.keys ≠ [] ∧ fs.Wf
  | _ => True

def Fields.Wf : Fields → Prop
  | .nil => True
  | .cons k t fs => BareKey k ∧ k ∉ fs.keys ∧ t.Wf ∧ fs.Wf
end

mutual
/-- Values whose integers are in the range of their type and whose numbers the extraction reads back; an array of arrays has at most one element. -/
def Good (fp : FP D) : (t : Ty) → t.Val D → Prop
  | .int, (v : Int) => -2 ^ 63 ≤ v ∧ v < 2 ^ 63
  | .dbl, v => fp.Reads v (fp.show' v)
  | .arr t, (v : List (t.Val D)) => (∀ x ∈ v, Good fp t x) ∧ (t.isArr = true → v.length ≤ 1)
  | .obj fs, v => GoodF fp fs v
  | _, _ => True

def GoodF (fp : FP D) : (fs : Fields) → fs.Val D → Prop
  | .nil, _ => True
  | .cons _ t fs, v => Good fp t v.1 ∧ GoodF fp fs v.2
end

mutual
/-- Values whose arrays are empty. -/
def Fresh : (t : Ty) → t.Val D → Prop
  | .arr t, (v : List (t.Val D)) => v = []
  | .obj fs, v => FreshF fs v
  | _, _ => True

def FreshF : (fs : Fields) → fs.Val D → Prop
  | .nil, _ => True
  | .cons _ t fs, v => Fresh t v.1 ∧ FreshF fs v.2
end

end Verif.Toml
