import Verif.Json.Model

/-!
# Model of the XML parser and writer (`/repo/bss-util/XML.cpp`)

A byte is a `Char` (below 256), a stream the list of the bytes left to read; `seekg(start)` goes back to an earlier list. A stream that has met its end twice is in a failed state, in which it
cannot be set back any more; such a stream is the empty list for good. `isspace` is that of the "C" locale, `char` is signed. The hash of the attribute names is the finite map that it refines (C24). The parser
is given fuel; `none` means that the fuel ran out (`C90_terminates` shows that twice the length of the text is enough).
-/

namespace Verif.Xml

open Verif.Json (isSpace isDigit cstr getc hexNum decNum splitSign dropHexPrefix outputUnicode)

/-- `XMLNode`, `XML.h:44-114`: name, attributes, text and children. The numbers in `XMLValue` are functions of the text (`evalInteger`); the hash tables are in `Verif/Xml/Edit.lean`. -/
inductive Node where
  | mk (name : List Char) (attrs : List (List Char × List Char)) (text : List Char) (kids : List Node)

/-! ## Strings -/

/-- `c < 33` for a signed `char`. -/
def low (c : Char) : Bool := decide (c.toNat < 33) || decide (128 ≤ c.toNat)

/-- `_rtrim`, `Str.h:311`: never removes the first character. The zero stored behind the terminator of an empty string is left out. -/
def rtrim : List Char → List Char
  | [] => []
  | c :: s => c :: (s.reverse.dropWhile low).reverse

/-- `Trim`, `Str.h:180`, `_ltrim`, `Str.h:310`. -/
def trim (s : List Char) : List Char := cstr ((rtrim s).dropWhile fun c => decide (0 < c.toNat) && decide (c.toNat < 33))

/-! ## Patterns -/

/-- The result of the first loop of `_match`. -/
inductive Lit where
  | eof
  | bad
  | ok (rest : List Char)

/-- The first loop of `_match`, `XML.cpp:185-192`: the characters before the star. -/
def lit : List Char → List Char → Lit
  | [], s => .ok s
  | _ :: _, [] => .eof
  | p :: ps, c :: s => if c = p then lit ps s else .bad

/-- The second loop of `_match`, `:211-215`, with the part of the pattern that is left to match: what is left of it at the end, the characters read and the rest of the stream. -/
def scan (post : List Char) : List Char → List Char → List Char × List Char × List Char
  | [], s => ([], [], s)
  | p :: ps, [] => (p :: ps, [], [])
  | p :: ps, c :: s =>
    let a := scan post (if c = p then ps else post) s
    (a.1, c :: a.2.1, a.2.2)

/-- The result of `_match`: whether it succeeded, the string `out` (empty if not set) and the stream. -/
structure Match where
  ok : Bool
  out : List Char
  rest : List Char

/-- `_match`, `XML.cpp:178-226`, `reset` is never used; `out` is empty before. -/
def matchP (pat s : List Char) : Match :=
  let s := s.dropWhile isSpace
  match lit (pat.takeWhile (· != '*')) s with
  | .eof => ⟨false, [], []⟩
  | .bad => ⟨false, [], s⟩
  | .ok r =>
    match pat.dropWhile (· != '*') with
    | [] => ⟨true, [], r⟩
    | _ :: post =>
      if r = [] then ⟨false, [], []⟩
      else
        let a := scan post post r
        let out := a.2.1.take (a.2.1.length - (post.length - a.1.length))
        if a.1 = [] then ⟨true, out, a.2.2⟩ else ⟨false, out, s⟩

/-! ## Parsing -/

/-- `_addAttribute`, `XML.cpp:160-175`: a new value for a known name. -/
def addAttr (l : List (List Char × List Char)) (n v : List Char) : List (List Char × List Char) :=
  if n ∈ l.map (·.1) then l.map fun a => if a.1 = n then (n, v) else a else l ++ [(n, v)]

/-- The loop of `_parseAttribute`, `XML.cpp:287-309`. -/
def attrLoop : Nat → List (List Char × List Char) → List Char → Option (List (List Char × List Char))
  | 0, _, _ => none
  | _ + 1, l, [] => some l
  | n + 1, l, c :: s =>
    let m := matchP "*=".toList (c :: s)
    if m.ok then
      let v := matchP "\"*\"".toList m.rest
      if v.ok then attrLoop n (addAttr l (trim m.out) v.out) v.rest
      else attrLoop n (addAttr l (trim m.out) (v.out ++ v.rest.takeWhile (!isSpace ·))) (v.rest.dropWhile (!isSpace ·))
    else attrLoop n (addAttr l (m.out ++ m.rest.takeWhile (!isSpace ·)) []) (m.rest.dropWhile (!isSpace ·))

/-- `_parseAttribute`, `XML.cpp:273-310`: the name and the attributes added to `l`. -/
def parseAttribute (l : List (List Char × List Char)) (buf : List Char) : Option (List Char × List (List Char × List Char)) :=
  let b := trim buf
  let r := (b.dropWhile (!isSpace ·)).dropWhile isSpace
  (attrLoop (r.length + 1) l r).map fun l => (b.takeWhile (!isSpace ·), l)

/-- The conversion from `long` to `int`. -/
def toInt (i : Int) : Int := (i + 2 ^ 31) % 2 ^ 32 - 2 ^ 31

/-- A result of `strtol` within the bounds of `long`. -/
def clamp (neg : Bool) (v : Nat) : Int := max (-2 ^ 63) (min (if neg then -(v : Int) else v) (2 ^ 63 - 1))

/-- `strtol(buf, &c, 16)`. -/
def strtol16 (s : List Char) : Int := let a := splitSign ((cstr s).dropWhile isSpace); clamp a.1 (hexNum 0 (dropHexPrefix a.2))

/-- `strtol(buf, &c, 10)`. -/
def strtol10 (s : List Char) : Int := let a := splitSign ((cstr s).dropWhile isSpace); clamp a.1 (decNum 0 a.2)

/-- The conditions of `_parseEntity`, `XML.cpp:316-322`, in order, with the text that each of them appends. -/
def entityTable : List (List Char × (List Char → List Char)) :=
  [("&lt;".toList, fun _ => ['<']), ("&gt;".toList, fun _ => ['>']), ("&amp;".toList, fun _ => ['&']), ("&apos;".toList, fun _ => ['\'']), ("&quot;".toList, fun _ => ['"']),
    ("&#x*;".toList, fun buf => outputUnicode (toInt (strtol16 buf))), ("&#*;".toList, fun buf => outputUnicode (toInt (strtol10 buf)))]

/-- A chain of `if(_match(...)) ... else if(_match(...)) ... else target += stream.get();`. -/
def firstMatch : List (List Char × (List Char → List Char)) → List Char → List Char × List Char
  | [], s => ([getc s], s.drop 1)
  | (p, f) :: l, s =>
    let m := matchP p s
    if m.ok then (f m.out, m.rest) else firstMatch l m.rest

/-- `_parseEntity`, `XML.cpp:312-324`: the text appended and the stream. -/
def entity (s : List Char) : List Char × List Char := firstMatch entityTable s

/-- `while(_match(stream, buf, "<!--*-->"));`, `XML.cpp:230`. -/
def skipComments : Nat → List Char → Option (List Char)
  | 0, _ => none
  | n + 1, s =>
    let m := matchP "<!--*-->".toList s
    if m.ok then skipComments n m.rest else some m.rest

mutual
/-- `_parse` on a new node, `XML.cpp:228-245`: the node, if there is one, and the stream. -/
def parse : Nat → List Char → Option (Option Node × List Char)
  | 0, _ => none
  | n + 1, s =>
    match skipComments (s.length + 1) s with
    | none => none
    | some s =>
      let m := matchP "<*>".toList s
      if m.ok = false then some (none, m.rest)
      else if m.out.getLast? = some '/' then (parseAttribute [] m.out.dropLast).map fun a => (some (.mk a.1 a.2 [] []), m.rest)
      else
        match parseAttribute [] m.out, inner n m.rest with
        | some a, some (text, kids, tag, r) =>
          if r = [] then some (some (.mk a.1 a.2 text kids), [])
          else if trim tag ≠ a.1 then some (some (.mk a.1 a.2 text kids), '/' :: (tag ++ '>' :: r)) -- seekg(-2 - buf.length())
          else some (some (.mk a.1 a.2 text kids), r)
        | _, _ => none

/-- The loop of `_parseInner`, `XML.cpp:247-271`: the text, the children, the inside of the closing tag and the stream. -/
def inner : Nat → List Char → Option (List Char × List Node × List Char × List Char)
  | 0, _ => none
  | _ + 1, [] => some ([], [], [], [])
  | n + 1, c :: s =>
    if c = '&' then
      let e := entity (c :: s)
      (inner n e.2).map fun r => (e.1 ++ r.1, r.2)
    else if c = '<' then
      let m := matchP "</*>".toList (c :: s)
      if m.ok then some ([], [], m.out, m.rest)
      else
        let m := matchP "<!--*-->".toList m.rest
        if m.ok then inner n m.rest
        else
          match parse n m.rest with
          | none => none
          | some (none, r) => (inner n (r.drop 1)).map fun q => (getc r :: q.1, q.2)
          | some (some k, r) => (inner n r).map fun q => (q.1, k :: q.2.1, q.2.2)
    else (inner n s).map fun r => (c :: r.1, r.2)
end

/-- `XMLFile(const char*)`, `XML.cpp:13`, `Read`, `:26-31`, `_initialParse`, `:33-37`. -/
def readFile (s : List Char) : Option Node :=
  let m := matchP "<?*?>".toList s
  match (if m.ok then parseAttribute [] m.out else some ("xml".toList, [])), inner (2 * s.length + 2) m.rest with
  | some a, some (text, kids, _, _) => some (.mk a.1 a.2 text kids)
  | _, _ => none

/-- `(int64_t)strtoull` of a number read: too large numbers become the largest one, a sign negates modulo 2^64, and the cast wraps around. -/
def ull (neg : Bool) (v : Nat) : Int :=
  let u : Nat := if 2 ^ 64 ≤ v then 2 ^ 64 - 1 else if neg then (2 ^ 64 - v) % 2 ^ 64 else v
  ((u : Int) + 2 ^ 63) % 2 ^ 64 - 2 ^ 63

/-- `_evalValue`, `XML.cpp:326-344`: the integer; `strtoull` of base 2 is left out (`none`). -/
def evalInteger (s : List Char) : Option Int :=
  match s with
  | [] => some 0
  | c :: r =>
    if c = '-' then some (strtol10 (c :: r))
    else if c = '0' ∧ r.head? = some 'x' then some (ull false (hexNum 0 (dropHexPrefix (cstr (c :: r)))))
    else if c = '0' ∧ r.head? = some 'b' then none
    else
      let a := splitSign ((cstr (c :: r)).dropWhile isSpace)
      some (ull a.1 (decNum 0 a.2))

/-! ## Writing -/

/-- `_writeString`, `XML.cpp:358-384`, on the characters of the C string. -/
def writeString (inAttr : Bool) : List Char → List Char
  | [] => []
  | c :: s =>
    (if inAttr = false then
      if c = '<' then "&lt;".toList
      else if c = '>' then "&gt;".toList
      else if c = '&' then "&amp;".toList
      else if c = '\'' then "&apos;".toList
      else if c = '"' then "&quot;".toList
      else [c]
    else if c = '"' then "&quot;".toList
    else [c]) ++ writeString inAttr s

/-- The loop of `_writeAttribute`, `XML.cpp:350-355`. -/
def writeAttrs : List (List Char × List Char) → List Char
  | [] => []
  | (n, v) :: l => ' ' :: (n ++ '=' :: '"' :: (writeString true (cstr v) ++ '"' :: writeAttrs l))

/-- A new line and the indentation, if the output is pretty. -/
def line (pretty : Bool) (depth : Nat) : List Char := if pretty then '\n' :: List.replicate depth '\t' else []

mutual
/-- `_write`, `XML.cpp:386-414`. -/
def write (pretty : Bool) (depth : Nat) : Node → List Char
  | .mk name attrs text kids =>
    line pretty depth ++ '<' :: (name ++ (writeAttrs attrs ++
      if trim text = [] ∧ kids.isEmpty then "/>".toList
      else
        '>' :: ((if trim text = [] then [] else writeString false (cstr text)) ++ (writeKids pretty (depth + 1) kids ++
          ((if kids.isEmpty then [] else line pretty depth) ++ '<' :: '/' :: (name ++ ['>'])))))) 

/-- The loop over the children, `:403-404`, and over the roots, `:54-55`. -/
def writeKids (pretty : Bool) (depth : Nat) : List Node → List Char
  | [] => []
  | k :: l => write pretty depth k ++ writeKids pretty depth l
end

/-- `XMLFile::Write`, `XML.cpp:46-56`. -/
def writeFile (pretty : Bool) : Node → List Char
  | .mk name attrs _ kids => (if attrs.isEmpty then [] else '<' :: '?' :: (name ++ (writeAttrs attrs ++ "?>".toList))) ++ writeKids pretty 0 kids

end Verif.Xml
