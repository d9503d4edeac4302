import Verif.Json.Props
import Verif.Xml.Model

/-!
# Specification: the grammar of XML documents (C89, C90)

The part of XML 1.0 without document types, CDATA sections and processing instructions inside the document. Four further restrictions, all of them shown to matter in `Props.lean`: attribute
values stand between double quotes, they contain no `>` and no references, names end with an ASCII character, and character references are below U+10FFFF.
-/

namespace Verif.Xml

open Verif.Json (AllWs hexDigits decVal)

/-- The characters that have a meaning in markup. -/
def special : List Char := ['<', '>', '/', '=', '"', '\'', '&', '?', '!']

/-- A name: no blank, control or special characters, the last one ASCII. -/
def NameOk (n : List Char) : Prop := (∀ c ∈ n, '!' ≤ c ∧ c ∉ special) ∧ ∃ c, n.getLast? = some c ∧ c.toNat < 128

/-- The inside of a comment: no `--`, and no `-` at the end. -/
inductive CommentText : List Char → Prop where
  | nil : CommentText []
  | char {c : Char} {b : List Char} : c ≠ '-' → CommentText b → CommentText (c :: b)
  | dash {c : Char} {b : List Char} : c ≠ '-' → CommentText b → CommentText ('-' :: c :: b)

/-- An attribute value. The grammar proper (`strict`) allows no `<`, no `&` and no control characters. -/
def AttrOk (strict : Bool) (v : List Char) : Prop := ∀ c ∈ v, c ≠ '"' ∧ c ≠ '>' ∧ c ≠ '\x00' ∧ (strict = true → c ≠ '<' ∧ c ≠ '&' ∧ ' ' ≤ c)

/-- A list of attributes. -/
inductive Attrs (strict : Bool) : List (List Char × List Char) → List Char → Prop where
  | nil : Attrs strict [] []
  | cons {n v w1 w2 w3 t : List Char} {l : List (List Char × List Char)} : AllWs w1 → w1 ≠ [] → NameOk n → AllWs w2 → AllWs w3 → AttrOk strict v → Attrs strict l t →
      Attrs strict ((n, v) :: l) (w1 ++ (n ++ (w2 ++ '=' :: (w3 ++ '"' :: (v ++ '"' :: t)))))

/-- The predefined entities. -/
def entities : List (List Char × Char) := [("&lt;".toList, '<'), ("&gt;".toList, '>'), ("&amp;".toList, '&'), ("&apos;".toList, '\''), ("&quot;".toList, '"')]

/-- The UTF-8 form of a code point. -/
def utf8 (n : Nat) : List Char :=
  if n < 0x10000 then Json.utf8 n else [Char.ofNat (240 + n / 262144), Char.ofNat (128 + n / 4096 % 64), Char.ofNat (128 + n / 64 % 64), Char.ofNat (128 + n % 64)]

/-- The value of a list of hexadecimal digits. -/
def hexNumVal (ds : List (Char × Nat)) : Nat := ds.foldl (fun acc p => 16 * acc + p.2) 0

/-- A code point that a reference may stand for. -/
def CodeOk (n : Nat) : Prop := 0 < n ∧ n < 0x10FFFF ∧ ¬(0xD800 ≤ n ∧ n < 0xE000)

mutual
/-- `t` is an element that denotes the node. -/
inductive Elem (strict : Bool) : Node → List Char → Prop where
  | empty {name ta w : List Char} {attrs : List (List Char × List Char)} : NameOk name → Attrs strict attrs ta → (attrs.map (·.1)).Nodup → AllWs w →
      Elem strict (.mk name attrs [] []) ('<' :: (name ++ (ta ++ (w ++ ['/', '>']))))
  | full {name ta w text tc w2 : List Char} {attrs : List (List Char × List Char)} {kids : List Node} : NameOk name → Attrs strict attrs ta → (attrs.map (·.1)).Nodup → AllWs w →
      Content strict text kids tc → AllWs w2 →
      Elem strict (.mk name attrs text kids) ('<' :: (name ++ (ta ++ (w ++ '>' :: (tc ++ '<' :: '/' :: (name ++ (w2 ++ ['>'])))))))

/-- `t` is the content of an element: its text, without the markup, and its children. -/
inductive Content (strict : Bool) : List Char → List Node → List Char → Prop where
  | nil : Content strict [] [] []
  | char {c : Char} {s t : List Char} {kids : List Node} : c ≠ '<' → c ≠ '&' → Content strict s kids t → Content strict (c :: s) kids (c :: t)
  | entity {e : List Char} {c : Char} {s t : List Char} {kids : List Node} : (e, c) ∈ entities → Content strict s kids t → Content strict (c :: s) kids (e ++ t)
  | dec {ds s t : List Char} {kids : List Node} : ds ≠ [] → (∀ c ∈ ds, '0' ≤ c ∧ c ≤ '9') → CodeOk (decVal ds) → Content strict s kids t →
      Content strict (utf8 (decVal ds) ++ s) kids ('&' :: '#' :: (ds ++ ';' :: t))
  | hex {ds : List (Char × Nat)} {s t : List Char} {kids : List Node} : ds ≠ [] → (∀ p ∈ ds, p ∈ hexDigits) → CodeOk (hexNumVal ds) → Content strict s kids t →
      Content strict (utf8 (hexNumVal ds) ++ s) kids ('&' :: '#' :: 'x' :: (ds.map (·.1) ++ ';' :: t))
  | comment {b s t : List Char} {kids : List Node} : CommentText b → Content strict s kids t → Content strict s kids ("<!--".toList ++ (b ++ ("-->".toList ++ t)))
  | elem {k : Node} {e s t : List Char} {kids : List Node} : Elem strict k e → Content strict s kids t → Content strict s (k :: kids) (e ++ t)
end

/-- `t` is a document: an optional declaration, then the elements. (The grammar proper has one element and only blank text around it.) -/
inductive Doc (strict : Bool) : Node → List Char → Prop where
  | plain {w text t : List Char} {kids : List Node} : AllWs w → Content strict text kids t → (∀ c, t.head? = some c → ¬(c = ' ' ∨ c = '\t' ∨ c = '\n' ∨ c = '\r' ∨ c = '\x0b' ∨ c = '\x0c')) →
      Doc strict (.mk "xml".toList [] text kids) (w ++ t)
  | decl {w name ta w2 text t : List Char} {attrs : List (List Char × List Char)} {kids : List Node} : AllWs w → NameOk name → Attrs strict attrs ta → (attrs.map (·.1)).Nodup → AllWs w2 →
      Content strict text kids t → Doc strict (.mk name attrs text kids) (w ++ '<' :: '?' :: (name ++ (ta ++ (w2 ++ '?' :: '>' :: t))))

end Verif.Xml
