import Verif.Xml.Edit

/-!
# Typed objects through XML (C197)

`Serializer<XMLEngine>` of `/repo/include/bss-util/XML.h:141-305` with `Serializer.h`, for the types built from `bool`, integers, strings, vectors, fixed arrays, tuples and structures that list
their members with `EvaluateType`. The trie that finds a member by name (`Serializer.h:272`) is replaced by the search through the names. Floating point members, maps and variants are not
modelled; a value-initialized element of a vector is zero, false or empty. A null pointer that is used gives `none`.
-/

namespace Verif.XmlTyped

open Verif.Xml
open Verif.Json (isSpace AllWs cstr cstr_eq decimal digits digits_spec digit_facts)

mutual
/-- A type of the program. -/
inductive Ty where
  /-- `bool` -/
  | bool
  /-- an integer type of `w` bits, with or without a sign -/
  | int (sg : Bool) (w : Nat)
  /-- `std::string` and `Str` -/
  | str
  /-- `std::vector` and `DynArray` -/
  | vec (t : Ty)
  /-- `E[I]` and `std::array` (`tup = false`), `std::tuple` (`tup = true`) -/
  | fix (tup : Bool) (ts : Tys)
  /-- a structure -/
  | obj (fs : Fields)

/-- The types of the elements of an array or tuple. -/
inductive Tys where
  | nil
  | cons (t : Ty) (ts : Tys)

/-- The members of a structure. -/
inductive Fields where
  | nil
  | cons (n : List Char) (t : Ty) (fs : Fields)
end

mutual
/-- The values of a type. -/
@[reducible] def Val : Ty → Type
  | .bool => Bool
  | .int _ _ => Int
  | .str => List Char
  | .vec t => List (Val t)
  | .fix _ ts => Vals ts
  | .obj fs => FVals fs

@[reducible] def Vals : Tys → Type
  | .nil => Unit
  | .cons t ts => Val t × Vals ts

@[reducible] def FVals : Fields → Type
  | .nil => Unit
  | .cons _ t fs => Val t × FVals fs
end

/-! ## Code -/

mutual
/-- The value `T()` of a new element, `Serializer.h:147`. -/
def blank : (t : Ty) → Val t
  | .bool => false
  | .int _ _ => (0 : Int)
  | .str => []
  | .vec _ => []
  | .fix _ ts => blanks ts
  | .obj fs => fblanks fs

def blanks : (ts : Tys) → Vals ts
  | .nil => ()
  | .cons t ts => (blank t, blanks ts)

def fblanks : (fs : Fields) → FVals fs
  | .nil => ()
  | .cons _ t fs => (blank t, fblanks fs)
end

/-- `static_cast<T>` to an integer type of `w` bits. -/
def cast (sg : Bool) (w : Nat) (i : Int) : Int := if sg then (i + 2 ^ (w - 1)) % 2 ^ w - 2 ^ (w - 1) else i % 2 ^ w

/-- The lower case of an ASCII letter, as `STRICMP` compares. -/
def lower (c : Char) : Char := if 'A' ≤ c ∧ c ≤ 'Z' then Char.ofNat (c.toNat + 32) else c

/-- `ParseBool`, `XML.h:266-276`. -/
def parseBool (v : List Char) : Option Bool :=
  if (cstr v).map lower = "true".toList then some true
  else if (cstr v).map lower = "false".toList then some false
  else (evalInteger v).map fun i => i != 0

/-- The name of a node, `XML.h:50`. -/
def nm : Node → List Char
  | .mk n _ _ _ => n

/-- The attributes of a node, `XML.h:111`. -/
def attrsOf : Node → List (List Char × List Char)
  | .mk _ a _ _ => a

/-- The text of a node, `XML.h:66`. -/
def textOf : Node → List Char
  | .mk _ _ t _ => t

/-- The children of a node, `XML.h:109`. -/
def kidsOf : Node → List Node
  | .mk _ _ _ k => k

/-- `curindices`, `XML.h:303`: how many elements the arrays have got, by the name of their node. -/
abbrev Idx := List Char → Option Nat

/-- The index with an entry changed. -/
def setIdx (ix : Idx) (n : List Char) (i : Nat) : Idx := fun m => if m = n then some i else ix m

/-- A new entry is zero, `XML.h:250-252`. -/
def touch (ix : Idx) (n : List Char) : Idx := if ix n = none then setIdx ix n 0 else ix

/-- The number of elements. -/
def Tys.length : Tys → Nat
  | .nil => 0
  | .cons _ ts => ts.length + 1

mutual
/-- `Action::Parse`, `Serializer.h:73-88` with `XMLEngine::Parse` (`XML.h:210-231`), `ParseArray` (`:248-254`), `ParseNumber`, `ParseBool` and `ParseMany` (`:277-297`), where `curvalue` is not null:
the object before, the node `cur`, the text of `curvalue` and `curindices`; the object afterwards and the indices. -/
def parse : (t : Ty) → Val t → Node → List Char → Option Idx → Option (Val t × Option Idx)
  | .bool, _, _, v, ix => (parseBool v).map fun b => (b, ix)
  | .int sg w, _, _, v, ix => (evalInteger v).map fun i => (cast sg w i, ix)
  | .str, _, _, v, ix => some (v, ix)
  | .vec t, old, cur, v, ix =>
    match ix with
    | none => none
    | some ix => (parse t (blank t) cur v (some (touch ix (nm cur)))).map fun r => (old ++ [r.1], r.2)
  | .fix tup ts, old, cur, v, ix =>
    match ix with
    | none => none
    | some ix =>
      let i := (ix (nm cur)).getD 0
      parseAt ts old i cur v (some (if tup || decide (i < ts.length) then setIdx ix (nm cur) (i + 1) else touch ix (nm cur)))
  | .obj fs, old, cur, _, ix =>
    match (attrsOf cur).foldlM (fun (s : FVals fs × Option Idx) a => step fs s.1 a.1 cur a.2 s.2) (old, some fun _ => none) with
    | none => none
    | some s => ((kidsOf cur).foldlM (fun (s : FVals fs × Option Idx) k => step fs s.1 (nm k) k (textOf k) s.2) s).map fun s => (s.1, ix)

/-- `FixedAdd`, `Serializer.h:361-362`, and the function `Add` of a tuple, `:168-176`: the element of the index, if there is one, is parsed. -/
def parseAt : (ts : Tys) → Vals ts → Nat → Node → List Char → Option Idx → Option (Vals ts × Option Idx)
  | .nil, o, _, _, _, ix => some (o, ix)
  | .cons t _, o, 0, cur, v, ix => (parse t o.1 cur v ix).map fun r => ((r.1, o.2), r.2)
  | .cons _ ts, o, i + 1, cur, v, ix => (parseAt ts o.2 i cur v ix).map fun r => ((o.1, r.1), r.2)

/-- `FindParse`, `Serializer.h:328-359`: the member of the name, if there is one, is parsed. -/
def step : (fs : Fields) → FVals fs → List Char → Node → List Char → Option Idx → Option (FVals fs × Option Idx)
  | .nil, o, _, _, _, ix => some (o, ix)
  | .cons n t fs, o, m, cur, v, ix =>
    if n = m then (parse t o.1 cur v ix).map fun r => ((r.1, o.2), r.2)
    else (step fs o.2 m cur v ix).map fun r => ((o.1, r.1), r.2)
end

/-- `GetNode(const char*)`, `XML.h:53-54`: the last node of the name. -/
def getNode (l : List Node) (n : List Char) : Option Node := (l.filter fun k => decide (nm k = n)).getLast?

/-- `Serializer<XMLEngine>::Parse(obj, s, id)`, `Serializer.h:259-267`, on the tree that `Begin` reads (`XML.h:146-156`): arrays take the nodes of the name (`XML.h:235-247`), structures and
strings the last one (`:213-230`). -/
def parseTop (t : Ty) (old : Val t) (id : Option (List Char)) (file : Node) : Option (Val t) :=
  match t, old, id with
  | .bool, _, _ => none
  | .int _ _, _, _ => none
  | .str, old, some n =>
    match getNode (kidsOf file) n with
    | none => some old
    | some k => some (textOf k)
  | .str, _, none => none
  | .obj fs, old, some n =>
    match getNode (kidsOf file) n with
    | none => some old
    | some k => (parse (.obj fs) old k (textOf k) none).map (·.1)
  | .obj fs, old, none => (parse (.obj fs) old file [] none).map (·.1)
  | .vec t, old, some n =>
    ((kidsOf file).filter fun k => decide (nm k = n)).foldlM (fun l k => (parse t (blank t) k (textOf k) none).map fun r => l ++ [r.1]) old
  | .fix _ ts, old, some n =>
    (((kidsOf file).filter fun k => decide (nm k = n)).foldlM (fun (s : Vals ts × Nat) k => (parseAt ts s.1 s.2 k (textOf k) none).map fun r => (r.1, s.2 + 1)) (old, 0)).map (·.1)
  | .vec _, _, none => none
  | .fix _ _, _, none => none

/-- A text as an attribute, or as the text of a new node: `id ? cur->AddAttribute(id) : &cur->AddNode(arrayID)->GetValue()`, `XML.h:167-168, 195-202, 206-207`. A null name is an empty one,
`Str.h:165`. -/
def put (s : List Char) (id arr : Option (List Char)) (A : List (List Char × List Char)) (K : List Node) : List (List Char × List Char) × List Node :=
  match id with
  | some n => (addAttr A n s, K)
  | none => (A, K ++ [.mk (arr.getD []) [] s []])

mutual
/-- `Action::Serialize`, `Serializer.h:89-105`, with `XMLEngine::Serialize`, `SerializeArray`, `SerializeTuple`, `SerializeNumber`, `SerializeBool`, `XML.h:162-208`: the attributes and nodes of `cur`
before and afterwards; `arr` is `arrayID`. -/
def ser : (t : Ty) → Val t → Option (List Char) → Option (List Char) → List (List Char × List Char) → List Node → List (List Char × List Char) × List Node
  | .bool, b, id, arr, A, K => put (if b = true then "true".toList else "false".toList) id arr A K
  | .int _ _, i, id, arr, A, K => put (decimal (cast true 64 i)) id arr A K
  | .str, s, id, arr, A, K => put s id arr A K
  | .vec t, l, id, _, A, K => l.foldl (fun s v => ser t v none id s.1 s.2) (A, K)
  | .fix _ ts, l, id, _, A, K => serAll ts l id A K
  | .obj fs, v, id, arr, A, K =>
    let r := serF fs v arr [] []
    (A, K ++ [.mk (id.getD (arr.getD [])) r.1 [] r.2])

/-- The elements of a fixed array or tuple, `XML.h:183-184`, `:190`. -/
def serAll : (ts : Tys) → Vals ts → Option (List Char) → List (List Char × List Char) → List Node → List (List Char × List Char) × List Node
  | .nil, _, _, A, K => (A, K)
  | .cons t ts, v, arr, A, K =>
    let s := ser t v.1 none arr A K
    serAll ts v.2 arr s.1 s.2

/-- The members of a structure, `EvaluateType`, `Serializer.h:274-275`. -/
def serF : (fs : Fields) → FVals fs → Option (List Char) → List (List Char × List Char) → List Node → List (List Char × List Char) × List Node
  | .nil, _, _, A, K => (A, K)
  | .cons n t fs, v, arr, A, K =>
    let s := ser t v.1 (some n) arr A K
    serF fs v.2 arr s.1 s.2
end

/-- The tree that `Serializer<XMLEngine>::Serialize(obj, s, id)` builds, `Serializer.h:249-257`, `XML.h:146-153`. -/
def serTop (t : Ty) (v : Val t) (id : Option (List Char)) : Node :=
  let r := ser t v id none [] []
  .mk "xml".toList r.1 [] r.2

/-- `Serialize` to a stream, `XML.h:157-161`. -/
def writeX (pretty : Bool) (t : Ty) (v : Val t) (id : Option (List Char)) : List Char := writeFile pretty (serTop t v id)

/-- `Parse` from a stream, `XML.h:154-155`. -/
def parseX (t : Ty) (old : Val t) (id : Option (List Char)) (s : List Char) : Option (Val t) :=
  match readFile s with
  | none => none
  | some f => parseTop t old id f

/-! ## Specification -/

/-- An array type. -/
def Ty.arr : Ty → Bool
  | .vec _ => true
  | .fix _ _ => true
  | _ => false

/-- The names of the members. -/
def Fields.names : Fields → List (List Char)
  | .nil => []
  | .cons n _ fs => n :: fs.names

mutual
/-- The types that are kept: at most 64 bits, no arrays of arrays, members of different names that XML can express. -/
def Ty.Flat : Ty → Prop
  | .bool => True
  | .int _ w => 1 ≤ w ∧ w ≤ 64
  | .str => True
  | .vec t => t.arr = false ∧ t.Flat
  | .fix _ ts => ts.Flat
  | .obj fs => fs.names.Nodup ∧ (∀ n ∈ fs.names, NameOk n) ∧ fs.Flat

def Tys.Flat : Tys → Prop
  | .nil => True
  | .cons t ts => t.arr = false ∧ t.Flat ∧ ts.Flat

def Fields.Flat : Fields → Prop
  | .nil => True
  | .cons _ t fs => t.Flat ∧ fs.Flat
end

mutual
/-- The values that are kept: integers of the type, and strings without `"`, `>` and zero bytes as members, or with a visible character (or empty) as elements of arrays. -/
def Fine : (t : Ty) → Val t → Bool → Prop
  | .bool, _, _ => True
  | .int sg w, i, _ => if sg then -2 ^ (w - 1) ≤ i ∧ i < 2 ^ (w - 1) else 0 ≤ i ∧ i < 2 ^ w
  | .str, s, elem => if elem then TextOk s else AttrOk false s
  | .vec t, l, _ => ∀ v ∈ l, Fine t v true
  | .fix _ ts, l, _ => FineA ts l
  | .obj fs, v, _ => FineF fs v

def FineA : (ts : Tys) → Vals ts → Prop
  | .nil, _ => True
  | .cons t ts, v => Fine t v.1 true ∧ FineA ts v.2

def FineF : (fs : Fields) → FVals fs → Prop
  | .nil, _ => True
  | .cons _ t fs, v => Fine t v.1 false ∧ FineF fs v.2
end

mutual
/-- An object that is parsed into: its vectors are empty. -/
def Fresh : (t : Ty) → Val t → Prop
  | .vec _, l => l = []
  | .fix _ ts, l => FreshA ts l
  | .obj fs, v => FreshF fs v
  | _, _ => True

def FreshA : (ts : Tys) → Vals ts → Prop
  | .nil, _ => True
  | .cons t ts, v => Fresh t v.1 ∧ FreshA ts v.2

def FreshF : (fs : Fields) → FVals fs → Prop
  | .nil, _ => True
  | .cons _ t fs, v => Fresh t v.1 ∧ FreshF fs v.2
end

end Verif.XmlTyped
