import Verif.Ubjson.Props

/-!
# Typed objects through UBJSON (C198)

`Serializer<UBJSONEngine>` of `/repo/include/bss-util/UBJSON.h:252-503` with `Serializer.h`, for the types built from `bool`, integers, floating point numbers (as their bits), strings, vectors, dynamic
arrays, fixed arrays, tuples and structures that list their members with `EvaluateType`. The integer type of one byte with a sign is `char`. The trie that finds a member by name
(`Serializer.h:272`) is replaced by the search through the names. Maps and variants are not modelled. The outcome `junk` also stands for an assertion that fails, and for conversions between
floating point numbers and other types.
-/

namespace Verif.UbjsonTyped

open Verif.Ubjson (R V toInt minOf maxOf intType writeInt writeLength writeTypeCount ofLe flip parseTypeCount parseString getType more close)

/-- The kinds of arrays: `std::vector`, `DynArray`, and `E[I]` or `std::array` with their number of elements. -/
inductive Kind where
  | vec | dyn | fixed (size : Nat)
  deriving DecidableEq

mutual
/-- A type of the program; integers by sign and bytes. -/
inductive Ty where
  | bool
  | int (sg : Bool) (w : Nat)
  /-- `float` or `double` -/
  | flt (dbl : Bool)
  | str
  | arr (k : Kind) (t : Ty)
  | tup (ts : Tys)
  | obj (fs : Fields)

/-- The types of the elements of a tuple. -/
inductive Tys where
  | nil
  | cons (t : Ty) (ts : Tys)

/-- The members of a structure. -/
inductive Fields where
  | nil
  | cons (n : List Nat) (t : Ty) (fs : Fields)
end

mutual
/-- The values of a type. -/
@[reducible] def Val : Ty → Type
  | .bool => Bool
  | .int _ _ => Int
  | .flt _ => Nat
  | .str => List Nat
  | .arr _ t => List (Val t)
  | .tup ts => Vals ts
  | .obj fs => FVals fs

@[reducible] def Vals : Tys → Type
  | .nil => Unit
  | .cons t ts => Val t × Vals ts

@[reducible] def FVals : Fields → Type
  | .nil => Unit
  | .cons _ t fs => Val t × FVals fs
end

/-! ## Code -/

mutual
/-- The value of a new element, `Serializer.h:147`, `DynArray.h:147`. -/
def blank : (t : Ty) → Val t
  | .bool => false
  | .int _ _ => (0 : Int)
  | .flt _ => (0 : Nat)
  | .str => []
  | .arr (.fixed n) t => List.replicate n (blank t)
  | .arr _ _ => []
  | .tup ts => blanks ts
  | .obj fs => fblanks fs

def blanks : (ts : Tys) → Vals ts
  | .nil => ()
  | .cons t ts => (blank t, blanks ts)

def fblanks : (fs : Fields) → FVals fs
  | .nil => ()
  | .cons _ t fs => (blank t, fblanks fs)
end

/-- `WriteUBJSONType`, `UBJSON.h:253-266`, of the elements of an array. Only `DynArray` is recognised as an array (`Serializer.h:65-66`); the elements of `DynArray<bool>` are bit references, which
count as objects. -/
def elemTag : Kind → Ty → Nat
  | .fixed _, .bool => 0
  | _, .int false 1 => 85
  | _, .int true 1 => 105
  | _, .int true 2 => 73
  | _, .int true 4 => 108
  | _, .int true 8 => 76
  | _, .flt false => 100
  | _, .flt true => 68
  | _, .str => 83
  | _, .arr .dyn _ => 91
  | _, _ => 123

/-- `WriteId`, `UBJSON.h:230-234`. -/
def writeId : Option (List Nat) → List Nat
  | none => []
  | some k => writeLength k.length ++ k

/-- The payload of an integer, `UBJSON.h:62-74` and `UBJSON.cpp:192-197`. -/
def payload (tag : Nat) (i : Int) : R (List Nat) :=
  if tag = 105 ∨ tag = 85 then .ok (writeInt 1 i)
  else if tag = 73 then .ok (writeInt 2 i)
  else if tag = 108 then .ok (writeInt 4 i)
  else if tag = 76 then .ok (writeInt 8 i)
  else .junk

/-- `SerializeNumber`, `UBJSON.h:482-488`, of an integer of the type. -/
def serInt (sg : Bool) (w : Nat) (i : Int) (type : Nat) : R (List Nat) :=
  let tag := if type = 0 then intType sg w i else type
  (payload tag i).bind fun b => .ok ((if type = 0 then [tag] else []) ++ b)

/-- The marker of the value: written if no type is expected (`type` is `e.engine.type`), otherwise it has to be the expected one, `UBJSON.cpp:142-145`, `UBJSON.h:415-418`, `:435-438`. -/
def mark (type tag : Nat) (wrong : R (List Nat)) : R (List Nat) :=
  if type = 0 then .ok [tag] else if type = tag then .ok [] else wrong

/-- Outputs one after the other. -/
def cat : List (R (List Nat)) → R (List Nat)
  | [] => .ok []
  | a :: l => a.bind fun x => (cat l).bind fun y => .ok (x ++ y)

mutual
/-- `Action::Serialize`, `Serializer.h:89-105`, with `Serialize`, `SerializeArray`, `SerializeTuple`, `SerializeNumber`, `SerializeBool` of `UBJSON.h:400-498`. The condition for writing the elements at
once (`:447`) is always true, so they are written one by one. -/
def ser : (t : Ty) → Val t → Option (List Nat) → Nat → R (List Nat)
  | .bool, b, id, type => .ok (writeId id ++ if type = 0 then [if b = true then 84 else 70] else [])
  | .int sg w, i, id, type => (serInt sg w i type).bind fun b => .ok (writeId id ++ b)
  | .flt d, i, id, type => (mark type (if d then 68 else 100) .junk).bind fun m => .ok (writeId id ++ (m ++ writeInt (if d then 8 else 4) i))
  | .str, v, id, type => (mark type 83 .junk).bind fun m => .ok (writeId id ++ (m ++ (writeLength v.length ++ v)))
  | .arr k t, l, id, type => (mark type 91 .junk).bind fun m =>
    if l.isEmpty then .ok (writeId id ++ (m ++ [93]))
    else (cat (l.map fun v => ser t v none (elemTag k t))).bind fun b => .ok (writeId id ++ (m ++ (writeTypeCount (elemTag k t) l.length ++ b)))
  | .tup ts, v, id, type => (mark type 91 .junk).bind fun m => (serAll ts v).bind fun b => .ok (writeId id ++ (m ++ (writeTypeCount 0 ts.length ++ b)))
  | .obj fs, v, id, type => (mark type 123 .reject).bind fun m => (serF fs v).bind fun b => .ok (writeId id ++ (m ++ (b ++ [125])))

/-- The elements of a tuple, `UBJSON.h:478-479`. -/
def serAll : (ts : Tys) → Vals ts → R (List Nat)
  | .nil, _ => .ok []
  | .cons t ts, v => (ser t v.1 none 0).bind fun x => (serAll ts v.2).bind fun y => .ok (x ++ y)

/-- The members of a structure, `Serializer.h:274-275`. -/
def serF : (fs : Fields) → FVals fs → R (List Nat)
  | .nil, _ => .ok []
  | .cons n t fs, v => (ser t v.1 (some n) 0).bind fun x => (serF fs v.2).bind fun y => .ok (x ++ y)

/-- The number of elements. -/
def Tys.length : Tys → Nat
  | .nil => 0
  | .cons _ ts => ts.length + 1
end

/-- `Serializer<UBJSONEngine>::Serialize(obj, s, name)`, `Serializer.h:249-257`. -/
def write (t : Ty) (v : Val t) (name : Option (List Nat)) : R (List Nat) := ser t v name 0

/-- A C string ends at its first zero. -/
def cstr (s : List Nat) : List Nat := s.takeWhile (· != 0)

/-- `ParseBool`, `UBJSON.h:379-398`. -/
def toBool (old : Bool) : V → R Bool
  | .null => .ok old
  | .tru => .ok true
  | .fls => .ok false
  | .chr v => .ok (v != 0)
  | .i8 v => .ok (v != 0)
  | .u8 v => .ok (v != 0)
  | .i16 v => .ok (v != 0)
  | .i32 v => .ok (v != 0)
  | .i64 v => .ok (v != 0)
  | .big _ => .ok old
  | _ => .junk

/-- `ParseNumber` for an integer type, `UBJSON.h:355-378`. -/
def toNum (sg : Bool) (w : Nat) (old : Int) : V → R Int
  | .null => .ok old
  | .tru => .ok 1
  | .fls => .ok 0
  | .chr v => .ok (Ubjson.cast sg w v)
  | .i8 v => .ok (Ubjson.cast sg w v)
  | .u8 v => .ok (Ubjson.cast sg w v)
  | .i16 v => .ok (Ubjson.cast sg w v)
  | .i32 v => .ok (Ubjson.cast sg w v)
  | .i64 v => .ok (Ubjson.cast sg w v)
  | .big _ => .ok old
  | _ => .junk

/-- `ParseNumber` for a floating point type, `UBJSON.h:355-378`; conversions are not modelled. -/
def toFlt (d : Bool) (old : Nat) : V → R Nat
  | .null => .ok old
  | .f32 b => if d then .junk else .ok b
  | .f64 b => if d then .ok b else .junk
  | .big _ => .ok old
  | _ => .junk

/-- The text of `std::to_string`. -/
def text (i : Int) : List Nat := (toString i).toList.map Char.toNat

/-- `Parse` for strings, `UBJSON.h:277-297`: characters fall through to the integers, and a string ends at its first zero. -/
def toStr (old : List Nat) : V → R (List Nat)
  | .chr v => .ok (text v)
  | .i8 v => .ok (text v)
  | .u8 v => .ok (text v)
  | .i16 v => .ok (text v)
  | .i32 v => .ok (text v)
  | .i64 v => .ok (text v)
  | .f32 _ => .junk
  | .f64 _ => .junk
  | .big s => .ok (cstr s)
  | .str s => .ok (cstr s)
  | _ => .ok old

/-- The start of `UBJSONTuple::Parse` with callbacks, `UBJSON.h:97-119, 138-143`, for an array (`want` = 91) or an object (123): element type and count. Another value is parsed without callbacks, and then
the assertion `:339` or `:352` fails. -/
def header (n want ty : Nat) (s : List Nat) : R ((Nat × Int) × List Nat) :=
  (if ty = 0 then getType s else .ok (ty, s)).bind fun r =>
    if r.1 = want then parseTypeCount r.2 else if r.1 = 0 then .reject else (Ubjson.parse n r.1 r.2).bind fun _ => .junk

/-- The loops of `UBJSON.h:121-136, 145-164`; the first number is fuel. -/
def loop {σ : Type} (f : σ → List Nat → R (σ × List Nat)) (stop : Nat) : Nat → Int → σ → List Nat → R (σ × List Nat)
  | 0, _, _, _ => .fuel
  | n + 1, count, o, s => if more count stop s then (f o s).bind fun r => loop f stop n (count - 1) r.1 r.2 else .ok (o, close count stop s)

/-- The size of a number in memory and its value there. -/
def raw : (t : Ty) → Option (Nat × (List Nat → Val t))
  | .int sg w => some (w, fun b => (toInt sg w (ofLe b) : Int))
  | .flt d => some (if d then 8 else 4, fun b => (ofLe b : Nat))
  | _ => none

/-- The elements of an array in memory. -/
def chunks {α : Type} (w : Nat) (f : List Nat → α) : Nat → List Nat → List α
  | 0, _ => []
  | m + 1, b => f (b.take w) :: chunks w f m (b.drop w)

/-- Is it a fixed array? -/
def Kind.isFixed : Kind → Bool
  | .fixed _ => true
  | _ => false

/-- `resize` and `SetLength`. -/
def resize {α : Type} (a : α) (l : List α) (n : Nat) : List α := l.take n ++ List.replicate (n - l.length) a

/-- Are the elements not trivially constructible (`Serializer.h:381`)? For the others that are not numbers the effect of reading bytes over them is not modelled. -/
def nontrivial : Ty → Bool
  | .str => true
  | .arr .vec _ => true
  | .arr .dyn _ => true
  | .tup _ => true
  | _ => false

/-- Elements of one byte are read at once, `UBJSON.h:117-119`: `Read` of a vector (`Serializer.h:150-154`; its iterators are no pointers, so nothing is read after it has been resized), of a dynamic array
(`:368-373`, none for `DynArray<bool>`) and of a fixed array (`:364-366`), with `BulkRead` (`:377-393`). The result says whether the loop is skipped. -/
def bulk (k : Kind) (t : Ty) (old : List (Val t)) (ty : Nat) (count : Int) (s : List Nat) : R (Bool × List (Val t) × List Nat) :=
  if 0 ≤ count ∧ (ty = 67 ∨ ty = 85 ∨ ty = 105) then
    match k, t with
    | .vec, t => .ok (false, resize (blank t) old count.toNat, s)
    | .dyn, .bool => .ok (false, old, s)
    | _, t =>
      let cur := if k = .dyn then resize (blank t) old count.toNat else old
      match raw t with
      | some (w, f) =>
        if cur.isEmpty then .ok (false, cur, s)
        else
          let m := min count.toNat cur.length
          (Ubjson.read (m * w) s).bind fun r => .ok (true, chunks w f m r.1 ++ cur.drop m, r.2)
      | none => if nontrivial t || cur.isEmpty then .ok (false, cur, s) else .junk
  else .ok (false, old, s)

mutual
/-- `Action::Parse`, `Serializer.h:73-88`, with `Parse`, `ParseMany`, `ParseArray`, `ParseNumber`, `ParseBool` of `UBJSON.h:274-398`: the object before, the expected type `e.engine.type` and the stream; `n` is
fuel. -/
def parse (n : Nat) : (t : Ty) → Val t → Nat → List Nat → R (Val t × List Nat)
  | .bool, old, ty, s => (Ubjson.parse n ty s).bind fun r => (toBool old r.1).bind fun v => .ok (v, r.2)
  | .int sg w, old, ty, s => (Ubjson.parse n ty s).bind fun r => (toNum sg w old r.1).bind fun v => .ok (v, r.2)
  | .flt d, old, ty, s => (Ubjson.parse n ty s).bind fun r => (toFlt d old r.1).bind fun v => .ok (v, r.2)
  | .str, old, ty, s => (Ubjson.parse n ty s).bind fun r => (toStr old r.1).bind fun v => .ok (v, r.2)
  | .arr k t, old, ty, s => (header n 91 ty s).bind fun c => (bulk k t old c.1.1 c.1.2 c.2).bind fun b =>
    if b.1 = true then .ok b.2
    else if k.isFixed = true then
      (loop (fun (o : List (Val t) × Nat) s =>
        if o.2 < o.1.length then (parse n t (o.1.getD o.2 (blank t)) c.1.1 s).bind fun r => .ok ((o.1.set o.2 r.1, o.2 + 1), r.2) else .ok (o, s))
        93 n c.1.2 (b.2.1, 0) b.2.2).bind fun r => .ok (r.1.1, r.2)
    else loop (fun o s => (parse n t (blank t) c.1.1 s).bind fun r => .ok (o ++ [r.1], r.2)) 93 n c.1.2 b.2.1 b.2.2
  | .tup ts, old, ty, s => (header n 91 ty s).bind fun c =>
    (loop (fun (o : Vals ts × Nat) s => (parseAt n ts o.1 o.2 c.1.1 s).bind fun r => .ok ((r.1, o.2 + 1), r.2)) 93 n c.1.2 (old, 0) c.2).bind fun r => .ok (r.1.1, r.2)
  | .obj fs, old, ty, s => (header n 123 ty s).bind fun c =>
    loop (fun o s => (parseString s).bind fun k => step n fs o (cstr k.1) c.1.1 k.2) 125 n c.1.2 old c.2

/-- The function `Add` of a tuple, `Serializer.h:168-176`: the element of the index, if there is one, is parsed. -/
def parseAt (n : Nat) : (ts : Tys) → Vals ts → Nat → Nat → List Nat → R (Vals ts × List Nat)
  | .nil, o, _, _, s => .ok (o, s)
  | .cons t _, o, 0, ty, s => (parse n t o.1 ty s).bind fun r => .ok ((r.1, o.2), r.2)
  | .cons _ ts, o, i + 1, ty, s => (parseAt n ts o.2 i ty s).bind fun r => .ok ((o.1, r.1), r.2)

/-- `FindParse`, `Serializer.h:328-359`: the member of the name, if there is one, is parsed. -/
def step (n : Nat) : (fs : Fields) → FVals fs → List Nat → Nat → List Nat → R (FVals fs × List Nat)
  | .nil, o, _, _, s => .ok (o, s)
  | .cons m t fs, o, k, ty, s =>
    if m = k then (parse n t o.1 ty s).bind fun r => .ok ((r.1, o.2), r.2)
    else (step n fs o.2 k ty s).bind fun r => .ok ((o.1, r.1), r.2)
end

/-- `Serializer<UBJSONEngine>::Parse(obj, s, name)`, `Serializer.h:259-267`; the name is not used. -/
def read (n : Nat) (t : Ty) (old : Val t) (s : List Nat) : R (Val t × List Nat) := parse n t old 0 s

/-! ## Specification -/

/-- The elements that arrays of the kind keep. -/
def Elem (k : Kind) : Ty → Prop
  | .bool => k.isFixed = true
  | .int sg w => (sg = true ∨ w = 1) ∧ ¬(k = .vec ∧ w = 1)
  | .flt _ => True
  | .str => True
  | .arr k' _ => k' = .dyn
  | .tup _ => False
  | .obj _ => True

/-- The names of the members. -/
def Fields.names : Fields → List (List Nat)
  | .nil => []
  | .cons n _ fs => n :: fs.names

mutual
/-- The types that are kept. -/
def Ty.Good : Ty → Prop
  | .bool => True
  | .int _ w => w = 1 ∨ w = 2 ∨ w = 4 ∨ w = 8
  | .flt _ => True
  | .str => True
  | .arr k t => Elem k t ∧ t.Good
  | .tup ts => ts.length < 2 ^ 63 ∧ ts.Good
  | .obj fs => fs.names.Nodup ∧ (∀ n ∈ fs.names, 0 ∉ n ∧ n.length < 2 ^ 63) ∧ fs.Good

def Tys.Good : Tys → Prop
  | .nil => True
  | .cons t ts => t.Good ∧ ts.Good

def Fields.Good : Fields → Prop
  | .nil => True
  | .cons _ t fs => t.Good ∧ fs.Good
end

/-- Fixed arrays have their number of elements. -/
def Kind.Size : Kind → Nat → Prop
  | .fixed n, m => m = n
  | _, _ => True

mutual
/-- The values that are kept: integers of the type below `2 ^ 63`, strings without zeros. -/
def Fine : (t : Ty) → Val t → Prop
  | .bool, _ => True
  | .int sg w, i => (if sg then -2 ^ (8 * w - 1) ≤ i ∧ i < 2 ^ (8 * w - 1) else 0 ≤ i ∧ i < 2 ^ (8 * w)) ∧ i < 2 ^ 63
  | .flt d, b => b < 2 ^ (if d then 64 else 32)
  | .str, s => 0 ∉ s ∧ s.length < 2 ^ 63
  | .arr k t, l => l.length < 2 ^ 63 ∧ k.Size l.length ∧ ∀ v ∈ l, Fine t v
  | .tup ts, l => FineA ts l
  | .obj fs, v => FineF fs v

def FineA : (ts : Tys) → Vals ts → Prop
  | .nil, _ => True
  | .cons t ts, v => Fine t v.1 ∧ FineA ts v.2

def FineF : (fs : Fields) → FVals fs → Prop
  | .nil, _ => True
  | .cons _ t fs, v => Fine t v.1 ∧ FineF fs v.2
end

mutual
/-- An object that is parsed into: its vectors and dynamic arrays are empty. -/
def Fresh : (t : Ty) → Val t → Prop
  | .arr (.fixed n) t, old => old.length = n ∧ ∀ o ∈ old, Fresh t o
  | .arr _ _, old => old = []
  | .tup ts, old => FreshA ts old
  | .obj fs, old => FreshF fs old
  | _, _ => True

def FreshA : (ts : Tys) → Vals ts → Prop
  | .nil, _ => True
  | .cons t ts, o => Fresh t o.1 ∧ FreshA ts o.2

def FreshF : (fs : Fields) → FVals fs → Prop
  | .nil, _ => True
  | .cons _ t fs, o => Fresh t o.1 ∧ FreshF fs o.2
end

end Verif.UbjsonTyped
