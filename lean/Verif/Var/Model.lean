/-!
# `Variant`

Models `/repo/include/bss-util/Variant.h`. Types are numbered; `all` is the list of template arguments. A value of any type is a number, or nothing after it was moved from. The storage is raw memory or holds a live object of a type.
Constructing over a live object, using an object that does not exist or has another type and a failed assertion are errors (`none`). Exceptions and serialization are not modelled.
-/

namespace Verif.Var

/-- `getpos`, `Variant.h:47-56`. -/
def getpos (x : Nat) : List Nat → Int
  | [] => -1
  | t :: ts => if x = t then 0 else if getpos x ts ≠ -1 then getpos x ts + 1 else -1

/-- The storage. -/
inductive Slot
  | raw
  | live (t : Nat) (v : Option Int)
  deriving DecidableEq, Repr

/-- The members, `Variant.h:264-269`. `objs` is not part of the program: it counts constructors less destructors that were run in the storage. -/
structure Var where
  tag : Int
  store : Slot
  objs : Int
  deriving DecidableEq, Repr

/-- `new(_store) T(v)`. -/
def Var.construct (t : Nat) (v : Option Int) (x : Var) : Option Var :=
  match x.store with
  | .raw => some { x with store := .live t v, objs := x.objs + 1 }
  | .live _ _ => none

/-- `~T()`. -/
def Var.destruct (t : Nat) (x : Var) : Option Var :=
  match x.store with
  | .raw => none
  | .live u _ => if t = u then some { x with store := .raw, objs := x.objs - 1 } else none

/-- The value of the object, as a `T`. -/
def Slot.read (t : Nat) : Slot → Option (Option Int)
  | .raw => none
  | .live u v => if t = u then some v else none

/-- Assignment to the object, as a `T`. -/
def Slot.write (t : Nat) (v : Option Int) : Slot → Option Slot
  | .raw => none
  | .live u _ => if t = u then some (.live t v) else none

/-- `_destroy`, `Variant.h:168-182`, for the types that are left. -/
def destroyU (all : List Nat) (x : Var) : List Nat → Option Var
  | [] => none
  | t :: ts => if x.tag = getpos t all then x.destruct t
    else if ts ≠ [] then destroyU all x ts else if x.tag = -1 then some x else none

/-- `_constructU`, `Variant.h:183-208`; the result is this and the other variant. `move` tells the two overloads apart. -/
def constructU (all : List Nat) (move : Bool) (x v : Var) : List Nat → Option (Var × Var)
  | [] => none
  | t :: ts => if x.tag = getpos t all then (v.store.read t).bind fun a => (x.construct t a).bind fun x =>
      (if move then v.store.write t none else some v.store).map fun s' => (x, { v with store := s' })
    else if ts ≠ [] then constructU all move x v ts else if x.tag = -1 then some (x, v) else none

/-- `_assignU`, `Variant.h:209-234`, for two variants. -/
def assignU (all : List Nat) (move : Bool) (x v : Var) : List Nat → Option (Var × Var)
  | [] => none
  | t :: ts => if x.tag = getpos t all then (v.store.read t).bind fun a => (x.store.write t a).bind fun s =>
      (if move then v.store.write t none else some v.store).map fun s' => ({ x with store := s }, { v with store := s' })
    else if ts ≠ [] then assignU all move x v ts else none

/-- `_convert`, `Variant.h:235-248`, and `_convertP`, `Variant.h:249-262`: which type the object is converted from, and its value. -/
def convertU (all : List Nat) (x : Var) : List Nat → Option (Nat × Option Int)
  | [] => none
  | t :: ts => if x.tag = getpos t all then (x.store.read t).map fun v => (t, v) else if ts ≠ [] then convertU all x ts else none

/-- `_construct` with a value, `Variant.h:122-137`. -/
def construct (all : List Nat) (t : Nat) (v : Option Int) (x : Var) : Option Var :=
  if getpos t all = -1 then none else ({ x with tag := getpos t all } : Var).construct t v

/-- `_assign` with a value, `Variant.h:139-166`. -/
def assign (all : List Nat) (t : Nat) (v : Option Int) (x : Var) : Option Var :=
  if getpos t all = -1 then none
  else if x.tag = getpos t all then (x.store.write t v).map fun s => { x with store := s }
  else (destroyU all x all).bind (construct all t v)

/-- `_assign` with a variant, `Variant.h:139-166`. -/
def assignVar (all : List Nat) (move : Bool) (x v : Var) : Option (Var × Var) :=
  if x.tag = v.tag then assignU all move x v all
  else (destroyU all x all).bind fun x => constructU all move { x with tag := v.tag } v all

/-- All variants, by number. `left` is not part of the program: it counts the objects in variants that were destroyed. -/
structure World where
  count : Nat
  var : Nat → Option Var
  left : Int

/-- Replaces a variant. -/
def World.upd (w : World) (i : Nat) (x : Option Var) : World := { w with var := fun j => if j = i then x else w.var j }

/-- Calls. `put` is an assignment to what `get` returned. `assignInner` assigns a value of type `t` that is a part of the object in the variant itself. -/
inductive Op
  | new
  | newValue (t : Nat) (v : Option Int)
  | newCopy (j : Nat)
  | newMove (j : Nat)
  | assign (i j : Nat)
  | moveAssign (i j : Nat)
  | assignValue (i t : Nat) (v : Option Int)
  | assignInner (i t : Nat)
  | typeset (i t : Nat)
  | put (i t : Nat) (v : Int)
  | destroy (i : Nat)
  deriving DecidableEq, Repr

/-- One call. Constructors and assignments: `Variant.h:59-73`; `typeset`: `Variant.h:98-105`; `get`: `Variant.h:74-87`. `dflt` is the value of a new object. -/
def step (all : List Nat) (dflt : Nat → Int) (w : World) : Op → Option World
  | .new => some ⟨w.count + 1, fun j => if j = w.count then some ⟨-1, .raw, 0⟩ else w.var j, w.left⟩
  | .newValue t v => (construct all t v ⟨0, .raw, 0⟩).map fun x => ⟨w.count + 1, fun j => if j = w.count then some x else w.var j, w.left⟩
  | .newCopy j => (w.var j).bind fun v => (constructU all false ⟨v.tag, .raw, 0⟩ v all).map fun p => ⟨w.count + 1, fun i => if i = w.count then some p.1 else w.var i, w.left⟩
  | .newMove j => (w.var j).bind fun v => (constructU all true ⟨v.tag, .raw, 0⟩ v all).map fun p => ⟨w.count + 1, fun i => if i = w.count then some p.1 else (w.upd j (some p.2)).var i, w.left⟩
  | .assign i j => (w.var i).bind fun x => (w.var j).bind fun v => (assignVar all false x v).map fun p => w.upd i (some p.1)
  | .moveAssign i j => (w.var i).bind fun x => (w.var j).bind fun v => (assignVar all true x v).map fun p => (w.upd j (some p.2)).upd i (some p.1)
  | .assignValue i t v => (w.var i).bind fun x => (assign all t v x).map fun x => w.upd i (some x)
  | .assignInner i t => (w.var i).bind fun x => if x.tag = getpos t all then none else (destroyU all x all).bind fun x => match x.store with
    | .raw => none
    | .live _ v => (construct all t v x).map fun x => w.upd i (some x)
  | .typeset i t => (w.var i).bind fun x => if getpos t all = -1 then none else (destroyU all x all).bind fun x => (({ x with tag := getpos t all } : Var).construct t (some (dflt t))).map fun x => w.upd i (some x)
  | .put i t v => (w.var i).bind fun x => if getpos t all ≠ -1 ∧ getpos t all = x.tag then (x.store.write t (some v)).map fun s => w.upd i (some { x with store := s }) else none
  | .destroy i => (w.var i).bind fun x => (destroyU all x all).map fun x => { w.upd i none with left := w.left + x.objs }

/-- `is`, `Variant.h:96-97`. -/
def is (all : List Nat) (x : Var) (t : Nat) : Bool := getpos t all = x.tag

/-- `get`, `Variant.h:74-87`. -/
def get (all : List Nat) (x : Var) (t : Nat) : Option (Option Int) := if getpos t all ≠ -1 ∧ getpos t all = x.tag then x.store.read t else none

/-- A program. -/
def run (all : List Nat) (dflt : Nat → Int) : World → List Op → Option World
  | w, [] => some w
  | w, op :: ops => (step all dflt w op).bind fun w => run all dflt w ops

/-- Before any variant exists. -/
def empty : World := ⟨0, fun _ => none, 0⟩

/-! ## Layout -/

/-- Size and alignment of a type. -/
structure Shape where
  size : Nat
  align : Nat
  deriving DecidableEq, Repr

/-- `max_sizeof`, `Variant.h:31-35`. -/
def maxSize : List Shape → Nat
  | [] => 0
  | [a] => a.size
  | a :: b :: r => if maxSize (b :: r) > a.size then maxSize (b :: r) else a.size

/-- `max_alignof::type`, `Variant.h:38-45`: for several types it is `std::conditional<...>` itself, an empty class, and not the type it selects. -/
def alignType : List Shape → Shape
  | [a] => a
  | _ => ⟨1, 1⟩

/-- The next multiple of `a`. -/
def roundUp (n a : Nat) : Nat := (n + a - 1) / a * a

/-- The members `_tag` (an `int`) and the union of `_store` and `_align`, `Variant.h:264-269`: offset of the union, and size and alignment of the variant, by the usual rules of layout. -/
structure Layout where
  offset : Nat
  size : Nat
  align : Nat
  deriving DecidableEq, Repr

@[inherit_doc Layout] def layout (ts : List Shape) : Layout :=
  let a := alignType ts
  let usize := roundUp (max (maxSize ts) a.size) a.align
  let off := roundUp 4 a.align
  ⟨off, roundUp (off + usize) (max 4 a.align), max 4 a.align⟩

end Verif.Var
