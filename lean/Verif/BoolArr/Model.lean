import Verif.Arith.IntDiv
import Verif.Common.Mem

/-!
# Model of the packed `DynArray<bool>` (`/repo/include/bss-util/DynArray.h:166-337`)

The block is a list of bytes (`STORE = uint8_t`, `DIV_AMT = 8`, `MOD_AMT = 7`).  Memory obtained by growing holds
arbitrary bytes, given by `junk`.  `none` is an access outside the block.  Sizes do not overflow `CType`.
-/

namespace Verif.BoolArr

/-- `_array`/`_capacity` (in bytes) and `_length` (in bits). -/
structure BArr where
  arr : List (BitVec 8)
  len : Nat
  deriving DecidableEq, Repr

/-- `_maxChunks(n)`, `DynArray.h:296` with `T_NEXTMULTIPLE(n, 7)`, `defines.h:55`; `& ~7` written as clearing the low
three bits. -/
def maxChunks (n : Nat) : Nat := (n + 7) / 8 * 8

/-- `GetBit(i) = f`: `DynArray.h:295`, `BitField.h:18-22`, `T_SETBIT` of `defines.h:56`. -/
def setBit (arr : List (BitVec 8)) (i : Nat) (f : Bool) : Option (List (BitVec 8)) := do
  let w ← rd arr (i / 8)
  let b := 1#8 <<< (i % 8)
  wr arr (i / 8) ((w &&& ~~~b) ||| ((-(if f then 1#8 else 0#8)) &&& b))

/-- `operator[]`, `DynArray.h:245`. -/
def getBit (arr : List (BitVec 8)) (i : Nat) : Option Bool := do
  let w ← rd arr (i / 8)
  some ((w &&& (1#8 <<< (i % 8))) != 0#8)

/-- `BASE::_setCapacity(capacity)`, `Array.h:136-141`. -/
def setCap (junk : Nat → BitVec 8) (arr : List (BitVec 8)) (c : Nat) : List (BitVec 8) :=
  arr.take c ++ (List.range' arr.length (c - arr.length)).map junk

/-- `_checkSize`, `DynArray.h:329-334`. -/
def checkSize (junk : Nat → BitVec 8) (b : BArr) : BArr :=
  if b.len ≥ b.arr.length * 8 then { b with arr := setCap junk b.arr (Arith.fbnextN b.arr.length) } else b

/-- `Add`, `DynArray.h:193`. -/
def add (junk : Nat → BitVec 8) (b : BArr) (f : Bool) : Option (BArr × Nat) :=
  let b := checkSize junk b
  (setBit b.arr b.len f).map fun a => (⟨a, b.len + 1⟩, b.len)

/-- `AddConstruct`, `DynArray.h:194`: the subscript of the byte array is the bit count. -/
def addConstruct (junk : Nat → BitVec 8) (b : BArr) : Option (BArr × Nat) :=
  let b := checkSize junk b
  (wr b.arr b.len 0#8).map fun a => (⟨a, b.len + 1⟩, b.len)

/-- The loop of `_shiftDelete`, `DynArray.h:305-309`: `n` iterations from `i`. -/
def delLoop : Nat → Nat → List (BitVec 8) → Option (List (BitVec 8))
  | 0, _, a => some a
  | n + 1, i, a =>
    (rd a (i - 1)).bind fun p => (rd a i).bind fun c =>
      (wr a (i - 1) ((p &&& (255#8 >>> 1)) ||| ((c &&& 1#8) <<< 7))).bind fun a =>
        (wr a i (c >>> 1)).bind fun a => delLoop n (i + 1) a

/-- `_shiftDelete`, `DynArray.h:297-310`. -/
def shiftDelete (arr : List (BitVec 8)) (length index : Nat) : Option (List (BitVec 8)) :=
  let ind := index / 8
  let mask := 255#8 <<< (index % 8)
  (rd arr ind).bind fun w =>
    (wr arr ind (((w >>> 1) &&& mask) ||| (w &&& ~~~mask))).bind fun a =>
      delLoop (maxChunks length / 8 - (ind + 1)) (ind + 1) a

/-- `Remove`, `DynArray.h:195-200`. -/
def remove (b : BArr) (index : Nat) : Option BArr :=
  if index < b.len then (shiftDelete b.arr b.len index).map fun a => ⟨a, b.len - 1⟩ else none

/-- `RemoveLast`, `DynArray.h:201`. -/
def removeLast (b : BArr) : Option BArr := if b.len = 0 then none else some { b with len := b.len - 1 }

/-- The loop of `_shiftInsert`, `DynArray.h:322-326`. -/
def insLoop : Nat → Nat → BitVec 8 → List (BitVec 8) → Option (List (BitVec 8))
  | 0, _, _, a => some a
  | n + 1, i, store, a =>
    (rd a i).bind fun c =>
      let c' := (store >>> 7) ||| ((c <<< 1) &&& ~~~1#8)
      (wr a i c').bind fun a => insLoop n (i + 1) c' a

/-- `_shiftInsert` after `_checkSize`, `DynArray.h:314-326`. -/
def shiftInsert (arr : List (BitVec 8)) (length index : Nat) : Option (List (BitVec 8)) :=
  let ind := index / 8
  let mask := 255#8 <<< (index % 8)
  (rd arr ind).bind fun store =>
    (wr arr ind (((store &&& mask) <<< 1) ||| (store &&& ~~~mask))).bind fun a =>
      insLoop (maxChunks (length + 1) / 8 - (ind + 1)) (ind + 1) store a

/-- `Insert`, `DynArray.h:202-207`. -/
def insert (junk : Nat → BitVec 8) (b : BArr) (f : Bool) (index : Nat) : Option BArr :=
  let b := checkSize junk b
  (shiftInsert b.arr b.len index).bind fun a => (setBit a index f).map fun a => ⟨a, b.len + 1⟩

/-- `for(i = _length; i < length; ++i) GetBit(i) = false`, `DynArray.h:213`. -/
def clearFrom : Nat → Nat → List (BitVec 8) → Option (List (BitVec 8))
  | 0, _, a => some a
  | n + 1, i, a => (setBit a i false).bind (clearFrom n (i + 1))

/-- `SetLength`, `DynArray.h:210-215`. -/
def setLength (junk : Nat → BitVec 8) (b : BArr) (length : Nat) : Option BArr :=
  let arr := if length > b.arr.length * 8 then setCap junk b.arr (maxChunks length / 8) else b.arr
  (clearFrom (length - b.len) b.len arr).map fun a => ⟨a, length⟩

/-- `Flip`, `DynArray.h:217`. -/
def flip (b : BArr) : BArr := { b with arr := b.arr.map (~~~ ·) }

/-- `a[i] = f` through the non-const `operator[]`, `DynArray.h:246`. -/
def put (b : BArr) (i : Nat) (f : Bool) : Option BArr :=
  if i < b.len then (setBit b.arr i f).map fun a => { b with arr := a } else none

/-- Constructor `DynArray(CT capacity)`, `DynArray.h:184`. -/
def new (junk : Nat → BitVec 8) (capacity : Nat) : BArr := ⟨setCap junk [] (maxChunks capacity / 8), 0⟩

/-- Copy assignment, `DynArray.h:255-262`: `memcpy` of `_capacity` bytes of the *destination*. -/
def assign (b copy : BArr) : Option BArr :=
  let cap := if copy.len > b.arr.length * 8 then copy.arr.length else b.arr.length
  if cap ≤ copy.arr.length then some ⟨copy.arr.take cap, copy.len⟩ else none

/-- Copy constructor, `DynArray.h:182`. -/
def copyOf (copy : BArr) : BArr := copy

/-- `Front() const` and `Back() const`, `DynArray.h:241-242`: the subscript is applied to the bytes. -/
def frontConst (b : BArr) : Option Bool := (rd b.arr 0).map (· != 0#8)
def backConst (b : BArr) : Option Bool := if b.len = 0 then none else (rd b.arr (b.len - 1)).map (· != 0#8)

end Verif.BoolArr
