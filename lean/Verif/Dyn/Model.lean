import Verif.Arith.IntDiv

/-!
# Model of `DynArray`, `Stack` and `RandomQueue`
(`/repo/include/bss-util/{Array,DynArray,Stack,RandomQueue}.h`)

The allocated block is a list of slots: raw memory, a constructed element, or an element whose value was moved away.
`Kind.simple` stands for the `memmove` based array types (`ARRAY_SIMPLE`, `ARRAY_CONSTRUCT`), `Kind.safe` for the ones
that move elements one by one (`ARRAY_SAFE`, `ARRAY_MOVE`).  After a `memmove` the bytes left behind are no longer an
element, so that slot is raw.  An operation returns `none` for undefined behaviour: an access outside the block or
using a raw or moved-from slot as a value.  Allocation never fails and sizes do not overflow `CType`.
-/

namespace Verif.Dyn

inductive Slot (α : Type)
  | raw
  | moved
  | val (x : α)
  deriving DecidableEq, Repr

inductive Kind
  | simple
  | safe
  deriving DecidableEq, Repr

/-- `_array`/`_capacity` (`Array.h:261-262`; the capacity is the length of the block) and `_length` (`DynArray.h:163`). -/
structure Dyn (α : Type) where
  arr : List (Slot α)
  len : Nat
  deriving DecidableEq, Repr

variable {α : Type}

def Dyn.cap (d : Dyn α) : Nat := d.arr.length

/-- Constructor `DynArray(CT capacity)`, `DynArray.h:32`. -/
def new (capacity : Nat) : Dyn α := ⟨List.replicate capacity .raw, 0⟩

/-- `new(p + i) T(x)`. -/
def construct (a : List (Slot α)) (i : Nat) (x : α) : Option (List (Slot α)) :=
  if i < a.length then some (a.set i (.val x)) else none

/-- `p[j] = std::move(p[i])`. -/
def moveAssign (a : List (Slot α)) (i j : Nat) : Option (List (Slot α)) :=
  match a[i]?, a[j]? with
  | some (.val x), some (.val _) => some ((a.set j (.val x)).set i .moved)
  | some (.val x), some .moved => some ((a.set j (.val x)).set i .moved)
  | _, _ => none

/-- `new(p + j) T(std::move(p[i]))`. -/
def moveConstruct (a : List (Slot α)) (i j : Nat) : Option (List (Slot α)) :=
  match a[i]?, a[j]? with
  | some (.val x), some _ => some ((a.set j (.val x)).set i .moved)
  | _, _ => none

/-- `p[i] = x` for a constructed (perhaps moved-from) element. -/
def assignAt (a : List (Slot α)) (i : Nat) (x : α) : Option (List (Slot α)) :=
  match a[i]? with
  | some (.val _) => some (a.set i (.val x))
  | some .moved => some (a.set i (.val x))
  | _ => none

/-- `p[i].~T()`. -/
def destroyAt (a : List (Slot α)) (i : Nat) : Option (List (Slot α)) :=
  match a[i]? with
  | some (.val _) => some (a.set i .raw)
  | some .moved => some (a.set i .raw)
  | _ => none

/-- The loop `for(i = n; i < old; ++i) dest[i].~T()` of `_setLength`, `Array.h:157-158` (`k` iterations from `n`). -/
def destroyFrom : Nat → Nat → List (Slot α) → Option (List (Slot α))
  | _, 0, a => some a
  | n, k + 1, a => (destroyAt a n).bind (destroyFrom (n + 1) k)

/-- The loop `for(i = old; i < n; ++i) new(dest + i) T()` of `_setLength`, `Array.h:160-161`; `init i` is the value
element `i` gets (for `ARRAY_SIMPLE` whatever the memory holds). -/
def constructFrom (init : Nat → α) : Nat → Nat → List (Slot α) → Option (List (Slot α))
  | _, 0, a => some a
  | n, k + 1, a => (construct a n (init n)).bind (constructFrom init (n + 1) k)

/-- `realloc`-like `_setCapacity(capacity)`, `Array.h:136-141`: the common prefix of the block survives. -/
def realloc (a : List (Slot α)) (capacity : Nat) : List (Slot α) :=
  a.take capacity ++ List.replicate (capacity - a.length) .raw

/-- The loop `new(dest + i) T(std::move(src[i]))` of `_copyMove`, `Array.h:202-203` (and of `_copy`, `Array.h:217-218`):
`k` iterations, destination position `di`, source position `si`. -/
def copyLoop : Nat → Nat → Nat → List (Slot α) → List (Slot α) → Option (List (Slot α))
  | 0, _, _, dst, _ => some dst
  | k + 1, di, si, dst, src =>
    match src[si]? with
    | some (.val x) => (construct dst di x).bind fun dst => copyLoop k (di + 1) (si + 1) dst src
    | _ => none

/-- `_setCapacity(capacity, length)`, `Array.h:165-178`. -/
def setCap (kind : Kind) (d : Dyn α) (capacity : Nat) : Option (Dyn α) :=
  match kind with
  | .simple => some { d with arr := realloc d.arr capacity }
  | .safe =>
    (copyLoop (min d.len capacity) 0 0 (List.replicate capacity .raw) d.arr).map fun n => { d with arr := n }

/-- `_checkSize`, `DynArray.h:156-161`. -/
def checkSize (kind : Kind) (d : Dyn α) : Option (Dyn α) :=
  if d.len ≥ d.cap then setCap kind d (Arith.fbnextN d.cap) else some d

/-- `Add`, `DynArray.h:41-42`; returns the index of the new element. -/
def add (kind : Kind) (d : Dyn α) (x : α) : Option (Dyn α × Nat) :=
  (checkSize kind d).bind fun d =>
    (construct d.arr d.len x).map fun a => (⟨a, d.len + 1⟩, d.len)

/-- `memmove(p + dst, p + src, n)`. -/
def memmove (a : List (Slot α)) (dst src n : Nat) : Option (List (Slot α)) :=
  if dst + n ≤ a.length ∧ src + n ≤ a.length then
    some (a.take dst ++ (a.drop src).take n ++ a.drop (dst + n))
  else none

/-- `std::move_backward(p + first, p + first + k, p + first + k + 1)`, as used in `Array.h:238`. -/
def moveBackward (first : Nat) : Nat → List (Slot α) → Option (List (Slot α))
  | 0, a => some a
  | k + 1, a => (moveAssign a (first + k) (first + k + 1)).bind (moveBackward first k)

/-- `std::move(p + i + 1, p + i + 1 + k, p + i)`, as used in `Array.h:250`. -/
def moveForward : Nat → Nat → List (Slot α) → Option (List (Slot α))
  | 0, _, a => some a
  | k + 1, i, a => (moveAssign a (i + 1) i).bind (moveForward k (i + 1))

/-- `ArrayBase::_insert`, `Array.h:223-244`. -/
def insertRaw (kind : Kind) (a : List (Slot α)) (length index : Nat) (x : α) : Option (List (Slot α)) :=
  match kind with
  | .simple => (memmove a (index + 1) index (length - index)).bind fun a => construct a index x
  | .safe =>
    if index < length then
      (moveConstruct a (length - 1) length).bind fun a =>
        (moveBackward index (length - 1 - index) a).bind fun a => assignAt a index x
    else construct a index x

/-- `Insert`, `DynArray.h:51-52,151-155`. -/
def insert (kind : Kind) (d : Dyn α) (x : α) (index : Nat) : Option (Dyn α) :=
  if index ≤ d.len then
    (checkSize kind d).bind fun d => (insertRaw kind d.arr d.len index x).map fun a => ⟨a, d.len + 1⟩
  else none

/-- `ArrayBase::_remove`, `Array.h:245-259`. -/
def removeRaw (kind : Kind) (a : List (Slot α)) (length index : Nat) : Option (List (Slot α)) :=
  match kind with
  | .safe => (moveForward (length - 1 - index) index a).bind fun a => destroyAt a (length - 1)
  | .simple =>
    (destroyAt a index).bind fun a =>
      (memmove a index (index + 1) (length - index - 1)).map fun a => a.set (length - 1) .raw

/-- `Remove`, `DynArray.h:45-49`. -/
def remove (kind : Kind) (d : Dyn α) (index : Nat) : Option (Dyn α) :=
  if index < d.len then (removeRaw kind d.arr d.len index).map fun a => ⟨a, d.len - 1⟩ else none

/-- `RemoveLast`, `DynArray.h:50`. -/
def removeLast (kind : Kind) (d : Dyn α) : Option (Dyn α) :=
  if d.len = 0 then none else remove kind d (d.len - 1)

/-- `SetLength`, `DynArray.h:64-70`; `init i` is what a freshly constructed element `i` holds. -/
def setLength (kind : Kind) (init : Nat → α) (d : Dyn α) (length : Nat) : Option (Dyn α) :=
  (if length < d.len then (destroyFrom length (d.len - length) d.arr).map fun a => { d with arr := a } else some d).bind
    fun d1 =>
  (if length > d1.cap then setCap kind d1 length else some d1).bind fun d2 =>
  (if length > d2.len then constructFrom init d2.len (length - d2.len) d2.arr else some d2.arr).map fun a => ⟨a, length⟩

/-- `SetCapacity`, `DynArray.h:71`. -/
def setCapacity (kind : Kind) (d : Dyn α) (capacity : Nat) : Option (Dyn α) :=
  if capacity > d.cap then setCap kind d capacity else some d

/-- `operator+=` of a different array, `DynArray.h:114-120`. -/
def append (kind : Kind) (d e : Dyn α) : Option (Dyn α) :=
  (setCap kind d (d.len + e.len)).bind fun d1 =>
    (copyLoop e.len d1.len 0 d1.arr e.arr).map fun a => ⟨a, d1.len + e.len⟩

/-- `operator+=` with itself: `add` is the same object, so it sees the new block. -/
def appendSelf (kind : Kind) (d : Dyn α) : Option (Dyn α) :=
  (setCap kind d (d.len + d.len)).bind fun d1 =>
    (copyLoop d1.len d1.len 0 d1.arr d1.arr).map fun a => ⟨a, d1.len + d1.len⟩

/-- Copy constructor, `DynArray.h:27`. -/
def copyOf (d : Dyn α) : Option (Dyn α) :=
  (copyLoop d.len 0 0 (List.replicate d.cap .raw) d.arr).map fun a => ⟨a, d.len⟩

/-- `operator+`, `DynArray.h:121-128`. -/
def plus (d e : Dyn α) : Option (Dyn α) :=
  (copyLoop d.len 0 0 (List.replicate (d.len + e.len) .raw) d.arr).bind fun r =>
    (copyLoop e.len d.len 0 r e.arr).map fun a => ⟨a, d.len + e.len⟩

/-- `operator=(const DynArray&)` from a different array, `DynArray.h:103-111`. -/
def assign (d copy : Dyn α) : Option (Dyn α) :=
  (destroyFrom 0 d.len d.arr).bind fun a =>
    let a := if copy.len > d.cap then List.replicate copy.cap .raw else a
    (copyLoop copy.len 0 0 a copy.arr).map fun a => ⟨a, copy.len⟩

/-- `operator=(const DynArray&)` from itself for an element type with a destructor: the elements are destroyed first and
then read again through `copy`. -/
def assignSelf (d : Dyn α) : Option (Dyn α) :=
  (destroyFrom 0 d.len d.arr).bind fun a =>
    (copyLoop d.len 0 0 a a).map fun a => ⟨a, d.len⟩

/-- `Set(const T* p, CT n)`, `DynArray.h:54-61`. -/
def set (d : Dyn α) (p : List α) : Option (Dyn α) :=
  (destroyFrom 0 d.len d.arr).bind fun a =>
    let a := if p.length > d.cap then List.replicate p.length .raw else a
    (copyLoop p.length 0 0 a (p.map .val)).map fun a => ⟨a, p.length⟩

/-- `operator=(Array&& mov)`, `DynArray.h:102`: `mov._capacity` has already been reset to 0 by the base class
(`Array.h:122-133`) when it is read into `_length`. -/
def assignArrayMove (d : Dyn α) (mov : List (Slot α)) : Option (Dyn α × List (Slot α)) :=
  (destroyFrom 0 d.len d.arr).map fun _ => (⟨mov, ([] : List (Slot α)).length⟩, [])

/-- `operator[]`. -/
def get (d : Dyn α) (i : Nat) : Option α :=
  match d.arr[i]? with
  | some (.val x) => some x
  | _ => none

/-- `arr[i] = x` by the user through the non-const `operator[]`. -/
def put (d : Dyn α) (i : Nat) (x : α) : Option (Dyn α) := (assignAt d.arr i x).map fun a => { d with arr := a }

/-- `Front`, `DynArray.h:74,76`. -/
def front (d : Dyn α) : Option α := if d.len = 0 then none else get d 0

/-- `Back`, `DynArray.h:75,77`. -/
def back (d : Dyn α) : Option α := if d.len = 0 then none else get d (d.len - 1)

/-! ## Calls whose argument is a reference into the array itself

`Add(const T& item)` and `Insert(const T& item, i)` take references.  `addAlias d i` is `a.Add(a[i])`. -/

/-- `a.Add(a[i])`: when `_checkSize` reallocates, the reference points into the freed block. -/
def addAlias (kind : Kind) (d : Dyn α) (i : Nat) : Option (Dyn α × Nat) :=
  if d.len ≥ d.cap then none
  else (get d i).bind fun x => add kind d x

/-- `a.Insert(a[i], index)` for the `memmove` based kinds when no growth happens: the element is read after the
`memmove`. -/
def insertAlias (d : Dyn α) (i index : Nat) : Option (Dyn α) :=
  if d.len ≥ d.cap then none
  else (memmove d.arr (index + 1) index (d.len - index)).bind fun a =>
    match a[i]? with
    | some (.val x) => (construct a index x).map fun a => ⟨a, d.len + 1⟩
    | _ => none

/-! ## `Stack` (`Stack.h:22-36`) -/

/-- `Push`, `Stack.h:22-23`. -/
def sPush (kind : Kind) (d : Dyn α) (x : α) : Option (Dyn α) := (add kind d x).map (·.1)

/-- `Pop`, `Stack.h:25`: `T r(std::move(_array.Back())); _array.RemoveLast(); return r;`.  `RemoveLast` then only
destroys the moved-from element. -/
def sPop (kind : Kind) (d : Dyn α) : Option (Dyn α × α) :=
  (back d).bind fun r =>
    (removeLast kind { d with arr := d.arr.set (d.len - 1) .moved }).map fun d => (d, r)

/-- `Peek`, `Stack.h:27-28`. -/
def sPeek (d : Dyn α) : Option α := back d

/-- `Discard`, `Stack.h:30`. -/
def sDiscard (kind : Kind) (d : Dyn α) : Option (Dyn α) := removeLast kind d

/-- `Clear`, `Stack.h:31`, `DynArray.h:63`. -/
def sClear (kind : Kind) (init : Nat → α) (d : Dyn α) : Option (Dyn α) := setLength kind init d 0

/-! ## `RandomQueue` (`RandomQueue.h:27-40`) -/

/-- `Remove`, `RandomQueue.h:38`, as a copy of the slot (`Kind.simple`; with `Kind.safe` the source is also moved from,
which leaves an unspecified value in a slot that is no longer part of the queue). -/
def rqRemove (d : Dyn α) (index : Nat) : Option (Dyn α) :=
  if d.len = 0 then none
  else match d.arr[d.len - 1]?, d.arr[index]? with
    | some s, some _ => some ⟨d.arr.set index s, d.len - 1⟩
    | _, _ => none

/-- `Pop(e)`, `RandomQueue.h:29-36`; `i` is the number drawn by `bssrand(0, _length)`. -/
def rqPop (d : Dyn α) (i : Nat) : Option (Dyn α × α) :=
  (get d i).bind fun r => (rqRemove d i).map fun d => (d, r)

/-- `Push`, `RandomQueue.h:27-28`. -/
def rqPush (kind : Kind) (d : Dyn α) (x : α) : Option (Dyn α) := (add kind d x).map (·.1)

/-- `Clear`, `RandomQueue.h:40`. -/
def rqClear (d : Dyn α) : Dyn α := { d with len := 0 }

end Verif.Dyn
