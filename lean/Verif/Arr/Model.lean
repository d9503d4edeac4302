import Verif.Arith.IntDiv

/-!
# `Array` and `DynArray` as objects: blocks of memory and lifetimes of elements

Models `/repo/include/bss-util/Array.h:99-402` and `/repo/include/bss-util/DynArray.h:12-164` for the array types that run constructors (`ARRAY_CONSTRUCT`, `ARRAY_SAFE`; `ARRAY_MOVE` is `ARRAY_SAFE` without
copies), with several arrays that share a heap. Everything that must not happen is an error (`none`): access outside of a block or to a block that was freed, use of an element that is not constructed, construction on top of
an element (which is then never destroyed), destruction of what is no element, freeing a block twice or with elements in it (which are then never destroyed). Allocation never fails and sizes do not overflow.
-/

namespace Verif.Arr

/-- One place of a block: raw memory, an element, or an element whose value was moved away. -/
inductive Slot (α : Type)
  | raw
  | moved
  | val (x : α)
  deriving DecidableEq, Repr

/-- `ARRAY_TYPE`, `Array.h:99`. -/
inductive Kind
  | construct
  | safe
  deriving DecidableEq, Repr

variable {α : Type}

/-! ## Blocks -/

/-- `new(p + i) T(x)`. -/
def construct (i : Nat) (x : α) (a : List (Slot α)) : Option (List (Slot α)) :=
  match a[i]? with
  | some .raw => some (a.set i (.val x))
  | _ => none

/-- `p[i].~T()`. -/
def destroyAt (i : Nat) (a : List (Slot α)) : Option (List (Slot α)) :=
  match a[i]? with
  | some (.val _) => some (a.set i .raw)
  | some .moved => some (a.set i .raw)
  | _ => none

/-- `p[i]` as a value. -/
def read (i : Nat) (a : List (Slot α)) : Option α :=
  match a[i]? with
  | some (.val x) => some x
  | _ => none

/-- `p[j] = std::move(p[i])`. -/
def moveAssign (i j : Nat) (a : List (Slot α)) : Option (List (Slot α)) :=
  match a[i]?, a[j]? with
  | some (.val x), some (.val _) => some ((a.set j (.val x)).set i .moved)
  | some (.val x), some .moved => some ((a.set j (.val x)).set i .moved)
  | _, _ => none

/-- `new(p + j) T(std::move(p[i]))`. -/
def moveConstruct (i j : Nat) (a : List (Slot α)) : Option (List (Slot α)) :=
  match a[i]?, a[j]? with
  | some (.val x), some .raw => some ((a.set j (.val x)).set i .moved)
  | _, _ => none

/-- `p[i] = x`. -/
def assignAt (i : Nat) (x : α) (a : List (Slot α)) : Option (List (Slot α)) :=
  match a[i]? with
  | some (.val _) => some (a.set i (.val x))
  | some .moved => some (a.set i (.val x))
  | _ => none

/-- The first loop of `_setLength`, `Array.h:157-158`: destroys `k` elements from `n` on. -/
def destroyFrom (n : Nat) : Nat → List (Slot α) → Option (List (Slot α))
  | 0, a => some a
  | k + 1, a => (destroyAt n a).bind (destroyFrom (n + 1) k)

/-- The second loop of `_setLength`, `Array.h:160-161`: constructs `k` elements from `n` on. -/
def constructFrom (dflt : α) (n : Nat) : Nat → List (Slot α) → Option (List (Slot α))
  | 0, a => some a
  | k + 1, a => (construct n dflt a).bind (constructFrom dflt (n + 1) k)

/-- `std::move_backward(p + first, p + first + k, p + first + k + 1)`, `Array.h:238`. -/
def moveBackward (first : Nat) : Nat → List (Slot α) → Option (List (Slot α))
  | 0, a => some a
  | k + 1, a => (moveAssign (first + k) (first + k + 1) a).bind (moveBackward first k)

/-- `std::move(p + i + 1, p + i + 1 + k, p + i)`, `Array.h:250`. -/
def moveForward : Nat → Nat → List (Slot α) → Option (List (Slot α))
  | 0, _, a => some a
  | k + 1, i, a => (moveAssign (i + 1) i a).bind (moveForward k (i + 1))

/-- `memmove(p + index + 1, p + index, n)`, `Array.h:230`: the elements are where their bytes are now; what was overwritten must not be an element. -/
def shiftUp (index n : Nat) (a : List (Slot α)) : Option (List (Slot α)) :=
  match a[index + n]? with
  | some .raw => some (a.take index ++ .raw :: (a.drop index).take n ++ a.drop (index + n + 1))
  | _ => none

/-- `memmove(p + index, p + index + 1, n)`, `Array.h:257`. -/
def shiftDown (index n : Nat) (a : List (Slot α)) : Option (List (Slot α)) :=
  match a[index]? with
  | some .raw => if index + n + 1 ≤ a.length then some (a.take index ++ (a.drop (index + 1)).take n ++ .raw :: a.drop (index + n + 1)) else none
  | _ => none

/-! ## Heap -/

/-- Blocks by number; `next` is the number of the next block. -/
structure Heap (α : Type) where
  next : Nat
  blk : Nat → Option (List (Slot α))

/-- Replaces a block. -/
def Heap.put (h : Heap α) (b : Nat) (s : Option (List (Slot α))) : Heap α := { h with blk := fun c => if c = b then s else h.blk c }

/-- A change of the elements of a block through a pointer that must not be null. -/
def Heap.on (h : Heap α) (p : Option Nat) (f : List (Slot α) → Option (List (Slot α))) : Option (Heap α) :=
  p.bind fun b => (h.blk b).bind fun a => (f a).map fun a => h.put b (some a)

/-- `Alloc::allocate` without a previous block. -/
def Heap.alloc (h : Heap α) (n : Nat) : Heap α × Nat :=
  (⟨h.next + 1, fun c => if c = h.next then some (List.replicate n .raw) else h.blk c⟩, h.next)

/-- `_free`, `Array.h:190`. -/
def Heap.free (h : Heap α) (p : Option Nat) : Option (Heap α) :=
  match p with
  | none => some h
  | some b => (h.blk b).bind fun a => if ∀ s ∈ a, s matches .raw then some (h.put b none) else none

/-- `_getAlloc`, `Array.h:180-189`, with `Alloc::allocate` as `realloc`: the bytes are copied as far as they fit and the old block is freed. -/
def Heap.getAlloc (h : Heap α) (n : Nat) (prev : Option Nat) : Option (Heap α × Option Nat) :=
  if n = 0 then (h.free prev).map fun h => (h, none)
  else match prev with
    | none => some ((h.alloc n).1, some (h.alloc n).2)
    | some b => (h.blk b).bind fun a =>
      if ∀ s ∈ a.drop n, s matches .raw then
        some (((h.alloc n).1.put (h.alloc n).2 (some (a.take n ++ List.replicate (n - a.length) .raw))).put b none, some (h.alloc n).2)
      else none

/-! ## `ArrayBase` -/

/-- The members `_array`, `_capacity` (`Array.h:261-262`) and `_length` (`DynArray.h:163`); for an `Array`, `len` is its capacity. -/
structure Obj where
  dyn : Bool
  ptr : Option Nat
  cap : Nat
  len : Nat
  deriving DecidableEq, Repr

/-- `_setLength`, `Array.h:149-163`. -/
def setLength (dflt : α) (h : Heap α) (dest : Option Nat) (old n : Nat) : Option (Heap α) :=
  (if n < old then h.on dest (destroyFrom n (old - n)) else some h).bind fun h =>
    if old < n then h.on dest (constructFrom dflt old (n - old)) else some h

/-- The loop of `_copyMove`, `Array.h:202-203`: `k` elements from `i` on. -/
def copyMoveLoop (dest src : Nat) (i : Nat) : Nat → Heap α → Option (Heap α)
  | 0, h => some h
  | k + 1, h => (h.blk src).bind fun a => (read i a).bind fun x => (h.on (some dest) (construct i x)).bind fun h =>
    (h.on (some src) fun a => some (a.set i .moved)).bind (copyMoveLoop dest src (i + 1) k)

/-- `_copyMove`, `Array.h:192-206`, for `ARRAY_SAFE` and `ARRAY_MOVE`. -/
def copyMove (dflt : α) (h : Heap α) (dest src : Option Nat) (n : Nat) : Option (Heap α) :=
  match dest, src with
  | some d, some s => if n = 0 then some h else (copyMoveLoop d s 0 n h).bind fun h => setLength dflt h (some s) n 0
  | _, _ => some h

/-- Where elements are copied from: a list outside of the arrays, or a block from a position on. -/
inductive Src (α : Type)
  | ext (xs : List α)
  | blk (p : Option Nat) (i : Nat)

/-- `src[i]`. -/
def Src.get (h : Heap α) : Src α → Nat → Option α
  | .ext xs, k => xs[k]?
  | .blk p i, k => p.bind fun b => (h.blk b).bind (read (i + k))

/-- `src == nullptr`. -/
def Src.null : Src α → Bool
  | .ext _ => false
  | .blk p _ => p.isNone

/-- The loop of `_copy`, `Array.h:217-218`: `k` elements from `i` on, to `dest + d`. -/
def copyLoop (dest d : Nat) (src : Src α) (i : Nat) : Nat → Heap α → Option (Heap α)
  | 0, h => some h
  | k + 1, h => (src.get h i).bind fun x => (h.on (some dest) (construct (d + i) x)).bind (copyLoop dest d src (i + 1) k)

/-- `_copy`, `Array.h:207-222`, to `dest + d`, where `dest` may be null if `d` is 0. -/
def copy (h : Heap α) (dest : Option Nat) (d : Nat) (src : Src α) (n : Nat) : Option (Heap α) :=
  match dest with
  | none => some h
  | some b => if src.null = true ∨ n = 0 then some h else copyLoop b d src 0 n h

/-- `_setCapacity(capacity, length)`, `Array.h:165-178`. -/
def setCapacity (dflt : α) (kind : Kind) (h : Heap α) (o : Obj) (capacity length : Nat) : Option (Heap α × Obj) :=
  match kind with
  | .construct => (h.getAlloc capacity o.ptr).map fun (h, p) => (h, { o with ptr := p, cap := capacity })
  | .safe => (h.getAlloc capacity none).bind fun (h, n) => (copyMove dflt h n o.ptr (min length capacity)).bind fun h =>
    (h.free o.ptr).map fun h => (h, { o with ptr := n, cap := capacity })

/-- `_setCapacityDiscard`, `Array.h:142-147`. -/
def setCapacityDiscard (h : Heap α) (o : Obj) (capacity : Nat) : Option (Heap α × Obj) :=
  (h.free o.ptr).bind fun h => (h.getAlloc capacity none).map fun (h, p) => (h, { o with ptr := p, cap := capacity })

/-- `_insert`, `Array.h:223-244`; the item is a reference, read when it is used. -/
def insertRaw (kind : Kind) (h : Heap α) (p : Option Nat) (length index : Nat) (item : Heap α → Option α) : Option (Heap α) :=
  match kind with
  | .construct => (h.on p (shiftUp index (length - index))).bind fun h => (item h).bind fun x => h.on p (construct index x)
  | .safe =>
    if index < length then
      (h.on p (moveConstruct (length - 1) length)).bind fun h => (h.on p (moveBackward index (length - 1 - index))).bind fun h =>
        (item h).bind fun x => h.on p (assignAt index x)
    else (item h).bind fun x => h.on p (construct index x)

/-- `_remove`, `Array.h:245-259`. -/
def removeRaw (kind : Kind) (h : Heap α) (p : Option Nat) (length index : Nat) : Option (Heap α) :=
  match kind with
  | .safe => (h.on p (moveForward (length - 1 - index) index)).bind fun h => h.on p (destroyAt (length - 1))
  | .construct => (h.on p (destroyAt index)).bind fun h => h.on p (shiftDown index (length - index - 1))

/-! ## The arrays of a program -/

/-- All arrays, by number; an array that was destroyed is `none`. -/
structure World (α : Type) where
  heap : Heap α
  vars : List (Option Obj)

/-- The array with a number. -/
def World.obj (w : World α) (i : Nat) : Option Obj := (w.vars[i]?).join

/-- An array after an operation. -/
def World.upd (w : World α) (i : Nat) (r : Heap α × Obj) : World α := ⟨r.1, w.vars.set i (some r.2)⟩

/-- A new array. -/
def World.push (w : World α) (r : Heap α × Obj) : World α := ⟨r.1, w.vars ++ [some r.2]⟩

/-- The argument of `Add` and `Insert`: a value outside of the arrays, or element `k` of array `j`. -/
inductive Ref (α : Type)
  | ext (x : α)
  | elem (j k : Nat)
  deriving DecidableEq, Repr

/-- The reference as an address, fixed at the time of the call. -/
def Ref.bind (w : World α) : Ref α → Option (Heap α → Option α)
  | .ext x => some fun _ => some x
  | .elem j k => (w.obj j).bind fun o => if k < o.len then some fun h => o.ptr.bind fun b => (h.blk b).bind (read k) else none

/-- The argument of `Set`: a list outside of the arrays, or `n` elements of array `j` from `a` on. -/
inductive Part (α : Type)
  | ext (xs : List α)
  | part (j a n : Nat)
  deriving DecidableEq, Repr

/-- The slice as an address and a length. -/
def Part.bind (w : World α) : Part α → Option (Src α × Nat)
  | .ext xs => some (.ext xs, xs.length)
  | .part j a n => (w.obj j).bind fun o => if a + n ≤ o.len then some (.blk o.ptr a, n) else none

/-- Calls on arrays. `dyn` says whether a new array is a `DynArray`. -/
inductive Op (α : Type)
  | new (dyn : Bool) (n : Nat)
  | list (dyn : Bool) (xs : List α)
  | copy (j : Nat)
  | move (j : Nat)
  | drop (i : Nat)
  | add (i : Nat) (r : Ref α)
  | insert (i : Nat) (r : Ref α) (k : Nat)
  | remove (i k : Nat)
  | set (i : Nat) (p : Part α)
  | resize (i n : Nat)
  | reserve (i n : Nat)
  | discard (i n : Nat)
  | assign (i j : Nat)
  | moveAssign (i j : Nat)
  | append (i j : Nat)
  | plus (i j : Nat)
  deriving DecidableEq, Repr

/-- `ArrayBase(CT capacity)`, `Array.h:118`. -/
def base (h : Heap α) (dyn : Bool) (capacity : Nat) : Option (Heap α × Obj) :=
  (h.getAlloc capacity none).map fun (h, p) => (h, ⟨dyn, p, capacity, if dyn then 0 else capacity⟩)

/-- `Array(CT capacity)`, `Array.h:289`, and `DynArray(CT capacity)`, `DynArray.h:32`. -/
def new (dflt : α) (w : World α) (dyn : Bool) (n : Nat) : Option (World α) :=
  (base w.heap dyn n).bind fun (h, o) => if dyn then some (w.push (h, o)) else (setLength dflt h o.ptr 0 o.cap).map fun h => w.push (h, o)

/-- `Array(const std::initializer_list<T>&)`, `Array.h:279-286`, and `DynArray(const std::initializer_list<T>&)`, `DynArray.h:34-39`. -/
def list (dflt : α) (kind : Kind) (w : World α) (dyn : Bool) (xs : List α) : Option (World α) :=
  (base w.heap dyn xs.length).bind fun (h, o) => (Arr.copy h o.ptr 0 (.ext xs) xs.length).bind fun h =>
    if dyn then some (w.push (h, { o with len := xs.length }))
    else (setCapacity dflt kind h o xs.length o.cap).map fun (h, o) => w.push (h, { o with len := o.cap })

/-- `Array(const Array&)`, `Array.h:277`, and `DynArray(const DynArray&)`, `DynArray.h:27`. -/
def copyOf (w : World α) (h : Heap α) (c : Obj) : Option (World α) :=
  (base h c.dyn c.cap).bind fun (h, o) => (Arr.copy h o.ptr 0 (.blk c.ptr 0) c.len).map fun h => w.push (h, { o with len := c.len })

/-- `Array(Array&&)`, `Array.h:278`, and `DynArray(DynArray&&)`, `DynArray.h:28`. -/
def move (w : World α) (j : Nat) : Option (World α) :=
  (w.obj j).map fun m => (w.upd j (w.heap, { m with ptr := none, cap := 0, len := 0 })).push (w.heap, m)

/-- `~Array`, `Array.h:291`, and `~DynArray`, `DynArray.h:40`, with `~ArrayBase`, `Array.h:120-123`. -/
def drop (dflt : α) (w : World α) (i : Nat) : Option (World α) :=
  (w.obj i).bind fun o => (setLength dflt w.heap o.ptr o.len 0).bind fun h => (h.free o.ptr).map fun h => ⟨h, w.vars.set i none⟩

/-- `_checkSize`, `DynArray.h:156-161`, and the growth of `Array::_insert`, `Array.h:398-399`. -/
def grow (dflt : α) (kind : Kind) (h : Heap α) (o : Obj) : Option (Heap α × Obj) :=
  if o.dyn then (if o.cap ≤ o.len then setCapacity dflt kind h o (Arith.fbnextN o.cap) o.len else some (h, o))
  else setCapacity dflt kind h o (o.cap + 1) o.cap

/-- `DynArray::Add`, `DynArray.h:41-42`, and `Array::Add`, `Array.h:292-293`. -/
def add (dflt : α) (kind : Kind) (w : World α) (i : Nat) (r : Ref α) : Option (World α) :=
  (w.obj i).bind fun o => (r.bind w).bind fun item => (grow dflt kind w.heap o).bind fun (h, o) =>
    if o.dyn then (item h).bind fun x => (h.on o.ptr (construct o.len x)).map fun h => w.upd i (h, { o with len := o.len + 1 })
    else (insertRaw kind h o.ptr o.len o.len item).map fun h => w.upd i (h, { o with len := o.len + 1 })

/-- `Insert`, `DynArray.h:51-52,151-155` and `Array.h:300-301,396-401`. -/
def insert (dflt : α) (kind : Kind) (w : World α) (i : Nat) (r : Ref α) (k : Nat) : Option (World α) :=
  (w.obj i).bind fun o => (r.bind w).bind fun item => if o.len < k then none else
    (grow dflt kind w.heap o).bind fun (h, o) => (insertRaw kind h o.ptr o.len k item).map fun h => w.upd i (h, { o with len := o.len + 1 })

/-- `Remove`, `DynArray.h:45-49` and `Array.h:294-298`. -/
def remove (dflt : α) (kind : Kind) (w : World α) (i k : Nat) : Option (World α) :=
  (w.obj i).bind fun o => if o.len ≤ k then none else
    (removeRaw kind w.heap o.ptr o.len k).bind fun h =>
      if o.dyn then some (w.upd i (h, { o with len := o.len - 1 }))
      else (setCapacity dflt kind h o (o.cap - 1) o.cap).map fun (h, o) => w.upd i (h, { o with len := o.cap })

/-- `Set`, `DynArray.h:54-61` and `Array.h:303-308`. -/
def set (dflt : α) (w : World α) (i : Nat) (p : Part α) : Option (World α) :=
  (w.obj i).bind fun o => (p.bind w).bind fun (src, n) => (setLength dflt w.heap o.ptr o.len 0).bind fun h =>
    (if !o.dyn || o.cap < n then setCapacityDiscard h o n else some (h, o)).bind fun (h, o) =>
      (Arr.copy h o.ptr 0 src n).map fun h => w.upd i (h, { o with len := n })

/-- `DynArray::SetLength`, `DynArray.h:64-70`, and `Array::SetCapacity`, `Array.h:312-319`. -/
def resize (dflt : α) (kind : Kind) (w : World α) (i n : Nat) : Option (World α) :=
  (w.obj i).bind fun o =>
    if o.dyn then
      (if n < o.len then setLength dflt w.heap o.ptr o.len n else some w.heap).bind fun h =>
        (if o.cap < n then setCapacity dflt kind h o n o.len else some (h, o)).bind fun (h, o) =>
          (if o.len < n then setLength dflt h o.ptr o.len n else some h).map fun h => w.upd i (h, { o with len := n })
    else if n = o.cap then some w
    else
      (if n < o.cap then setLength dflt w.heap o.ptr o.cap n else some w.heap).bind fun h =>
        (setCapacity dflt kind h o n o.cap).bind fun (h, o') =>
          (if o.cap < n then setLength dflt h o'.ptr o.cap n else some h).map fun h => w.upd i (h, { o' with len := n })

/-- `DynArray::SetCapacity`, `DynArray.h:71`. -/
def reserve (dflt : α) (kind : Kind) (w : World α) (i n : Nat) : Option (World α) :=
  (w.obj i).bind fun o => if o.dyn then (if o.cap < n then (setCapacity dflt kind w.heap o n o.len).map (w.upd i) else some w) else none

/-- `Array::SetCapacityDiscard`, `Array.h:320-326`. -/
def discard (dflt : α) (w : World α) (i n : Nat) : Option (World α) :=
  (w.obj i).bind fun o => if o.dyn then none else if n = o.cap then some w else
    (setLength dflt w.heap o.ptr o.cap 0).bind fun h => (setCapacityDiscard h o n).bind fun (h, o) =>
      (setLength dflt h o.ptr 0 o.cap).map fun h => w.upd i (h, { o with len := o.cap })

/-- `operator=(const DynArray&)`, `DynArray.h:99-107`, and `operator=(const Array&)`, `Array.h:343-349`. The members of the right side are read when they are used. -/
def assign (dflt : α) (w : World α) (i j : Nat) : Option (World α) :=
  (w.obj i).bind fun o => (setLength dflt w.heap o.ptr o.len 0).bind fun h => (w.obj j).bind fun c => if c.dyn ≠ o.dyn then none else
    (if !o.dyn || o.cap < c.len then setCapacityDiscard h o c.cap else some (h, o)).bind fun (h, o) =>
      ((w.upd i (h, o)).obj j).bind fun c => (Arr.copy h o.ptr 0 (.blk c.ptr 0) c.len).map fun h => w.upd i (h, { o with len := c.len })

/-- `operator=(DynArray&&)`, `DynArray.h:108`, and `operator=(Array&&)`, `Array.h:350-355`, with `ArrayBase::operator=`, `Array.h:124-133`. -/
def moveAssign' (dflt : α) (w : World α) (i j : Nat) : Option (World α) :=
  (w.obj i).bind fun o => (setLength dflt w.heap o.ptr o.len 0).bind fun h => (h.free o.ptr).bind fun h => (w.obj j).bind fun m =>
    if m.dyn ≠ o.dyn then none else some ((w.upd i (h, m)).upd j (h, { m with ptr := none, cap := 0, len := 0 }))

/-- `operator+=`, `DynArray.h:110-116` and `Array.h:361-367`. The members of the right side are read when they are used; the length of an `Array` is its capacity. -/
def append (dflt : α) (kind : Kind) (w : World α) (i j : Nat) : Option (World α) :=
  (w.obj i).bind fun o => (w.obj j).bind fun a => if a.dyn ≠ o.dyn then none else
    (setCapacity dflt kind w.heap o (o.len + a.len) o.len).bind fun (h, o') =>
      ((w.upd i (h, { o' with len := if o.dyn then o.len else o'.cap })).obj j).bind fun a =>
        (Arr.copy h o'.ptr o.len (.blk a.ptr 0) a.len).map fun h => w.upd i (h, { o' with len := if o.dyn then o.len + a.len else o'.cap })

/-- `operator+`, `DynArray.h:117-124`, and `Array.h:368`: `Array r(*this); return (r += add);` makes a copy of `r`, which is destroyed. -/
def plus (dflt : α) (kind : Kind) (w : World α) (i j : Nat) : Option (World α) :=
  (w.obj i).bind fun o => (w.obj j).bind fun a => if a.dyn ≠ o.dyn then none else
    if o.dyn then
      (base w.heap true (o.len + a.len)).bind fun (h, r) => (Arr.copy h r.ptr 0 (.blk o.ptr 0) o.len).bind fun h =>
        (Arr.copy h r.ptr o.len (.blk a.ptr 0) a.len).map fun h => w.push (h, { r with len := o.len + a.len })
    else
      (copyOf w w.heap o).bind fun w1 => (append dflt kind w1 w.vars.length j).bind fun w2 => (w2.obj w.vars.length).bind fun r =>
        (copyOf w2 w2.heap r).bind fun w3 => (drop dflt w3 w.vars.length).map fun w4 => ⟨w4.heap, w4.vars.eraseIdx w.vars.length⟩

/-- One call. -/
def step (dflt : α) (kind : Kind) (w : World α) : Op α → Option (World α)
  | .new dyn n => new dflt w dyn n
  | .list dyn xs => list dflt kind w dyn xs
  | .copy j => (w.obj j).bind (copyOf w w.heap)
  | .move j => move w j
  | .drop i => drop dflt w i
  | .add i r => add dflt kind w i r
  | .insert i r k => insert dflt kind w i r k
  | .remove i k => remove dflt kind w i k
  | .set i p => set dflt w i p
  | .resize i n => resize dflt kind w i n
  | .reserve i n => reserve dflt kind w i n
  | .discard i n => discard dflt w i n
  | .assign i j => assign dflt w i j
  | .moveAssign i j => moveAssign' dflt w i j
  | .append i j => append dflt kind w i j
  | .plus i j => plus dflt kind w i j

/-- A program. -/
def run (dflt : α) (kind : Kind) : World α → List (Op α) → Option (World α)
  | w, [] => some w
  | w, op :: ops => (step dflt kind w op).bind fun w => run dflt kind w ops

/-- Before any array exists. -/
def empty : World α := ⟨⟨0, fun _ => none⟩, []⟩

/-- `a[k]`. -/
def World.get (w : World α) (i k : Nat) : Option α :=
  (w.obj i).bind fun o => if k < o.len then o.ptr.bind fun b => (w.heap.blk b).bind (read k) else none

end Verif.Arr
