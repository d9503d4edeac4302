import Verif.Linked.Model
import Verif.Arith.IntDiv

/-!
# `LinkedArray` (`include/bss-util/LinkedArray.h`)

The nodes live in one array; links are indices and `(CT_)-1` is the null index, `none` here.  An access outside the
array, or through the null index, yields `none`.  Simplifications: the index type `CT_` is not bounded (the capacity
never reaches `(CT_)-1`); the unspecified contents of fresh array cells are `⟨none, none, none⟩` (a value that is not
there); `Add` of a reference into the array itself is not modelled (values are passed by value).
-/

namespace Verif.Linked.Arr
open Verif.Linked

/-- `LinkedArray.h:12-18`: a cell; `item` is `val`, `none` before any value is stored. -/
abbrev Cell (α : Type) := Node (Option α)

/-- `LinkedArray.h:185-191`. -/
structure LArr (α : Type) where
  ref : List (Cell α)
  length : Nat
  start : Option Nat
  last : Option Nat
  free : Option Nat
deriving DecidableEq, Repr

variable {α : Type}

/-- `_ref[i].next`. -/
def rN (r : List (Cell α)) (i : Nat) : Option (Option Nat) := r[i]?.map (·.next)
/-- `_ref[i].prev`. -/
def rP (r : List (Cell α)) (i : Nat) : Option (Option Nat) := r[i]?.map (·.prev)
/-- `_ref[i].next = v`. -/
def wN (r : List (Cell α)) (i : Nat) (v : Option Nat) : Option (List (Cell α)) :=
  r[i]?.map fun c => r.set i { c with next := v }
/-- `_ref[i].prev = v`. -/
def wP (r : List (Cell α)) (i : Nat) (v : Option Nat) : Option (List (Cell α)) :=
  r[i]?.map fun c => r.set i { c with prev := v }
/-- `_ref[i] = c` (all three fields). -/
def wC (r : List (Cell α)) (i : Nat) (c : Cell α) : Option (List (Cell α)) :=
  r[i]?.map fun _ => r.set i c

/-- `LinkedArray.h:164-168` `_addFreeList`. -/
def addFree (s : LArr α) (i : Nat) : Option (LArr α) :=
  (wN s.ref i s.free).map fun r => { s with ref := r, free := some i }

/-- `LinkedArray.h:169-174` `_setupChunk(start)`: the loop with `i = start + n` on entry. -/
def setupLoop (start : Nat) : Nat → LArr α → Option (LArr α)
  | 0, s => some s
  | n + 1, s => (addFree s (start + n)).bind (setupLoop start n)

/-- `LinkedArray.h:169-174` `_setupChunk(start)`. -/
def setupChunk (start : Nat) (s : LArr α) : Option (LArr α) := setupLoop start (s.ref.length - start) s

/-- `LinkedArray.h:30`, `35`: constructor with a given capacity (1 by default). -/
def mk (size : Nat) : Option (LArr α) := setupChunk 0 ⟨List.replicate size ⟨none, none, none⟩, 0, none, none, none⟩

/-- `LinkedArray.h:59-67` `SetCapacity`; the array keeps its contents and grows (`Array.h` `SetCapacity`, modelled for C27). -/
def setCapacity (s : LArr α) (size : Nat) : Option (LArr α) :=
  if size < s.ref.length then some s
  else setupChunk s.ref.length { s with ref := s.ref ++ List.replicate (size - s.ref.length) ⟨none, none, none⟩ }

/-- `LinkedArray.h:68-73` `Clear`. -/
def clear (s : LArr α) : Option (LArr α) := setupChunk 0 ⟨s.ref, 0, none, none, none⟩

/-- `LinkedArray.h:175-183` `_insertPrep`. -/
def insertPrep (s : LArr α) : Option (LArr α × Nat) :=
  (if s.free = none then setCapacity s (Arith.fbnextN s.ref.length) else some s).bind fun s =>
    s.free.bind fun cur => (rN s.ref cur).map fun n => ({ s with free := n }, cur)

/-- `LinkedArray.h:128-145` `_insertAfter`. -/
def insertAfter (s : LArr α) (x : α) (index : Option Nat) : Option (LArr α × Nat) :=
  (insertPrep s).bind fun (s, cur) =>
    let prev := if index = none then s.last else index
    (wC s.ref cur ⟨none, prev, some x⟩).bind fun r =>
      (match prev with
        | none => some (r, some cur)
        | some p => (rN r p).bind fun n => (wN r cur n).bind fun r => (wN r p (some cur)).map fun r => (r, s.start)).bind
          fun (r, start) =>
        (rN r cur).bind fun n =>
          (match n with
            | none => some (r, some cur)
            | some n => (wP r n (some cur)).map fun r => (r, s.last)).map fun (r, last) =>
              (⟨r, s.length + 1, start, last, s.free⟩, cur)

/-- `LinkedArray.h:146-163` `_insertBefore`. -/
def insertBefore (s : LArr α) (x : α) (index : Option Nat) : Option (LArr α × Nat) :=
  (insertPrep s).bind fun (s, cur) =>
    let prev := if index = none then s.last else none
    (wC s.ref cur ⟨index, prev, some x⟩).bind fun r =>
      (match index with
        | none => some (r, some cur)
        | some n => (rP r n).bind fun p => (wP r cur p).bind fun r => (wP r n (some cur)).map fun r => (r, s.last)).bind
          fun (r, last) =>
        (rP r cur).bind fun p =>
          (match p with
            | none => some (r, some cur)
            | some p => (wN r p (some cur)).map fun r => (r, s.start)).map fun (r, start) =>
              (⟨r, s.length + 1, start, last, s.free⟩, cur)

/-- `LinkedArray.h:37` `Add`. -/
def add (s : LArr α) (x : α) : Option (LArr α × Nat) := insertAfter s x s.last

/-- `LinkedArray.h:48-49`: returns the array and `_end`. -/
def unlinkNext (s : LArr α) (n p : Option Nat) : Option (List (Cell α) × Option Nat) :=
  match n with
  | none => some (s.ref, p)
  | some n => (wP s.ref n p).map fun r => (r, s.last)

/-- `LinkedArray.h:50-51`: returns the array and `_start`. -/
def unlinkPrev (s : LArr α) (r : List (Cell α)) (n p : Option Nat) : Option (List (Cell α) × Option Nat) :=
  match p with
  | none => some (r, n)
  | some p => (wN r p n).map fun r => (r, s.start)

/-- `LinkedArray.h:43-56` `Remove`: also returns the value.  `pcur` is a reference, so its links are read again. -/
def remove (s : LArr α) (i : Nat) : Option (LArr α × Option α) :=
  (rN s.ref i).bind fun n => (rP s.ref i).bind fun p =>
    (unlinkNext s n p).bind fun (r, last) =>
      (rP r i).bind fun p => (rN r i).bind fun n =>
        (unlinkPrev s r n p).bind fun (r, start) =>
          (addFree ⟨r, s.length - 1, start, last, s.free⟩ i).bind fun (s : LArr α) =>
            (s.ref[i]? : Option (Cell α)).map fun (c : Cell α) => (s, c.item)

/-- `LinkedArray.h:82-86` `GetItem`/`operator[]`. -/
def getItem (s : LArr α) (i : Nat) : Option (Option α) := s.ref[i]?.map (·.item)

/-- Assigning through the reference returned by `GetItem` (`LinkedArray.h:82`). -/
def setItem (s : LArr α) (i : Nat) (x : α) : Option (LArr α) :=
  s.ref[i]?.map fun c => { s with ref := s.ref.set i { c with item := some x } }

end Verif.Linked.Arr
