/-!
# Intrusive list functions (`include/bss-util/LLBase.h`)

A node is an address; the memory maps the allocated addresses to the node stored there.  A null pointer is `none`.
Dereferencing an address with no node, or a null pointer, is undefined behaviour: the function yields `none`.
-/

namespace Verif.Linked

/-- `LLBase.h:13-18` (`next`, `prev`) and `LinkedList.h:13-14` (the node's `item`). -/
structure Node (α : Type) where
  next : Option Nat
  prev : Option Nat
  item : α
deriving DecidableEq, Repr

/-- The memory: which addresses hold a node, and which node. -/
abbrev Mem (α : Type) := Nat → Option (Node α)

variable {α : Type}

/-- Read `p->next`. -/
def rdNext (h : Mem α) (p : Nat) : Option (Option Nat) := (h p).map (·.next)
/-- Read `p->prev`. -/
def rdPrev (h : Mem α) (p : Nat) : Option (Option Nat) := (h p).map (·.prev)
/-- Write `p->next = v`. -/
def wrNext (h : Mem α) (p : Nat) (v : Option Nat) : Option (Mem α) :=
  (h p).map fun nd q => if q = p then some { nd with next := v } else h q
/-- Write `p->prev = v`. -/
def wrPrev (h : Mem α) (p : Nat) (v : Option Nat) : Option (Mem α) :=
  (h p).map fun nd q => if q = p then some { nd with prev := v } else h q

/-- `LLBase.h:21-29` `LLInsert(node, target, root)`: returns the memory and `root`. -/
def llInsert (h : Mem α) (node target : Nat) (root : Option Nat) : Option (Mem α × Option Nat) := do
  let tp ← rdPrev h target
  let h ← wrPrev h node tp
  let h ← wrNext h node (some target)
  let tp ← rdPrev h target
  match tp with
  | some p =>
    let h ← wrNext h p (some node)
    let h ← wrPrev h target (some node)
    some (h, root)
  | none =>
    let h ← wrPrev h target (some node)
    some (h, some node)

/-- `LLBase.h:32-39` `LLInsert(node, target)`. -/
def llInsertNoRoot (h : Mem α) (node target : Nat) : Option (Mem α) := do
  let tp ← rdPrev h target
  let h ← wrPrev h node tp
  let h ← wrNext h node (some target)
  let tp ← rdPrev h target
  match tp with
  | some p =>
    let h ← wrNext h p (some node)
    wrPrev h target (some node)
  | none => wrPrev h target (some node)

/-- `LLBase.h:42-49` `LLAdd(node, root)`, and `LLBase.h:129-136` `AltLLAdd`, which is the same code reaching the links
through a function. -/
def llAdd (h : Mem α) (node : Nat) (root : Option Nat) : Option (Mem α × Option Nat) := do
  let h ← wrPrev h node none
  let h ← wrNext h node root
  match root with
  | some r =>
    let h ← wrPrev h r (some node)
    some (h, some node)
  | none => some (h, some node)

/-- `LLBase.h:51-59` `LLAdd(node, root, last)`: returns the memory, `root` and `last`. -/
def llAddLast (h : Mem α) (node : Nat) (root last : Option Nat) : Option (Mem α × Option Nat × Option Nat) := do
  let h ← wrPrev h node none
  let h ← wrNext h node root
  match root with
  | some r =>
    let h ← wrPrev h r (some node)
    some (h, some node, last)
  | none => some (h, some node, some node)

/-- `LLBase.h:62-70` `LLInsertAfter(node, target, last)`. -/
def llInsertAfter (h : Mem α) (node target : Nat) (last : Option Nat) : Option (Mem α × Option Nat) := do
  let tn ← rdNext h target
  let h ← wrNext h node tn
  let h ← wrPrev h node (some target)
  let tn ← rdNext h target
  match tn with
  | some n =>
    let h ← wrPrev h n (some node)
    let h ← wrNext h target (some node)
    some (h, last)
  | none =>
    let h ← wrNext h target (some node)
    some (h, some node)

/-- `LLBase.h:73-80` `LLInsertAfter(node, target)`. -/
def llInsertAfterNoLast (h : Mem α) (node target : Nat) : Option (Mem α) := do
  let tn ← rdNext h target
  let h ← wrNext h node tn
  let h ← wrPrev h node (some target)
  let tn ← rdNext h target
  match tn with
  | some n =>
    let h ← wrPrev h n (some node)
    wrNext h target (some node)
  | none => wrNext h target (some node)

/-- `LLBase.h:83-90` `LLAddAfter(node, last)`: returns the new last node. -/
def llAddAfter (h : Mem α) (node last : Nat) : Option (Mem α × Nat) := do
  let h ← wrNext h node none
  let h ← wrPrev h node (some last)
  let h ← wrNext h last (some node)
  some (h, node)

/-- `LLBase.h:92-100` `LLAddAfter(node, root, last)`. -/
def llAddAfterRoot (h : Mem α) (node : Nat) (root last : Option Nat) : Option (Mem α × Option Nat × Option Nat) := do
  let h ← wrNext h node none
  let h ← wrPrev h node last
  match last with
  | some l =>
    let h ← wrNext h l (some node)
    some (h, root, some node)
  | none => some (h, some node, some node)

/-- `LLBase.h:106-107`, `116-117`, `125`: `if(node->prev != 0) node->prev->next = node->next;` (without the `else`). -/
def unlinkPrev (h : Mem α) (node : Nat) : Option (Mem α) := do
  let p ← rdPrev h node
  match p with
  | some p =>
    let n ← rdNext h node
    wrNext h p n
  | none => some h

/-- `LLBase.h:108`, `118`, `126`: `if(node->next != 0) node->next->prev = node->prev;`. -/
def unlinkNext (h : Mem α) (node : Nat) : Option (Mem α) := do
  let n ← rdNext h node
  match n with
  | some n =>
    let p ← rdPrev h node
    wrPrev h n p
  | none => some h

/-- `LLBase.h:107`, `117`: `if(node->prev != 0) … else if(root == node) root = node->next;`. -/
def newRoot (h : Mem α) (node : Nat) (root : Option Nat) : Option (Option Nat) := do
  let p ← rdPrev h node
  match p with
  | some _ => some root
  | none => if root = some node then rdNext h node else some root

/-- `LLBase.h:109`: `if(node->next != 0) … else if(last == node) last = node->prev;`. -/
def newLast (h : Mem α) (node : Nat) (last : Option Nat) : Option (Option Nat) := do
  let n ← rdNext h node
  match n with
  | some _ => some last
  | none => if last = some node then rdPrev h node else some last

/-- `LLBase.h:103-110` `LLRemove(node, root, last)`. -/
def llRemoveLast (h : Mem α) (node : Nat) (root last : Option Nat) : Option (Mem α × Option Nat × Option Nat) := do
  let root ← newRoot h node root
  let h ← unlinkPrev h node
  let last ← newLast h node last
  let h ← unlinkNext h node
  some (h, root, last)

/-- `LLBase.h:113-119` `LLRemove(node, root)`, and `LLBase.h:137-143` `AltLLRemove`. -/
def llRemove (h : Mem α) (node : Nat) (root : Option Nat) : Option (Mem α × Option Nat) := do
  let root ← newRoot h node root
  let h ← unlinkPrev h node
  let h ← unlinkNext h node
  some (h, root)

/-- `LLBase.h:122-127` `LLRemove(node)`. -/
def llRemoveNoRoot (h : Mem α) (node : Nat) : Option (Mem α) := do
  let h ← unlinkPrev h node
  unlinkNext h node

/-! ## `include/bss-util/LinkedList.h` -/

/-- The list object: `_root` and `_last` (`LinkedList.h:84-85`; `_last` is unused when `useLast` is false), `_length`
(`LinkedList.h:50`). -/
structure LList where
  root : Option Nat
  last : Option Nat
  length : Nat
deriving DecidableEq, Repr

/-- `LinkedList.h:77`, `53`: an empty list. -/
def LList.empty : LList := ⟨none, none, 0⟩

/-- `Alloc::allocate(1)`: a node at a fresh address `a` (chosen by the allocator), with the given contents. -/
def allocNode (h : Mem α) (a : Nat) (nd : Node α) : Option (Mem α) :=
  if (h a).isSome then none else some fun q => if q = a then some nd else h q

/-- `LinkedList.h:243` `_deleteNode`. -/
def freeNode (h : Mem α) (a : Nat) : Option (Mem α) :=
  (h a).map fun _ q => if q = a then none else h q

/-- `LinkedList.h:137-145` `Add` with `useLast = true`, `_add` at line 80.  `a` is the address the allocator returns;
the uninitialised links of the fresh node are set to null here and are overwritten by `_add` in any case. -/
def add (h : Mem α) (L : LList) (a : Nat) (x : α) : Option (Mem α × LList) := do
  let h ← allocNode h a ⟨none, none, x⟩
  match L.root with
  | none =>
    let h ← wrNext h a none
    let h ← wrPrev h a none
    some (h, ⟨some a, some a, L.length + 1⟩)
  | some _ =>
    let l ← L.last
    let (h, l') ← llAddAfter h a l
    some (h, ⟨L.root, some l', L.length + 1⟩)

/-- `LinkedList.h:137-145` `Add` with `useLast = false`, `_add` at line 106. -/
def addNoLast (h : Mem α) (L : LList) (a : Nat) (x : α) : Option (Mem α × LList) := do
  let h ← allocNode h a ⟨none, none, x⟩
  let (h, r) ← llAdd h a L.root
  some (h, ⟨r, L.last, L.length + 1⟩)

/-- `LinkedList.h:149-161` `Insert(item, target)`, with `_add` given by `addf`; `_createNode` is `LinkedList.h:233-240`. -/
def insertWith (addf : Mem α → LList → Nat → α → Option (Mem α × LList)) (h : Mem α) (L : LList) (a : Nat) (x : α)
    (target : Option Nat) : Option (Mem α × LList) :=
  match target with
  | none => addf h L a x
  | some t => do
    let tp ← rdPrev h t
    let h ← allocNode h a ⟨some t, tp, x⟩
    let tp ← rdPrev h t
    match tp with
    | some p =>
      let h ← wrNext h p (some a)
      let h ← wrPrev h t (some a)
      some (h, ⟨L.root, L.last, L.length + 1⟩)
    | none =>
      let h ← wrPrev h t (some a)
      some (h, ⟨some a, L.last, L.length + 1⟩)

/-- `LinkedList.h:163-169` `Remove(node)` with `useLast = true` (`_remove` at line 81). -/
def remove (h : Mem α) (L : LList) (node : Nat) : Option (Mem α × LList) := do
  let (h, r, l) ← llRemoveLast h node L.root L.last
  let h ← freeNode h node
  some (h, ⟨r, l, L.length - 1⟩)

/-- `LinkedList.h:163-169` `Remove(node)` with `useLast = false` (`_remove` at line 105). -/
def removeNoLast (h : Mem α) (L : LList) (node : Nat) : Option (Mem α × LList) := do
  let (h, r) ← llRemove h node L.root
  let h ← freeNode h node
  some (h, ⟨r, L.last, L.length - 1⟩)

/-- `LinkedList.h:184-189`: the loop of `Clear`; the fuel bounds the number of iterations (running out means the loop
does not end). -/
def clearLoop : Nat → Mem α → Option Nat → Option (Mem α)
  | _, h, none => some h
  | 0, _, some _ => none
  | n + 1, h, some p => do
    let nx ← rdNext h p
    let h ← freeNode h p
    clearLoop n h nx

/-- `LinkedList.h:179-192` `Clear`, then `bssFill(*this, 0)`. -/
def clear (fuel : Nat) (h : Mem α) (L : LList) : Option (Mem α × LList) := do
  let h ← clearLoop fuel h L.root
  some (h, LList.empty)

/-- `LinkedList.h:218-219`: the loop of `operator+=`, walking `right` from `cur`; `as` are the addresses the allocator
returns.  The loop reads `right`'s nodes in the memory that the additions are changing. -/
def appendLoop (addf : Mem α → LList → Nat → α → Option (Mem α × LList)) :
    List Nat → Mem α → LList → Option Nat → Option (Mem α × LList)
  | _, h, L, none => some (h, L)
  | [], _, _, some _ => none
  | a :: as, h, L, some cur => do
    let nd ← h cur
    let (h, L) ← addf h L a nd.item
    let nx ← rdNext h cur
    appendLoop addf as h L nx

end Verif.Linked
