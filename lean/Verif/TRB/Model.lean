/-!
# `TRBtree` (`include/bss-util/TRBtree.h`)

A node is an element: an identity (standing for its address) and a value.  The tree proper is an inductive tree; a
node's chain of `parent` pointers is the path from it to the root (a list of frames, innermost first).  The thread
through `next`/`prev` with `_first`/`_last` is a list of elements, each with a flag for `color == -1` (duplicate, not
in the tree).  The intrusive list functions it uses (`LLInsert`, `LLInsertAfter`, `LLAddAfter`, `LLRemove`) are the list
operations proved for them in `Verif/Linked` (C18).  `none` stands for following a null pointer.
-/

namespace Verif.TRB

/-- A node's identity and value. -/
structure E (α : Type) where
  id : Nat
  val : α
deriving DecidableEq, Repr

/-- `TRBtree.h:62`: 1 is red, 0 is black. -/
inductive Color where
  | red
  | black
deriving DecidableEq, Repr

/-- `TRBtree.h:17,54-62`; `leaf` is `NIL`. -/
inductive Tree (α : Type) where
  | leaf
  | node (c : Color) (l : Tree α) (x : E α) (r : Tree α)
deriving DecidableEq, Repr

variable {α : Type}

/-- One step from a node to its parent: in `L c x r` the node is the left child of the node `x` with right child `r`. -/
inductive Frame (α : Type) where
  | L (c : Color) (x : E α) (r : Tree α)
  | R (c : Color) (l : Tree α) (x : E α)
deriving DecidableEq, Repr

/-- The way from a node to the root. -/
abbrev Path (α : Type) := List (Frame α)

/-- The whole tree, given a subtree and the way up from it. -/
def zip : Tree α → Path α → Tree α
  | t, [] => t
  | t, .L c x r :: p => zip (.node c t x r) p
  | t, .R c l x :: p => zip (.node c l x t) p

/-- `color`; `NIL` is black (`TRBtree.h:386`). -/
def color : Tree α → Color
  | .leaf => .black
  | .node c .. => c

/-- `node->color = 0`. -/
def blacken : Tree α → Tree α
  | .leaf => .leaf
  | .node _ l x r => .node .black l x r

/-- `parent->color`. -/
def Frame.color : Frame α → Color
  | .L c _ _ => c
  | .R c _ _ => c

/-- `TRBtree.h:222-277` `_fixInsert` with `_leftRotate`/`_rightRotate` (`TRBtree.h:190-221`).  The first argument is the
subtree at `node`. -/
def fixInsert : Tree α → Path α → Option (Tree α)
  | n, [] => some (blacken n)
  | n, [f] => if f.color = .black then some (blacken (zip n [f])) else none
  | n, f :: g :: p =>
    if f.color = .black then some (blacken (zip n (f :: g :: p))) else
    match f, g with
    | .L _ x r, .L _ y u =>
      if color u = .red then fixInsert (.node .red (.node .black n x r) y (blacken u)) p
      else some (blacken (zip (.node .black n x (.node .red r y u)) p))
    | .R _ l x, .L _ y u =>
      if color u = .red then fixInsert (.node .red (.node .black l x n) y (blacken u)) p
      else match n with
        | .leaf => none
        | .node _ a z b => some (blacken (zip (.node .black (.node .red l x a) z (.node .red b y u)) p))
    | .R _ l x, .R _ u y =>
      if color u = .red then fixInsert (.node .red (blacken u) y (.node .black l x n)) p
      else some (blacken (zip (.node .black (.node .red u y l) x n) p))
    | .L _ x r, .R _ u y =>
      if color u = .red then fixInsert (.node .red (blacken u) y (.node .black n x r)) p
      else match n with
        | .leaf => none
        | .node _ a z b => some (blacken (zip (.node .black (.node .red u y a) z (.node .red b x r)) p))

/-- `TRBtree.h:294-314`: `node` is the left child of `x`, whose colour is `c`, and the other child `w` is not red.  The
subtree at the parent's place, and whether the loop goes on with `node = node->parent`. -/
def stepL (z : Tree α) (c : Color) (x : E α) : Tree α → Option (Tree α × Bool)
  | .leaf => none
  | .node wc wl wx wr =>
    if color wl = .black ∧ color wr = .black then some (.node c z x (.node .red wl wx wr), true)
    else if color wr = .black then
      match wl with
      | .leaf => none
      | .node _ a y b => some (.node c (.node .black z x a) y (blacken (.node .red b wx wr)), false)
    else some (.node c (.node .black z x wl) wx (blacken wr), false)

/-- `TRBtree.h:328-348`, the mirror image. -/
def stepR (z : Tree α) (c : Color) (x : E α) : Tree α → Option (Tree α × Bool)
  | .leaf => none
  | .node wc wl wx wr =>
    if color wr = .black ∧ color wl = .black then some (.node c (.node .red wl wx wr) x z, true)
    else if color wl = .black then
      match wr with
      | .leaf => none
      | .node _ a y b => some (.node c (blacken (.node .red wl wx a)) y (.node .black b x z), false)
    else some (.node c (blacken wl) wx (.node .black wr x z), false)

/-- `TRBtree.h:278-352` `_fixDelete`.  When the sibling is red, the parent is coloured red (`:289`, `:323`) before the
second half of the loop body, so if that half ends with `node = node->parent` the loop ends there. -/
def fixDelete : Tree α → Path α → Option (Tree α)
  | z, [] => some (blacken z)
  | z, .L c x w :: p =>
    if color z = .red then some (zip (blacken z) (.L c x w :: p)) else
    match w with
    | .node .red wl wx wr =>
      (stepL z .red x wl).map fun (t, up) =>
        if up then zip (blacken t) (.L .black wx wr :: p) else blacken (zip t (.L .black wx wr :: p))
    | w => (stepL z c x w).bind fun (t, up) => if up then fixDelete t p else some (blacken (zip t p))
  | z, .R c w x :: p =>
    if color z = .red then some (zip (blacken z) (.R c w x :: p)) else
    match w with
    | .node .red wl wx wr =>
      (stepR z .red x wr).map fun (t, up) =>
        if up then zip (blacken t) (.R .black wl wx :: p) else blacken (zip t (.R .black wl wx :: p))
    | w => (stepR z c x w).bind fun (t, up) => if up then fixDelete t p else some (blacken (zip t p))

/-- `TRBtree.h:120-132`: the search loop of `InsertNode`; the way up from where it ends, or the equal node found. -/
def descend (cmp : α → α → Int) (v : α) : Tree α → Path α → Path α × Option (E α)
  | .leaf, p => (p, none)
  | .node c l x r, p =>
    if cmp v x.val = -1 then descend cmp v l (.L c x r :: p)
    else if cmp v x.val = 1 then descend cmp v r (.R c l x :: p)
    else (p, some x)

/-- An entry of the thread: the node and whether it is a duplicate. -/
abbrev Entry (α : Type) := E α × Bool

/-- `LLInsertAfter(e, i, last)`. -/
def insAfter (i : Nat) (e : Entry α) : List (Entry α) → Option (List (Entry α))
  | [] => none
  | a :: l => if a.1.id = i then some (a :: e :: l) else (insAfter i e l).map (a :: ·)

/-- `LLInsert(e, i, first)`: before the node `i`. -/
def insBefore (i : Nat) (e : Entry α) : List (Entry α) → Option (List (Entry α))
  | [] => none
  | a :: l => if a.1.id = i then some (e :: a :: l) else (insBefore i e l).map (a :: ·)

/-- `node->next` (outer `none`: there is no such node). -/
def nextOf (i : Nat) : List (Entry α) → Option (Option (Entry α))
  | [] => none
  | a :: l => if a.1.id = i then some l.head? else nextOf i l

/-- `node->prev`. -/
def prevOf (i : Nat) : Option (Entry α) → List (Entry α) → Option (Option (Entry α))
  | _, [] => none
  | p, a :: l => if a.1.id = i then some p else prevOf i (some a) l

/-- `TRBtree.h:373-378` `_treeNextSub`, from the node whose way up this is. -/
def nextSub : Path α → Option (E α)
  | [] => none
  | .L _ x _ :: _ => some x
  | .R .. :: p => nextSub p

/-- `TRBtree.h:537-540`. -/
structure T (α : Type) where
  tree : Tree α
  thread : List (Entry α)
deriving DecidableEq, Repr

/-- `next` is a duplicate: the tests at `TRBtree.h:73` and `:147`. -/
def isDup : Option (Entry α) → Bool
  | some (_, true) => true
  | _ => false

/-- `TRBtree.h:138-154`: threading the new node in. -/
def threadIn (e : E α) (thread : List (Entry α)) : Path α → Option (List (Entry α))
  | [] => some [(e, false)]
  | .L _ x _ :: _ => insBefore x.id (e, false) thread
  | .R _ _ x :: p =>
    (nextOf x.id thread).bind fun nx =>
      if isDup nx then
        match nextSub p with
        | none => some (thread ++ [(e, false)])
        | some s => insBefore s.id (e, false) thread
      else insAfter x.id (e, false) thread

/-- `TRBtree.h:107-165` `InsertNode`, called by `Insert` (`TRBtree.h:450-456`) with a fresh node. -/
def insert (cmp : α → α → Int) (e : E α) (t : T α) : Option (T α) :=
  match descend cmp e.val t.tree [] with
  | (_, some x) => (insAfter x.id (e, true) t.thread).map fun th => { t with thread := th }
  | (p, none) =>
    (threadIn e t.thread p).bind fun th =>
      (fixInsert (.node .red .leaf e .leaf) p).map fun tr => ⟨tr, th⟩

/-- The place of a node in the tree: its colour, children and way up (what its pointers say). -/
def locate (i : Nat) : Tree α → Path α → Option (Color × Tree α × E α × Tree α × Path α)
  | .leaf, _ => none
  | .node c l x r, p =>
    if x.id = i then some (c, l, x, r, p)
    else (locate i l (.L c x r :: p)).or (locate i r (.R c l x :: p))

/-- `TRBtree.h:368-372` `_findMin`: colour, element and right child of the leftmost node, and the way up. -/
def findMin : Tree α → Path α → Option (Color × E α × Tree α × Path α)
  | .leaf, _ => none
  | .node c .leaf x r, p => some (c, x, r, p)
  | .node c l@(.node ..) x r, p => findMin l (.L c x r :: p)

/-- `LLRemove`. -/
def threadOut (i : Nat) (l : List (Entry α)) : List (Entry α) := l.filter fun a => a.1.id ≠ i

/-- The thread after `_replaceNode(node, node->next, root)` and `LLRemove(node)` (`TRBtree.h:75-76`): the next node takes
over the colour, so it is no longer a duplicate. -/
def promote (i j : Nat) (l : List (Entry α)) : List (Entry α) :=
  (threadOut i l).map fun a => if a.1.id = j then (a.1, false) else a

/-- `TRBtree.h:82-101`: taking a node out of the tree proper.  In the case of two children the path from the successor
runs through the node's own frame, in which `_replaceNode` (`TRBtree.h:353-367`) puts the successor. -/
def removeTree (c : Color) (l r : Tree α) (p : Path α) : Option (Tree α) :=
  match l, r with
  | .node .., .node .. =>
    (findMin r []).bind fun (yc, y, z, q) =>
      let path := q ++ .R c l y :: p
      if yc = .black then fixDelete z path else some (zip z path)
  | .leaf, _ => if c = .black then fixDelete r p else some (zip r p)
  | .node .., .leaf => if c = .black then fixDelete l p else some (zip l p)

/-- The flag of a node in the thread. -/
def dupOf (i : Nat) (l : List (Entry α)) : Option Bool := (l.find? fun a => a.1.id = i).map (·.2)

/-- `TRBtree.h:69-104` `RemoveNode`. -/
def removeNode (i : Nat) (t : T α) : Option (T α) :=
  (dupOf i t.thread).bind fun d =>
    if d then some { t with thread := threadOut i t.thread }
    else
      (locate i t.tree []).bind fun (c, l, _, r, p) =>
        (nextOf i t.thread).bind fun nx =>
          match nx with
          | some (y, true) => some ⟨zip (.node c l y r) p, promote i y.id t.thread⟩
          | _ => (removeTree c l r p).map fun tr => ⟨tr, threadOut i t.thread⟩

/-- `TRBtree.h:496-511` `GetNode`. -/
def getNode (cmp : α → α → Int) (v : α) : Tree α → Option (E α)
  | .leaf => none
  | .node _ l x r =>
    if cmp v x.val = -1 then getNode cmp v l
    else if cmp v x.val = 1 then getNode cmp v r
    else some x

/-- `TRBtree.h:458-469` `Remove(value)`. -/
def removeVal (cmp : α → α → Int) (v : α) (t : T α) : Option (T α × Bool) :=
  match getNode cmp v t.tree with
  | none => some (t, false)
  | some x => (removeNode x.id t).map fun t => (t, true)

/-- `TRBtree.h:512-533` `GetNodeNear`; `none` inside means the sentinel node (empty tree). -/
def getNear (cmp : α → α → Int) (v : α) (before : Bool) (t : T α) : Option (Option (E α)) :=
  match descend cmp v t.tree [] with
  | (_, some x) => some (some x)
  | ([], none) => some none
  | (.L _ x _ :: _, none) =>
    if before then (prevOf x.id none t.thread).map fun q => some (match q with | some q => q.1 | none => x)
    else some (some x)
  | (.R _ _ x :: _, none) =>
    if before then some (some x)
    else (nextOf x.id t.thread).map fun q => some (match q with | some q => q.1 | none => x)

/-- In-order contents of the tree proper. -/
def toList : Tree α → List (E α)
  | .leaf => []
  | .node _ l x r => toList l ++ x :: toList r

end Verif.TRB
