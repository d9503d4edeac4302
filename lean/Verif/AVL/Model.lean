/-!
# `AVLTree` (`include/bss-util/AVLTree.h`)

A node is its left subtree, key, data, stored balance and right subtree; the C++ functions that take a `Node**` and
relink children are functions from trees to trees.  Following a null pointer yields `none`.  Simplifications: node
addresses and the allocator are not represented, and the data that `Insert` stores in the node returned by `_insert`
(`AVLTree.h:104-122`) is passed down and stored when the node is created.  `CFunc` is a function to `Int`; the code uses
its result as a number, so the properties assume results in {-1, 0, 1} (as `CompT` gives).
-/

namespace Verif.AVL

/-- `AVLTree.h:11-26`. -/
inductive Tree (κ δ : Type) where
  | leaf
  | node (l : Tree κ δ) (k : κ) (d : δ) (bal : Int) (r : Tree κ δ)
deriving DecidableEq, Repr

variable {κ δ : Type}

/-- `AVLTree.h:189-200` `_leftRotate`. -/
def leftRotate : Tree κ δ → Option (Tree κ δ)
  | .node l k d b (.node rl rk rd rb rr) =>
    let nb := b - (1 + max rb 0)
    let rb' := rb - (1 - min nb 0)
    some (.node (.node l k d nb rl) rk rd rb' rr)
  | _ => none

/-- `AVLTree.h:202-213` `_rightRotate`. -/
def rightRotate : Tree κ δ → Option (Tree κ δ)
  | .node (.node ll lk ld lb lr) k d b r =>
    let nb := b + (1 - min lb 0)
    let lb' := lb + (1 + max nb 0)
    some (.node ll lk ld lb' (.node lr k d nb r))
  | _ => none

/-- `_balance` of a node that must exist. -/
def balOf : Tree κ δ → Option Int
  | .leaf => none
  | .node _ _ _ b _ => some b

/-- `AVLTree.h:282-319` `_rebalance`: the new tree and the returned flag. -/
def rebalance : Tree κ δ → Option (Tree κ δ × Int)
  | .leaf => none
  | .node l k d b r =>
    if b < -1 then
      (balOf l).bind fun lb =>
        if lb = 1 then (leftRotate l).bind fun l' => (rightRotate (.node l' k d b r)).map fun t => (t, 1)
        else (rightRotate (.node l k d b r)).map fun t => (t, if lb = 0 then 0 else 1)
    else if b > 1 then
      (balOf r).bind fun rb =>
        if rb = -1 then (rightRotate r).bind fun r' => (leftRotate (.node l k d b r')).map fun t => (t, 1)
        else (leftRotate (.node l k d b r)).map fun t => (t, if rb = 0 then 0 else 1)
    else some (.node l k d b r, 0)

/-- `AVLTree.h:241-243`: what `_insert` does after returning from a child; `result` is the comparison result. -/
def insertFix (result change : Int) (l : Tree κ δ) (k : κ) (d : δ) (b : Int) (r : Tree κ δ) : Option (Tree κ δ × Int) :=
  let result := result * change
  let b := b + result
  if result ≠ 0 ∧ b ≠ 0 then (rebalance (.node l k d b r)).map fun (t, c) => (t, 1 - c)
  else some (.node l k d b r, 0)

/-- `AVLTree.h:214-245` `_insert`: the new tree, `change`, and whether a node was created. -/
def insert (cmp : κ → κ → Int) (key : κ) (dat : δ) : Tree κ δ → Option (Tree κ δ × Int × Bool)
  | .leaf => some (.node .leaf key dat 0 .leaf, 1, true)
  | .node l k d b r =>
    let result := cmp k key
    if result < 0 then
      (insert cmp key dat l).bind fun (l', c, ins) => (insertFix result c l' k d b r).map fun (t, c) => (t, c, ins)
    else if result > 0 then
      (insert cmp key dat r).bind fun (r', c, ins) => (insertFix result c l k d b r').map fun (t, c) => (t, c, ins)
    else some (.node l k d b r, 0, false)

/-- `AVLTree.h:247-262` `_find`: key and data of the node found. -/
def find (cmp : κ → κ → Int) (key : κ) : Tree κ δ → Option (κ × δ)
  | .leaf => none
  | .node l k d _ r =>
    if cmp k key = -1 then find cmp key l
    else if cmp k key = 1 then find cmp key r
    else some (k, d)

/-- `AVLTree.h:264-281` `_near`; `prev` is the last node visited. -/
def near (cmp : κ → κ → Int) (key : κ) (prev : Option (κ × δ)) : Tree κ δ → Option (κ × δ)
  | .leaf => prev
  | .node l k d _ r =>
    if cmp k key = -1 then near cmp key (some (k, d)) l
    else if cmp k key = 1 then near cmp key (some (k, d)) r
    else some (k, d)

/-- `AVLTree.h:360-362`: the key of the leftmost node. -/
def minKey : Tree κ δ → Option κ
  | .leaf => none
  | .node .leaf k _ _ _ => some k
  | .node l@(.node ..) _ _ _ _ => minKey l

/-- `AVLTree.h:371-373`: the end of `_remove`. -/
def removeFix (result : Int) (l : Tree κ δ) (k : κ) (d : δ) (b : Int) (r : Tree κ δ) : Option (Tree κ δ × Int) :=
  let b := b - result
  if result ≠ 0 then
    if b ≠ 0 then rebalance (.node l k d b r) else some (.node l k d b r, 1)
  else some (.node l k d b r, 0)

/-- `AVLTree.h:321-375` `_remove`: the new tree, `change`, and the detached node's key and data. -/
def remove (cmp : κ → κ → Int) (key : κ) : Tree κ δ → Option (Tree κ δ × Int × Option (κ × δ))
  | .leaf => some (.leaf, 0, none)
  | .node l k d b r =>
    let result := cmp k key
    if result < 0 then
      (remove cmp key l).bind fun (l', c, ret) => (removeFix (result * c) l' k d b r).map fun (t, c) => (t, c, ret)
    else if result > 0 then
      (remove cmp key r).bind fun (r', c, ret) => (removeFix (result * c) l k d b r').map fun (t, c) => (t, c, ret)
    else
      match l, r with
      | .leaf, .leaf => some (.leaf, 1, some (k, d))
      | .leaf, .node .. => some (r, 1, some (k, d))
      | .node .., .leaf => some (l, 1, some (k, d))
      | .node .., .node .. =>
        (minKey r).bind fun sk =>
          (remove cmp sk r).bind fun (r', result, ret) =>
            -- `_swapData`, `AVLTree.h:50-59`
            let (d', ret) := match ret with
              | some (rk, rd) => (rd, some (rk, d))
              | none => (d, none)
            (removeFix result l sk d' b r').map fun (t, c) => (t, c, ret)

/-- `AVLTree.h:167-176` `_traverse`: the keys and data in the order of the calls of the lambda. -/
def toList : Tree κ δ → List (κ × δ)
  | .leaf => []
  | .node l k d _ r => toList l ++ (k, d) :: toList r

/-- `AVLTree.h:124-128` `Get`: the data, or `none` for `INVALID`. -/
def get (cmp : κ → κ → Int) (key : κ) (t : Tree κ δ) : Option δ := (find cmp key t).map (·.2)

/-- `AVLTree.h:134-147` `Remove`: the new tree and the result. -/
def removeKey (cmp : κ → κ → Int) (key : κ) (t : Tree κ δ) : Option (Tree κ δ × Bool) :=
  (remove cmp key t).map fun (t, _, ret) => (t, ret.isSome)

/-- `AVLTree.h:148-162` `ReplaceKey`; `dflt` is the default-constructed data of a fresh node. -/
def replaceKey (cmp : κ → κ → Int) (dflt : δ) (old new : κ) (t : Tree κ δ) : Option (Tree κ δ × Bool) :=
  (remove cmp old t).bind fun (t, _, ret) =>
    (insert cmp new ((ret.map (·.2)).getD dflt) t).map fun (t, _, ins) => (t, ins)

end Verif.AVL
