/-!
# `AATree` (`include/bss-util/AATree.h`)

A node is its level, left subtree, data and right subtree; `sent` is the sentinel (level 0, its own child on both
sides).  Functions taking `AANODE<T>*&` are functions from trees to trees; `none` stands for undefined behaviour or for
a write into the shared sentinel.  Node addresses and the allocator are not represented.  The member `_deleted` is kept
between calls and starts uninitialised (`AATree.h:25-30`): it is `undef`, the sentinel, or a node of the tree, of which
the data is recorded.  The test `n == _last` of `_remove` holds exactly in the call whose child is the sentinel, because
every call on a node stores that node in `_last`, and a successful removal stores the sentinel there.
-/

namespace Verif.AA

/-- `AATree.h:11-18`. -/
inductive Tree (α : Type) where
  | sent
  | node (lv : Int) (l : Tree α) (x : α) (r : Tree α)
deriving DecidableEq, Repr

variable {α : Type}

/-- `n->level`; the sentinel's is 0 (`AATree.h:27`). -/
def level : Tree α → Int
  | .sent => 0
  | .node lv _ _ _ => lv

/-- `n->right`; the sentinel's is the sentinel (`AATree.h:28`). -/
def right : Tree α → Tree α
  | .sent => .sent
  | .node _ _ _ r => r

/-- `AATree.h:86-95` `_skew`. -/
def skew : Tree α → Option (Tree α)
  | .sent => some .sent
  | .node lv l x r =>
    if lv = level l then
      match l with
      | .sent => none
      | .node llv ll lx lr => some (.node llv ll lx (.node lv lr x r))
    else some (.node lv l x r)

/-- `AATree.h:96-106` `_split`. -/
def split : Tree α → Option (Tree α)
  | .sent => none
  | .node lv l x r =>
    if level (right r) = lv then
      match r with
      | .sent => none
      | .node rlv rl rx rr => some (.node (rlv + 1) (.node lv l x rl) rx rr)
    else some (.node lv l x r)

/-- `AATree.h:107-125` `_insert`. -/
def insert (cmp : α → α → Int) (data : α) : Tree α → Option (Tree α)
  | .sent => some (.node 1 .sent data .sent)
  | .node lv l x r =>
    if cmp data x < 0 then (insert cmp data l).bind fun l' => (skew (.node lv l' x r)).bind split
    else (insert cmp data r).bind fun r' => (skew (.node lv l x r')).bind split

/-- Apply `_skew` or `_split` to the right child of a node: the argument expressions `n->right` of `AATree.h:157,160`. -/
def onRight (f : Tree α → Option (Tree α)) : Tree α → Option (Tree α)
  | .sent => if (f .sent).isSome then some .sent else none
  | .node lv l x r => (f r).map fun r' => .node lv l x r'

/-- `AATree.h:154-155`: lower the right child's level to `m` if it is higher. -/
def lower (m : Int) : Tree α → Option (Tree α)
  | .sent => if 0 > m then none else some .sent
  | .node lv l x r => some (.node (if lv > m then m else lv) l x r)

/-- `AATree.h:153-160`: lower a node whose child has lost a level, and restore the rules. -/
def fix (lv : Int) (l : Tree α) (x : α) (r : Tree α) : Option (Tree α) :=
  (lower (lv - 1) r).bind fun r' =>
  (skew (.node (lv - 1) l x r')).bind fun n =>
  (onRight skew n).bind fun n =>
  (onRight (onRight skew) n).bind fun n =>
  (split n).bind fun n =>
  onRight split n

/-- `AATree.h:151-161`. -/
def fixup (lv : Int) (l : Tree α) (x : α) (r : Tree α) : Option (Tree α) :=
  if level l < lv - 1 ∨ level r < lv - 1 then fix lv l x r else some (.node lv l x r)

/-- The member `_deleted`, `AATree.h:166`. -/
inductive Del (α : Type) where
  | undef
  | sent
  | node (x : α)
deriving DecidableEq, Repr

/-- The result of `_remove`: the tree, `_deleted`, the returned flag, and the data to be stored into the node that
`_deleted` pointed to, when that node is outside the tree given. -/
structure Out (α : Type) where
  tree : Tree α
  del : Del α
  found : Bool
  assign : Option α
deriving DecidableEq, Repr

/-- `AATree.h:142` in the deepest call: does the condition hold? (`none`: `_deleted` is uninitialised). -/
def hit (cmp : α → α → Int) (data : α) : Del α → Option Bool
  | .undef => none
  | .sent => some false
  | .node y => some (cmp data y = 0)

/-- `AATree.h:126-164` `_remove`. -/
def remove (cmp : α → α → Int) (data : α) : Tree α → Del α → Option (Out α)
  | .sent, del => some ⟨.sent, del, false, none⟩
  | .node lv l x r, del =>
    if cmp data x < 0 then
      match l with
      | .sent =>
        (hit cmp data del).bind fun h =>
          if h then some ⟨r, .sent, true, some x⟩
          else (fixup lv .sent x r).map fun t => ⟨t, del, false, none⟩
      | .node .. =>
        (remove cmp data l del).bind fun o =>
          (fixup lv o.tree x r).map fun t => ⟨t, o.del, o.found, o.assign⟩
    else
      match r with
      | .sent =>
        (hit cmp data (.node x)).bind fun h =>
          if h then some ⟨.sent, .sent, true, none⟩
          else (fixup lv l x .sent).map fun t => ⟨t, .node x, false, none⟩
      | .node .. =>
        (remove cmp data r (.node x)).bind fun o =>
          (fixup lv l (o.assign.getD x) o.tree).map fun t => ⟨t, o.del, o.found, none⟩

/-- `AATree.h:46-61` `Get`: the data of the node found. -/
def get (cmp : α → α → Int) (data : α) : Tree α → Option α
  | .sent => none
  | .node _ l x r =>
    if cmp data x = -1 then get cmp data l
    else if cmp data x = 1 then get cmp data r
    else some x

/-- In-order contents (the order `Traverse` at `AATree.h:79-85` is meant to have; that template does not instantiate). -/
def toList : Tree α → List α
  | .sent => []
  | .node _ l x r => toList l ++ x :: toList r

/-- The object.  `freed` is set when `Clear` has freed the nodes that `_root` still points to. -/
structure Obj (α : Type) where
  root : Tree α
  del : Del α
  freed : Bool
deriving DecidableEq, Repr

/-- `AATree.h:25-30`. -/
def Obj.new : Obj α := ⟨.sent, .undef, false⟩

/-- `AATree.h:43` `Insert`. -/
def Obj.insert (cmp : α → α → Int) (data : α) (o : Obj α) : Option (Obj α) :=
  if o.freed then none else (AA.insert cmp data o.root).map fun t => { o with root := t }

/-- `AATree.h:44` `Remove`.  A store through a `_deleted` left over from an earlier call is not modelled (`none`). -/
def Obj.remove (cmp : α → α → Int) (data : α) (o : Obj α) : Option (Obj α × Bool) :=
  if o.freed then none else
  (AA.remove cmp data o.root o.del).bind fun r =>
    if r.assign.isSome then none else some ({ o with root := r.tree, del := r.del }, r.found)

/-- `AATree.h:46-61` `Get`. -/
def Obj.get (cmp : α → α → Int) (data : α) (o : Obj α) : Option (Option α) :=
  if o.freed then none else some (AA.get cmp data o.root)

/-- `AATree.h:62,71-78` `Clear`: the nodes are freed, `_root` stays. -/
def Obj.clear (o : Obj α) : Option (Obj α) :=
  if o.freed then none else some { o with freed := match o.root with | .sent => false | .node .. => true }

end Verif.AA
