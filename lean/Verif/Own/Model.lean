/-!
# Moving containers of nodes

`AVLTree`, `KDTree`, `LinkedList` and `TRBtree` own their nodes: they take them from an allocator and give them back in
`Clear` and in the destructor.  Here several such containers live side by side and are moved.  A node is its address and
its value; the order of the nodes in the tree or list is left out (other claims are about it), `nodes` has them in the
order of insertion.  The allocator is `StandardAllocator` (`Alloc.h:35-93`, no state) or `PolymorphicAllocator`
(`Alloc.h:111-146`, a pointer to a policy; memory has to go back to the policy it is from).  `none` stands for undefined
behaviour: a call through a null policy, memory given back that is not (or no longer) taken from this policy, a read of
an uninitialised node; and for programs that use an object that does not exist.
-/

namespace Verif.Own

/-- The containers. -/
inductive Kind where
  | avl
  | kd
  | list
  | trb
deriving DecidableEq, Repr

/-- Container and allocator: `poly` for `PolymorphicAllocator`. -/
structure Cfg where
  kind : Kind
  poly : Bool
deriving DecidableEq, Repr

/-- `AVLTree.h:377`, `KDTree.h:353`, `LinkedList.h:84,109`, `TRBtree.h:537-540`: the allocator's policy (number 0 for
`StandardAllocator`), the nodes, and the sentinel of a `TRBtree`. -/
structure Obj where
  pol : Option Nat
  nodes : List (Nat × Nat)
  nil : Option Nat
deriving DecidableEq, Repr

/-- Memory that is taken, with the policy it is from; the next address; sentinels that are taken but not initialised;
the objects. -/
structure World where
  live : Nat → Option Nat
  next : Nat
  raw : List Nat
  objs : Nat → Option Obj

/-- The state before anything happens. -/
def World.init : World := ⟨fun _ => none, 1, [], fun _ => none⟩

/-- Store an object, or take it away. -/
def World.put (w : World) (k : Nat) (o : Option Obj) : World :=
  { w with objs := fun i => if i = k then o else w.objs i }

/-- `Alloc.h:46-75,124` `allocate(1)`: the address is new. -/
def alloc (pol : Option Nat) (w : World) : Option (Nat × World) :=
  pol.map fun p => (w.next, { w with live := fun a => if a = w.next then some p else w.live a, next := w.next + 1 })

/-- `Alloc.h:76-90,125` `deallocate(a, 1)`. -/
def free (pol : Option Nat) (a : Nat) (w : World) : Option World :=
  match pol with
  | none => none
  | some p => if w.live a = some p then some { w with live := fun b => if b = a then none else w.live b } else none

/-- The loop or recursion that gives back all nodes (`AVLTree.h:178-188`, `LinkedList.h:181-188`, `TRBtree.h:433-437`,
`KDTree.h:271-276`). -/
def freeAll (pol : Option Nat) : List Nat → World → Option World
  | [], w => some w
  | a :: l, w => (free pol a w).bind (freeAll pol l)

/-- The policy that a moved-from allocator has left: `Alloc.h:121,128-133` set it to null; `StandardAllocator` has none. -/
def Cfg.left (c : Cfg) (pol : Option Nat) : Option Nat := if c.poly then none else pol

/-- `Clear()`: `AVLTree.h:100`, `KDTree.h:45`, `TRBtree.h:431-442`, and `LinkedList.h:176-191`, where
`bssFill(*this, 0)` also clears the allocator's policy. -/
def clear (c : Cfg) (o : Obj) (w : World) : Option (Obj × World) :=
  (freeAll o.pol (o.nodes.map (·.1)) w).map fun w =>
    ({ o with nodes := [], pol := if c.kind = .list then c.left o.pol else o.pol }, w)

/-- Calls of a program; objects are numbered. -/
inductive Op where
  | ctor (k p : Nat)
  | insert (k v : Nat)
  | remove (k i : Nat)
  | clear (k : Nat)
  | moveCtor (k j : Nat)
  | moveAssign (k j : Nat)
  | dtor (k : Nat)
deriving DecidableEq, Repr

/-- The sentinel's colour is read when a third node is inserted or a node of two is removed (at the latest; the model
takes it that it is read) (`TRBtree.h:222-350` `_fixInsert`, `_fixDelete`). -/
def readable (o : Obj) (w : World) : Bool :=
  match o.nil with
  | none => true
  | some a => !w.raw.contains a || o.nodes.length < 2

/-- Constructors `AVLTree.h:96-98`, `KDTree.h:40-42`, `LinkedList.h:126-128`, `TRBtree.h:411-427`. -/
def ctor (c : Cfg) (k p : Nat) (w : World) : Option World :=
  let pol := some (if c.poly then p else 0)
  if c.kind = .trb then
    (alloc pol w).map fun (a, w) => w.put k (some ⟨pol, [], some a⟩)
  else some (w.put k (some ⟨pol, [], none⟩))

/-- `Insert`/`Add` (`AVLTree.h:104-110`, `LinkedList.h:138-145`, `TRBtree.h:450-456`). -/
def insert (k v : Nat) (o : Obj) (w : World) : Option World :=
  if readable o w then
    (alloc o.pol w).map fun (a, w) => w.put k (some { o with nodes := o.nodes ++ [(a, v)] })
  else none

/-- `Remove` of the `i`-th node (`LinkedList.h:162-168`, `TRBtree.h:460-469`); none if there are not so many. -/
def remove (k i : Nat) (o : Obj) (w : World) : Option World :=
  match o.nodes[i]? with
  | none => some w
  | some n =>
    if readable o w then
      (free o.pol n.1 w).map fun w => w.put k (some { o with nodes := o.nodes.eraseIdx i })
    else none

/-- Move constructors `AVLTree.h:95`, `KDTree.h:43`, `LinkedList.h:131-135`, `TRBtree.h:401-410`.  The last takes a new
sentinel for `mov` but initialises the one it has taken over instead. -/
def moveCtor (c : Cfg) (k j : Nat) (s : Obj) (w : World) : Option World :=
  match c.kind, s.nil with
  | .trb, some n =>
    (alloc s.pol w).map fun (a, w) =>
      let w := { w with raw := a :: w.raw.filter (· ≠ n) }
      (w.put k (some s)).put j (some ⟨c.left s.pol, [], some a⟩)
  | _, _ => some ((w.put k (some s)).put j (some ⟨c.left s.pol, [], s.nil⟩))

/-- Move assignments: `AVLTree.h:164` and `LinkedList.h:203-213` leave the allocator alone, `KDTree.h:124-131` moves it,
`TRBtree.h:481-494` exchanges the sentinels. -/
def moveAssign (c : Cfg) (k j : Nat) (o s : Obj) (w : World) : Option World :=
  if k = j then
    match c.kind with
    | .list => some w
    | .kd => (clear c o w).map fun (o, w) => w.put k (some { o with pol := c.left o.pol })
    | _ => (clear c o w).map fun (o, w) => w.put k (some o)
  else
    (clear c o w).map fun (o, w) =>
      match c.kind with
      | .kd => (w.put k (some { o with pol := s.pol, nodes := s.nodes })).put j (some ⟨c.left s.pol, [], s.nil⟩)
      | .trb => (w.put k (some ⟨o.pol, s.nodes, s.nil⟩)).put j (some ⟨s.pol, [], o.nil⟩)
      | _ => (w.put k (some { o with nodes := s.nodes })).put j (some { s with nodes := [] })

/-- Destructors `AVLTree.h:99`, `KDTree.h:44`, `LinkedList.h:137`, `TRBtree.h:429`. -/
def dtor (c : Cfg) (k : Nat) (o : Obj) (w : World) : Option World :=
  (clear c o w).bind fun (o, w) =>
    match o.nil with
    | none => some (w.put k none)
    | some a => (free o.pol a w).map fun w => w.put k none

/-- One call. -/
def exec (c : Cfg) : Op → World → Option World
  | .ctor k p, w => if w.objs k = none then ctor c k p w else none
  | .insert k v, w => (w.objs k).bind fun o => insert k v o w
  | .remove k i, w => (w.objs k).bind fun o => remove k i o w
  | .clear k, w => (w.objs k).bind fun o => (clear c o w).map fun (o, w) => w.put k (some o)
  | .moveCtor k j, w => if w.objs k = none then (w.objs j).bind fun s => moveCtor c k j s w else none
  | .moveAssign k j, w => (w.objs k).bind fun o => (w.objs j).bind fun s => moveAssign c k j o s w
  | .dtor k, w => (w.objs k).bind fun o => dtor c k o w

/-- A program. -/
def run (c : Cfg) : List Op → World → Option World
  | [], w => some w
  | op :: l, w => (exec c op w).bind (run c l)

end Verif.Own
