/-!
# Model of `KDTree`

`include/bss-util/KDTree.h`. Items are numbers, `rect x k` is `FRECT(x)[k]`; it does not change while an item is stored. The list of items of a node
is a Lean list, and `FNODE(x)` is the node whose list contains `x`.

Coordinates are elements of a totally ordered set (floats that are not NaN), here embedded in the integers. What the code computes with them (totals and
dividers) goes through the parameters `Arith`, about which nothing is assumed: no rounding matters for the properties. `balance` does not wrap.
Not modelled: `InsertRoot`, `Solve`, `TraverseAll`, the allocator, moves.
-/

namespace Verif.Spatial

/-- The floating point operations: `a + b`, `a - b` and `a / n`. -/
structure Arith where
  add : Int → Int → Int
  sub : Int → Int → Int
  div : Int → Nat → Int

/-- `KDNode` without pointers, `:14-30`. -/
structure Info where
  num : Nat
  div : Int
  balance : Int
  axis : Nat
  total : Int × Int
  deriving DecidableEq, Repr

/-- `KDNode` with its children and items. -/
inductive T where
  | nil
  | node (i : Info) (items : List Nat) (left right : T)
  deriving DecidableEq, Repr

def T.num : T → Nat
  | .nil => 0
  | .node i _ _ _ => i.num

def T.total : T → Int × Int
  | .nil => (0, 0)
  | .node i _ _ _ => i.total

def T.isNil : T → Bool
  | .nil => true
  | .node .. => false

variable (A : Arith) (rect : Nat → Nat → Int)

/-- `total[axis]`. -/
def Info.tot (i : Info) : Int := if i.axis = 0 then i.total.1 else i.total.2

/-- `total[0] += r[0] + r[2]; total[1] += r[1] + r[3];`. -/
def plus (t : Int × Int) (x : Nat) : Int × Int := (A.add t.1 (A.add (rect x 0) (rect x 2)), A.add t.2 (A.add (rect x 1) (rect x 3)))
def minus (t : Int × Int) (x : Nat) : Int × Int := (A.sub t.1 (A.add (rect x 0) (rect x 2)), A.sub t.2 (A.add (rect x 1) (rect x 3)))
def plusT (t u : Int × Int) : Int × Int := (A.add t.1 u.1, A.add t.2 u.2)
def minusT (t u : Int × Int) : Int × Int := (A.sub t.1 u.1, A.sub t.2 u.2)

/-! ## Rebalancing -/

/-- `_checkDestroy`, `:263-271`. -/
def checkDestroy (t : T) : T := if t.num = 0 then .nil else t

/-- Items arriving in a node from below (`:250-254`). -/
def receive (i : Info) (items up : List Nat) : Info × List Nat :=
  ({ i with num := i.num + up.length, total := up.foldl (plus A rect) i.total }, up.reverse ++ items)

/-- Whether an item is moved up (`:238-243`). The tests for `i = 0, 1, 2` have no effect, because `continue` is executed unless the last one holds; `r3` is `r[3]`, where `none` is `FLT_MAX`. -/
def moves (r3 : Option Int) (x : Nat) : Bool :=
  match r3 with
  | none => false
  | some b => rect x 3 > b

/-- The loop over the items, `:233-255`: what stays and what goes to `p[3]`. -/
def release (i : Info) (items : List Nat) (r3 : Option Int) : (Info × List Nat) × List Nat :=
  let out := items.filter (moves rect r3)
  (({ i with num := i.num - out.length, total := out.foldl (minus A rect) i.total }, items.filter fun x => !moves rect r3 x), out)

/-- `:201-204`, the first lines of `_rebalance`. -/
def redivide (i : Info) : Info := { i with div := A.div i.tot (i.num * 2), balance := 0 }

/-- `_rebalance`, `:199-261`: the tree and what it hands to `p[3]`. When the axis is 1 the left child gets this node as `p[3]`; the right child does too if there is a left child (`parents[3]` is not reset, `:217`). -/
def rebalance : T → Option Int → T × List Nat
  | .nil, _ => (.nil, [])
  | .node i items l r, r3 =>
    let i1 := redivide A i
    let L := if l.isNil then (.nil, []) else rebalance l (if i.axis = 1 then some i1.div else r3)
    let i2 : Info := if l.isNil then i1 else { i1 with num := i1.num - l.num, total := minusT A i1.total l.total }
    let a1 := if i.axis = 1 then receive A rect i2 items L.2 else (i2, items)
    let i3 : Info := if l.isNil then a1.1 else { a1.1 with num := a1.1.num + L.1.num, total := plusT A a1.1.total L.1.total }
    let R := if r.isNil then (.nil, []) else rebalance r r3
    let i4 : Info := if r.isNil then i3 else { i3 with num := i3.num - r.num, total := minusT A i3.total r.total }
    let a2 := if i.axis = 1 ∧ l.isNil = false then receive A rect i4 a1.2 R.2 else (i4, a1.2)
    let i5 : Info := if r.isNil then a2.1 else { a2.1 with num := a2.1.num + R.1.num, total := plusT A a2.1.total R.1.total }
    let out := release A rect i5 a2.2 r3
    (.node out.1.1 out.1.2 (checkDestroy L.1) (checkDestroy R.1),
      (if i.axis = 1 then [] else L.2) ++ ((if i.axis = 1 ∧ l.isNil = false then [] else R.2) ++ out.2))

/-- `Rebalance`, `:133-139`. -/
def rebalanceTop (t : T) : T := (rebalance A rect t none).1

/-! ## Insertion and removal -/

/-- `(abs(balance * 100) / num) > _rbthreshold`. -/
def trigger (thr : Nat) (i : Info) : Bool := i.balance.natAbs * 100 / i.num > thr

/-- The result of an operation below a node: without rebalancing, and with the topmost node that asks for it rebalanced. -/
structure Res where
  plain : T
  rebal : Option T
  deriving DecidableEq

/-- `if(rb) Rebalance(rb)`. -/
def Res.final (r : Res) : T := r.rebal.getD r.plain

/-- A node around a result, asking for rebalancing if `rb`. -/
def Res.wrap (r : Res) (rb : Bool) (f : T → T) : Res :=
  { plain := f r.plain, rebal := if rb then some (rebalanceTop A rect (f r.plain)) else r.rebal.map f }

/-- `Insert`, `:52-100`. -/
def insert (thr : Nat) (x : Nat) : T → Nat → Res
  | .nil, axis =>
    let i : Info := { num := 1, div := 0, balance := 0, axis := axis, total := (A.add (rect x 0) (rect x 2), A.add (rect x 1) (rect x 3)) }
    { plain := .node { i with div := A.div i.tot 2 } [x] .nil .nil, rebal := none }
  | .node i items l r, axis =>
    let i : Info := { i with num := i.num + 1, total := plus A rect i.total x }
    if rect x (axis + 2) < i.div then
      let i : Info := { i with balance := i.balance - 1 }
      (insert thr x l (1 - axis)).wrap A rect (trigger thr i) fun l => .node i items l r
    else if rect x axis > i.div then
      let i : Info := { i with balance := i.balance + 1 }
      (insert thr x r (1 - axis)).wrap A rect (trigger thr i) fun r => .node i items l r
    else { plain := .node i (x :: items) l r, rebal := none }

def T.has (t : T) (x : Nat) : Bool :=
  match t with
  | .nil => false
  | .node _ items _ _ => items.contains x

/-- One round of the loop of `Remove`, `:112-120`; `prev` is never advanced, so `direct` is that the item was in the left child itself. -/
def lose (i : Info) (x : Nat) (bottom direct : Bool) : Info :=
  { i with num := i.num - 1, total := minus A rect i.total x, balance := i.balance + (if bottom then 1 else 0) + (if direct then 1 else -1) }

/-- `Remove`, `:101-123`, where the item is found. -/
def remove (thr : Nat) (x : Nat) : T → Option Res
  | .nil => none
  | .node i items l r =>
    if items.contains x then
      let i := lose A rect i x true false
      let t : T := .node i (items.erase x) l r
      some { plain := t, rebal := if i.num > 0 && trigger thr i then some (rebalanceTop A rect t) else none }
    else
      match remove thr x l with
      | some res => let i := lose A rect i x false (l.has x)
        some (res.wrap A rect (i.num > 0 && trigger thr i) fun l => .node i items l r)
      | none => (remove thr x r).map fun res => let i := lose A rect i x false false
        res.wrap A rect (i.num > 0 && trigger thr i) fun r => .node i items l r

/-! ## Queries -/

/-- The test of `:294`. -/
def hit (q : Nat → Int) (x : Nat) : Bool := rect x 0 ≤ q 2 && rect x 1 ≤ q 3 && rect x 2 ≥ q 0 && rect x 3 ≥ q 1

/-- `_traverse`, `:287-304` (and `_traverseAction`): the items the action is called with, in order. -/
def traverse (q : Nat → Int) : T → Nat → List Nat
  | .nil, _ => []
  | .node i items l r, cur =>
    items.filter (hit rect q) ++ ((if i.div ≥ q cur then traverse q l (1 - cur) else []) ++ (if i.div ≤ q (cur + 2) then traverse q r (1 - cur) else []))

/-! ## Histories -/

inductive Op where
  | ins (x : Nat)
  | del (x : Nat)
  deriving DecidableEq

/-- A tree, the items that were inserted and not removed since, and whether there was a rebalancing. -/
structure State where
  t : T
  stored : List Nat
  rebalanced : Bool
  deriving DecidableEq

/-- One call. `none` is that an item is inserted twice, or removed without being stored. -/
def step (thr : Nat) (s : State) : Op → Option State
  | .ins x => if x ∈ s.stored then none else
    let r := insert A rect thr x s.t 0
    some { t := r.final, stored := x :: s.stored, rebalanced := s.rebalanced || r.rebal.isSome }
  | .del x => if x ∈ s.stored then
    (remove A rect thr x s.t).map fun r => { t := r.final, stored := s.stored.erase x, rebalanced := s.rebalanced || r.rebal.isSome }
    else none

/-- A history. -/
def run (thr : Nat) : List Op → State → Option State
  | [], s => some s
  | op :: ops, s => (step A rect thr s op).bind (run thr ops)

/-- An empty tree. -/
def State.new : State := ⟨.nil, [], false⟩

end Verif.Spatial
