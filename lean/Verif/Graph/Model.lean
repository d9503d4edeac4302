import Verif.Linked.Model
import Verif.DSet.Model
import Verif.Common.Mem

/-!
# Model of `Graph` and `BreadthFirstGraph`

`include/bss-util/Graph.h`. An edge is an address; its links `next`/`prev` and its `from`/`to` are in one memory (`Linked.Model`), its links `alt` in another.
The `LinkedArray` of nodes is a partial map from indices: adding a node uses an index that is free (the caller of the model gives it). The number of edges does
not wrap around. Edge and node data, the conversions from and to matrices, moves and the flow algorithms are not modelled here.
-/

namespace Verif.Graph
open Verif.Linked

/-- The two list heads of a node, `Graph.h:31-32`. -/
structure NodeHeads where
  to : Option Nat
  from_ : Option Nat
  deriving DecidableEq

/-- `from` and `to` of an edge, `Graph.h:27-28`. -/
structure Ends where
  from_ : Nat
  to : Nat
  deriving DecidableEq

/-- A graph. -/
structure G where
  out : Mem Ends
  alt : Mem Unit
  nodes : Nat → Option NodeHeads
  nedges : Nat

/-- An empty graph. -/
def G.new : G := ⟨fun _ => none, fun _ => none, fun _ => none, 0⟩

/-- `_nodes[i]` (unchecked in the code: `none` is undefined behaviour) and assignment to it. -/
def setNode (nodes : Nat → Option NodeHeads) (i : Nat) (n : Option NodeHeads) : Nat → Option NodeHeads := fun j => if j = i then n else nodes j

/-- `AddNode`, `:94`, where `LinkedArray::Add` returns `i`. -/
def addNode (g : G) (i : Nat) : Option G :=
  if (g.nodes i).isSome then none else some { g with nodes := setNode g.nodes i (some ⟨none, none⟩) }

/-- `AddEdge`, `:96-105`, where the allocator returns `a`. -/
def addEdge (g : G) (a from_ to : Nat) : Option G := do
  let out ← allocNode g.out a ⟨none, none, ⟨from_, to⟩⟩
  let alt ← allocNode g.alt a ⟨none, none, ()⟩
  let n ← g.nodes from_
  let (out, root) ← llAdd out a n.to
  let nodes := setNode g.nodes from_ (some { n with to := root })
  let m ← nodes to
  let (alt, root) ← llAdd alt a m.from_
  some { out, alt, nodes := setNode nodes to (some { m with from_ := root }), nedges := g.nedges + 1 }

/-- `RemoveEdge`, `:119-125`. -/
def removeEdge (g : G) (a : Nat) : Option G := do
  let e ← g.out a
  let n ← g.nodes e.item.from_
  let (out, root) ← llRemove g.out a n.to
  let nodes := setNode g.nodes e.item.from_ (some { n with to := root })
  let m ← nodes e.item.to
  let (alt, root) ← llRemove g.alt a m.from_
  let nodes := setNode nodes e.item.to (some { m with from_ := root })
  let out ← freeNode out a
  let alt ← freeNode alt a
  some { out, alt, nodes, nedges := g.nedges - 1 }

/-- `while(n.to) RemoveEdge(n.to);`, `:115`, for at most `fuel` rounds (`none` if that is not enough). -/
def clearTo (v : Nat) : Nat → G → Option G
  | 0, _ => none
  | k + 1, g => (g.nodes v).bind fun n => match n.to with
    | none => some g
    | some e => (removeEdge g e).bind (clearTo v k)

/-- `while(n.from) RemoveEdge(n.from);`, `:116`. -/
def clearFrom (v : Nat) : Nat → G → Option G
  | 0, _ => none
  | k + 1, g => (g.nodes v).bind fun n => match n.from_ with
    | none => some g
    | some e => (removeEdge g e).bind (clearFrom v k)

/-- `RemoveNode`, `:112-118`. -/
def removeNode (g : G) (v : Nat) : Option G :=
  (clearTo v (g.nedges + 1) g).bind fun g => (clearFrom v (g.nedges + 1) g).map fun g => { g with nodes := setNode g.nodes v none }

/-- The calls. -/
inductive Op where
  | addNode (i : Nat)
  | addEdge (a from_ to : Nat)
  | removeEdge (a : Nat)
  | removeNode (v : Nat)
  deriving DecidableEq

def step (g : G) : Op → Option G
  | .addNode i => addNode g i
  | .addEdge a f t => addEdge g a f t
  | .removeEdge a => removeEdge g a
  | .removeNode v => removeNode g v

def run : List Op → G → Option G
  | [], g => some g
  | op :: ops, g => (step g op).bind (run ops)

/-! ## What a user sees -/

/-- `for(e = n.to; e; e = e->next)`, at most `k` rounds. -/
def outgoing (g : G) (v k : Nat) : List Nat := go k ((g.nodes v).bind (·.to)) where
  go : Nat → Option Nat → List Nat
  | 0, _ => []
  | _, none => []
  | k + 1, some e => e :: go k ((g.out e).bind (·.next))

/-- `for(e = n.from; e; e = e->alt.next)`, at most `k` rounds. -/
def incoming (g : G) (v k : Nat) : List Nat := go k ((g.nodes v).bind (·.from_)) where
  go : Nat → Option Nat → List Nat
  | 0, _ => []
  | _, none => []
  | k + 1, some e => e :: go k ((g.alt e).bind (·.next))

end Verif.Graph
