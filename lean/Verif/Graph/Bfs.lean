import Verif.Graph.Model

/-!
# Model of `BreadthFirstGraph`

`include/bss-util/Graph.h:400-443`. The graph is given by the targets of the outgoing edges of each node in list order (`targets` reads them off a graph). The
part of the queue array from `i` to `l` is a list; `l` counts the entries written so far, and writing beyond the array is undefined behaviour (`none`). The
action is a function of the node; its calls are what is returned.
-/

namespace Verif.Graph
open Verif.DSet

/-- The targets of the outgoing edges of a node, in list order. -/
def targets (g : G) (v : Nat) : List Nat := (outgoing g v g.nedges).filterMap fun e => (g.out e).map (·.item.to)

/-- `queue[l++] = v` for an array of `cap` entries. -/
def push (cap : Nat) (queue : List Nat × Nat) (v : Nat) : Option (List Nat × Nat) :=
  if queue.2 < cap then some (queue.1 ++ [v], queue.2 + 1) else none

/-- Queueing what is next to the root, `:421-425`. -/
def bfsRoot (cap root : Nat) : List Nat → List Nat × Nat → Option (List Nat × Nat)
  | [], q => some q
  | t :: ts, q => if t ≠ root then (push cap q t).bind (bfsRoot cap root ts) else bfsRoot cap root ts q

/-- Queueing what is next to another node, `:434-438`. -/
def bfsEdges (cap root : Nat) : List Nat → DSet → List Nat × Nat → Option (DSet × (List Nat × Nat))
  | [], s, q => some (s, q)
  | t :: ts, s, q => (find s t).bind fun (r, s) =>
    if r ≠ root then (push cap q t).bind (bfsEdges cap root ts s) else bfsEdges cap root ts s q

/-- The loop through the queue, `:427-439`, for at most `fuel` rounds. -/
def bfsLoop (adj : Nat → List Nat) (stop : Nat → Bool) (cap root : Nat) : Nat → DSet → List Nat × Nat → List Nat → Option (List Nat)
  | 0, _, _, _ => none
  | _ + 1, _, ([], _), vis => some vis
  | k + 1, s, (v :: todo, l), vis =>
    if stop v then some (vis ++ [v])
    else (union s root v).bind fun (_, s) => (bfsEdges cap root (adj v) s (todo, l)).bind fun (s, q) =>
      bfsLoop adj stop cap root k s q (vis ++ [v])

/-- `BreadthFirstGraph`, `:408-443`, with a queue of `cap` entries: the nodes the action is called on, in order. -/
def bfs (adj : Nat → List Nat) (stop : Nat → Bool) (capacity cap root : Nat) : Option (List Nat) :=
  if stop root then some [root]
  else (bfsRoot cap root (adj root) ([], 0)).bind fun q => bfsLoop adj stop cap root (cap + 1) (reset capacity) q [root]

end Verif.Graph
