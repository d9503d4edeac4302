import Mathlib.Data.Rat.Defs
import Mathlib.Algebra.Order.Field.Rat
import Mathlib.Data.List.Sort

/-!
# `Profiler`

Models `/repo/include/bss-util/Profiler.h` and parts of `/repo/bss-util/profiler.cpp`. A node of the trie is known by its place: the list of the child indices that lead to it from the root. Averages are exact rational numbers;
times are 64-bit numbers. A null pointer that is followed gives `none`. The allocator of the nodes and the text of the outputs are not modelled.
-/

namespace Verif.Prof

/-- `PROF_TRIENODE`, `Profiler.h:38-46`; a `total` of -1 is `none`. The children are given by the trie. -/
structure Node where
  avg : ℚ
  codeavg : ℚ
  total : Option Nat
  inner : Nat

/-- The nodes and `_cur`. -/
structure St where
  node : List Nat → Option Node
  cur : List Nat

/-- `_allocNode`, `profiler.cpp:231-238`. -/
def alloc : Node := ⟨0, 0, none, 0⟩

/-- Replaces a node. -/
def set (node : List Nat → Option Node) (k : List Nat) (n : Node) : List Nat → Option Node := fun j => if j = k then some n else node j

/-- The loop of `StartProfile`, `Profiler.h:65-71`. -/
def descend (node : List Nat → Option Node) (k : List Nat) (id : Nat) : (List Nat → Option Node) × List Nat :=
  if 0 < id then
    let k := k ++ [id % 16]
    descend (if (node k).isNone then set node k alloc else node) k (id / 16)
  else (node, k)
termination_by id

/-- `StartProfile`, `Profiler.h:61-78`, without the clock. -/
def start (s : St) (id : Nat) : Option St :=
  let (node, k) := descend s.node s.cur id
  (node k).map fun n => ⟨set node k { n with total := some (n.total.getD 0), inner := 0 }, k⟩

/-- `bssAvg`, `bss_util.h:682-687`. -/
def bssAvg (cur value : ℚ) (n : Nat) : ℚ := cur + (value - cur) / n

/-- `EndProfile`, `Profiler.h:79-87`: `time` is what `StartProfile` returned and `now` the clock. -/
def stop (s : St) (time now : Nat) (old : List Nat) : Option St :=
  let time : Nat := (now + 2 ^ 64 - time) % 2 ^ 64
  (s.node s.cur).bind fun n => n.total.bind fun t =>
    let n := { n with total := some (t + 1), avg := bssAvg n.avg time (t + 1), codeavg := bssAvg n.codeavg (((time + 2 ^ 64 - n.inner) % 2 ^ 64 : Nat) : ℚ) (t + 1) }
    let node := set s.node s.cur n
    (node old).map fun o => ⟨set node old { o with inner := (o.inner + time) % 2 ^ 64 }, old⟩

/-- What a program does: regions that follow each other, each with the values of the clock when it begins and ends, the regions in it, and the regions after it. -/
inductive Calls
  | nil
  | cons (id begin_ end_ : Nat) (inner rest : Calls)
  deriving DecidableEq, Repr

/-- Blocks, `ProfilerBlock`, `Profiler.h:132-138`: each remembers `_cur` and the time, and ends when it is left. -/
def exec : Calls → St → Option St
  | .nil, s => some s
  | .cons id b e inner rest, s => (start s id).bind fun s1 => (exec inner s1).bind fun s2 => (stop s2 b e s.cur).bind (exec rest)

/-- `Profiler()`, `profiler.cpp:55`. -/
def empty : St := ⟨fun k => if k = [] then some alloc else none, []⟩

/-! ## Flat output -/

/-- One element of `PROF_FLATOUT*`. -/
abbrev Flat := Nat → ℚ × Nat

/-- The equation of `_flatOut`, `profiler.cpp:198-204`, for a node that ends a region. -/
def flatAdd (avg : Flat) (id : Nat) (n : Node) : Flat :=
  match n.total with
  | none => avg
  | some t => if 0 < t then fun j => if j = id then
      ((avg j).1 * ((avg j).2 / ((avg j).2 + t : Nat)) + n.avg * (t / ((avg j).2 + t : Nat)), (avg j).2 + t) else avg j
    else avg

/-- `_flatOut`, `profiler.cpp:193-211`; `fuel` bounds the depth of the recursion. Numbers are 16 bits wide. -/
def flatOut : Nat → (List Nat → Option Node) → List Nat → Nat → Nat → Flat → Option Flat
  | 0, _, _, _, _, _ => none
  | fuel + 1, node, k, id, lvl, avg => match node k with
    | none => some avg
    | some n =>
      let avg := flatAdd avg id n
      let (id, lvl) := if n.total.isSome then (0, 0) else (id, lvl)
      (List.range 16).foldlM (fun avg i => flatOut fuel node (k ++ [i]) ((id ||| (i <<< (4 * lvl))) % 65536) (lvl + 1) avg) avg

/-- What the flat output writes for the regions 1 to `n`, `profiler.cpp:90-96`: the averages are sorted, the names are not. `std::sort` is taken to be stable. -/
def flatWrite (n : Nat) (avg : Flat) : List (Nat × ℚ × Nat) :=
  (List.range n).map (· + 1) |>.zip (((List.range n).map fun i => avg (i + 1)).insertionSort fun l r => r.1 ≤ l.1)

/-! ## Tree output -/

/-- A line of the tree output: indentation, number of the region, average and number of calls. -/
structure Line where
  level : Int
  id : Nat
  avg : ℚ
  total : Nat
  deriving DecidableEq

/-- `_treeOut`, `profiler.cpp:109-123`: the lines that are written. `fuel` bounds the depth of the recursion; the level is not reduced modulo the size of a word. -/
def treeOut : Nat → (List Nat → Option Node) → List Nat → Nat → Int → Nat → Option (List Line)
  | 0, _, _, _, _, _ => none
  | fuel + 1, node, k, id, level, lvl => match node k with
    | none => some []
    | some n =>
      let own := match n.total with
        | none => []
        | some t => [⟨level, id, n.avg, t⟩]
      let (id, lvl) := if n.total.isSome then (0, 0) else (id, lvl)
      ((List.range 16).mapM fun i => treeOut fuel node (k ++ [i]) ((id ||| (i <<< (4 * lvl))) % 65536) (level + if id = 0 then 1 else 0) (lvl + 1)).map fun l => own ++ l.flatten

/-! ## Heat output -/

/-- `_heatOut`, `profiler.cpp:124-148`: the nodes of the heat tree, each as the list of the numbers from the root to it and its average; `above` are the numbers above. The order of the nodes below one node is not modelled. -/
def heatOut : Nat → (List Nat → Option Node) → List Nat → List Nat → Nat → Nat → Option (List (List Nat × ℚ))
  | 0, _, _, _, _, _ => none
  | fuel + 1, node, k, above, id, lvl => match node k with
    | none => some []
    | some n => if n.total.isSome then
        ((List.range 16).mapM fun i => heatOut fuel node (k ++ [i]) (above ++ [id]) i 0).map fun l =>
          (above ++ [id], n.avg) :: l.flatten ++ if l.flatten = [] then [] else [(above ++ [id, 0], n.codeavg)]
      else ((List.range 16).mapM fun i => heatOut fuel node (k ++ [i]) above ((id ||| (i <<< (4 * lvl))) % 65536) (lvl + 1)).map List.flatten

end Verif.Prof
