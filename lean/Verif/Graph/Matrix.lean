import Mathlib.Data.List.Nodup
import Mathlib.Data.List.Basic

/-!
# Graphs and adjacency matrices (C186, C187), `/repo/include/bss-util/Graph.h`

The list of outgoing edges of a node stands for the linked memory that is modelled for C64. The `LinkedArray` of nodes is its list of indices in their order, its free list and its capacity.
`grow` is `fbnext`. Products of `uint16_t` are of type `int`: from 2^31 on they are undefined.
-/

namespace Verif.GraphMatrix

/-! ## Code -/

/-- `_nodes`, with the data of the nodes, and for each node the list `to` with the target and the data of each edge, `Graph.h:25-31`. -/
structure Gr (E V : Type) where
  ids : List Nat
  free : List Nat
  cap : Nat
  vertex : Nat → Option V
  out : Nat → List (Nat × E)

/-- Change of one value. -/
def upd {β : Type} (f : Nat → β) (i : Nat) (b : β) : Nat → β := fun j => if j = i then b else f j

/-- `Graph(CT n)` with `_nodes(n)`, `Graph.h:75-77`, in front of the nodes: `LinkedArray.h:35`, `169-174`. -/
def new (E V : Type) (n : Nat) : Gr E V := ⟨[], List.range n, n, fun _ => none, fun _ => []⟩

/-- `AddNode(node)`, `Graph.h:95`, with `LinkedArray::Add`, `LinkedArray.h:37`, `128-145`, `175-183`. -/
def addNode {E V : Type} (grow : Nat → Nat) (g : Gr E V) (v : V) : Option (Gr E V × Nat) :=
  let (free, cap) := if g.free = [] then (List.range' g.cap (grow g.cap - g.cap), grow g.cap) else (g.free, g.cap)
  match free with
  | [] => none
  | i :: free => some (⟨g.ids ++ [i], free, cap, upd g.vertex i (some v), upd g.out i []⟩, i)

/-- `AddEdge(from, to, edge)`, `Graph.h:96-111`. -/
def addEdge {E V : Type} (g : Gr E V) (a b : Nat) (d : E) : Gr E V := { g with out := upd g.out a ((b, d) :: g.out a) }

/-- `RemoveNode`, `Graph.h:112-118`, with `LinkedArray::Remove`, `LinkedArray.h:43-56`, `164-168`. -/
def removeNode {E V : Type} (g : Gr E V) (i : Nat) : Gr E V :=
  { g with ids := g.ids.erase i, free := i :: g.free, out := fun a => if a = i then [] else (g.out a).filter fun e => e.1 ≠ i }

/-- `GetNode`, `Graph.h:85`: not the null pointer. -/
def getNode {E V : Type} (g : Gr E V) (i : Nat) : Option Nat := if i < g.ids.length then some i else none

/-- `int` of the platform. -/
def intMax : Nat := 2 ^ 31

/-- The first loop of `_construct`, `Graph.h:178-179`. -/
def addNodes {E V : Type} (grow : Nat → Nat) : List V → Gr E V → List Nat → Option (Gr E V × List Nat)
  | [], g, k => some (g, k)
  | v :: vs, g, k => (addNode grow g v).bind fun (g, i) => addNodes grow vs g (k ++ [i])

/-- The body of the inner loop of `_construct`, `Graph.h:184-185`; `set` is `_setDataE`, `Graph.h:35`, `39`. -/
def edgeAt {D E V : Type} (isEdge : D → Bool) (set : D → E) (n : Nat) (M : List D) (k : List Nat) (i : Nat) (g : Gr E V) (j : Nat) : Option (Gr E V) :=
  if intMax ≤ i * n + j then none
  else M[i * n + j]?.bind fun d => if isEdge d then k[i]?.bind fun a => k[j]?.map fun b => addEdge g a b (set d) else some g

/-- `_construct`, `Graph.h:173-187`, and `FromMatrix`, `Graph.h:126-127`. -/
def construct {D E V : Type} (grow : Nat → Nat) (isEdge : D → Bool) (set : D → E) (n : Nat) (M : List D) (nodes : List V) (g : Gr E V) : Option (Gr E V) :=
  (addNodes grow (nodes.take n) g []).bind fun (g, k) =>
    (List.range n).foldlM (fun g i => (List.range n).foldlM (edgeAt isEdge set n M k i) g) g

/-- The first loop of `ToMatrix`, `Graph.h:139-140`; `junk` is what the array holds before. -/
def buildHash (junk : Nat → Nat) (ids : List Nat) : Nat → Nat := (ids.foldl (fun (p : (Nat → Nat) × Nat) i => (upd p.1 i p.2, p.2 + 1)) (junk, 0)).1

/-- `buf[i] = x`; `none` is undefined behaviour. -/
def store {β : Type} (buf : List β) (i : Nat) (x : β) : Option (List β) := if i < buf.length then some (buf.set i x) else none

/-- The inner loop, `Graph.h:146-147`; `get` is `_getData`, `Graph.h:34`, `38`. -/
def putEdges {D E : Type} (get : E → D) (hash : Nat → Nat) (len p : Nat) (es : List (Nat × E)) (m : List D) : Option (List D) :=
  es.foldlM (fun m e => if intMax ≤ p * len + hash e.1 then none else store m (p * len + hash e.1) (get e.2)) m

/-- `ToMatrix`, `Graph.h:128-150`. -/
def toMatrix {D E V : Type} (get : E → D) (junk : Nat → Nat) (g : Gr E V) (m : List D) (vs : List V) : Option (List D × List V) :=
  let len := g.ids.length
  let hash := buildHash junk g.ids
  g.ids.foldlM (fun (s : List D × List V) i =>
    (g.vertex i).bind fun v => (store s.2 i v).bind fun vs => (putEdges get hash len (hash i) (g.out i) s.1).map fun m => (m, vs)) (m, vs)

/-! ## Specification -/

/-- The nodes are distinct, all have data, and all edges lead to nodes. -/
structure Ok {E V : Type} (g : Gr E V) : Prop where
  nodup : g.ids.Nodup
  data : ∀ i ∈ g.ids, (g.vertex i).isSome
  edges : ∀ i ∈ g.ids, ∀ e ∈ g.out i, e.1 ∈ g.ids

/-- The data of the edge from `a` to `b`, the oldest one if there are more. -/
def edgeData {E V : Type} (g : Gr E V) (a b : Nat) : Option E := (((g.out a).filter fun e => e.1 = b).getLast?).map (·.2)

/-- Changes of a graph. -/
inductive Op (E V : Type) where
  | addNode (v : V)
  | addEdge (a b : Nat) (d : E)
  | removeNode (i : Nat)

/-- A change whose arguments are nodes of the graph; others are undefined. -/
def step {E V : Type} (grow : Nat → Nat) (g : Gr E V) : Op E V → Option (Gr E V)
  | .addNode v => (addNode grow g v).map (·.1)
  | .addEdge a b d => if a ∈ g.ids ∧ b ∈ g.ids then some (addEdge g a b d) else none
  | .removeNode i => if i ∈ g.ids then some (removeNode g i) else none

/-- Every index below the capacity is a node or free, and only once. -/
def Partition {E V : Type} (g : Gr E V) : Prop := (g.ids ++ g.free).Perm (List.range g.cap)

/-! ## C186 -/

theorem step_ok {E V : Type} {grow : Nat → Nat} (hg : ∀ c, c < grow c) {g g' : Gr E V} (op : Op E V) (ok : Ok g) (hp : Partition g) (h : step grow g op = some g') : Ok g' ∧ Partition g' := by
  cases op with
  | addNode v =>
    have key : ∃ i free cap, addNode grow g v = some (⟨g.ids ++ [i], free, cap, upd g.vertex i (some v), upd g.out i []⟩, i) ∧ (g.ids ++ i :: free).Perm (List.range cap) := by
      unfold addNode
      by_cases hf : g.free = []
      · obtain ⟨c, hc⟩ : ∃ c, grow g.cap - g.cap = c + 1 := ⟨grow g.cap - g.cap - 1, by have := hg g.cap; omega⟩
        rw [if_pos hf, hc, List.range'_succ]
        refine ⟨_, _, _, rfl, ?_⟩
        unfold Partition at hp
        rw [hf, List.append_nil] at hp
        rw [← List.range'_succ, ← hc]
        have : List.range (grow g.cap) = List.range g.cap ++ List.range' g.cap (grow g.cap - g.cap) := by
          have e : grow g.cap = g.cap + (grow g.cap - g.cap) := by have := hg g.cap; omega
          conv_lhs => rw [e, List.range_eq_range']
          rw [List.range_eq_range', ← List.range'_append_1, Nat.zero_add]
        rw [this]
        exact hp.append_right _
      · rw [if_neg hf]
        unfold Partition at hp
        cases he : g.free with
        | nil => exact absurd he hf
        | cons i free =>
          rw [he] at hp
          exact ⟨i, free, g.cap, rfl, hp⟩
    obtain ⟨i, free, cap, e, perm⟩ := key
    rw [step, e, Option.map_some] at h
    cases h
    have nd : (g.ids ++ i :: free).Nodup := perm.nodup_iff.2 List.nodup_range
    have hi : i ∉ g.ids := fun hm => (List.nodup_append.1 nd).2.2 i hm i (List.mem_cons_self ..) rfl
    refine ⟨⟨?_, ?_, ?_⟩, ?_⟩
    · exact ok.nodup.append (List.nodup_singleton i) (by simpa using hi)
    · intro j hj
      show (upd g.vertex i (some v) j).isSome
      unfold upd
      split
      · rfl
      · next hne =>
        rcases List.mem_append.1 hj with hj | hj
        · exact ok.data j hj
        · exact absurd (List.mem_singleton.1 hj) hne
    · intro j hj e he
      show e.1 ∈ g.ids ++ [i]
      change e ∈ upd g.out i [] j at he
      unfold upd at he
      split at he
      · cases he
      · next hne =>
        rcases List.mem_append.1 hj with hj | hj
        · exact List.mem_append_left _ (ok.edges j hj e he)
        · exact absurd (List.mem_singleton.1 hj) hne
    · show (g.ids ++ [i] ++ free).Perm _
      rw [List.append_assoc]; exact perm
  | addEdge a b d =>
    unfold step at h
    dsimp only at h
    by_cases hab : a ∈ g.ids ∧ b ∈ g.ids
    · rw [if_pos hab] at h
      cases h
      refine ⟨⟨ok.nodup, ok.data, ?_⟩, hp⟩
      intro j hj e he
      change e ∈ upd g.out a ((b, d) :: g.out a) j at he
      unfold upd at he
      split at he
      · rcases List.mem_cons.1 he with rfl | he
        · exact hab.2
        · exact ok.edges a hab.1 e he
      · exact ok.edges j hj e he
    · rw [if_neg hab] at h; cases h
  | removeNode i =>
    unfold step at h
    dsimp only at h
    by_cases hi : i ∈ g.ids
    · rw [if_pos hi] at h
      cases h
      refine ⟨⟨ok.nodup.erase i, fun j hj => ok.data j (List.mem_of_mem_erase hj), ?_⟩, ?_⟩
      · intro j hj e he
        change e ∈ (if j = i then [] else (g.out j).filter fun e => e.1 ≠ i) at he
        show e.1 ∈ g.ids.erase i
        split at he
        · cases he
        · rw [List.mem_filter] at he
          rw [ok.nodup.mem_erase_iff]
          exact ⟨by simpa using he.2, ok.edges j (List.mem_of_mem_erase hj) e he.1⟩
      · show (g.ids.erase i ++ i :: g.free).Perm _
        refine List.Perm.trans ?_ hp
        refine List.perm_middle.trans ?_
        rw [← List.cons_append]
        exact ((List.perm_cons_erase hi).symm).append_right _
    · rw [if_neg hi] at h; cases h

/-- **C186**: whatever nodes and edges are added and removed, the nodes are distinct, the edges lead to nodes, and every index is a node or free again. -/
theorem C186_history {E V : Type} {grow : Nat → Nat} (hg : ∀ c, c < grow c) (c : Nat) (ops : List (Op E V)) {g : Gr E V} (h : ops.foldlM (step grow) (new E V c) = some g) : Ok g ∧ Partition g := by
  have key : ∀ (ops : List (Op E V)) (g0 : Gr E V), Ok g0 → Partition g0 → ops.foldlM (step grow) g0 = some g → Ok g ∧ Partition g := by
    intro ops
    induction ops with
    | nil => intro g0 ok hp h; cases h; exact ⟨ok, hp⟩
    | cons op ops ih =>
      intro g0 ok hp h
      rw [List.foldlM_cons] at h
      obtain ⟨g1, e, h⟩ := Option.bind_eq_some_iff.1 h
      obtain ⟨ok1, hp1⟩ := step_ok hg op ok hp e
      exact ih g1 ok1 hp1 h
  exact key ops (new E V c) ⟨List.nodup_nil, fun _ h => absurd h (List.not_mem_nil), fun _ h => absurd h (List.not_mem_nil)⟩ (List.Perm.refl (List.range c)) h

/-- Three nodes, two edges; the middle node is removed and its index reused. -/
example : (([.addNode 5, .addNode 6, .addNode 7, .addEdge 0 1 8, .addEdge 2 0 9, .removeNode 1, .addNode 4] : List (Op Nat Nat)).foldlM (step (· + 1)) (new Nat Nat 2)).map
    (fun g => (g.ids, g.out 0, g.out 2, g.vertex 1)) = some ([0, 2, 1], [], [(0, 9)], some 4) := by decide


theorem hash_fold (l : List Nat) : ∀ (h : Nat → Nat) (k : Nat), l.Nodup → (∀ x, x ∉ l → (l.foldl (fun (p : (Nat → Nat) × Nat) i => (upd p.1 i p.2, p.2 + 1)) (h, k)).1 x = h x) ∧
    ∀ p (hp : p < l.length), (l.foldl (fun (p : (Nat → Nat) × Nat) i => (upd p.1 i p.2, p.2 + 1)) (h, k)).1 l[p] = k + p := by
  induction l with
  | nil => intro h k _; exact ⟨fun _ _ => rfl, fun p hp => absurd hp (by simp)⟩
  | cons a l ih =>
    intro h k hn
    rw [List.nodup_cons] at hn
    obtain ⟨i1, i2⟩ := ih (upd h a k) (k + 1) hn.2
    constructor
    · intro x hx
      rw [List.mem_cons, not_or] at hx
      rw [List.foldl_cons, i1 x hx.2]
      exact if_neg hx.1
    · intro p hp
      rw [List.foldl_cons]
      cases p with
      | zero =>
        rw [List.getElem_cons_zero, i1 a hn.1]
        exact if_pos rfl
      | succ p =>
        rw [List.getElem_cons_succ, i2 p (by simpa using hp)]
        omega

theorem hash_getElem (junk : Nat → Nat) {ids : List Nat} (hn : ids.Nodup) {p : Nat} (hp : p < ids.length) : buildHash junk ids ids[p] = p := by
  unfold buildHash
  rw [(hash_fold ids junk 0 hn).2 p hp, Nat.zero_add]

theorem cell_inj {len p q p' q' : Nat} (hq : q < len) (hq' : q' < len) (h : p * len + q = p' * len + q') : p = p' ∧ q = q' := by
  have e1 : q = q' := by
    have := congrArg (· % len) h
    simp only [Nat.mul_comm _ len, Nat.mul_add_mod] at this
    rwa [Nat.mod_eq_of_lt hq, Nat.mod_eq_of_lt hq'] at this
  subst e1
  exact ⟨Nat.eq_of_mul_eq_mul_right (by omega) (Nat.add_right_cancel h), rfl⟩

theorem cell_lt {len p q : Nat} (hp : p < len) (hq : q < len) : p * len + q < len * len := by
  have : (p + 1) * len ≤ len * len := Nat.mul_le_mul_right _ hp
  rw [Nat.add_mul] at this
  omega

theorem putEdges_spec {D E : Type} (get : E → D) (hash : Nat → Nat) {len p : Nat} (hlim : len * len ≤ intMax) (hp : p < len) (es : List (Nat × E)) :
    ∀ m : List D, m.length = len * len → (∀ e ∈ es, hash e.1 < len) → ∃ m', putEdges get hash len p es m = some m' ∧ m'.length = len * len ∧
      ∀ p' q, p' < len → q < len → m'[p' * len + q]? = if p' = p then ((((es.filter fun e => hash e.1 = q).getLast?).map fun e => get e.2).or m[p' * len + q]?) else m[p' * len + q]? := by
  induction es with
  | nil =>
    intro m hm _
    refine ⟨m, rfl, hm, fun p' q _ _ => ?_⟩
    simp
  | cons e es ih =>
    intro m hm he
    have hq := he e (List.mem_cons_self ..)
    have hc := cell_lt hp hq
    obtain ⟨m', h1, h2, h3⟩ := ih (m.set (p * len + hash e.1) (get e.2)) (by rw [List.length_set, hm]) fun x hx => he x (List.mem_cons_of_mem _ hx)
    refine ⟨m', ?_, h2, fun p' q hp' hq' => ?_⟩
    · unfold putEdges at h1 ⊢
      rw [List.foldlM_cons, if_neg (by omega), store, if_pos (by omega)]
      exact h1
    · rw [h3 p' q hp' hq', List.getElem?_set]
      by_cases hpp : p' = p
      · subst hpp
        rw [if_pos rfl, if_pos rfl, List.filter_cons]
        by_cases hqq : hash e.1 = q
        · subst hqq
          rw [if_pos rfl, if_pos (by omega), if_pos (by simp), List.getLast?_cons]
          cases (List.filter (fun x => decide (hash x.1 = hash e.1)) es).getLast? <;> rfl
        · rw [if_neg (fun h => hqq (cell_inj hq hq' h).2), if_neg (by simpa using hqq)]
      · rw [if_neg hpp, if_neg hpp, if_neg (fun h => hpp (cell_inj hq hq' h).1.symm)]

theorem toMatrix_loop {D E V : Type} (get : E → D) (g : Gr E V) (hash : Nat → Nat) (ok : Ok g) (hlim : g.ids.length * g.ids.length ≤ intMax)
    (hh : ∀ p (hp : p < g.ids.length), hash g.ids[p] = p) (l : List Nat) : ∀ (m : List D) (vs : List V), l.Nodup → (∀ i ∈ l, i ∈ g.ids) → m.length = g.ids.length * g.ids.length → (∀ i ∈ l, i < vs.length) →
    ∃ m' vs', l.foldlM (fun (s : List D × List V) i =>
        (g.vertex i).bind fun v => (store s.2 i v).bind fun vs => (putEdges get hash g.ids.length (hash i) (g.out i) s.1).map fun m => (m, vs)) (m, vs) = some (m', vs') ∧
      m'.length = g.ids.length * g.ids.length ∧ vs'.length = vs.length ∧ (∀ i, vs'[i]? = if i ∈ l then g.vertex i else vs[i]?) ∧
      ∀ p q (hp : p < g.ids.length) (hq : q < g.ids.length), m'[p * g.ids.length + q]? =
        if g.ids[p] ∈ l then ((edgeData g g.ids[p] g.ids[q]).map get).or m[p * g.ids.length + q]? else m[p * g.ids.length + q]? := by
  induction l with
  | nil => intro m vs _ _ hm _; exact ⟨m, vs, rfl, hm, rfl, fun i => by simp, fun p q _ _ => by simp⟩
  | cons a l ih =>
    intro m vs hn hl hm hv
    rw [List.nodup_cons] at hn
    have ha := hl a (List.mem_cons_self ..)
    obtain ⟨pa, hpa, rfl⟩ := List.getElem_of_mem ha
    obtain ⟨v, hdv⟩ := Option.isSome_iff_exists.1 (ok.data _ ha)
    have hav := hv _ (List.mem_cons_self ..)
    have hbound : ∀ e ∈ g.out g.ids[pa], hash e.1 < g.ids.length := by
      intro e he
      obtain ⟨q, hq, e1⟩ := List.getElem_of_mem (ok.edges _ ha e he)
      rw [← e1, hh q hq]; exact hq
    obtain ⟨m1, h1, h2, h3⟩ := putEdges_spec get hash hlim hpa (g.out g.ids[pa]) m hm hbound
    obtain ⟨m', vs', i1, i2, i3, i4, i5⟩ := ih m1 (vs.set g.ids[pa] v) hn.2 (fun i hi => hl i (List.mem_cons_of_mem _ hi)) h2
      (fun i hi => by rw [List.length_set]; exact hv i (List.mem_cons_of_mem _ hi))
    refine ⟨m', vs', ?_, i2, by rw [i3, List.length_set], fun i => ?_, fun p q hp hq => ?_⟩
    · rw [List.foldlM_cons, hdv, Option.bind_some, store, if_pos hav, Option.bind_some, hh pa hpa, h1]
      exact i1
    · rw [i4 i, List.getElem?_set]
      by_cases hil : i ∈ l
      · rw [if_pos hil, if_pos (List.mem_cons_of_mem _ hil)]
      · rw [if_neg hil]
        by_cases hia : g.ids[pa] = i
        · subst hia
          rw [if_pos rfl, if_pos (List.mem_cons_self ..), if_pos hav, hdv]
        · rw [if_neg hia, if_neg (fun h => (List.mem_cons.1 h).elim (fun e => hia e.symm) hil)]
    · rw [i5 p q hp hq, h3 p q hp hq]
      have hfil : ((g.out g.ids[pa]).filter fun e => decide (hash e.1 = q)) = (g.out g.ids[pa]).filter fun e => decide (e.1 = g.ids[q]) := by
        apply List.filter_congr
        intro e he
        obtain ⟨r, hr, e1⟩ := List.getElem_of_mem (ok.edges _ ha e he)
        rw [← e1, hh r hr]
        simp only [decide_eq_decide]
        exact ⟨fun h => by subst h; rfl, fun h => (List.Nodup.getElem_inj_iff ok.nodup).1 h⟩
      by_cases hpp : p = pa
      · subst hpp
        rw [if_neg hn.1, if_pos rfl, if_pos (List.mem_cons_self ..), hfil, edgeData, Option.map_map]
        rfl
      · rw [if_neg hpp]
        have hne : g.ids[p] ≠ g.ids[pa] := fun h => hpp ((List.Nodup.getElem_inj_iff ok.nodup).1 h)
        by_cases hpl : g.ids[p] ∈ l
        · rw [if_pos hpl, if_pos (List.mem_cons_of_mem _ hpl)]
        · rw [if_neg hpl, if_neg (fun h => (List.mem_cons.1 h).elim hne hpl)]

/-- **C186**: the matrix of a graph has the data of the edge between two nodes at the place given by the positions of the nodes, and keeps what it had where there is no edge. Missing: the data of the
nodes are written by the index of the node, for which the array must have room. -/
theorem C186_matrix_partial {D E V : Type} (get : E → D) (junk : Nat → Nat) (g : Gr E V) (ok : Ok g) (m : List D) (vs : List V) (hlim : g.ids.length * g.ids.length ≤ intMax)
    (hm : m.length = g.ids.length * g.ids.length) (hv : ∀ i ∈ g.ids, i < vs.length) :
    ∃ m' vs', toMatrix get junk g m vs = some (m', vs') ∧ m'.length = m.length ∧ vs'.length = vs.length ∧
      (∀ p q (hp : p < g.ids.length) (hq : q < g.ids.length), m'[p * g.ids.length + q]? = ((edgeData g g.ids[p] g.ids[q]).map get).or m[p * g.ids.length + q]?) ∧
      ∀ i, vs'[i]? = if i ∈ g.ids then g.vertex i else vs[i]? := by
  obtain ⟨m', vs', h1, h2, h3, h4, h5⟩ := toMatrix_loop get g (buildHash junk g.ids) ok hlim (fun p hp => hash_getElem junk ok.nodup hp) g.ids m vs ok.nodup (fun _ h => h) hm hv
  refine ⟨m', vs', h1, by rw [h2, hm], h3, fun p q hp hq => ?_, h4⟩
  rw [h5 p q hp hq, if_pos (List.getElem_mem hp)]

/-- Two nodes with indices 2 and 0 and an edge between them. -/
example : Ok (⟨[2, 0], [1], 3, fun i => some i, fun i => if i = 2 then [(0, 7)] else []⟩ : Gr Nat Nat) ∧
    toMatrix id (fun _ => 99) (⟨[2, 0], [1], 3, fun i => some i, fun i => if i = 2 then [(0, 7)] else []⟩ : Gr Nat Nat) [0, 0, 0, 0] [5, 5, 5] = some ([0, 7, 0, 0], [0, 5, 2]) := by
  refine ⟨⟨by decide, by decide, by decide⟩, by decide⟩

/-- The data of the nodes are not written as the matrix is: after a node is removed, an array with room for all nodes is overrun. -/
theorem C186_nodes_counterexample : ∃ g : Gr Nat Nat, (construct (· + 1) (· ≠ 0) id 2 [0, 1, 0, 0] [8, 9] (new Nat Nat 2)) = some g ∧ (removeNode g 0).ids.length = 1 ∧
    toMatrix id (fun _ => 0) (removeNode g 0) [0] [0] = none ∧ toMatrix id (fun _ => 0) (removeNode g 0) [0] [0, 0] = some ([0], [0, 9]) := by
  refine ⟨_, rfl, by decide, by decide, by decide⟩

/-- A graph that only grew: the indices are 0, 1, 2 and so on. -/
structure Grown {E V : Type} (g : Gr E V) : Prop where
  ids : g.ids = List.range g.ids.length
  le : g.ids.length ≤ g.cap
  free : g.free = List.range' g.ids.length (g.cap - g.ids.length)

theorem grown_new (E V : Type) (n : Nat) : Grown (new E V n) := ⟨rfl, Nat.zero_le _, by simp [new, List.range_eq_range']⟩

theorem addNode_grown {E V : Type} {grow : Nat → Nat} (hg : ∀ c, c < grow c) {g : Gr E V} (h : Grown g) (v : V) :
    ∃ g', addNode grow g v = some (g', g.ids.length) ∧ Grown g' ∧ g'.ids.length = g.ids.length + 1 ∧ g'.vertex = upd g.vertex g.ids.length (some v) ∧ g'.out = upd g.out g.ids.length [] := by
  obtain ⟨h1, h2, h3⟩ := h
  have key : ∃ cap, g.ids.length < cap ∧ (if g.free = [] then (List.range' g.cap (grow g.cap - g.cap), grow g.cap) else (g.free, g.cap)) = (List.range' g.ids.length (cap - g.ids.length), cap) := by
    by_cases hf : g.free = []
    · have e : g.ids.length = g.cap := by
        rw [h3] at hf
        have := congrArg List.length hf
        simp at this
        omega
      exact ⟨grow g.cap, by rw [e]; exact hg _, by rw [if_pos hf, e]⟩
    · have : g.ids.length ≠ g.cap := fun e => hf (by rw [h3, e]; simp)
      exact ⟨g.cap, by omega, by rw [if_neg hf, h3]⟩
  obtain ⟨cap, hc, e⟩ := key
  obtain ⟨c, rfl⟩ : ∃ c, cap = g.ids.length + (c + 1) := ⟨cap - g.ids.length - 1, by omega⟩
  have hl : List.range' g.ids.length (g.ids.length + (c + 1) - g.ids.length) = g.ids.length :: List.range' (g.ids.length + 1) c := by
    rw [Nat.add_sub_cancel_left, List.range'_succ]
  refine ⟨⟨g.ids ++ [g.ids.length], List.range' (g.ids.length + 1) c, g.ids.length + (c + 1), upd g.vertex g.ids.length (some v), upd g.out g.ids.length []⟩, ?_, ⟨?_, ?_, ?_⟩, ?_, rfl, rfl⟩
  · unfold addNode
    rw [e, hl]
  · show g.ids ++ [g.ids.length] = List.range (g.ids ++ [g.ids.length]).length
    rw [List.length_append, List.length_singleton, List.range_succ, ← h1]
  · simp
  · simp only [List.length_append, List.length_singleton]
    congr 1; omega
  · simp

theorem addNodes_grown {E V : Type} {grow : Nat → Nat} (hg : ∀ c, c < grow c) (vs : List V) : ∀ {g : Gr E V} (k : List Nat), Grown g →
    ∃ g', addNodes grow vs g k = some (g', k ++ List.range' g.ids.length vs.length) ∧ Grown g' ∧ g'.ids.length = g.ids.length + vs.length ∧
      (∀ i, g'.vertex i = if i < g.ids.length then g.vertex i else if i < g.ids.length + vs.length then vs[i - g.ids.length]? else g.vertex i) ∧
      (∀ i, g'.out i = if i < g.ids.length then g.out i else if i < g.ids.length + vs.length then [] else g.out i) := by
  induction vs with
  | nil => intro g k h; exact ⟨g, by simp [addNodes], h, by simp, fun i => by rw [List.length_nil, Nat.add_zero]; split <;> simp [*], fun i => by rw [List.length_nil, Nat.add_zero]; split <;> simp [*]⟩
  | cons v vs ih =>
    intro g k h
    obtain ⟨g1, a1, a2, a3, a4, a5⟩ := addNode_grown hg h v
    obtain ⟨g', b1, b2, b3, b4, b5⟩ := ih (k ++ [g.ids.length]) a2
    refine ⟨g', ?_, b2, by rw [b3, a3, List.length_cons]; omega, fun i => ?_, fun i => ?_⟩
    · rw [addNodes, a1, Option.bind_some]
      dsimp only
      rw [b1, a3, List.length_cons, List.range'_succ, List.append_assoc]
      rfl
    · rw [b4 i, a3, a4, upd]
      rcases Nat.lt_trichotomy i g.ids.length with hi | hi | hi
      · rw [if_pos (by omega), if_neg (by omega), if_pos hi]
      · subst hi
        rw [if_pos (by omega), if_pos rfl, if_neg (by omega), if_pos (by simp)]; simp
      · rw [if_neg (by omega), if_neg (show ¬ i < g.ids.length by omega), List.length_cons]
        by_cases h2 : i < g.ids.length + 1 + vs.length
        · rw [if_pos h2, if_pos (by omega), show i - g.ids.length = (i - (g.ids.length + 1)) + 1 by omega, List.getElem?_cons_succ]
        · rw [if_neg h2, if_neg (by omega), if_neg (by omega)]
    · rw [b5 i, a3, a5, upd]
      rcases Nat.lt_trichotomy i g.ids.length with hi | hi | hi
      · rw [if_pos (by omega), if_neg (by omega), if_pos hi]
      · subst hi
        rw [if_pos (by omega), if_pos rfl, if_neg (by omega), if_pos (by simp)]
      · rw [if_neg (by omega), if_neg (show ¬ i < g.ids.length by omega), List.length_cons]
        by_cases h2 : i < g.ids.length + 1 + vs.length
        · rw [if_pos h2, if_pos (by omega)]
        · rw [if_neg h2, if_neg (by omega), if_neg (by omega)]

/-- The edges of row `i` up to column `m`. -/
def row {D E : Type} (isEdge : D → Bool) (set : D → E) (n : Nat) (M : List D) (i m : Nat) : List (Nat × E) :=
  (List.range m).filterMap fun j => M[i * n + j]?.bind fun d => if isEdge d then some (j, set d) else none

theorem upd_self {β : Type} (f : Nat → β) (i : Nat) : upd f i (f i) = f := by
  funext j; unfold upd; split
  · next h => rw [h]
  · rfl

theorem upd_upd {β : Type} (f : Nat → β) (i : Nat) (a b : β) : upd (upd f i a) i b = upd f i b := by
  funext j; unfold upd; split <;> rfl

theorem inner_spec {D E V : Type} (isEdge : D → Bool) (set : D → E) {n : Nat} {M : List D} (hM : M.length = n * n) (hlim : n * n ≤ intMax) {i : Nat} (hi : i < n) (g : Gr E V) :
    ∀ m, m ≤ n → (List.range m).foldlM (edgeAt isEdge set n M (List.range n) i) g = some { g with out := upd g.out i ((row isEdge set n M i m).reverse ++ g.out i) } := by
  intro m
  induction m with
  | zero => intro _; simp [row, upd_self]
  | succ m ih =>
    intro hm
    have hc := cell_lt hi (show m < n by omega)
    rw [List.range_succ, List.foldlM_append, ih (by omega)]
    simp only [List.foldlM_cons, List.foldlM_nil, Option.bind_eq_bind, Option.bind_some, Option.pure_def]
    rw [edgeAt, if_neg (by omega), List.getElem?_eq_getElem (by omega), Option.bind_some]
    have hr : row isEdge set n M i (m + 1) = row isEdge set n M i m ++ (if isEdge (M[i * n + m]'(by omega)) then [(m, set (M[i * n + m]'(by omega)))] else []) := by
      unfold row
      rw [List.range_succ, List.filterMap_append]
      congr 1
      rw [List.filterMap_cons, List.getElem?_eq_getElem (by omega), Option.bind_some]
      split <;> rename_i h <;> split at h <;> simp_all
    rw [hr]
    by_cases he : isEdge (M[i * n + m]'(by omega)) = true
    · rw [if_pos he, if_pos he, List.getElem?_range (by omega), Option.bind_some, List.getElem?_range (by omega), Option.map_some, Option.bind_some, addEdge]
      simp only [upd_upd, List.reverse_append, List.reverse_singleton, List.singleton_append, List.cons_append]
      congr 2
      simp [upd]
    · rw [if_neg he, if_neg he, List.append_nil]
      rfl

theorem outer_spec {D E V : Type} (isEdge : D → Bool) (set : D → E) {n : Nat} {M : List D} (hM : M.length = n * n) (hlim : n * n ≤ intMax) (g : Gr E V) :
    ∀ m, m ≤ n → (List.range m).foldlM (fun g i => (List.range n).foldlM (edgeAt isEdge set n M (List.range n) i) g) g =
      some { g with out := fun a => if a < m then (row isEdge set n M a n).reverse ++ g.out a else g.out a } := by
  intro m
  induction m with
  | zero => intro _; simp
  | succ m ih =>
    intro hm
    rw [List.range_succ, List.foldlM_append, ih (by omega)]
    simp only [List.foldlM_cons, List.foldlM_nil, Option.bind_eq_bind, Option.bind_some, Option.pure_def]
    rw [inner_spec isEdge set hM hlim (by omega) _ n (Nat.le_refl _), Option.bind_some]
    congr 2
    funext a
    unfold upd
    by_cases h1 : a = m
    · subst h1; simp
    · rw [if_neg h1]
      dsimp only
      by_cases h2 : a < m
      · rw [if_pos h2, if_pos (by omega)]
      · rw [if_neg h2, if_neg (by omega)]

theorem row_filter {D E : Type} (isEdge : D → Bool) (set : D → E) (n : Nat) (M : List D) (i b : Nat) : ∀ m, (row isEdge set n M i m).filter (fun e => e.1 = b) =
    if b < m then (M[i * n + b]?.bind fun d => if isEdge d then some (b, set d) else none).toList else [] := by
  intro m
  induction m with
  | zero => simp [row]
  | succ m ih =>
    have hr : row isEdge set n M i (m + 1) = row isEdge set n M i m ++ (M[i * n + m]?.bind fun d => if isEdge d then some (m, set d) else none).toList := by
      unfold row
      rw [List.range_succ, List.filterMap_append]
      congr 1
    rw [hr, List.filter_append, ih]
    by_cases h1 : b = m
    · subst h1
      rw [if_neg (by omega), if_pos (by omega), List.nil_append]
      cases M[i * n + b]? with
      | none => rfl
      | some d => rw [Option.bind_some]; split <;> simp
    · have h3 : List.filter (fun e => decide (e.1 = b)) (M[i * n + m]?.bind fun d => if isEdge d then some (m, set d) else none).toList = [] := by
        cases M[i * n + m]? with
        | none => rfl
        | some d => rw [Option.bind_some]; split <;> simp [Ne.symm h1]
      rw [h3, List.append_nil]
      by_cases h2 : b < m
      · rw [if_pos h2, if_pos (by omega)]
      · rw [if_neg h2, if_neg (by omega)]

theorem row_mem {D E : Type} (isEdge : D → Bool) (set : D → E) (n : Nat) (M : List D) (i m : Nat) : ∀ e ∈ row isEdge set n M i m, e.1 < m := by
  intro e he
  unfold row at he
  rw [List.mem_filterMap] at he
  obtain ⟨j, hj, h⟩ := he
  cases hd : M[i * n + j]? with
  | none => rw [hd] at h; cases h
  | some d =>
    rw [hd, Option.bind_some] at h
    split at h
    · cases h; exact List.mem_range.1 hj
    · cases h

/-- **C186**: a graph made from a matrix has the nodes 0 to n - 1 with the given data, and exactly the edges of the matrix with their data. -/
theorem C186_construct {D E V : Type} {grow : Nat → Nat} (hg : ∀ c, c < grow c) (isEdge : D → Bool) (set : D → E) (c : Nat) (M : List D) (nodes : List V)
    (hM : M.length = nodes.length * nodes.length) (hlim : nodes.length * nodes.length ≤ intMax) :
    ∃ g, construct grow isEdge set nodes.length M nodes (new E V c) = some g ∧ g.ids = List.range nodes.length ∧ Ok g ∧ (∀ i, i < nodes.length → g.vertex i = nodes[i]?) ∧
      (∀ a b, a < nodes.length → b < nodes.length → edgeData g a b = M[a * nodes.length + b]?.bind fun d => if isEdge d then some (set d) else none) ∧
      ∀ a, ((g.out a).map (·.1)).Nodup := by
  obtain ⟨g1, a1, a2, a3, a4, a5⟩ := addNodes_grown hg nodes [] (grown_new E V c)
  have hz : (new E V c).ids.length = 0 := rfl
  rw [hz] at a1 a3 a4 a5
  rw [Nat.zero_add] at a3
  have hids : g1.ids = List.range nodes.length := by rw [a2.ids, a3]
  have hout : ∀ i, g1.out i = [] := by intro i; rw [a5 i]; simp [new]
  refine ⟨{ g1 with out := fun a => if a < nodes.length then (row isEdge set nodes.length M a nodes.length).reverse ++ g1.out a else g1.out a }, ?_, hids, ⟨?_, ?_, ?_⟩, ?_, ?_, ?_⟩
  · unfold construct
    rw [List.take_length, a1, Option.bind_some]
    dsimp only
    rw [List.nil_append, ← List.range_eq_range']
    exact outer_spec isEdge set hM hlim g1 _ (Nat.le_refl _)
  · rw [hids]; exact List.nodup_range
  · intro i hi
    dsimp only at hi ⊢
    rw [hids, List.mem_range] at hi
    rw [a4 i]
    simp [hi]
  · intro i hi e he
    dsimp only at hi he ⊢
    rw [hids, List.mem_range] at hi ⊢
    rw [if_pos hi, hout i, List.append_nil, List.mem_reverse] at he
    exact row_mem _ _ _ _ _ _ e he
  · intro i hi
    dsimp only
    rw [a4 i]
    simp [hi]
  · intro a b ha hb
    unfold edgeData
    dsimp only
    rw [if_pos ha, hout a, List.append_nil, List.filter_reverse, List.getLast?_reverse, row_filter, if_pos hb]
    cases M[a * nodes.length + b]? with
    | none => rfl
    | some d => rw [Option.bind_some, Option.bind_some]; split <;> rfl
  · intro a
    dsimp only
    split
    · rw [hout a, List.append_nil, List.map_reverse, List.nodup_reverse]
      apply List.Sublist.nodup (l₂ := List.range nodes.length) _ List.nodup_range
      unfold row
      rw [List.map_filterMap]
      have : ∀ l : List Nat, (l.filterMap fun x => Option.map (fun x : Nat × E => x.1) (M[a * nodes.length + x]?.bind fun d => if isEdge d = true then some (x, set d) else none)).Sublist l := by
        intro l
        induction l with
        | nil => exact List.Sublist.refl _
        | cons x l ih =>
          rw [List.filterMap_cons]
          cases M[a * nodes.length + x]? with
          | none => exact ih.cons x
          | some d =>
            rw [Option.bind_some]
            by_cases hd : isEdge d = true
            · rw [if_pos hd]; exact ih.cons_cons x
            · rw [if_neg hd]; exact ih.cons x
      exact this _
    · rw [hout a]; exact List.nodup_nil

/-- **C186**: a matrix made into a graph and back is the same: every entry that is an edge is written, with what the graph keeps of its data, every other is left as it was, and the data of the nodes are given back. -/
theorem C186_round_trip {D E V : Type} {grow : Nat → Nat} (hg : ∀ c, c < grow c) (isEdge : D → Bool) (set : D → E) (get : E → D) (junk : Nat → Nat) (c : Nat) (M m : List D) (nodes vs : List V)
    (hM : M.length = nodes.length * nodes.length) (hm : m.length = M.length) (hv : vs.length = nodes.length) (hlim : nodes.length * nodes.length ≤ intMax) :
    ∃ g, construct grow isEdge set nodes.length M nodes (new E V c) = some g ∧
      toMatrix get junk g m vs = some (List.zipWith (fun d old => if isEdge d then get (set d) else old) M m, nodes) := by
  obtain ⟨g, h1, h2, h3, h4, h5, _⟩ := C186_construct hg isEdge set c M nodes hM hlim
  have hl : g.ids.length = nodes.length := by rw [h2, List.length_range]
  obtain ⟨m', vs', t1, t2, t3, t4, t5⟩ := C186_matrix_partial get junk g h3 m vs (by rw [hl]; exact hlim) (by rw [hl, hm, hM])
    (by intro i hi; rw [h2, List.mem_range] at hi; omega)
  refine ⟨g, h1, ?_⟩
  rw [t1]
  congr 2
  · apply List.ext_getElem?
    intro x
    by_cases hx : x < M.length
    · have hn : 0 < nodes.length := by
        rcases Nat.eq_zero_or_pos nodes.length with h | h
        · rw [hM, h] at hx; omega
        · exact h
      have hp : x / nodes.length < nodes.length := Nat.div_lt_of_lt_mul (by rw [← hM]; exact hx)
      have hq : x % nodes.length < nodes.length := Nat.mod_lt _ hn
      have ex : x / nodes.length * nodes.length + x % nodes.length = x := by rw [Nat.mul_comm]; exact Nat.div_add_mod _ _
      have := t4 (x / nodes.length) (x % nodes.length) (by omega) (by omega)
      have eg : ∀ y (hy : y < g.ids.length), g.ids[y] = y := by
        intro y hy
        simp only [h2, List.getElem_range]
      rw [eg, eg, hl, ex, h5 _ _ hp hq, ex] at this
      rw [this, List.getElem?_zipWith, List.getElem?_eq_getElem hx, List.getElem?_eq_getElem (show x < m.length by omega), Option.bind_some]
      dsimp only
      split <;> rfl
    · rw [List.getElem?_eq_none (by omega), List.getElem?_eq_none (by rw [List.length_zipWith]; omega)]
  · apply List.ext_getElem?
    intro i
    rw [t5 i, h2]
    by_cases hi : i < nodes.length
    · rw [if_pos (List.mem_range.2 hi), h4 i hi]
    · rw [if_neg (fun h => hi (List.mem_range.1 h)), List.getElem?_eq_none (by omega), List.getElem?_eq_none (by omega)]

/-- A matrix of three nodes. -/
example : (construct (· + 1) (· ≠ 0) id 3 [0, 4, 0, 5, 6, 0, 0, 0, 0] [1, 2, 3] (new Nat Nat 0)).bind (fun g => toMatrix id (fun _ => 7) g (List.replicate 9 0) [0, 0, 0]) =
    some ([0, 4, 0, 5, 6, 0, 0, 0, 0], [1, 2, 3]) := by decide

/-! ## C187 -/

/-- **C187**: `GetNode` finds exactly the nodes. Missing: graphs from which nodes were removed. -/
theorem C187_getNode_partial {E V : Type} {g : Gr E V} (h : Grown g) (i : Nat) : (getNode g i).isSome ↔ i ∈ g.ids := by
  unfold getNode
  rw [h.ids, List.mem_range, List.length_range]
  split <;> simp [*]

example : Grown (new Nat Nat 3) ∧ Grown (⟨[0, 1], [2], 3, fun _ => none, fun _ => []⟩ : Gr Nat Nat) := ⟨grown_new _ _ _, ⟨by decide, by decide, by decide⟩⟩

/-- **C187**: adding nodes keeps the precondition. -/
theorem C187_addNode {E V : Type} {grow : Nat → Nat} (hg : ∀ c, c < grow c) {g : Gr E V} (h : Grown g) (v : V) : ∃ g' i, addNode grow g v = some (g', i) ∧ i ∉ g.ids ∧ Grown g' ∧ (getNode g' i).isSome := by
  obtain ⟨g', h1, h2, h3, _⟩ := addNode_grown hg h v
  refine ⟨g', _, h1, ?_, h2, ?_⟩
  · rw [h.ids, List.mem_range, List.length_range]; omega
  · unfold getNode; rw [if_pos (by omega)]; rfl

/-- C187 fails if a node was removed: the last node is not found, and the removed one is. -/
theorem C187_removed_counterexample : ∃ g : Gr Nat Nat, construct (· + 1) (· ≠ 0) id 2 [0, 1, 0, 0] [8, 9] (new Nat Nat 2) = some g ∧ 1 ∈ (removeNode g 0).ids ∧ getNode (removeNode g 0) 1 = none ∧
    0 ∉ (removeNode g 0).ids ∧ getNode (removeNode g 0) 0 = some 0 := by
  refine ⟨_, rfl, by decide, by decide, by decide, by decide⟩

end Verif.GraphMatrix
