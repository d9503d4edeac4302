import Verif.Graph.Circulation

/-!
# Maximum flow by push and relabel (C95)

`MaxFlow_PushRelabel` of `Graph.h`. Flows and excesses are unbounded integers; heights are of type `CT`, that is modulo `m` (no wrap-around if `m = 0`).
-/

namespace Verif.Graph.Flow

/-- The indices of the edges into a node, newest first (`AltLLAdd`, `Graph.h:100`). -/
def ins (edges : List FEdge) (i : Nat) : List Nat := ((List.range edges.length).filter fun j => (edges[j]?).any fun e => decide (e.dst = i)).reverse

/-- The element that follows an element of a list (`next`). -/
def after (j : Nat) : List Nat → Option Nat
  | [] => none
  | a :: l => if a = j then l.head? else after j l

/-- The edges with their flows, and the arrays of `Graph.h:207-209`. -/
structure PR where
  edges : List FEdge
  excess : List Int
  height : List Nat
  seen : List (Option Nat)
  deriving DecidableEq

/-- `INT_MAX`. -/
def intMax : Nat := 2 ^ 31 - 1

/-- The body of the loops over the edges in the relabelling, `Graph.h:262-266` and `:273-280`: the smallest height so far and the heights. -/
def relabelStep (m : Nat) (back : Bool) (edges : List FEdge) (k : Nat) (p : Nat × List Nat) (j : Nat) : Nat × List Nat :=
  match edges[j]? with
  | none => p
  | some e =>
    if (if back then 0 < e.flow else 0 < e.cap - e.flow) then
      let h := p.2.getD (if back then e.src else e.dst) 0
      let send := if h < p.1 then h else p.1
      (send, p.2.set k ((send + 1) % m))
    else p

/-- The body of the loop that discharges the node `k`, `Graph.h:255-304`. -/
def dischargeStep (m : Nat) (st : PR) (k : Nat) : PR :=
  match st.seen.getD k none with
  | none =>
    let r := (outs st.edges k).foldl (relabelStep m false st.edges k) (intMax, st.height)
    if r.1 = intMax then
      let r := (ins st.edges k).foldl (relabelStep m true st.edges k) r
      { st with height := r.2, seen := st.seen.set k (ins st.edges k).head? }
    else { st with height := r.2, seen := st.seen.set k (outs st.edges k).head? }
  | some j =>
    match st.edges[j]? with
    | none => st
    | some e =>
      let send := if e.src = k then e.cap - e.flow else e.flow
      let target := if e.src = k then e.dst else e.src
      let seen := st.seen.set k (if e.src = k then after j (outs st.edges e.src) else after j (ins st.edges e.dst))
      if st.height.getD target 0 < st.height.getD k 0 ∧ 0 < send then
        let send := min send (st.excess.getD k 0)
        let excess := st.excess.set target (st.excess.getD target 0 + send)
        { st with
          edges := st.edges.set j { e with flow := e.flow + if e.src = k then send else -send }
          excess := excess.set k (excess.getD k 0 - send)
          seen := seen }
      else { st with seen := seen }

/-- The loop `while(excess[k] > 0)`; `none` if it has not ended after `n` rounds. -/
def discharge (m : Nat) : Nat → PR → Nat → Option PR
  | 0, _, _ => none
  | n + 1, st, k => if 0 < st.excess.getD k 0 then discharge m n (dischargeStep m st k) k else some st

/-- The list of the vertices, `Graph.h:210`, `:223-241`: `second` of each entry, the root and the variable `last`. -/
structure Order where
  second : List (Option Nat)
  root : Option Nat
  last : Option Nat
  deriving DecidableEq

/-- The main loop, `Graph.h:251-318`, at the entry `c` of the list; `nodes` are `first` of the entries. -/
def mainLoop (m : Nat) (nodes : List Nat) : Nat → PR → Order → Option Nat → Option PR
  | 0, _, _, _ => none
  | _ + 1, st, _, none => some st
  | n + 1, st, o, some c =>
    let k := nodes.getD c 0
    match discharge m n st k with
    | none => none
    | some st' =>
      if st'.height.getD k 0 ≠ st.height.getD k 0 then
        match o.last with
        | some l => let o := { o with second := (o.second.set l (o.second.getD c none)).set c o.root, root := some c }; mainLoop m nodes n st' o o.root
        | none => mainLoop m nodes n st' o o.root
      else mainLoop m nodes n st' { o with last := some c } (o.second.getD c none)

/-- `seen` after the loop of `Graph.h:227-239`: it is indexed by the entry of the list instead of the node. -/
def initSeen (edges : List FEdge) (s t : Nat) : List Nat → Nat → List (Option Nat) → List (Option Nat)
  | [], _, seen => seen
  | i :: l, k, seen => initSeen edges s t l (if i ≠ s ∧ i ≠ t then k + 1 else k) (seen.set k (outs edges i).head?)

/-- The body of the loop that fills the edges out of the source, `Graph.h:244-248`. -/
def fillStep (p : List FEdge × List Int) (j : Nat) : List FEdge × List Int :=
  match p.1[j]? with
  | none => p
  | some e => (p.1.set j { e with flow := e.cap }, p.2.set e.dst e.cap)

/-- `MaxFlow_PushRelabel`, `Graph.h:200-319`, on arrays of `size` entries; `none` if it has not ended after `n` rounds or reads the root of an empty list. -/
def pushRelabel (m n : Nat) (g : Net) (size s t : Nat) : Option PR :=
  let nodes := g.ids.filter fun i => decide (i ≠ s ∧ i ≠ t)
  let p := (outs g.edges s).foldl fillStep (g.edges, (List.replicate size 0).set s (intMax / 2 : Nat))
  if nodes = [] then none
  else
    mainLoop m nodes n
      { edges := p.1, excess := p.2, height := (List.replicate size 0).set s g.ids.length, seen := initSeen g.edges s t g.ids 0 (List.replicate size none) }
      { second := (List.range nodes.length).map fun j => if j + 1 < nodes.length then some (j + 1) else none, root := some 0, last := none } (some 0)

/-! ## Specification -/

/-- The flow into a node less the flow out of it. -/
def netFlow (es : List FEdge) (v : Nat) : Int := net es (es.map (·.flow)) v

/-- The edges without their flows. -/
def shape (es : List FEdge) : List (Nat × Nat × Int) := es.map fun e => (e.src, e.dst, e.cap)

/-- A graph on which the algorithm may be started: no flow yet, capacities not negative, identifiers within the arrays, and no two edges from the source to the same node. -/
structure Start (g : Net) (size s t : Nat) : Prop where
  ok : g.Ok
  size : ∀ i ∈ g.ids, i < size
  source : s ∈ g.ids
  flow : ∀ e ∈ g.edges, e.flow = 0 ∧ e.lower = 0 ∧ 0 ≤ e.cap
  simple : ((outs g.edges s).map fun j => (g.edges[j]?).map (·.dst)).Nodup
  loop : ∀ e ∈ g.edges, e.src = s → e.dst ≠ s

/-! ## Proofs -/

theorem netFlow_set {es : List FEdge} {j : Nat} {e : FEdge} (h : es[j]? = some e) (x : Int) (v : Nat) :
    netFlow (es.set j { e with flow := x }) v = netFlow es v + (if e.dst = v then x - e.flow else 0) - (if e.src = v then x - e.flow else 0) := by
  rw [netFlow, netFlow]
  induction es generalizing j with
  | nil => cases h
  | cons a es ih =>
    cases j with
    | zero =>
      have : a = e := Option.some.inj h
      subst this
      rw [List.set_cons_zero, List.map_cons, List.map_cons, net, net]
      dsimp only
      split <;> split <;> ring
    | succ j =>
      rw [List.set_cons_succ, List.map_cons, List.map_cons, net, net, ih (j := j) h]
      ring

theorem shape_set {es : List FEdge} {j : Nat} {e : FEdge} (h : es[j]? = some e) (x : Int) : shape (es.set j { e with flow := x }) = shape es := by
  rw [shape, shape, List.map_set]
  apply List.ext_getElem?
  intro i
  rw [List.getElem?_set]
  split
  · rename_i hij
    subst hij
    rw [if_pos (by rw [List.length_map]; exact (List.getElem?_eq_some_iff.1 h).1), List.getElem?_map, h]
    rfl
  · rfl

theorem outs_src {es : List FEdge} {i j : Nat} (h : j ∈ outs es i) : ∃ e, es[j]? = some e ∧ e.src = i := by
  rw [outs, List.mem_reverse, List.mem_filter] at h
  rcases he : es[j]? with _ | e
  · rw [he] at h; cases h.2
  · rw [he] at h
    exact ⟨e, rfl, by simpa using h.2⟩

theorem ins_dst {es : List FEdge} {i j : Nat} (h : j ∈ ins es i) : ∃ e, es[j]? = some e ∧ e.dst = i := by
  rw [ins, List.mem_reverse, List.mem_filter] at h
  rcases he : es[j]? with _ | e
  · rw [he] at h; cases h.2
  · rw [he] at h
    exact ⟨e, rfl, by simpa using h.2⟩

theorem after_mem {j a : Nat} {l : List Nat} (h : after j l = some a) : a ∈ l := by
  induction l with
  | nil => cases h
  | cons b l ih =>
    rw [after] at h
    split at h
    · exact List.mem_cons_of_mem _ (List.mem_of_head? h)
    · exact List.mem_cons_of_mem _ (ih h)

theorem getD_set_self {α : Type} {l : List α} {i : Nat} {a d : α} (h : i < l.length) : (l.set i a).getD i d = a := by
  rw [List.getD_eq_getElem?_getD, List.getElem?_set, if_pos rfl, if_pos h]; rfl

theorem getD_set_ne {α : Type} {l : List α} {i j : Nat} {a d : α} (h : i ≠ j) : (l.set i a).getD j d = l.getD j d := by
  rw [List.getD_eq_getElem?_getD, List.getD_eq_getElem?_getD, List.getElem?_set, if_neg h]

/-- The edge of an index, apart from its flow. -/
theorem shape_get {es fs : List FEdge} (h : shape es = shape fs) {j : Nat} {e : FEdge} (he : es[j]? = some e) : ∃ f, fs[j]? = some f ∧ f.src = e.src ∧ f.dst = e.dst ∧ f.cap = e.cap := by
  have h1 := congrArg (fun l => l[j]?) h
  simp only [shape, List.getElem?_map, he, Option.map_some] at h1
  rcases hf : fs[j]? with _ | f
  · rw [hf] at h1; cases h1
  · rw [hf, Option.map_some] at h1
    have h2 := Option.some.inj h1
    exact ⟨f, rfl, (congrArg (·.1) h2).symm, (congrArg (·.2.1) h2).symm, (congrArg (·.2.2) h2).symm⟩

/-- The invariant: a preflow, whose excesses are in the array. -/
structure Inv (g : Net) (size s : Nat) (st : PR) : Prop where
  shape : shape st.edges = shape g.edges
  bounds : ∀ e ∈ st.edges, 0 ≤ e.flow ∧ e.flow ≤ e.cap
  excess : ∀ v ∈ g.ids, v ≠ s → st.excess.getD v 0 = netFlow st.edges v ∧ 0 ≤ netFlow st.edges v
  len : st.excess.length = size ∧ st.height.length = size ∧ st.seen.length = size
  seen : ∀ k j, k ≠ s → st.seen.getD k none = some j → (∃ e, g.edges[j]? = some e ∧ (e.src = k ∨ e.dst = k)) ∨ st.height.getD k 0 = 0

theorem relabel_height (m : Nat) (back : Bool) (edges : List FEdge) (k : Nat) (L : List Nat) (p : Nat × List Nat) :
    (L.foldl (relabelStep m back edges k) p).2.length = p.2.length ∧ ∀ i, i ≠ k → (L.foldl (relabelStep m back edges k) p).2.getD i 0 = p.2.getD i 0 := by
  induction L generalizing p with
  | nil => exact ⟨rfl, fun i _ => rfl⟩
  | cons j L ih =>
    have h1 : (relabelStep m back edges k p j).2.length = p.2.length ∧ ∀ i, i ≠ k → (relabelStep m back edges k p j).2.getD i 0 = p.2.getD i 0 := by
      rw [relabelStep]
      split
      · exact ⟨rfl, fun i _ => rfl⟩
      · rename_i e _
        by_cases hc : (if back then 0 < e.flow else 0 < e.cap - e.flow)
        · rw [if_pos hc]
          exact ⟨List.length_set .., fun i hi => getD_set_ne (Ne.symm hi)⟩
        · rw [if_neg hc]
          exact ⟨rfl, fun i _ => rfl⟩
    obtain ⟨h2, h3⟩ := ih (relabelStep m back edges k p j)
    exact ⟨h2.trans h1.1, fun i hi => (h3 i hi).trans (h1.2 i hi)⟩

theorem step_inv {m : Nat} {g : Net} {size s t : Nat} (hg : Start g size s t) {st : PR} (h : Inv g size s st) {k : Nat} (hk : k ∈ g.ids) (hks : k ≠ s) (hpos : 0 < st.excess.getD k 0) :
    Inv g size s (dischargeStep m st k) := by
  have hsize := hg.size k hk
  rw [dischargeStep]
  rcases hseen : st.seen.getD k none with _ | j
  · dsimp only
    have hr := relabel_height m false st.edges k (outs st.edges k) (intMax, st.height)
    split
    · have hr2 := relabel_height m true st.edges k (ins st.edges k) ((outs st.edges k).foldl (relabelStep m false st.edges k) (intMax, st.height))
      refine ⟨h.shape, h.bounds, h.excess, ⟨h.len.1, (hr2.1.trans hr.1).trans h.len.2.1, (List.length_set ..).trans h.len.2.2⟩, ?_⟩
      intro k' j hk' hj
      dsimp only at hj ⊢
      by_cases hkk : k = k'
      · subst hkk
        rw [getD_set_self (by rw [h.len.2.2]; exact hsize)] at hj
        obtain ⟨e, he, hd⟩ := ins_dst (List.mem_of_head? hj)
        obtain ⟨f, hf, a, b, c⟩ := shape_get h.shape he
        exact .inl ⟨f, hf, .inr (b.trans hd)⟩
      · rw [getD_set_ne hkk] at hj
        rw [hr2.2 k' (Ne.symm hkk), hr.2 k' (Ne.symm hkk)]
        exact h.seen k' j hk' hj
    · refine ⟨h.shape, h.bounds, h.excess, ⟨h.len.1, hr.1.trans h.len.2.1, (List.length_set ..).trans h.len.2.2⟩, ?_⟩
      intro k' j hk' hj
      dsimp only at hj ⊢
      by_cases hkk : k = k'
      · subst hkk
        rw [getD_set_self (by rw [h.len.2.2]; exact hsize)] at hj
        obtain ⟨e, he, hd⟩ := outs_src (List.mem_of_head? hj)
        obtain ⟨f, hf, a, b, c⟩ := shape_get h.shape he
        exact .inl ⟨f, hf, .inl (a.trans hd)⟩
      · rw [getD_set_ne hkk] at hj
        rw [hr.2 k' (Ne.symm hkk)]
        exact h.seen k' j hk' hj
  · dsimp only
    rcases he : st.edges[j]? with _ | e
    · exact h
    dsimp only
    obtain ⟨f, hf, fa, fb, fc⟩ := shape_get h.shape he
    have hinc := h.seen k j hks hseen
    have hseen' : ∀ k' j', k' ≠ s → (st.seen.set k (if e.src = k then after j (outs st.edges e.src) else after j (ins st.edges e.dst))).getD k' none = some j' →
        (∃ e, g.edges[j']? = some e ∧ (e.src = k' ∨ e.dst = k')) ∨ st.height.getD k' 0 = 0 := by
      intro k' j' hk' hj
      by_cases hkk : k = k'
      · subst hkk
        rw [getD_set_self (by rw [h.len.2.2]; exact hsize)] at hj
        by_cases hsrc : e.src = k
        · rw [if_pos hsrc] at hj
          obtain ⟨e', he', hd⟩ := outs_src (after_mem hj)
          obtain ⟨f', hf', a, b, c⟩ := shape_get h.shape he'
          exact .inl ⟨f', hf', .inl (by rw [a, hd, hsrc])⟩
        · rw [if_neg hsrc] at hj
          obtain ⟨e', he', hd⟩ := ins_dst (after_mem hj)
          obtain ⟨f', hf', a, b, c⟩ := shape_get h.shape he'
          rcases hinc with ⟨e2, he2, hor⟩ | hz
          · rw [hf] at he2
            cases he2
            rcases hor with hor | hor
            · exact absurd (fa.symm.trans hor) hsrc
            · exact .inl ⟨f', hf', .inr (by rw [b, hd, ← fb, hor])⟩
          · exact .inr hz
      · rw [getD_set_ne hkk] at hj
        exact h.seen k' j' hk' hj
    have hem := List.mem_of_getElem? he
    have hb := h.bounds e hem
    have hids : e.src ∈ g.ids ∧ e.dst ∈ g.ids := by
      have := hg.ok.2 f (List.mem_of_getElem? hf)
      rw [fa, fb] at this
      exact this
    by_cases hcond : st.height.getD (if e.src = k then e.dst else e.src) 0 < st.height.getD k 0 ∧ 0 < (if e.src = k then e.cap - e.flow else e.flow)
    · rw [if_pos hcond]
      obtain ⟨hh, hsend⟩ := hcond
      have hne : (if e.src = k then e.dst else e.src) ≠ k := by intro e'; rw [e'] at hh; exact absurd hh (Nat.lt_irrefl _)
      generalize hx : min (if e.src = k then e.cap - e.flow else e.flow) (st.excess.getD k 0) = x
      have hx0 : 0 < x := by omega
      have hxk : x ≤ st.excess.getD k 0 := by omega
      refine ⟨by rw [← h.shape]; exact shape_set he _, ?_, ?_, ⟨by simp [h.len.1], h.len.2.1, by simp [h.len.2.2]⟩, hseen'⟩
      · intro a ha
        rcases List.mem_or_eq_of_mem_set ha with ha | rfl
        · exact h.bounds a ha
        · dsimp only
          split
          · rename_i hs; rw [if_pos hs] at hx; omega
          · rename_i hs; rw [if_neg hs] at hx; omega
      · intro v hv hvs
        dsimp only
        rw [netFlow_set he]
        have hvl := hg.size v hv
        obtain ⟨q1, q2⟩ := h.excess v hv hvs
        have hkx := (h.excess k hk hks).1
        by_cases hsrc : e.src = k
        · simp only [if_pos hsrc] at hne ⊢
          have hdt := hg.size _ hids.2
          by_cases hvk : k = v
          · subst hvk
            rw [if_neg hne, if_pos hsrc, getD_set_self (by rw [List.length_set, h.len.1]; exact hsize), getD_set_ne hne]
            omega
          · rw [getD_set_ne hvk, if_neg (c := e.src = v) (by rw [hsrc]; exact hvk)]
            by_cases hvd : e.dst = v
            · subst hvd
              rw [getD_set_self (by rw [h.len.1]; exact hdt), if_pos rfl]
              omega
            · rw [getD_set_ne hvd, if_neg hvd]
              omega
        · simp only [if_neg hsrc] at hne ⊢
          have hdst : e.dst = k := by
            rcases hinc with ⟨e2, he2, hor⟩ | hz
            · rw [hf] at he2
              cases he2
              rcases hor with hor | hor
              · exact absurd (fa.symm.trans hor) hsrc
              · exact fb.symm.trans hor
            · rw [hz] at hh; exact absurd hh (Nat.not_lt_zero _)
          have hst := hg.size _ hids.1
          by_cases hvk : k = v
          · subst hvk
            rw [if_pos hdst, if_neg hsrc, getD_set_self (by rw [List.length_set, h.len.1]; exact hsize), getD_set_ne hne]
            omega
          · rw [getD_set_ne hvk, if_neg (c := e.dst = v) (by rw [hdst]; exact hvk)]
            by_cases hvd : e.src = v
            · subst hvd
              rw [getD_set_self (by rw [h.len.1]; exact hst), if_pos rfl]
              omega
            · rw [getD_set_ne hvd, if_neg hvd]
              omega
    · rw [if_neg hcond]
      exact ⟨h.shape, h.bounds, h.excess, ⟨h.len.1, h.len.2.1, by simp [h.len.2.2]⟩, hseen'⟩

theorem discharge_inv {m : Nat} {g : Net} {size s t : Nat} (hg : Start g size s t) {n : Nat} {st st' : PR} (h : Inv g size s st) {k : Nat} (hk : k ∈ g.ids) (hks : k ≠ s)
    (hd : discharge m n st k = some st') : Inv g size s st' := by
  induction n generalizing st with
  | zero => cases hd
  | succ n ih =>
    rw [discharge] at hd
    split at hd
    · rename_i hpos
      exact ih (step_inv hg h hk hks hpos) hd
    · cases hd; exact h

theorem main_inv {m : Nat} {g : Net} {size s t : Nat} (hg : Start g size s t) {nodes : List Nat} (hn : ∀ k ∈ nodes, k ∈ g.ids ∧ k ≠ s) (hne : nodes ≠ []) {n : Nat} {st st' : PR} {o : Order}
    {c : Option Nat} (ho : (∀ x ∈ o.second, ∀ y, x = some y → y < nodes.length) ∧ (∀ y, o.root = some y → y < nodes.length)) (hc : ∀ y, c = some y → y < nodes.length) (h : Inv g size s st)
    (hd : mainLoop m nodes n st o c = some st') : Inv g size s st' := by
  induction n generalizing st o c with
  | zero => cases hd
  | succ n ih =>
    cases c with
    | none => cases hd; exact h
    | some c =>
      have hcl := hc c rfl
      have hk : nodes.getD c 0 ∈ nodes := by
        rw [List.getD_eq_getElem?_getD, List.getElem?_eq_getElem hcl]
        exact List.getElem_mem hcl
      obtain ⟨hk1, hk2⟩ := hn _ hk
      have hsec : ∀ i y, o.second.getD i none = some y → y < nodes.length := by
        intro i y hy
        rw [List.getD_eq_getElem?_getD] at hy
        rcases hx : o.second[i]? with _ | x
        · rw [hx] at hy; cases hy
        · rw [hx] at hy
          exact ho.1 x (List.mem_of_getElem? hx) y hy
      rw [mainLoop] at hd
      rcases hdd : discharge m n st (nodes.getD c 0) with _ | st2
      · rw [hdd] at hd; cases hd
      · rw [hdd] at hd
        dsimp only at hd
        have h2 := discharge_inv hg h hk1 hk2 hdd
        split at hd
        · split at hd
          · rename_i l _
            refine ih ⟨?_, ?_⟩ ?_ h2 hd
            · intro x hx y hy
              rcases List.mem_or_eq_of_mem_set hx with hx | rfl
              · rcases List.mem_or_eq_of_mem_set hx with hx | rfl
                · exact ho.1 x hx y hy
                · exact hsec c y hy
              · exact ho.2 y hy
            · intro y hy; cases hy; exact hcl
            · intro y hy; cases hy; exact hcl
          · exact ih ho ho.2 h2 hd
        · exact ih (o := { o with last := some c }) ho (hsec c) h2 hd

theorem net_zero {es : List FEdge} (h : ∀ e ∈ es, e.flow = 0) (v : Nat) : netFlow es v = 0 := by
  rw [netFlow]
  induction es with
  | nil => rfl
  | cons e es ih =>
    rw [List.map_cons, net, ih (fun a ha => h a (List.mem_cons_of_mem _ ha)), h e List.mem_cons_self]
    split <;> split <;> rfl

/-- The invariant of the loop over the edges out of the source. -/
structure Fill (g : Net) (size s : Nat) (p : List FEdge × List Int) (rest : List Nat) : Prop where
  shape : shape p.1 = shape g.edges
  bounds : ∀ e ∈ p.1, 0 ≤ e.flow ∧ e.flow ≤ e.cap
  excess : ∀ v ∈ g.ids, v ≠ s → p.2.getD v 0 = netFlow p.1 v ∧ 0 ≤ netFlow p.1 v
  len : p.2.length = size
  todo : ∀ j ∈ rest, ∀ e, p.1[j]? = some e → e.flow = 0 ∧ netFlow p.1 e.dst = 0

theorem fill_inv {g : Net} {size s t : Nat} (hg : Start g size s t) {L : List Nat} (hL : ∀ j ∈ L, ∃ e, g.edges[j]? = some e ∧ e.src = s) (hnd : (L.map fun j => (g.edges[j]?).map (·.dst)).Nodup)
    {p : List FEdge × List Int} (h : Fill g size s p L) : Fill g size s (L.foldl fillStep p) [] := by
  induction L generalizing p with
  | nil => exact h
  | cons j L ih =>
    rw [List.foldl_cons]
    rw [List.map_cons, List.nodup_cons] at hnd
    refine ih (fun i hi => hL i (List.mem_cons_of_mem _ hi)) hnd.2 ?_
    obtain ⟨f, hf, hfs⟩ := hL j List.mem_cons_self
    obtain ⟨e, he, ea, eb, ec⟩ := shape_get h.shape.symm hf
    have hfm := List.mem_of_getElem? hf
    have hds : e.dst ≠ s := by rw [eb]; exact hg.loop f hfm hfs
    have hss : e.src = s := ea.trans hfs
    obtain ⟨t1, t2⟩ := h.todo j List.mem_cons_self e he
    have hb := h.bounds e (List.mem_of_getElem? he)
    have hnet : ∀ v, v ≠ s → netFlow (p.1.set j { e with flow := e.cap }) v = netFlow p.1 v + if e.dst = v then e.cap else 0 := by
      intro v hv
      rw [netFlow_set he, if_neg (c := e.src = v) (by rw [hss]; exact Ne.symm hv), t1]
      split <;> ring
    rw [fillStep, he]
    refine ⟨by rw [← h.shape]; exact shape_set he _, ?_, ?_, (List.length_set ..).trans h.len, ?_⟩
    · intro a ha
      rcases List.mem_or_eq_of_mem_set ha with ha | rfl
      · exact h.bounds a ha
      · dsimp only; omega
    · intro v hv hvs
      dsimp only
      rw [hnet v hvs]
      obtain ⟨q1, q2⟩ := h.excess v hv hvs
      by_cases hvd : e.dst = v
      · subst hvd
        rw [getD_set_self (by rw [h.len]; exact hg.size _ hv), if_pos rfl]
        omega
      · rw [getD_set_ne hvd, if_neg hvd]
        omega
    · intro i hi a ha
      dsimp only at ha ⊢
      obtain ⟨f', hf', hfs'⟩ := hL i (List.mem_cons_of_mem _ hi)
      obtain ⟨e', he', ea', eb', ec'⟩ := shape_get h.shape.symm hf'
      have hdd : f.dst ≠ f'.dst := by
        intro hd
        apply hnd.1
        rw [List.mem_map]
        exact ⟨i, hi, by rw [hf, hf', Option.map_some, Option.map_some, hd]⟩
      have hij : j ≠ i := by
        intro hd
        subst hd
        rw [hf] at hf'
        cases hf'
        exact hdd rfl
      rw [List.getElem?_set, if_neg hij, he'] at ha
      have hae := Option.some.inj ha
      subst hae
      obtain ⟨u1, u2⟩ := h.todo i (List.mem_cons_of_mem _ hi) e' he'
      refine ⟨u1, ?_⟩
      rw [hnet _ (by rw [eb']; exact hg.loop f' (List.mem_of_getElem? hf') hfs'), u2, if_neg (by rw [eb, eb']; exact hdd)]
      rfl

theorem initSeen_length (edges : List FEdge) (s t : Nat) (l : List Nat) (k : Nat) (seen : List (Option Nat)) : (initSeen edges s t l k seen).length = seen.length := by
  induction l generalizing k seen with
  | nil => rfl
  | cons i l ih => rw [initSeen, ih, List.length_set]

theorem push_inv {m n : Nat} {g : Net} {size s t : Nat} (hg : Start g size s t) {st : PR} (h : pushRelabel m n g size s t = some st) : Inv g size s st := by
  rw [pushRelabel] at h
  split at h
  · cases h
  · rename_i hne
    have hgetz : ∀ (x : Int) v, v ≠ s → ((List.replicate size (0 : Int)).set s x).getD v 0 = 0 := by
      intro x v hv
      rw [getD_set_ne (Ne.symm hv), List.getD_eq_getElem?_getD, List.getElem?_replicate]
      split <;> rfl
    have hf : Fill g size s ((outs g.edges s).foldl fillStep (g.edges, (List.replicate size 0).set s (intMax / 2 : Nat))) [] := by
      refine fill_inv hg (fun j hj => outs_src hj) hg.simple ⟨rfl, ?_, ?_, by simp, ?_⟩
      · intro e he
        have := hg.flow e he
        omega
      · intro v hv hvs
        dsimp only
        rw [net_zero (fun e he => (hg.flow e he).1), hgetz _ v hvs]
        exact ⟨rfl, Int.le_refl _⟩
      · intro j hj e he
        exact ⟨(hg.flow e (List.mem_of_getElem? he)).1, net_zero (fun e he => (hg.flow e he).1) _⟩
    have hlen : 0 < (g.ids.filter fun i => decide (i ≠ s ∧ i ≠ t)).length := List.length_pos_iff.2 hne
    refine main_inv hg ?_ hne ⟨?_, ?_⟩ ?_ ⟨hf.shape, hf.bounds, hf.excess, ⟨hf.len, by simp, by rw [initSeen_length, List.length_replicate]⟩, ?_⟩ h
    · intro k hk
      rw [List.mem_filter] at hk
      exact ⟨hk.1, (of_decide_eq_true hk.2).1⟩
    · intro x hx y hy
      rw [List.mem_map] at hx
      obtain ⟨j, -, rfl⟩ := hx
      split at hy
      · cases hy; assumption
      · cases hy
    · intro y hy; cases hy; exact hlen
    · intro y hy; cases hy; exact hlen
    · intro k j hks _
      right
      dsimp only
      rw [getD_set_ne (Ne.symm hks), List.getD_eq_getElem?_getD, List.getElem?_replicate]
      split <;> rfl

/-! ## The property -/

/-- Whenever the algorithm ends, no edge is overfull or negative, no node but the source sends more than it gets, and the graph is otherwise as it was. Missing from the full property: that it ends
(`C95_endless_counterexample`), that nothing is left at a node other than the sink (`C95_excess_counterexample`), and that the flow into the sink is the largest (`C95_maximum_counterexample`). -/
theorem C95_preflow_partial (m n : Nat) (g : Net) (size s t : Nat) (hg : Start g size s t) (st : PR) (h : pushRelabel m n g size s t = some st) :
    shape st.edges = shape g.edges ∧ (∀ e ∈ st.edges, 0 ≤ e.flow ∧ e.flow ≤ e.cap) ∧ ∀ v ∈ g.ids, v ≠ s → 0 ≤ netFlow st.edges v := by
  have hi := push_inv hg h
  exact ⟨hi.shape, hi.bounds, fun v hv hs => (hi.excess v hv hs).2⟩

theorem net_congr {es fs : List FEdge} (h : shape es = shape fs) (xs : List Int) (v : Nat) : net es xs v = net fs xs v := by
  induction es generalizing fs xs with
  | nil =>
    cases fs with
    | nil => rfl
    | cons f fs => cases h
  | cons e es ih =>
    cases fs with
    | nil => cases h
    | cons f fs =>
      have h1 : (e.src, e.dst, e.cap) = (f.src, f.dst, f.cap) := (List.cons.inj h).1
      have h2 : shape es = shape fs := (List.cons.inj h).2
      have a : e.src = f.src := congrArg (·.1) h1
      have b : e.dst = f.dst := congrArg (·.2.1) h1
      cases xs with
      | nil => rfl
      | cons x xs => rw [net, net, ih h2, a, b]

theorem bounded_of {es fs : List FEdge} (h : shape es = shape fs) (hl : ∀ e ∈ fs, e.lower = 0) (hb : ∀ e ∈ es, 0 ≤ e.flow ∧ e.flow ≤ e.cap) : Bounded fs (es.map (·.flow)) := by
  induction es generalizing fs with
  | nil =>
    cases fs with
    | nil => trivial
    | cons f fs => cases h
  | cons e es ih =>
    cases fs with
    | nil => cases h
    | cons f fs =>
      have h1 : (e.src, e.dst, e.cap) = (f.src, f.dst, f.cap) := (List.cons.inj h).1
      have c : e.cap = f.cap := congrArg (·.2.2) h1
      have h3 := hb e List.mem_cons_self
      have h4 := hl f List.mem_cons_self
      rw [List.map_cons, Bounded]
      exact ⟨by omega, by omega, ih (List.cons.inj h).2 (fun a ha => hl a (List.mem_cons_of_mem _ ha)) fun a ha => hb a (List.mem_cons_of_mem _ ha)⟩

theorem sum_two {l : List Nat} (hn : l.Nodup) {f : Nat → Int} {s t : Nat} (hst : s ≠ t) (hz : ∀ v ∈ l, v ≠ s → v ≠ t → f v = 0) :
    (l.map f).sum = (if s ∈ l then f s else 0) + (if t ∈ l then f t else 0) := by
  induction l with
  | nil => rfl
  | cons v l ih =>
    rw [List.nodup_cons] at hn
    rw [List.map_cons, List.sum_cons, ih hn.2 fun w hw => hz w (List.mem_cons_of_mem _ hw)]
    by_cases h1 : v = s
    · subst h1
      rw [if_neg hn.1, if_pos List.mem_cons_self]
      simp only [List.mem_cons, Ne.symm hst, false_or]
      ring
    · by_cases h2 : v = t
      · subst h2
        rw [if_neg (c := v ∈ l) hn.1, if_pos (c := v ∈ v :: l) List.mem_cons_self]
        simp only [List.mem_cons, hst, false_or]
        ring
      · rw [hz v List.mem_cons_self h1 h2]
        simp only [List.mem_cons, Ne.symm h1, Ne.symm h2, false_or]
        ring

/-- If, when it ends, no node other than the source and the sink has an excess, the flows of the edges are a flow of the graph, and what leaves the source arrives at the sink. -/
theorem C95_flow_partial (m n : Nat) (g : Net) (size s t : Nat) (hg : Start g size s t) (hst : s ≠ t) (ht : t ∈ g.ids) (st : PR) (h : pushRelabel m n g size s t = some st)
    (hz : ∀ v ∈ g.ids, v ≠ s → v ≠ t → st.excess.getD v 0 = 0) :
    IsFlow g s t (st.edges.map (·.flow)) ∧ value g s (st.edges.map (·.flow)) = st.excess.getD t 0 := by
  have hi := push_inv hg h
  have hnet : ∀ v, net g.edges (st.edges.map (·.flow)) v = netFlow st.edges v := fun v => (net_congr hi.shape _ v).symm
  have hbal : ∀ v ∈ g.ids, v ≠ s → v ≠ t → net g.edges (st.edges.map (·.flow)) v = 0 := by
    intro v hv h1 h2
    rw [hnet, ← (hi.excess v hv h1).1, hz v hv h1 h2]
  refine ⟨⟨bounded_of hi.shape (fun e he => (hg.flow e he).2.1) hi.bounds, hbal⟩, ?_⟩
  have hsum := net_sum hg.ok.1 hg.ok.2 (st.edges.map (·.flow))
  have h1 : (g.ids.map (net g.edges (st.edges.map (·.flow)))).sum = net g.edges (st.edges.map (·.flow)) s + net g.edges (st.edges.map (·.flow)) t := by
    rw [sum_two hg.ok.1 hst hbal, if_pos hg.source, if_pos ht]
  rw [value, (hi.excess t ht (Ne.symm hst)).1, ← hnet t]
  omega

/-- A graph of edges without flows from the triples of source, destination and capacity. -/
def mk (n : Nat) (es : List (Nat × Nat × Int)) : Net := { ids := List.range n, demand := fun _ => 0, edges := es.map fun e => { src := e.1, dst := e.2.1, flow := 0, cap := e.2.2, lower := 0 } }

/-- The flows of the edges, in the order of their addition. -/
def flows (r : Option PR) : Option (List Int) := r.map fun st => st.edges.map (·.flow)

/-- A graph on which the result is right: two paths, one of them narrow. -/
example : flows (pushRelabel 65536 20 (mk 4 [(0, 2, 3), (2, 1, 2), (2, 3, 1), (3, 1, 1)]) 4 0 1) = some [3, 2, 1, 1] := by decide +kernel

example : Start (mk 4 [(0, 2, 3), (2, 1, 2), (2, 3, 1), (3, 1, 1)]) 4 0 1 where
  ok := by refine ⟨by decide, by decide⟩
  size := by decide
  source := by decide
  flow := by decide
  simple := by decide
  loop := by decide

/-- The graph of the next theorem. -/
def narrow : Net := mk 5 [(4, 2, 1), (1, 4, 1), (0, 4, 2), (2, 3, 1), (2, 0, 2)]

/-- The flow into the sink need not be the largest: from 1 to 3, one unit can be sent by 4 and 2, but it ends on a cycle and nothing arrives. -/
theorem C95_maximum_counterexample : Start narrow 5 1 3 ∧ flows (pushRelabel 65536 200 narrow 5 1 3) = some [1, 0, 1, 0, 1] ∧
    IsFlow narrow 1 3 [1, 0, 1, 0, 1] ∧ value narrow 1 [1, 0, 1, 0, 1] = 0 ∧ IsFlow narrow 1 3 [1, 1, 0, 1, 0] ∧ value narrow 1 [1, 1, 0, 1, 0] = 1 := by
  refine ⟨⟨⟨by decide, by decide⟩, by decide, by decide, by decide, by decide, by decide⟩, by decide +kernel, ⟨?_, by decide⟩, by decide, ⟨?_, by decide⟩, by decide⟩
  · simp [narrow, mk, Bounded]
  · simp [narrow, mk, Bounded]

/-- The graph of the next theorem. -/
def stuck : Net := mk 5 [(2, 3, 2), (3, 1, 2), (2, 0, 1), (1, 0, 1), (0, 3, 2)]

/-- It may end although some of the flow has not been sent on, because the list of the vertices loses an entry: from 2 to 4, the node 1 keeps a unit. -/
theorem C95_excess_counterexample : Start stuck 5 2 4 ∧ (flows (pushRelabel 65536 200 stuck 5 2 4)).map (fun xs => net stuck.edges xs 1) = some 1 := by
  refine ⟨⟨⟨by decide, by decide⟩, by decide, by decide, by decide, by decide, by decide⟩, by decide +kernel⟩

/-- Two edges from the source to the same node, which `Start` rules out: the node gets two units and sends one. -/
theorem C95_parallel_counterexample : flows (pushRelabel 65536 200 (mk 3 [(0, 1, 1), (0, 1, 1), (1, 2, 2)]) 3 0 2) = some [1, 1, 1] := by decide +kernel

/-! ## It need not end -/

/-- From 0 to 1, with an edge to 2 and from there a dead end. -/
def dead : Net := mk 4 [(0, 2, 1), (2, 3, 1)]

/-- The states of the run. -/
def deadSt (x e2 e3 : Int) (h2 h3 : Nat) (s2 s3 : Option Nat) : PR where
  edges := [{ src := 0, dst := 2, flow := 1, cap := 1, lower := 0 }, { src := 2, dst := 3, flow := x, cap := 1, lower := 0 }]
  excess := [(intMax / 2 : Nat), 0, e2, e3]
  height := [4, 0, h2, h3]
  seen := [some 1, none, s2, s3]

theorem dead_relabel2 (m h2 h3 : Nat) (e3 : Int) (h : h3 < intMax) : dischargeStep m (deadSt 0 1 e3 h2 h3 none none) 2 = deadSt 0 1 e3 ((h3 + 1) % m) h3 (some 1) none := by
  have h' : h3 ≠ intMax := by omega
  simp [dischargeStep, deadSt, outs, ins, relabelStep, List.range, List.range.loop, h, h']

theorem dead_push2 (m h2 h3 : Nat) : dischargeStep m (deadSt 0 1 0 h2 h3 (some 1) none) 2 = if h3 < h2 then deadSt 1 0 1 h2 h3 none none else deadSt 0 1 0 h2 h3 none none := by
  simp [dischargeStep, deadSt, outs, ins, List.range, List.range.loop, after]

theorem dead_relabel3 (m h2 h3 : Nat) (h : h2 < intMax) : dischargeStep m (deadSt 1 0 1 h2 h3 none none) 3 = deadSt 1 0 1 h2 ((h2 + 1) % m) none (some 1) := by
  simp [dischargeStep, deadSt, outs, ins, relabelStep, List.range, List.range.loop, h]

theorem dead_push3 (m h2 h3 : Nat) : dischargeStep m (deadSt 1 0 1 h2 h3 none (some 1)) 3 = if h2 < h3 then deadSt 0 1 0 h2 h3 none none else deadSt 1 0 1 h2 h3 none none := by
  simp [dischargeStep, deadSt, outs, ins, List.range, List.range.loop, after]

theorem discharge_pos {m n k : Nat} {st : PR} (h : 0 < st.excess.getD k 0) : discharge m (n + 1) st k = discharge m n (dischargeStep m st k) k := by rw [discharge, if_pos h]

theorem discharge_neg {m n k : Nat} {st : PR} (h : ¬0 < st.excess.getD k 0) : discharge m (n + 1) st k = some st := by rw [discharge, if_neg h]

theorem dead_stuck2 {m h3 : Nat} (hm : (h3 + 1) % m = 0) (h : h3 < intMax) (n h2 : Nat) : discharge m n (deadSt 0 1 0 h2 h3 none none) 2 = none := by
  induction n using Nat.strong_induction_on generalizing h2 with
  | _ n ih =>
    match n with
    | 0 => rfl
    | 1 => rfl
    | n + 2 =>
      rw [discharge_pos (by exact (by decide : (0 : Int) < 1)), dead_relabel2 _ _ _ _ h, hm, discharge_pos (by exact (by decide : (0 : Int) < 1)), dead_push2, if_neg (Nat.not_lt_zero _)]
      exact ih n (by omega) 0

theorem dead_stuck3 {m h2 : Nat} (hm : (h2 + 1) % m = 0) (h : h2 < intMax) (n h3 : Nat) : discharge m n (deadSt 1 0 1 h2 h3 none none) 3 = none := by
  induction n using Nat.strong_induction_on generalizing h3 with
  | _ n ih =>
    match n with
    | 0 => rfl
    | 1 => rfl
    | n + 2 =>
      rw [discharge_pos (by exact (by decide : (0 : Int) < 1)), dead_relabel3 _ _ _ h, hm, discharge_pos (by exact (by decide : (0 : Int) < 1)), dead_push3, if_neg (Nat.not_lt_zero _)]
      exact ih n (by omega) 0

theorem dead_go2 {m h3 : Nat} (hm : h3 + 1 < m) (h : h3 < intMax) (n h2 : Nat) :
    discharge m n (deadSt 0 1 0 h2 h3 none none) 2 = none ∨ discharge m n (deadSt 0 1 0 h2 h3 none none) 2 = some (deadSt 1 0 1 (h3 + 1) h3 none none) := by
  match n with
  | 0 => exact .inl rfl
  | 1 => exact .inl rfl
  | n + 2 =>
    rw [discharge_pos (by exact (by decide : (0 : Int) < 1)), dead_relabel2 _ _ _ _ h, Nat.mod_eq_of_lt hm, discharge_pos (by exact (by decide : (0 : Int) < 1)), dead_push2, if_pos (Nat.lt_succ_self _)]
    cases n with
    | zero => exact .inl rfl
    | succ n =>
      right
      rw [discharge_neg (by exact (by decide : ¬(0 : Int) < 0))]

theorem dead_go3 {m h2 : Nat} (hm : h2 + 1 < m) (h : h2 < intMax) (n h3 : Nat) :
    discharge m n (deadSt 1 0 1 h2 h3 none none) 3 = none ∨ discharge m n (deadSt 1 0 1 h2 h3 none none) 3 = some (deadSt 0 1 0 h2 (h2 + 1) none none) := by
  match n with
  | 0 => exact .inl rfl
  | 1 => exact .inl rfl
  | n + 2 =>
    rw [discharge_pos (by exact (by decide : (0 : Int) < 1)), dead_relabel3 _ _ _ h, Nat.mod_eq_of_lt hm, discharge_pos (by exact (by decide : (0 : Int) < 1)), dead_push3, if_pos (Nat.lt_succ_self _)]
    cases n with
    | zero => exact .inl rfl
    | succ n =>
      right
      rw [discharge_neg (by exact (by decide : ¬(0 : Int) < 0))]

/-- A node without excess is left alone. -/
theorem main_idle {m n : Nat} {nodes : List Nat} {st : PR} {o : Order} {c : Nat} (h : ¬0 < st.excess.getD (nodes.getD c 0) 0) :
    mainLoop m nodes (n + 2) st o (some c) = mainLoop m nodes (n + 1) st { o with last := some c } (o.second.getD c none) := by
  rw [mainLoop, discharge, if_neg h]
  dsimp only
  rw [if_neg (fun h => h rfl)]

/-- A node that cannot be discharged. -/
theorem main_none {m n : Nat} {nodes : List Nat} {st : PR} {o : Order} {c : Nat} (h : discharge m n st (nodes.getD c 0) = none) : mainLoop m nodes (n + 1) st o (some c) = none := by
  rw [mainLoop, h]

/-- The second half of a round: the unit at 3 goes back to 2. -/
theorem dead_half {m : Nat} (hm : m ≤ intMax) {n : Nat} (ih : ∀ k < n, ∀ b, b + 1 < m → mainLoop m [2, 3] k (deadSt 0 1 0 b (b + 1) none none) ⟨[none, some 0], some 1, some 1⟩ (some 0) = none) {h2 h3 : Nat}
    (hlt : h2 < m) (hne : h3 ≠ h2 + 1) : mainLoop m [2, 3] n (deadSt 1 0 1 h2 h3 none none) ⟨[some 1, none], some 0, some 0⟩ (some 1) = none := by
  cases n with
  | zero => rfl
  | succ n =>
    by_cases hw : h2 + 1 < m
    · rcases dead_go3 hw (by omega) n h3 with hd | hd
      · exact main_none hd
      · rw [mainLoop]
        simp only [List.getD_cons_succ, List.getD_cons_zero]
        rw [hd]
        dsimp only
        rw [if_pos (show (deadSt 0 1 0 h2 (h2 + 1) none none).height.getD 3 0 ≠ (deadSt 1 0 1 h2 h3 none none).height.getD 3 0 from Ne.symm hne)]
        match n with
        | 0 => rfl
        | 1 =>
          rw [mainLoop, discharge]
        | n + 2 =>
          rw [main_idle (by exact (by decide : ¬(0 : Int) < 0))]
          exact ih (n + 1) (by omega) h2 hw
    · refine main_none (dead_stuck3 ?_ (by omega) n h3)
      have : h2 + 1 = m := by omega
      rw [this, Nat.mod_self]

theorem dead_round {m : Nat} (hm : m ≤ intMax) (n b : Nat) (hb : b + 1 < m) : mainLoop m [2, 3] n (deadSt 0 1 0 b (b + 1) none none) ⟨[none, some 0], some 1, some 1⟩ (some 0) = none := by
  induction n using Nat.strong_induction_on generalizing b with
  | _ n ih =>
    cases n with
    | zero => rfl
    | succ n =>
      by_cases hw : b + 2 < m
      · rcases dead_go2 hw (by omega) n b with hd | hd
        · exact main_none hd
        · rw [mainLoop]
          simp only [List.getD_cons_zero]
          rw [hd]
          dsimp only
          rw [if_pos (show (deadSt 1 0 1 (b + 1 + 1) (b + 1) none none).height.getD 2 0 ≠ (deadSt 0 1 0 b (b + 1) none none).height.getD 2 0 from show b + 1 + 1 ≠ b by omega)]
          match n with
          | 0 => rfl
          | 1 => rw [mainLoop, discharge]
          | n + 2 =>
            rw [main_idle (by exact (by decide : ¬(0 : Int) < 0))]
            exact dead_half hm (fun k hk => ih k (by omega)) (by omega) (by omega)
      · refine main_none (dead_stuck2 ?_ (by omega) n b)
        have : b + 1 + 1 = m := by omega
        rw [this, Nat.mod_self]

/-- The algorithm need not end: on a path into a dead end the unit is sent to and fro between the last two nodes, whose heights grow until they wrap around (`CT` of any width), and then one of them
relabels itself for ever. -/
theorem C95_endless_counterexample (m : Nat) (h4 : 4 < m) (hm : m ≤ intMax) : Start dead 4 0 1 ∧ ∀ n, pushRelabel m n dead 4 0 1 = none := by
  refine ⟨⟨⟨by decide, by decide⟩, by decide, by decide, by decide, by decide, by decide⟩, fun n => ?_⟩
  have hstart : pushRelabel m n dead 4 0 1 = mainLoop m [2, 3] n (deadSt 0 1 0 0 0 none none) ⟨[some 1, none], some 0, none⟩ (some 0) := rfl
  rw [hstart]
  cases n with
  | zero => rfl
  | succ n =>
    rcases dead_go2 (h3 := 0) (show 0 + 1 < m by omega) (by omega) n 0 with hd | hd
    · exact main_none hd
    · rw [mainLoop]
      simp only [List.getD_cons_zero]
      rw [hd]
      dsimp only
      rw [if_pos (show (deadSt 1 0 1 (0 + 1) 0 none none).height.getD 2 0 ≠ (deadSt 0 1 0 0 0 none none).height.getD 2 0 by decide)]
      match n with
      | 0 => rfl
      | 1 => rw [mainLoop, discharge]
      | n + 2 =>
        rw [main_idle (by exact (by decide : ¬(0 : Int) < 0))]
        exact dead_half hm (fun k _ b hb => dead_round hm k b hb) (by omega) (by omega)

end Verif.Graph.Flow
