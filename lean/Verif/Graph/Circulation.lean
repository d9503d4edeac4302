import Mathlib.Tactic.Linarith
import Mathlib.Tactic.Ring

/-!
# Circulations with lower bounds and demands (C93, C94)

`LowerBound_Circulation` and `Circulation_MaxFlow` of `Graph.h`. Numbers are unbounded integers. A graph is given by the identifiers of its nodes in the order of iteration and
the list of its edges in the order of addition (the adjacency lists are the subject of C64).
-/

namespace Verif.Graph.Flow

/-- `Edge` with `__edge_MaxFlow` and `__edge_LowerBound`, `Graph.h:26`, `:192-196`, `:371-375`. -/
structure FEdge where
  src : Nat
  dst : Nat
  flow : Int := 0
  cap : Int
  lower : Int := 0
  deriving DecidableEq, Repr

/-- A graph of such edges, with `__vertex_Demand`, `Graph.h:326-331`, as a function of the identifiers. -/
structure Net where
  ids : List Nat
  demand : Nat → Int
  edges : List FEdge

/-- An assignment to one entry. -/
def upd (d : Nat → Int) (v : Nat) (x : Int) : Nat → Int := fun w => if w = v then x else d w

/-! ## Code -/

/-- The body of the inner loop of `LowerBound_Circulation`, `Graph.h:388-393`, for the edge of index `j`. -/
def lowerEdge (g : Net) (j : Nat) : Net :=
  match g.edges[j]? with
  | none => g
  | some e =>
    let d := upd g.demand e.src (g.demand e.src + e.lower)
    { g with edges := g.edges.set j { e with cap := e.cap - e.lower, lower := 0 }, demand := upd d e.dst (d e.dst - e.lower) }

/-- The indices of the edges out of a node, newest first, as `AddEdge` puts them in front, `Graph.h:95-104`. -/
def outs (edges : List FEdge) (i : Nat) : List Nat := ((List.range edges.length).filter fun j => (edges[j]?).any fun e => decide (e.src = i)).reverse

/-- `LowerBound_Circulation`, `Graph.h:379-396`. -/
def lowerBound (g : Net) : Net := g.ids.foldl (fun g i => (outs g.edges i).foldl lowerEdge g) g

/-- The edges that `Circulation_MaxFlow` adds for the nodes, `Graph.h:345-361`. -/
def extraEdges (demand : Nat → Int) (ss st : Nat) : List Nat → List FEdge
  | [] => []
  | i :: l =>
    if i ≠ ss ∧ i ≠ st then
      if demand i < 0 then { src := ss, dst := i, cap := -demand i } :: extraEdges demand ss st l
      else if 0 < demand i then { src := i, dst := st, cap := demand i } :: extraEdges demand ss st l
      else extraEdges demand ss st l
    else extraEdges demand ss st l

/-- The sum of the demands in the same loop. -/
def totalDemand (demand : Nat → Int) (ss st : Nat) : List Nat → Int
  | [] => 0
  | i :: l => if i ≠ ss ∧ i ≠ st then demand i + totalDemand demand ss st l else totalDemand demand ss st l

/-- `Circulation_MaxFlow`, `Graph.h:335-367`; `ss` and `st` are the identifiers that `AddNode` returned. -/
def circulation (g : Net) (ss st : Nat) : Net × Int :=
  let ids := g.ids ++ [ss, st]
  ({ g with ids := ids, edges := g.edges ++ extraEdges g.demand ss st ids }, totalDemand g.demand ss st ids)

/-! ## Specification -/

/-- The flow into a node less the flow out of it. -/
def net : List FEdge → List Int → Nat → Int
  | e :: es, x :: xs, v => (if e.dst = v then x else 0) - (if e.src = v then x else 0) + net es xs v
  | _, _, _ => 0

/-- One flow for each edge, within its bounds. -/
def Bounded : List FEdge → List Int → Prop
  | [], [] => True
  | e :: es, x :: xs => e.lower ≤ x ∧ x ≤ e.cap ∧ Bounded es xs
  | _, _ => False

/-- A circulation: within the bounds, and each node receives its demand. -/
def Circulation (g : Net) (xs : List Int) : Prop := Bounded g.edges xs ∧ ∀ v ∈ g.ids, net g.edges xs v = g.demand v

/-- The edges connect nodes of the graph, which are listed once. -/
def Net.Ok (g : Net) : Prop := g.ids.Nodup ∧ ∀ e ∈ g.edges, e.src ∈ g.ids ∧ e.dst ∈ g.ids

/-- The flows beyond the lower bounds. -/
def beyond (es : List FEdge) (xs : List Int) : List Int := List.zipWith (fun e x => x - e.lower) es xs

/-- A flow from `s` to `t`: within the bounds, and balanced at the other nodes. -/
def IsFlow (g : Net) (s t : Nat) (xs : List Int) : Prop := Bounded g.edges xs ∧ ∀ v ∈ g.ids, v ≠ s → v ≠ t → net g.edges xs v = 0

/-- What leaves the source. -/
def value (g : Net) (s : Nat) (xs : List Int) : Int := -net g.edges xs s

/-- The sum of the supplies: the demands below zero, negated. -/
def supply (g : Net) : Int := (g.ids.map fun v => if g.demand v < 0 then -g.demand v else 0).sum

/-! ## Lower bounds -/

theorem bounded_length {es : List FEdge} {xs : List Int} (h : Bounded es xs) : xs.length = es.length := by
  induction es generalizing xs with
  | nil => cases xs with
    | nil => rfl
    | cons => exact h.elim
  | cons e es ih => cases xs with
    | nil => exact h.elim
    | cons x xs => rw [List.length_cons, List.length_cons, ih h.2.2]

/-- The flows with the flow of one edge changed. -/
def dec (xs : List Int) (j : Nat) (l : Int) : List Int := xs.modify j (· - l)

theorem step_bounded {es : List FEdge} {xs : List Int} {j : Nat} {e : FEdge} (he : es[j]? = some e) :
    Bounded es xs ↔ Bounded (es.set j { e with cap := e.cap - e.lower, lower := 0 }) (dec xs j e.lower) := by
  induction es generalizing xs j with
  | nil => cases he
  | cons a es ih =>
    cases xs with
    | nil => cases j <;> simp [Bounded, dec]
    | cons x xs =>
      cases j with
      | zero =>
        have : a = e := Option.some.inj he
        subst this
        show _ ∧ _ ∧ _ ↔ (0 : Int) ≤ x - a.lower ∧ x - a.lower ≤ a.cap - a.lower ∧ Bounded es xs
        constructor
        · rintro ⟨h1, h2, h3⟩; exact ⟨by linarith, by linarith, h3⟩
        · rintro ⟨h1, h2, h3⟩; exact ⟨by linarith, by linarith, h3⟩
      | succ j =>
        show _ ∧ _ ∧ _ ↔ _ ∧ _ ∧ Bounded (es.set j _) (dec xs j e.lower)
        rw [ih (j := j) he]

theorem step_net {es : List FEdge} {xs : List Int} {j : Nat} {e : FEdge} (he : es[j]? = some e) (hl : xs.length = es.length) (v : Nat) :
    net (es.set j { e with cap := e.cap - e.lower, lower := 0 }) (dec xs j e.lower) v = net es xs v - (if e.dst = v then e.lower else 0) + (if e.src = v then e.lower else 0) := by
  induction es generalizing xs j with
  | nil => cases he
  | cons a es ih =>
    cases xs with
    | nil => cases hl
    | cons x xs =>
      cases j with
      | zero =>
        have : a = e := Option.some.inj he
        subst this
        show (if a.dst = v then x - a.lower else 0) - (if a.src = v then x - a.lower else 0) + net es xs v = (if a.dst = v then x else 0) - (if a.src = v then x else 0) + net es xs v - _ + _
        split <;> split <;> ring
      | succ j =>
        show _ - _ + net (es.set j _) (dec xs j e.lower) v = _ - _ + net es xs v - _ + _
        rw [ih (j := j) he (Nat.succ.inj hl)]
        ring

theorem step_beyond {es : List FEdge} {xs : List Int} {j : Nat} {e : FEdge} (he : es[j]? = some e) :
    beyond (es.set j { e with cap := e.cap - e.lower, lower := 0 }) (dec xs j e.lower) = beyond es xs := by
  induction es generalizing xs j with
  | nil => cases he
  | cons a es ih =>
    cases xs with
    | nil => cases j <;> simp [beyond, dec]
    | cons x xs =>
      cases j with
      | zero =>
        have : a = e := Option.some.inj he
        subst this
        show (x - a.lower - 0) :: _ = (x - a.lower) :: _
        rw [Int.sub_zero]
      | succ j =>
        have := ih (xs := xs) (j := j) he
        show _ :: beyond (es.set j _) (dec xs j e.lower) = _ :: beyond es xs
        rw [this]

/-- What one step keeps. -/
theorem lowerEdge_step (g : Net) (j : Nat) : (lowerEdge g j).ids = g.ids ∧ (lowerEdge g j).edges.map (fun e => (e.src, e.dst, e.flow)) = g.edges.map (fun e => (e.src, e.dst, e.flow)) ∧
    (∀ xs, ∃ ys, beyond (lowerEdge g j).edges ys = beyond g.edges xs ∧ ys.length = xs.length ∧ (Circulation g xs ↔ Circulation (lowerEdge g j) ys)) ∧
    (∀ i : Nat, (∀ e, g.edges[i]? = some e → e.lower = 0) ∨ i = j → ∀ e, (lowerEdge g j).edges[i]? = some e → e.lower = 0) := by
  rw [lowerEdge]
  rcases he : g.edges[j]? with _ | e
  · refine ⟨rfl, rfl, fun xs => ⟨xs, rfl, rfl, Iff.rfl⟩, ?_⟩
    rintro i (h | rfl) e h2
    · exact h e h2
    · dsimp only at h2
      rw [he] at h2; cases h2
  · dsimp only
    refine ⟨rfl, ?_, fun xs => ⟨dec xs j e.lower, step_beyond he, by simp [dec], ?_⟩, ?_⟩
    · rw [List.map_set]
      apply List.ext_getElem?
      intro i
      rw [List.getElem?_set]
      split
      · rename_i hij
        subst hij
        have := (List.getElem?_eq_some_iff.1 he).1
        rw [if_pos (by rw [List.length_map]; exact this), List.getElem?_map, he]
        rfl
      · rfl
    · rw [Circulation, Circulation]
      dsimp only
      rw [← step_bounded he]
      refine and_congr_right fun hb => forall_congr' fun v => imp_congr_right fun hv => ?_
      rw [step_net he (bounded_length hb)]
      have : upd (upd g.demand e.src (g.demand e.src + e.lower)) e.dst ((upd g.demand e.src (g.demand e.src + e.lower)) e.dst - e.lower) v =
          g.demand v - (if e.dst = v then e.lower else 0) + (if e.src = v then e.lower else 0) := by
        unfold upd
        by_cases h1 : e.dst = v
        · subst h1
          rw [if_pos rfl, if_pos rfl]
          by_cases h2 : e.src = e.dst
          · rw [if_pos h2.symm, if_pos h2, h2]; ring
          · rw [if_neg fun h => h2 h.symm, if_neg h2]; ring
        · rw [if_neg fun h => h1 h.symm, if_neg h1]
          by_cases h2 : e.src = v
          · rw [if_pos h2.symm, if_pos h2, h2]; ring
          · rw [if_neg fun h => h2 h.symm, if_neg h2]; ring
      rw [this]
      constructor
      · intro h; rw [h]
      · intro h; linarith
    · intro i hi a ha
      rw [List.getElem?_set] at ha
      split at ha
      · split at ha
        · rw [← Option.some.inj ha]
        · cases ha
      · rename_i hne
        exact hi.resolve_right (fun h => hne h.symm) a ha

/-- What a list of steps keeps. -/
theorem lower_steps (L : List Nat) (g : Net) : (L.foldl lowerEdge g).ids = g.ids ∧
    (L.foldl lowerEdge g).edges.map (fun e => (e.src, e.dst, e.flow)) = g.edges.map (fun e => (e.src, e.dst, e.flow)) ∧
    (∀ xs, ∃ ys, beyond (L.foldl lowerEdge g).edges ys = beyond g.edges xs ∧ ys.length = xs.length ∧ (Circulation g xs ↔ Circulation (L.foldl lowerEdge g) ys)) ∧
    (∀ i : Nat, (∀ e, g.edges[i]? = some e → e.lower = 0) ∨ i ∈ L → ∀ e, (L.foldl lowerEdge g).edges[i]? = some e → e.lower = 0) := by
  induction L generalizing g with
  | nil => exact ⟨rfl, rfl, fun xs => ⟨xs, rfl, rfl, Iff.rfl⟩, fun i h => h.resolve_right (by simp)⟩
  | cons j L ih =>
    obtain ⟨a1, a2, a3, a4⟩ := lowerEdge_step g j
    obtain ⟨b1, b2, b3, b4⟩ := ih (lowerEdge g j)
    refine ⟨b1.trans a1, b2.trans a2, fun xs => ?_, fun i hi => ?_⟩
    · obtain ⟨ys, h1, h2, h3⟩ := a3 xs
      obtain ⟨zs, k1, k2, k3⟩ := b3 ys
      exact ⟨zs, k1.trans h1, k2.trans h2, h3.trans k3⟩
    · refine b4 i ?_
      rcases hi with hi | hi
      · exact .inl (a4 i (.inl hi))
      · rcases List.mem_cons.1 hi with rfl | hi
        · exact .inl (a4 i (.inr rfl))
        · exact .inr hi

theorem outs_congr {es fs : List FEdge} (h : es.map (fun e => (e.src, e.dst, e.flow)) = fs.map (fun e => (e.src, e.dst, e.flow))) (i : Nat) : outs es i = outs fs i := by
  have hl : es.length = fs.length := by simpa using congrArg List.length h
  have hs : ∀ j : Nat, (es[j]?).map (·.src) = (fs[j]?).map (·.src) := by
    intro j
    have := congrArg (fun l => (l[j]?).map (·.1)) h
    simpa [List.getElem?_map, Option.map_map, Function.comp_def] using this
  rw [outs, outs, hl]
  congr 1
  refine List.filter_congr fun j _ => ?_
  have := hs j
  have e : ∀ o : Option FEdge, (o.any fun e => decide (e.src = i)) = (o.map (·.src)).any fun a => decide (a = i) := fun o => by cases o <;> rfl
  rw [e, e, this]

/-- The whole function is a list of steps, one at least for each edge. -/
theorem lowerBound_steps (ids : List Nat) (g : Net) : ∃ L : List Nat, ids.foldl (fun g i => (outs g.edges i).foldl lowerEdge g) g = L.foldl lowerEdge g ∧ ∀ i ∈ ids, ∀ j ∈ outs g.edges i, j ∈ L := by
  induction ids generalizing g with
  | nil => exact ⟨[], rfl, by simp⟩
  | cons i ids ih =>
    obtain ⟨L, h1, h2⟩ := ih ((outs g.edges i).foldl lowerEdge g)
    refine ⟨outs g.edges i ++ L, ?_, ?_⟩
    · rw [List.foldl_cons, h1, List.foldl_append]
    · intro k hk j hj
      rcases List.mem_cons.1 hk with rfl | hk
      · exact List.mem_append_left _ hj
      · refine List.mem_append_right _ (h2 k hk j ?_)
        rw [outs_congr (lower_steps (outs g.edges i) g).2.1 k]
        exact hj

theorem outs_mem {es : List FEdge} {j : Nat} {e : FEdge} (h : es[j]? = some e) : j ∈ outs es e.src := by
  rw [outs, List.mem_reverse, List.mem_filter, List.mem_range]
  exact ⟨(List.getElem?_eq_some_iff.1 h).1, by rw [h]; simp⟩

theorem beyond_zero {es : List FEdge} {xs : List Int} (h : ∀ e ∈ es, e.lower = 0) (hl : xs.length = es.length) : beyond es xs = xs := by
  induction es generalizing xs with
  | nil => cases xs with
    | nil => rfl
    | cons => cases hl
  | cons e es ih => cases xs with
    | nil => cases hl
    | cons x xs =>
      rw [beyond, List.zipWith_cons_cons, h e (List.mem_cons_self ..), Int.sub_zero]
      exact congrArg _ (ih (fun a ha => h a (List.mem_cons_of_mem _ ha)) (Nat.succ.inj hl))

/-- **C93**: the circulations within the lower bounds are those of the reduced graph, increased by the lower bounds; the reduced graph has the same nodes and edges and no lower bounds. -/
theorem C93_lower_bounds (g : Net) (h : g.Ok) : (lowerBound g).ids = g.ids ∧
    (lowerBound g).edges.map (fun e => (e.src, e.dst, e.flow)) = g.edges.map (fun e => (e.src, e.dst, e.flow)) ∧ (∀ e ∈ (lowerBound g).edges, e.lower = 0) ∧
    ∀ xs, xs.length = g.edges.length → (Circulation g xs ↔ Circulation (lowerBound g) (beyond g.edges xs)) := by
  obtain ⟨L, hL, hc⟩ := lowerBound_steps g.ids g
  obtain ⟨a1, a2, a3, a4⟩ := lower_steps L g
  rw [lowerBound, hL]
  have hlen : (L.foldl lowerEdge g).edges.length = g.edges.length := by simpa using congrArg List.length a2
  have hz : ∀ e ∈ (L.foldl lowerEdge g).edges, e.lower = 0 := by
    intro e he
    obtain ⟨i, hi⟩ := List.getElem?_of_mem he
    refine a4 i (.inr ?_) e hi
    have hil := (List.getElem?_eq_some_iff.1 hi).1
    rw [hlen] at hil
    have hg : g.edges[i]? = some g.edges[i] := List.getElem?_eq_getElem hil
    exact hc _ (h.2 _ (List.getElem_mem hil)).1 i (outs_mem hg)
  refine ⟨a1, a2, hz, fun xs hx => ?_⟩
  obtain ⟨ys, h1, h2, h3⟩ := a3 xs
  rw [h3, ← h1, beyond_zero hz (by rw [h2, hx, hlen])]

/-! ## Demands -/

theorem net_append {es fs : List FEdge} {xs ys : List Int} (h : xs.length = es.length) (v : Nat) : net (es ++ fs) (xs ++ ys) v = net es xs v + net fs ys v := by
  induction es generalizing xs with
  | nil => cases xs with
    | nil => simp [net]
    | cons => cases h
  | cons e es ih => cases xs with
    | nil => cases h
    | cons x xs =>
      rw [List.cons_append, List.cons_append, net, net, ih (Nat.succ.inj h)]
      ring

theorem bounded_append {es fs : List FEdge} {xs ys : List Int} (h : xs.length = es.length) : Bounded (es ++ fs) (xs ++ ys) ↔ Bounded es xs ∧ Bounded fs ys := by
  induction es generalizing xs with
  | nil => cases xs with
    | nil => simp [Bounded]
    | cons => cases h
  | cons e es ih => cases xs with
    | nil => cases h
    | cons x xs =>
      rw [List.cons_append, List.cons_append, Bounded, Bounded, ih (Nat.succ.inj h)]
      exact ⟨fun ⟨a, b, c, d⟩ => ⟨⟨a, b, c⟩, d⟩, fun ⟨⟨a, b, c⟩, d⟩ => ⟨a, b, c, d⟩⟩

/-- The new edges at their capacities give each node its supply, and take its demand. -/
theorem net_extra (d : Nat → Int) (ss st : Nat) (hst : ss ≠ st) (ids : List Nat) (hn : ids.Nodup) (v : Nat) (h1 : v ≠ ss) (h2 : v ≠ st) :
    net (extraEdges d ss st ids) ((extraEdges d ss st ids).map (·.cap)) v = if v ∈ ids then -d v else 0 := by
  induction ids with
  | nil => simp [extraEdges, net]
  | cons i l ih =>
    obtain ⟨hi, hn⟩ := List.nodup_cons.1 hn
    have ih := ih hn
    rw [extraEdges]
    by_cases hiv : i = v
    · subst hiv
      rw [if_neg hi] at ih
      rw [if_pos ⟨h1, h2⟩, if_pos (List.mem_cons_self ..)]
      split
      · rw [List.map_cons, net, ih]; simp [Ne.symm h1]
      split
      · rw [List.map_cons, net, ih]; simp [Ne.symm h2]
      · rw [ih]; omega
    · have hm : v ∈ i :: l ↔ v ∈ l := by simp [Ne.symm hiv]
      simp only [hm]
      split
      · split
        · rw [List.map_cons, net, ih]; simp [hiv, Ne.symm h1]
        split
        · rw [List.map_cons, net, ih]; simp [hiv, Ne.symm h2]
        · exact ih
      · exact ih

theorem bounded_cap {es : List FEdge} (h : ∀ e ∈ es, e.lower ≤ e.cap) : Bounded es (es.map (·.cap)) := by
  induction es with
  | nil => trivial
  | cons e es ih => exact ⟨h e (List.mem_cons_self ..), Int.le_refl _, ih fun a ha => h a (List.mem_cons_of_mem _ ha)⟩

theorem extra_mem (d : Nat → Int) (ss st : Nat) {ids : List Nat} {e : FEdge} (h : e ∈ extraEdges d ss st ids) : e.lower = 0 ∧ 0 < e.cap ∧
    ((e.src = ss ∧ e.dst ∈ ids ∧ e.dst ≠ ss ∧ e.dst ≠ st) ∨ (e.dst = st ∧ e.src ∈ ids ∧ e.src ≠ ss ∧ e.src ≠ st)) := by
  induction ids with
  | nil => cases h
  | cons i l ih =>
    have lift : (e.lower = 0 ∧ 0 < e.cap ∧ ((e.src = ss ∧ e.dst ∈ l ∧ e.dst ≠ ss ∧ e.dst ≠ st) ∨ (e.dst = st ∧ e.src ∈ l ∧ e.src ≠ ss ∧ e.src ≠ st))) →
        e.lower = 0 ∧ 0 < e.cap ∧ ((e.src = ss ∧ e.dst ∈ i :: l ∧ e.dst ≠ ss ∧ e.dst ≠ st) ∨ (e.dst = st ∧ e.src ∈ i :: l ∧ e.src ≠ ss ∧ e.src ≠ st)) := by
      rintro ⟨a, b, (⟨p, q, r⟩ | ⟨p, q, r⟩)⟩
      · exact ⟨a, b, .inl ⟨p, List.mem_cons_of_mem _ q, r⟩⟩
      · exact ⟨a, b, .inr ⟨p, List.mem_cons_of_mem _ q, r⟩⟩
    rw [extraEdges] at h
    split at h
    · rename_i hne
      split at h
      · rcases List.mem_cons.1 h with rfl | h
        · exact ⟨rfl, by dsimp only; omega, .inl ⟨rfl, List.mem_cons_self .., hne⟩⟩
        · exact lift (ih h)
      split at h
      · rcases List.mem_cons.1 h with rfl | h
        · exact ⟨rfl, by dsimp only; omega, .inr ⟨rfl, List.mem_cons_self .., hne⟩⟩
        · exact lift (ih h)
      · exact lift (ih h)
    · exact lift (ih h)

theorem sum_zero (l : List Nat) : (l.map fun _ => (0 : Int)).sum = 0 := by
  induction l with
  | nil => rfl
  | cons a l ih => rw [List.map_cons, List.sum_cons, ih]; rfl

/-- The sum over the nodes of the flow in less the flow out is zero, if all edges are between nodes. -/
theorem net_sum {es : List FEdge} {ids : List Nat} (hn : ids.Nodup) (h : ∀ e ∈ es, e.src ∈ ids ∧ e.dst ∈ ids) (xs : List Int) : (ids.map (net es xs)).sum = 0 := by
  have one : ∀ (w : Nat) (x : Int) (ids : List Nat), ids.Nodup → w ∈ ids → (ids.map fun v => if w = v then x else 0).sum = x := by
    intro w x ids hn hw
    induction ids with
    | nil => cases hw
    | cons i l ih =>
      obtain ⟨hi, hn⟩ := List.nodup_cons.1 hn
      rw [List.map_cons, List.sum_cons]
      rcases List.mem_cons.1 hw with rfl | hw
      · have : (l.map fun v => if w = v then x else 0) = l.map fun _ => 0 := List.map_congr_left fun v hv => if_neg fun (e : w = v) => hi (e ▸ hv)
        rw [if_pos rfl, this, sum_zero, Int.add_zero]
      · rw [if_neg (fun (e : w = i) => hi (e ▸ hw)), ih hn hw, Int.zero_add]
  induction es generalizing xs with
  | nil =>
    have : ids.map (net [] xs) = ids.map fun _ => 0 := List.map_congr_left fun v _ => rfl
    rw [this]; exact sum_zero ids
  | cons e es ih =>
    cases xs with
    | nil =>
      have : ids.map (net (e :: es) []) = ids.map fun _ => 0 := List.map_congr_left fun v _ => rfl
      rw [this]; exact sum_zero ids
    | cons x xs =>
      have he := h e (List.mem_cons_self ..)
      have ih := ih (fun a ha => h a (List.mem_cons_of_mem _ ha)) xs
      have split : ∀ l : List Nat, (l.map (net (e :: es) (x :: xs))).sum = (l.map fun v => if e.dst = v then x else 0).sum - (l.map fun v => if e.src = v then x else 0).sum + (l.map (net es xs)).sum := by
        intro l
        induction l with
        | nil => rfl
        | cons i l ih2 =>
          simp only [List.map_cons, List.sum_cons]
          rw [ih2, net]
          ring
      rw [split, one _ _ _ hn he.2, one _ _ _ hn he.1, ih]
      ring

theorem totalDemand_sum (d : Nat → Int) (ss st : Nat) (ids : List Nat) (h1 : ss ∉ ids) (h2 : st ∉ ids) : totalDemand d ss st (ids ++ [ss, st]) = (ids.map d).sum := by
  induction ids with
  | nil => simp [totalDemand]
  | cons i l ih =>
    simp only [List.mem_cons, not_or] at h1 h2
    rw [List.cons_append, totalDemand, if_pos ⟨Ne.symm h1.1, Ne.symm h2.1⟩, ih h1.2 h2.2]
    rfl

theorem extra_append (d : Nat → Int) (ss st : Nat) (ids : List Nat) : extraEdges d ss st (ids ++ [ss, st]) = extraEdges d ss st ids := by
  induction ids with
  | nil => simp [extraEdges]
  | cons i l ih => rw [List.cons_append, extraEdges, extraEdges, ih]

/-- **C94**: the number returned is the sum of the demands; if it is not zero, there is no circulation. -/
theorem C94_infeasible (g : Net) (h : g.Ok) {ss st : Nat} (h1 : ss ∉ g.ids) (h2 : st ∉ g.ids) : (circulation g ss st).2 = (g.ids.map g.demand).sum ∧
    ((circulation g ss st).2 ≠ 0 → ¬∃ xs, Circulation g xs) := by
  have e := totalDemand_sum g.demand ss st g.ids h1 h2
  refine ⟨e, ?_⟩
  rintro hne ⟨xs, -, hx⟩
  refine hne (e.trans ?_)
  rw [← net_sum h.1 h.2 xs]
  exact congrArg _ (List.map_congr_left fun v hv => (hx v hv).symm)

theorem net_zero_away {es : List FEdge} {v : Nat} (h : ∀ e ∈ es, e.src ≠ v ∧ e.dst ≠ v) (xs : List Int) : net es xs v = 0 := by
  induction es generalizing xs with
  | nil => rfl
  | cons e es ih => cases xs with
    | nil => rfl
    | cons x xs =>
      have := h e (List.mem_cons_self ..)
      rw [net, if_neg this.1, if_neg this.2, ih fun a ha => h a (List.mem_cons_of_mem _ ha)]
      rfl

/-- The flow out of the new source is at most the supply, and equal only if its edges are full. -/
theorem source_full (d : Nat → Int) (ss st : Nat) (hst : ss ≠ st) (ids : List Nat) (h1 : ss ∉ ids) (h2 : st ∉ ids) (ys : List Int) (hb : Bounded (extraEdges d ss st ids) ys) :
    -net (extraEdges d ss st ids) ys ss ≤ (ids.map fun v => if d v < 0 then -d v else 0).sum ∧
    net (extraEdges d ss st ids) ys st ≤ (ids.map fun v => if 0 < d v then d v else 0).sum ∧
    (-net (extraEdges d ss st ids) ys ss = (ids.map fun v => if d v < 0 then -d v else 0).sum → net (extraEdges d ss st ids) ys st = (ids.map fun v => if 0 < d v then d v else 0).sum →
      ys = (extraEdges d ss st ids).map (·.cap)) := by
  induction ids generalizing ys with
  | nil =>
    cases ys with
    | nil => exact ⟨by simp [extraEdges, net], by simp [extraEdges, net], fun _ _ => rfl⟩
    | cons => exact hb.elim
  | cons i l ih =>
    simp only [List.mem_cons, not_or] at h1 h2
    have ih := ih h1.2 h2.2
    simp only [List.map_cons, List.sum_cons]
    rw [extraEdges, if_pos ⟨Ne.symm h1.1, Ne.symm h2.1⟩] at hb ⊢
    split at hb
    · rename_i hneg
      rw [if_pos hneg, if_pos hneg, if_neg (by omega)]
      cases ys with
      | nil => exact hb.elim
      | cons y ys =>
        obtain ⟨b1, b2, b3⟩ := hb
        obtain ⟨c1, c2, c3⟩ := ih ys b3
        dsimp only at b1 b2
        have n1 : net ({ src := ss, dst := i, cap := -d i } :: extraEdges d ss st l) (y :: ys) ss = -y + net (extraEdges d ss st l) ys ss := by
          rw [net, if_neg (Ne.symm h1.1), if_pos rfl]; ring
        have n2 : net ({ src := ss, dst := i, cap := -d i } :: extraEdges d ss st l) (y :: ys) st = net (extraEdges d ss st l) ys st := by
          rw [net, if_neg (Ne.symm h2.1), if_neg hst]; ring
        rw [n1, n2]
        refine ⟨by linarith, by linarith, fun a b => ?_⟩
        rw [List.map_cons, ← c3 (by linarith) (by linarith)]
        congr 1
        linarith
    · rename_i hneg
      split at hb
      · rename_i hpos
        rw [if_neg hneg, if_pos hpos, if_neg hneg, if_pos hpos]
        cases ys with
        | nil => exact hb.elim
        | cons y ys =>
          obtain ⟨b1, b2, b3⟩ := hb
          obtain ⟨c1, c2, c3⟩ := ih ys b3
          dsimp only at b1 b2
          have n1 : net ({ src := i, dst := st, cap := d i } :: extraEdges d ss st l) (y :: ys) ss = net (extraEdges d ss st l) ys ss := by
            rw [net, if_neg (Ne.symm hst), if_neg (Ne.symm h1.1)]; ring
          have n2 : net ({ src := i, dst := st, cap := d i } :: extraEdges d ss st l) (y :: ys) st = y + net (extraEdges d ss st l) ys st := by
            rw [net, if_pos rfl, if_neg (Ne.symm h2.1)]; ring
          rw [n1, n2]
          refine ⟨by linarith, by linarith, fun a b => ?_⟩
          rw [List.map_cons, ← c3 (by linarith) (by linarith)]
          congr 1
          linarith
      · rename_i hpos
        rw [if_neg hneg, if_neg hpos, if_neg hneg, if_neg hpos]
        obtain ⟨c1, c2, c3⟩ := ih ys hb
        exact ⟨by linarith, by linarith, fun a b => c3 (by linarith) (by linarith)⟩

theorem supply_demand (d : Nat → Int) (ids : List Nat) :
    (ids.map fun v => if 0 < d v then d v else 0).sum = (ids.map d).sum + (ids.map fun v => if d v < 0 then -d v else 0).sum := by
  induction ids with
  | nil => rfl
  | cons i l ih =>
    simp only [List.map_cons, List.sum_cons]
    rw [ih]
    split <;> split <;> omega

/-- **C94**: if the demands add up to zero, a circulation is the same as a flow in the new graph that has the supply as its value: it is the circulation, with the new edges full. -/
theorem C94_circulation (g : Net) (h : g.Ok) {ss st : Nat} (hst : ss ≠ st) (h1 : ss ∉ g.ids) (h2 : st ∉ g.ids) (h0 : (circulation g ss st).2 = 0) (zs : List Int) :
    (IsFlow (circulation g ss st).1 ss st zs ∧ value (circulation g ss st).1 ss zs = supply g) ↔
    ∃ xs, zs = xs ++ (extraEdges g.demand ss st g.ids).map (·.cap) ∧ Circulation g xs := by
  have e : (circulation g ss st).1 = { g with ids := g.ids ++ [ss, st], edges := g.edges ++ extraEdges g.demand ss st g.ids } := by
    rw [circulation]
    dsimp only
    rw [extra_append]
  have hsum : (g.ids.map g.demand).sum = 0 := by rw [← (C94_infeasible g h h1 h2).1]; exact h0
  have away : ∀ w, w ∉ g.ids → ∀ xs, net g.edges xs w = 0 := fun w hw xs =>
    net_zero_away (fun a ha => ⟨fun (e : a.src = w) => hw (e ▸ (h.2 a ha).1), fun (e : a.dst = w) => hw (e ▸ (h.2 a ha).2)⟩) xs
  rw [e, IsFlow, value]
  dsimp only
  constructor
  · rintro ⟨⟨hb, hc⟩, hv⟩
    have hl := bounded_length hb
    rw [List.length_append] at hl
    obtain ⟨xs, ys, rfl, hxl⟩ : ∃ xs ys, zs = xs ++ ys ∧ xs.length = g.edges.length := ⟨zs.take g.edges.length, zs.drop g.edges.length, (List.take_append_drop ..).symm, by rw [List.length_take]; omega⟩
    rw [bounded_append hxl] at hb
    rw [net_append hxl, away ss h1, Int.zero_add] at hv
    obtain ⟨-, -, c3⟩ := source_full g.demand ss st hst g.ids h1 h2 ys hb.2
    have hall : ∀ a ∈ extraEdges g.demand ss st g.ids, a.src ∈ g.ids ++ [ss, st] ∧ a.dst ∈ g.ids ++ [ss, st] := by
      intro a ha
      rcases (extra_mem _ _ _ ha).2.2 with ⟨p, q, -⟩ | ⟨p, q, -⟩
      · exact ⟨by rw [p]; simp, List.mem_append_left _ q⟩
      · exact ⟨List.mem_append_left _ q, by rw [p]; simp⟩
    have hall2 : ∀ a ∈ g.edges ++ extraEdges g.demand ss st g.ids, a.src ∈ g.ids ++ [ss, st] ∧ a.dst ∈ g.ids ++ [ss, st] := by
      intro a ha
      rcases List.mem_append.1 ha with ha | ha
      · exact ⟨List.mem_append_left _ (h.2 a ha).1, List.mem_append_left _ (h.2 a ha).2⟩
      · exact hall a ha
    have hnd : (g.ids ++ [ss, st]).Nodup := by
      rw [List.nodup_append]
      refine ⟨h.1, by simp [hst], ?_⟩
      rintro a ha b hb rfl
      simp only [List.mem_cons, List.not_mem_nil, or_false] at hb
      rcases hb with rfl | rfl
      · exact h1 ha
      · exact h2 ha
    have htot := net_sum hnd hall2 (xs ++ ys)
    rw [List.map_append, List.sum_append] at htot
    have hz : (g.ids.map (net (g.edges ++ extraEdges g.demand ss st g.ids) (xs ++ ys))).sum = 0 := by
      have : g.ids.map (net (g.edges ++ extraEdges g.demand ss st g.ids) (xs ++ ys)) = g.ids.map fun _ => 0 :=
        List.map_congr_left fun v hv => hc v (List.mem_append_left _ hv) (fun e => h1 (e ▸ hv)) (fun e => h2 (e ▸ hv))
      rw [this]; exact sum_zero g.ids
    rw [hz] at htot
    simp only [List.map_cons, List.map_nil, List.sum_cons, List.sum_nil] at htot
    rw [net_append hxl, net_append hxl, away ss h1, away st h2] at htot
    have hsd := supply_demand g.demand g.ids
    have hys := c3 hv (by rw [hsd, hsum]; rw [supply] at hv; linarith)
    refine ⟨xs, by rw [hys], hb.1, fun v hv => ?_⟩
    have hv1 : v ≠ ss := fun e => h1 (e ▸ hv)
    have hv2 : v ≠ st := fun e => h2 (e ▸ hv)
    have := hc v (List.mem_append_left _ hv) hv1 hv2
    rw [net_append hxl, hys, net_extra _ _ _ hst _ h.1 v hv1 hv2, if_pos hv] at this
    linarith
  · rintro ⟨xs, rfl, hb, hc⟩
    have hxl := bounded_length hb
    have hcap : Bounded (extraEdges g.demand ss st g.ids) ((extraEdges g.demand ss st g.ids).map (·.cap)) :=
      bounded_cap fun a ha => by have := extra_mem _ _ _ ha; omega
    refine ⟨⟨(bounded_append hxl).2 ⟨hb, hcap⟩, fun v hv hv1 hv2 => ?_⟩, ?_⟩
    · have hv : v ∈ g.ids := by
        rcases List.mem_append.1 hv with hv | hv
        · exact hv
        · simp only [List.mem_cons, List.not_mem_nil, or_false] at hv
          exact (hv.elim hv1 hv2).elim
      rw [net_append hxl, net_extra _ _ _ hst _ h.1 v hv1 hv2, if_pos hv, hc v hv]
      ring
    · rw [net_append hxl, away ss h1, Int.zero_add, supply]
      have : ∀ ids : List Nat, ss ∉ ids → st ∉ ids → -net (extraEdges g.demand ss st ids) ((extraEdges g.demand ss st ids).map (·.cap)) ss = (ids.map fun v => if g.demand v < 0 then -g.demand v else 0).sum := by
        intro ids hs ht
        induction ids with
        | nil => rfl
        | cons i l ih =>
          simp only [List.mem_cons, not_or] at hs ht
          have ih := ih hs.2 ht.2
          simp only [List.map_cons, List.sum_cons]
          rw [extraEdges, if_pos ⟨Ne.symm hs.1, Ne.symm ht.1⟩]
          split
          · rw [List.map_cons, net, if_neg (Ne.symm hs.1), if_pos rfl, ← ih]; dsimp only; ring
          · split
            · rw [List.map_cons, net, if_neg (Ne.symm hst), if_neg (Ne.symm hs.1), ← ih]; ring
            · rw [← ih]; ring
      exact this g.ids h1 h2

/-! ## Example -/

/-- Four nodes with demands and lower bounds, as in the test of the library. -/
def sample : Net where
  ids := [0, 1, 2, 3]
  demand := (fun v => if v = 0 then -3 else if v = 1 then -3 else if v = 2 then 2 else if v = 3 then 4 else 0)
  edges := [{ src := 0, dst := 1, cap := 3 }, { src := 0, dst := 2, cap := 3, lower := 2 }, { src := 1, dst := 2, cap := 2 }, { src := 1, dst := 3, cap := 2 }, { src := 2, dst := 3, cap := 2 }]

example : sample.Ok := by unfold Net.Ok; decide

example : Circulation sample [1, 2, 2, 2, 2] := by
  refine ⟨⟨by decide, by decide, by decide, by decide, by decide, by decide, by decide, by decide, by decide, by decide, trivial⟩, by decide⟩

example : (lowerBound sample).ids.map (lowerBound sample).demand = [-1, -3, 0, 4] ∧ ((lowerBound sample).edges.map (·.cap)) = [3, 1, 2, 2, 2] ∧
    (circulation (lowerBound sample) 4 5).2 = 0 ∧ extraEdges (lowerBound sample).demand 4 5 [0, 1, 2, 3] = [{ src := 4, dst := 0, cap := 1 }, { src := 4, dst := 1, cap := 3 }, { src := 3, dst := 5, cap := 4 }] := by
  decide

end Verif.Graph.Flow
