import Verif.Graph.Props

/-!
# Destroying and moving `Graph` objects

`include/bss-util/Graph.h:81`, `:154-161`, on the model of C64. The move constructor (`:72`) does not compile when it is used, since that of `LinkedArray` does not
(`LinkedArray.h:32`).
-/

namespace Verif.Graph
open Verif.Linked

/-- A graph object: `order` are the indices from `_nodes.Front()` on, `LinkedArray.h:74`, `:76`. -/
structure Obj where
  g : G
  order : List Nat

/-- The loop of the destructor, `Graph.h:81`; `none` is undefined behaviour. -/
def destroyLoop : List Nat → G → Option G
  | [], g => some g
  | i :: l, g => (clearTo i (g.nedges + 1) g).bind (destroyLoop l)

/-- `~Graph`, `Graph.h:81`: what is left of the memory of the edges. -/
def destroy (o : Obj) : Option G := destroyLoop o.order o.g

/-- What `operator=` gives: both objects, and the memory of edges that no graph has any more. -/
structure Moved where
  target : Obj
  source : Obj
  lost : Mem Ends

/-- `operator=(Graph&&)`, `Graph.h:154-161`, from another object: the nodes of the target are released without their edges (`Array.h:350-355`, `:124-133`); the source has
no nodes any more, but still the index of the first one (`LinkedArray.h:81`). -/
def moveAssign (t s : Obj) : Moved := ⟨⟨s.g, s.order⟩, ⟨⟨fun _ => none, fun _ => none, fun _ => none, 0⟩, s.order⟩, t.g.out⟩

/-! ## Specification -/

/-- A graph after the calls `ops`, with an order that has all its nodes (C17). -/
def Made (ops : List Op) (o : Obj) : Prop :=
  Spec.runOk ⟨[], []⟩ ops ∧ run ops .new = some o.g ∧ ∀ v, v ∈ o.order ↔ v ∈ (Spec.run ⟨[], []⟩ ops).nodes

/-! ## Proofs -/

theorem destroyLoop_inv : ∀ (l : List Nat) {g : G} {s : Spec}, Inv g s → (∀ v ∈ l, v ∈ s.nodes) →
    ∃ g', destroyLoop l g = some g' ∧ Inv g' (s.without fun e => decide (e.from_ ∈ l))
  | [], g, s, H, _ => ⟨g, rfl, by
    rw [without_self fun a e _ => by simp]
    exact H⟩
  | v :: l, g, s, H, hl => by
    obtain ⟨g1, h1, H1⟩ := clearTo_inv (v := v) (g.nedges + 1) H (hl v (List.mem_cons_self ..)) (by rw [H.num]; omega)
    obtain ⟨g2, h2, H2⟩ := destroyLoop_inv l H1 fun u hu => hl u (List.mem_cons_of_mem _ hu)
    refine ⟨g2, by rw [destroyLoop, h1]; exact h2, ?_⟩
    have : (s.without fun e => e.from_ = v).without (fun e => decide (e.from_ ∈ l)) = s.without fun e => decide (e.from_ ∈ v :: l) := by
      simp only [Spec.without, Spec.mk.injEq, List.filter_filter, true_and]
      refine List.filter_congr fun x _ => ?_
      by_cases hx : x.2.from_ = v <;> by_cases hy : x.2.from_ ∈ l <;> simp [hx, hy]
    rw [← this]
    exact H2

theorem made_inv {ops : List Op} {o : Obj} (h : Made ops o) : Inv o.g (Spec.run ⟨[], []⟩ ops) := by
  obtain ⟨g, hg, H⟩ := inv_run ops inv_new h.1
  rw [h.2.1] at hg
  cases hg
  exact H

/-- The memory of the edges before the destructor is exactly that of the edges of the graph; the destructor has no undefined behaviour (in particular it releases no
edge twice and reads none that is released), and afterwards all edges are released, for every history, also with loops and several edges between two nodes. -/
theorem C214_destroy_partial {ops : List Op} {o : Obj} (h : Made ops o) :
    (∀ a, (o.g.out a).isSome ↔ a ∈ (Spec.run ⟨[], []⟩ ops).edges.map (·.1)) ∧
    ∃ g, destroy o = some g ∧ g.nedges = 0 ∧ ∀ a, g.out a = none ∧ g.alt a = none := by
  have H := made_inv h
  refine ⟨fun a => ?_, ?_⟩
  · rw [← item_isSome, Option.isSome_iff_exists, List.mem_map]
    constructor
    · rintro ⟨e, he⟩
      exact ⟨(a, e), (H.edges a e).1 he, rfl⟩
    · rintro ⟨⟨_, e⟩, he, rfl⟩
      exact ⟨e, (H.edges _ e).2 he⟩
  · obtain ⟨g, hg, H'⟩ := destroyLoop_inv o.order H fun v hv => (h.2.2 v).1 hv
    have he : ((Spec.run ⟨[], []⟩ ops).without fun e => decide (e.from_ ∈ o.order)).edges = [] := by
      refine List.filter_eq_nil_iff.2 fun x hx => ?_
      have := (h.2.2 _).2 (H.ends x.1 x.2 hx).1
      simp [this]
    have hout : ∀ a, g.out a = none := by
      intro a
      cases hi : item g.out a with
      | none =>
        have := item_isSome g.out a
        rw [hi] at this
        exact Option.not_isSome_iff_eq_none.1 (by rw [← this]; decide)
      | some e =>
        have := (H'.edges a e).1 hi
        rw [he] at this
        cases this
    refine ⟨g, hg, by rw [H'.num, he]; rfl, fun a => ⟨hout a, Option.not_isSome_iff_eq_none.1 ?_⟩⟩
    rw [H'.alloc a, hout a]
    decide

/-- A graph that was assigned has the nodes and edges of the source, and it releases all of them; nothing is lost if the target had no edges; a source that had no nodes can be destroyed. -/
theorem C214_assign_partial {ops opt : List Op} {s t : Obj} (hs : Made ops s) (ht : Made opt t) :
    Made ops (moveAssign t s).target ∧
    (∃ g, destroy (moveAssign t s).target = some g ∧ ∀ a, g.out a = none ∧ g.alt a = none) ∧
    ((Spec.run ⟨[], []⟩ opt).edges = [] → ∀ a, (moveAssign t s).lost a = none) ∧
    ((Spec.run ⟨[], []⟩ ops).nodes = [] → ∃ g, destroy (moveAssign t s).source = some g ∧ ∀ a, g.out a = none) := by
  refine ⟨hs, ?_, fun he a => ?_, fun hn => ?_⟩
  · obtain ⟨_, g, hg, _, hf⟩ := C214_destroy_partial (o := (moveAssign t s).target) hs
    exact ⟨g, hg, hf⟩
  · have := (C214_destroy_partial ht).1 a
    rw [he] at this
    exact Option.not_isSome_iff_eq_none.1 fun h => nomatch this.1 h
  · have : s.order = [] := by
      refine List.eq_nil_iff_forall_not_mem.2 fun v hv => ?_
      have := (hs.2.2 v).1 hv
      rw [hn] at this
      cases this
    refine ⟨⟨fun _ => none, fun _ => none, fun _ => none, 0⟩, ?_, fun _ => rfl⟩
    show destroyLoop s.order _ = _
    rw [this]
    rfl

/-- After an assignment from a graph that has a node, the destructor of the source reads a node through a null pointer. -/
theorem C214_source_counterexample {ops : List Op} {s t : Obj} (hs : Made ops s) (hn : (Spec.run ⟨[], []⟩ ops).nodes ≠ []) : destroy (moveAssign t s).source = none := by
  obtain ⟨v, hv⟩ := List.exists_mem_of_ne_nil _ hn
  have hv := (hs.2.2 v).2 hv
  show destroyLoop s.order _ = none
  cases ho : s.order with
  | nil => rw [ho] at hv; cases hv
  | cons u l => rfl

/-- An assignment to a graph that has edges loses the memory of all of them. -/
theorem C214_lost_counterexample {opt : List Op} {s t : Obj} (ht : Made opt t) {a : Nat} (ha : a ∈ (Spec.run ⟨[], []⟩ opt).edges.map (·.1)) :
    ((moveAssign t s).lost a).isSome :=
  ((C214_destroy_partial ht).1 a).2 ha

/-- The hypotheses can be met: three nodes, a loop, two edges between the same nodes, one edge removed. -/
example : ∃ o, Made [.addNode 0, .addNode 1, .addNode 2, .addEdge 10 0 0, .addEdge 11 0 1, .addEdge 12 0 1, .addEdge 13 2 0, .removeEdge 11] o ∧ o.order = [0, 1, 2] := by
  have hok : Spec.runOk ⟨[], []⟩ [.addNode 0, .addNode 1, .addNode 2, .addEdge 10 0 0, .addEdge 11 0 1, .addEdge 12 0 1, .addEdge 13 2 0, .removeEdge 11] := by
    simp [Spec.runOk, Spec.ok, Spec.step]
  obtain ⟨g, hg, _⟩ := inv_run _ inv_new hok
  refine ⟨⟨g, [0, 1, 2]⟩, ⟨hok, hg, fun v => ?_⟩, rfl⟩
  simp [Spec.run, Spec.step]
  omega

end Verif.Graph
