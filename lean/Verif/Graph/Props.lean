import Verif.Graph.Model
import Verif.Linked.PropsLL

/-!
# Edge bookkeeping of `Graph` (C64)
-/

namespace Verif.Graph
open Verif.Linked

/-! ## Specification -/

/-- The nodes and the edges (with their ends). -/
structure Spec where
  nodes : List Nat
  edges : List (Nat × Ends)

/-- The calls that are allowed: indices and edges that exist, and new ones that are fresh. -/
def Spec.ok (s : Spec) : Op → Prop
  | .addNode i => i ∉ s.nodes
  | .addEdge a f t => f ∈ s.nodes ∧ t ∈ s.nodes ∧ a ∉ s.edges.map (·.1)
  | .removeEdge a => a ∈ s.edges.map (·.1)
  | .removeNode v => v ∈ s.nodes

/-- What they do. -/
def Spec.step (s : Spec) : Op → Spec
  | .addNode i => { s with nodes := i :: s.nodes }
  | .addEdge a f t => { s with edges := (a, ⟨f, t⟩) :: s.edges }
  | .removeEdge a => { s with edges := s.edges.filter fun e => e.1 ≠ a }
  | .removeNode v => { nodes := s.nodes.filter (· ≠ v), edges := s.edges.filter fun e => e.2.from_ ≠ v ∧ e.2.to ≠ v }

def Spec.runOk (s : Spec) : List Op → Prop
  | [] => True
  | op :: ops => s.ok op ∧ (s.step op).runOk ops

def Spec.run (s : Spec) : List Op → Spec
  | [] => s
  | op :: ops => (s.step op).run ops

/-! ## Many lists in one memory -/

variable {α : Type}

/-- The lists `L v`, with heads `head v`, hold exactly the addresses with key `v`. -/
structure ML (h : Mem α) (head : Nat → Option Nat) (L : Nat → List Nat) (key : Nat → Option Nat) : Prop where
  rep : ∀ v, Rep h (L v)
  head : ∀ v, head v = (L v).head?
  key : ∀ v a, a ∈ L v ↔ key a = some v

def upd {β : Type} (f : Nat → β) (i : Nat) (b : β) : Nat → β := fun j => if j = i then b else f j

theorem upd_self {β : Type} (f : Nat → β) (i : Nat) (b : β) : upd f i b i = b := if_pos rfl
theorem upd_ne {β : Type} (f : Nat → β) {i j : Nat} (b : β) (h : j ≠ i) : upd f i b j = f j := if_neg h

theorem Rep.same {h h' : Mem α} {l : List Nat} (hr : Rep h l) (hh : ∀ m ∈ l, h' m = h m) : Rep h' l := by
  refine ⟨hr.1.congr (fun m hm => ?_) (fun m hm => ?_), fun x hx => ?_⟩
  · simp only [nx, hh m hm]
  · simp only [pv, hh m hm]
  · rw [hh x hx]
    exact hr.2 x hx

theorem ML.add {h : Mem α} {head : Nat → Option Nat} {L : Nat → List Nat} {key : Nat → Option Nat} (H : ML h head L key)
    {a : Nat} (ha : h a = none) (v : Nat) (nd : Node α) :
    ∃ h1 h2, allocNode h a nd = some h1 ∧ llAdd h1 a (head v) = some (h2, some a) ∧
      ML h2 (upd head v (some a)) (upd L v (a :: L v)) (upd key a (some v)) ∧
      (∀ m, item h2 m = if m = a then some nd.item else item h m) ∧ (∀ m, (h2 m).isSome = (decide (m = a) || (h m).isSome)) := by
  have hfree : ∀ v, a ∉ L v := fun v hm => by
    have := (H.rep v).some hm
    rw [ha] at this
    cases this
  have e1 : allocNode h a nd = some (fun q => if q = a then some nd else h q) := by
    simp only [allocNode, ha]
    rfl
  have hr1 : ∀ u, Rep (fun q => if q = a then some nd else h q) (L u) := fun u =>
    Rep.same (H.rep u) fun m hm => if_neg fun (e : m = a) => hfree u (e ▸ hm)
  obtain ⟨h2, e2, r2, f1, f2, f3⟩ := C18_add _ (L v) a (hr1 v) (hfree v) (by simp)
  refine ⟨_, h2, e1, by rw [H.head v]; exact e2, ⟨fun u => ?_, fun u => ?_, fun u b => ?_⟩, fun m => ?_, fun m => ?_⟩
  · by_cases hu : u = v
    · subst hu
      rw [upd_self]
      exact r2
    · rw [upd_ne _ _ hu]
      refine Rep.same (hr1 u) fun m hm => f3 m ?_
      rintro (rfl | hh)
      · exact hfree u hm
      · have h1 := (H.key v m).1 (mem_head hh)
        rw [(H.key u m).1 hm] at h1
        exact hu (Option.some.inj h1)
  · by_cases hu : u = v
    · subst hu
      rw [upd_self, upd_self]
      rfl
    · rw [upd_ne _ _ hu, upd_ne _ _ hu]
      exact H.head u
  · by_cases hb : b = a
    · subst hb
      rw [upd_self]
      by_cases hu : u = v
      · subst hu
        rw [upd_self]
        simp
      · rw [upd_ne _ _ hu]
        constructor
        · intro hm
          exact absurd hm (hfree u)
        · intro e
          exact absurd (Option.some.inj e).symm hu
    · rw [upd_ne _ _ hb]
      by_cases hu : u = v
      · subst hu
        rw [upd_self, List.mem_cons, ← H.key]
        simp [hb]
      · rw [upd_ne _ _ hu]
        exact H.key u b
  · rw [f1 m]
    simp only [item]
    split <;> rfl
  · rw [f2 m]
    by_cases hma : m = a <;> simp [hma]

theorem ML.remove {h : Mem α} {head : Nat → Option Nat} {L : Nat → List Nat} {key : Nat → Option Nat} (H : ML h head L key)
    {a v : Nat} (ha : key a = some v) :
    ∃ h1 h2 root, llRemove h a (head v) = some (h1, root) ∧ freeNode h1 a = some h2 ∧
      ML h2 (upd head v root) (upd L v ((L v).erase a)) (upd key a none) ∧
      (∀ m, item h2 m = if m = a then none else item h m) ∧ (∀ m, (h2 m).isSome = (decide (m ≠ a) && (h m).isSome)) := by
  have hm : a ∈ L v := (H.key v a).2 ha
  obtain ⟨A, B, hAB⟩ := List.append_of_mem hm
  have hr := H.rep v
  rw [hAB] at hr
  have hsp := nodup_split hr.1.1
  obtain ⟨h1, e1, r1, f1, f2, f3⟩ := C18_remove h A B a hr
  have hs : (h1 a).isSome := by rw [f2]; exact hr.some (by simp)
  have e2 : freeNode h1 a = some fun q => if q = a then none else h1 q := by
    obtain ⟨nd, hnd⟩ := Option.isSome_iff_exists.1 hs
    simp only [freeNode, hnd, Option.map_some]
  have her : (L v).erase a = A ++ B := by
    rw [hAB, List.erase_append_right _ hsp.1, List.erase_cons_head]
  refine ⟨h1, _, (A ++ B).head?, by rw [H.head v, hAB]; exact e1, e2, ⟨fun u => ?_, fun u => ?_, fun u b => ?_⟩, fun m => ?_, fun m => ?_⟩
  · by_cases hu : u = v
    · subst hu
      rw [upd_self, her]
      refine Rep.same r1 fun m hm' => if_neg fun e => ?_
      subst e
      rcases List.mem_append.1 hm' with h | h
      · exact hsp.1 h
      · exact hsp.2.1 h
    · rw [upd_ne _ _ hu]
      have hdis : ∀ m ∈ L u, m ∉ L v := fun m hm hm' => by
        have h1 := (H.key v m).1 hm'
        rw [(H.key u m).1 hm] at h1
        exact hu (Option.some.inj h1)
      refine Rep.same (H.rep u) fun m hm' => ?_
      rw [if_neg fun e => hdis m hm' (by rw [e]; exact hm)]
      refine f3 m ?_
      rintro (hh | hh)
      · exact hdis m hm' (by rw [hAB]; exact List.mem_append_left _ (mem_last hh))
      · exact hdis m hm' (by rw [hAB]; exact List.mem_append_right _ (List.mem_cons_of_mem _ (mem_head hh)))
  · by_cases hu : u = v
    · subst hu
      rw [upd_self, upd_self, her]
    · rw [upd_ne _ _ hu, upd_ne _ _ hu]
      exact H.head u
  · by_cases hb : b = a
    · subst hb
      rw [upd_self]
      refine ⟨fun hm' => ?_, fun e => by cases e⟩
      by_cases hu : u = v
      · subst hu
        rw [upd_self, her] at hm'
        rcases List.mem_append.1 hm' with h | h
        · exact absurd h hsp.1
        · exact absurd h hsp.2.1
      · rw [upd_ne _ _ hu, H.key, ha] at hm'
        exact absurd (Option.some.inj hm').symm hu
    · rw [upd_ne _ _ hb]
      by_cases hu : u = v
      · subst hu
        rw [upd_self, List.mem_erase_of_ne hb]
        exact H.key u b
      · rw [upd_ne _ _ hu]
        exact H.key u b
  · simp only [item]
    by_cases hma : m = a
    · simp [hma]
    · simp only [hma, if_false]
      exact f1 m
  · by_cases hma : m = a
    · simp [hma]
    · simp only [hma, if_false, ne_eq, not_false_iff, decide_true, Bool.true_and]
      exact f2 m

/-! ## The invariant -/

/-- Where an edge starts and ends. -/
def fromOf (s : Spec) (a : Nat) : Option Nat := (s.edges.find? fun e => e.1 = a).map fun e => e.2.from_
def toOf (s : Spec) (a : Nat) : Option Nat := (s.edges.find? fun e => e.1 = a).map fun e => e.2.to

structure Inv (g : G) (s : Spec) : Prop where
  out : ∃ L, ML g.out (fun v => (g.nodes v).bind (·.to)) L (fun a => (item g.out a).map (·.from_))
  inn : ∃ L, ML g.alt (fun v => (g.nodes v).bind (·.from_)) L (fun a => (item g.out a).map (·.to))
  alloc : ∀ a, (g.alt a).isSome = (g.out a).isSome
  edges : ∀ a e, item g.out a = some e ↔ (a, e) ∈ s.edges
  nodup : (s.edges.map (·.1)).Nodup
  nodes : ∀ v, (g.nodes v).isSome ↔ v ∈ s.nodes
  ends : ∀ a e, (a, e) ∈ s.edges → e.from_ ∈ s.nodes ∧ e.to ∈ s.nodes
  num : g.nedges = s.edges.length

theorem item_isSome (h : Mem α) (a : Nat) : (item h a).isSome = (h a).isSome := by simp [item]

theorem inv_addNode {g : G} {s : Spec} (H : Inv g s) {i : Nat} (hi : i ∉ s.nodes) : ∃ g', addNode g i = some g' ∧ Inv g' (s.step (.addNode i)) := by
  have h0 : g.nodes i = none := by
    refine Option.not_isSome_iff_eq_none.1 fun h => hi ((H.nodes i).1 h)
  obtain ⟨L, HL⟩ := H.out
  obtain ⟨M, HM⟩ := H.inn
  have e : addNode g i = some { g with nodes := setNode g.nodes i (some ⟨none, none⟩) } := by
    unfold addNode
    rw [h0]
    rfl
  refine ⟨_, e, ⟨L, HL.rep, fun v => ?_, HL.key⟩, ⟨M, HM.rep, fun v => ?_, HM.key⟩, H.alloc, H.edges, H.nodup, fun v => ?_, ?_, H.num⟩
  · rw [← HL.head v]
    simp only [setNode]
    split
    · subst v; rw [h0]; rfl
    · rfl
  · rw [← HM.head v]
    simp only [setNode]
    split
    · subst v; rw [h0]; rfl
    · rfl
  · simp only [setNode, Spec.step, List.mem_cons, ← H.nodes]
    split <;> simp [*]
  · intro a e he
    have := H.ends a e he
    exact ⟨List.mem_cons_of_mem _ this.1, List.mem_cons_of_mem _ this.2⟩

/-- The two assignments to the list heads. -/
theorem heads {nodes : Nat → Option NodeHeads} {f t : Nat} {n : NodeHeads} (hf : nodes f = some n) (ht : (nodes t).isSome) (x y : Option Nat) :
    ∃ m, setNode nodes f (some { n with to := x }) t = some m ∧ m.from_ = (nodes t).bind (·.from_) ∧
      (fun v => (setNode (setNode nodes f (some { n with to := x })) t (some { m with from_ := y }) v).bind (·.to)) = upd (fun v => (nodes v).bind (·.to)) f x ∧
      (fun v => (setNode (setNode nodes f (some { n with to := x })) t (some { m with from_ := y }) v).bind (·.from_)) = upd (fun v => (nodes v).bind (·.from_)) t y ∧
      ∀ v, (setNode (setNode nodes f (some { n with to := x })) t (some { m with from_ := y }) v).isSome = (nodes v).isSome := by
  obtain ⟨w, hw⟩ := Option.isSome_iff_exists.1 ht
  by_cases hft : t = f
  · subst hft
    rw [hf] at hw
    cases hw
    refine ⟨{ n with to := x }, by simp [setNode], by rw [hf]; rfl, ?_, ?_, ?_⟩
    · funext v
      by_cases hv : v = t <;> simp [setNode, upd, hv]
    · funext v
      by_cases hv : v = t <;> simp [setNode, upd, hv]
    · intro v
      by_cases hv : v = t <;> simp [setNode, hv, hf]
  · refine ⟨w, by simp [setNode, hft, hw], by rw [hw]; rfl, ?_, ?_, ?_⟩
    · funext v
      by_cases hv : v = t
      · subst hv
        simp [setNode, upd, hft, hw]
      · by_cases hv' : v = f
        · subst hv'
          simp [setNode, upd, hv]
        · simp [setNode, upd, hv, hv']
    · funext v
      by_cases hv : v = t
      · subst hv
        simp [setNode, upd]
      · by_cases hv' : v = f
        · subst hv'
          simp [setNode, upd, hv, hf]
        · simp [setNode, upd, hv, hv']
    · intro v
      by_cases hv : v = t
      · subst hv
        simp [setNode, hw]
      · by_cases hv' : v = f
        · subst hv'
          simp [setNode, hv, hf]
        · simp [setNode, hv, hv']

theorem inv_addEdge {g : G} {s : Spec} (H : Inv g s) {a f t : Nat} (hf : f ∈ s.nodes) (ht : t ∈ s.nodes) (ha : a ∉ s.edges.map (·.1)) :
    ∃ g', addEdge g a f t = some g' ∧ Inv g' (s.step (.addEdge a f t)) := by
  obtain ⟨L, HL⟩ := H.out
  obtain ⟨M, HM⟩ := H.inn
  have ha1 : g.out a = none := by
    cases h : g.out a with
    | none => rfl
    | some nd =>
      have : item g.out a = some nd.item := by simp [item, h]
      exact absurd (List.mem_map.2 ⟨_, (H.edges a _).1 this, rfl⟩) ha
  have ha2 : g.alt a = none := by
    have := H.alloc a
    rw [ha1] at this
    exact Option.not_isSome_iff_eq_none.1 (by rw [this]; exact Bool.false_ne_true)
  obtain ⟨n, hn⟩ := Option.isSome_iff_exists.1 ((H.nodes f).2 hf)
  obtain ⟨m, hm1, hm2, hA, hB, hC⟩ := heads hn ((H.nodes t).2 ht) (some a) (some a)
  obtain ⟨o1, o2, eo1, eo2, mo, io, so⟩ := HL.add ha1 f ⟨none, none, ⟨f, t⟩⟩
  obtain ⟨i1, i2, ei1, ei2, mi, ii, si⟩ := HM.add ha2 t ⟨none, none, ()⟩
  try dsimp only at eo2 ei2
  rw [hn] at eo2
  rw [← hm2] at ei2
  have e : addEdge g a f t = some { out := o2, alt := i2, nodes := setNode (setNode g.nodes f (some { n with to := some a })) t (some { m with from_ := some a }), nedges := g.nedges + 1 } := by
    simp only [addEdge, eo1, ei1, hn, Option.bind_eq_bind, Option.bind_some] at eo2 ⊢
    rw [eo2]
    simp only [Option.bind_some, hm1]
    rw [ei2]
    rfl
  have k1 : (fun b => (item o2 b).map (·.from_)) = upd (fun b => (item g.out b).map (·.from_)) a (some f) := by
    funext b
    rw [io b]
    by_cases hb : b = a <;> simp [upd, hb]
  have k2 : (fun b => (item o2 b).map (·.to)) = upd (fun b => (item g.out b).map (·.to)) a (some t) := by
    funext b
    rw [io b]
    by_cases hb : b = a <;> simp [upd, hb]
  refine ⟨_, e, ⟨upd L f (a :: L f), ?_⟩, ⟨upd M t (a :: M t), ?_⟩, fun b => ?_, fun b e => ?_, ?_, fun v => ?_, ?_, ?_⟩
  · dsimp only
    rw [hA, k1]
    exact mo
  · dsimp only
    rw [hB, k2]
    exact mi
  · rw [si, so, H.alloc]
  · dsimp only
    rw [io b]
    simp only [Spec.step, List.mem_cons, Prod.mk.injEq, ← H.edges]
    by_cases hb : b = a
    · subst hb
      simp only [if_true, true_and, item, ha1, Option.map_none, reduceCtorEq, or_false, Option.some.injEq]
      exact eq_comm
    · simp [hb]
  · exact List.nodup_cons.2 ⟨ha, H.nodup⟩
  · rw [hC]
    exact H.nodes v
  · intro b e hb
    rcases List.mem_cons.1 hb with hb | hb
    · cases hb
      exact ⟨hf, ht⟩
    · exact H.ends b e hb
  · dsimp only [Spec.step, List.length_cons]
    rw [H.num]

theorem key_unique {l : List (Nat × Ends)} (h : (l.map (·.1)).Nodup) {a : Nat} {e e' : Ends} (h1 : (a, e) ∈ l) (h2 : (a, e') ∈ l) : e = e' := by
  induction l with
  | nil => cases h1
  | cons x l ih =>
    obtain ⟨hx, hn⟩ := List.nodup_cons.1 h
    rcases List.mem_cons.1 h1 with rfl | k1 <;> rcases List.mem_cons.1 h2 with k2 | k2
    · exact (congrArg Prod.snd k2).symm
    · exact absurd (List.mem_map.2 ⟨_, k2, rfl⟩) hx
    · subst k2
      exact absurd (List.mem_map.2 ⟨(a, e), k1, rfl⟩) hx
    · exact ih hn k1 k2

theorem length_filter_key {l : List (Nat × Ends)} (h : (l.map (·.1)).Nodup) {a : Nat} {e : Ends} (h1 : (a, e) ∈ l) :
    (l.filter fun x => x.1 ≠ a).length + 1 = l.length := by
  induction l with
  | nil => cases h1
  | cons x l ih =>
    obtain ⟨hx, hn⟩ := List.nodup_cons.1 h
    by_cases hxa : x.1 = a
    · have : l.filter (fun x => x.1 ≠ a) = l := by
        refine List.filter_eq_self.2 fun y hy => ?_
        simp only [decide_eq_true_eq]
        intro hya
        exact hx (List.mem_map.2 ⟨y, hy, hya.trans hxa.symm⟩)
      rw [List.filter_cons_of_neg (by simp [hxa]), this]
      rfl
    · rw [List.filter_cons_of_pos (by simp [hxa])]
      rcases List.mem_cons.1 h1 with h1 | h1
      · exact absurd (by rw [← h1]) hxa
      · simp only [List.length_cons]
        rw [ih hn h1]

theorem nodup_filter_map {l : List (Nat × Ends)} (p : Nat × Ends → Bool) (h : (l.map (·.1)).Nodup) : ((l.filter p).map (·.1)).Nodup :=
  (List.filter_sublist.map _).nodup h

theorem inv_removeEdge {g : G} {s : Spec} (H : Inv g s) {a : Nat} (ha : a ∈ s.edges.map (·.1)) :
    ∃ g', removeEdge g a = some g' ∧ Inv g' (s.step (.removeEdge a)) := by
  obtain ⟨L, HL⟩ := H.out
  obtain ⟨M, HM⟩ := H.inn
  obtain ⟨⟨_, e⟩, hae, rfl⟩ := List.mem_map.1 ha
  dsimp only at ha ⊢
  rename_i a
  have hit : item g.out a = some e := (H.edges a e).2 hae
  obtain ⟨nd, hnd, hnde⟩ := Option.map_eq_some_iff.1 hit
  have hends := H.ends a e hae
  obtain ⟨n, hn⟩ := Option.isSome_iff_exists.1 ((H.nodes _).2 hends.1)
  obtain ⟨o1, o2, ro, eo1, eo2, mo, io, so⟩ := HL.remove (a := a) (v := e.from_) (by rw [hit]; rfl)
  obtain ⟨i1, i2, ri, ei1, ei2, mi, ii, si⟩ := HM.remove (a := a) (v := e.to) (by rw [hit]; rfl)
  obtain ⟨m, hm1, hm2, hA, hB, hC⟩ := heads hn ((H.nodes _).2 hends.2) ro ri
  try dsimp only at eo1 ei1
  rw [hn] at eo1
  rw [← hm2] at ei1
  have er : removeEdge g a = some { out := o2, alt := i2, nodes := setNode (setNode g.nodes e.from_ (some { n with to := ro })) e.to (some { m with from_ := ri }), nedges := g.nedges - 1 } := by
    simp only [removeEdge, hnd, hnde, hn, Option.bind_eq_bind, Option.bind_some] at eo1 ⊢
    rw [eo1]
    simp only [Option.bind_some, hm1]
    rw [ei1]
    simp only [Option.bind_some, eo2, ei2]
  have k1 : (fun b => (item o2 b).map (·.from_)) = upd (fun b => (item g.out b).map (·.from_)) a none := by
    funext b
    rw [io b]
    by_cases hb : b = a <;> simp [upd, hb]
  have k2 : (fun b => (item o2 b).map (·.to)) = upd (fun b => (item g.out b).map (·.to)) a none := by
    funext b
    rw [io b]
    by_cases hb : b = a <;> simp [upd, hb]
  refine ⟨_, er, ⟨upd L e.from_ ((L e.from_).erase a), ?_⟩, ⟨upd M e.to ((M e.to).erase a), ?_⟩, fun b => ?_, fun b x => ?_, ?_, fun v => ?_, ?_, ?_⟩
  · dsimp only
    rw [hA, k1]
    exact mo
  · dsimp only
    rw [hB, k2]
    exact mi
  · rw [si, so, H.alloc]
  · dsimp only
    rw [io b]
    simp only [Spec.step, List.mem_filter, decide_eq_true_eq, ← H.edges]
    by_cases hb : b = a <;> simp [hb]
  · exact nodup_filter_map _ H.nodup
  · rw [hC]
    exact H.nodes v
  · intro b x hb
    exact H.ends b x (List.mem_filter.1 hb).1
  · have := length_filter_key H.nodup hae
    have h2 := H.num
    dsimp only [Spec.step]
    omega

/-! ## Removing a node -/

def Spec.without (s : Spec) (p : Ends → Bool) : Spec := { s with edges := s.edges.filter fun e => !p e.2 }

theorem without_remove {s : Spec} (h : (s.edges.map (·.1)).Nodup) {p : Ends → Bool} {a : Nat} {e : Ends} (he : (a, e) ∈ s.edges) (hp : p e = true) :
    (s.step (.removeEdge a)).without p = s.without p := by
  simp only [Spec.without, Spec.step, Spec.mk.injEq, List.filter_filter, true_and]
  refine List.filter_congr fun x hx => ?_
  by_cases hxa : x.1 = a
  · have : x.2 = e := key_unique h (a := a) (by rw [← hxa]; exact hx) he
    simp [this, hp]
  · simp [hxa]

theorem without_self {s : Spec} {p : Ends → Bool} (h : ∀ a e, (a, e) ∈ s.edges → p e = false) : s.without p = s := by
  simp only [Spec.without]
  rw [List.filter_eq_self.2 fun x hx => by rw [h x.1 x.2 hx]; rfl]

theorem clearTo_inv {v : Nat} : ∀ (k : Nat) {g : G} {s : Spec}, Inv g s → v ∈ s.nodes → s.edges.length < k →
    ∃ g', clearTo v k g = some g' ∧ Inv g' (s.without fun e => e.from_ = v) := by
  intro k
  induction k with
  | zero => intro g s _ _ h; omega
  | succ k ih =>
    intro g s H hv hk
    obtain ⟨n, hn⟩ := Option.isSome_iff_exists.1 ((H.nodes v).2 hv)
    obtain ⟨L, HL⟩ := H.out
    have hh := HL.head v
    try dsimp only at hh
    rw [hn] at hh
    have hh : n.to = (L v).head? := hh
    simp only [clearTo, hn, Option.bind_some]
    cases hnt : n.to with
    | none =>
      refine ⟨g, rfl, ?_⟩
      rw [without_self]
      · exact H
      · intro a e hae
        refine decide_eq_false fun hev => ?_
        have : a ∈ L v := (HL.key v a).2 (by rw [(H.edges a e).2 hae, Option.map_some, hev])
        rw [hnt, eq_comm, List.head?_eq_none_iff] at hh
        rw [hh] at this
        cases this
    | some a =>
      have hm : a ∈ L v := mem_head (by rw [← hh, hnt])
      obtain ⟨e, he1, he2⟩ := Option.map_eq_some_iff.1 ((HL.key v a).1 hm)
      have hae := (H.edges a e).1 he1
      obtain ⟨g1, h1, h2⟩ := inv_removeEdge H (a := a) (List.mem_map.2 ⟨_, hae, rfl⟩)
      have hlen := length_filter_key H.nodup hae
      obtain ⟨g2, h3, h4⟩ := ih h2 hv (by dsimp only [Spec.step]; omega)
      refine ⟨g2, by simp only [h1, Option.bind_some]; exact h3, ?_⟩
      rwa [without_remove H.nodup hae (by simp [he2])] at h4

theorem clearFrom_inv {v : Nat} : ∀ (k : Nat) {g : G} {s : Spec}, Inv g s → v ∈ s.nodes → s.edges.length < k →
    ∃ g', clearFrom v k g = some g' ∧ Inv g' (s.without fun e => e.to = v) := by
  intro k
  induction k with
  | zero => intro g s _ _ h; omega
  | succ k ih =>
    intro g s H hv hk
    obtain ⟨n, hn⟩ := Option.isSome_iff_exists.1 ((H.nodes v).2 hv)
    obtain ⟨L, HL⟩ := H.inn
    have hh := HL.head v
    try dsimp only at hh
    rw [hn] at hh
    have hh : n.from_ = (L v).head? := hh
    simp only [clearFrom, hn, Option.bind_some]
    cases hnt : n.from_ with
    | none =>
      refine ⟨g, rfl, ?_⟩
      rw [without_self]
      · exact H
      · intro a e hae
        refine decide_eq_false fun hev => ?_
        have : a ∈ L v := (HL.key v a).2 (by rw [(H.edges a e).2 hae, Option.map_some, hev])
        rw [hnt, eq_comm, List.head?_eq_none_iff] at hh
        rw [hh] at this
        cases this
    | some a =>
      have hm : a ∈ L v := mem_head (by rw [← hh, hnt])
      obtain ⟨e, he1, he2⟩ := Option.map_eq_some_iff.1 ((HL.key v a).1 hm)
      have hae := (H.edges a e).1 he1
      obtain ⟨g1, h1, h2⟩ := inv_removeEdge H (a := a) (List.mem_map.2 ⟨_, hae, rfl⟩)
      have hlen := length_filter_key H.nodup hae
      obtain ⟨g2, h3, h4⟩ := ih h2 hv (by dsimp only [Spec.step]; omega)
      refine ⟨g2, by simp only [h1, Option.bind_some]; exact h3, ?_⟩
      rwa [without_remove H.nodup hae (by simp [he2])] at h4

theorem inv_removeNode {g : G} {s : Spec} (H : Inv g s) {v : Nat} (hv : v ∈ s.nodes) :
    ∃ g', removeNode g v = some g' ∧ Inv g' (s.step (.removeNode v)) := by
  obtain ⟨g1, h1, H1⟩ := clearTo_inv (v := v) (g.nedges + 1) H hv (by rw [H.num]; omega)
  obtain ⟨g2, h2, H2⟩ := clearFrom_inv (v := v) (g1.nedges + 1) H1 hv (by rw [H1.num]; omega)
  have es : ((s.without fun e => e.from_ = v).without fun e => e.to = v).edges = (s.step (.removeNode v)).edges := by
    simp only [Spec.without, Spec.step, List.filter_filter]
    refine List.filter_congr fun x _ => ?_
    by_cases hx : x.2.from_ = v <;> by_cases hy : x.2.to = v <;> simp [hx, hy]
  have hno : ∀ a e, (a, e) ∈ (s.step (.removeNode v)).edges → e.from_ ≠ v ∧ e.to ≠ v := by
    intro a e hae
    have := (List.mem_filter.1 hae).2
    simpa using this
  obtain ⟨L, HL⟩ := H2.out
  obtain ⟨M, HM⟩ := H2.inn
  have hL : L v = [] := by
    refine List.eq_nil_iff_forall_not_mem.2 fun a ha => ?_
    obtain ⟨e, he1, he2⟩ := Option.map_eq_some_iff.1 ((HL.key v a).1 ha)
    exact (hno a e (es ▸ (H2.edges a e).1 he1)).1 he2
  have hM : M v = [] := by
    refine List.eq_nil_iff_forall_not_mem.2 fun a ha => ?_
    obtain ⟨e, he1, he2⟩ := Option.map_eq_some_iff.1 ((HM.key v a).1 ha)
    exact (hno a e (es ▸ (H2.edges a e).1 he1)).2 he2
  refine ⟨{ g2 with nodes := setNode g2.nodes v none }, by simp only [removeNode, h1, Option.bind_some, h2, Option.map_some],
    ⟨L, HL.rep, fun u => ?_, HL.key⟩, ⟨M, HM.rep, fun u => ?_, HM.key⟩, H2.alloc, fun a e => ?_, ?_, fun u => ?_, fun a e hae => ?_, ?_⟩
  · by_cases hu : u = v
    · subst hu
      simp [setNode, hL]
    · simp only [setNode, hu, if_false]
      exact HL.head u
  · by_cases hu : u = v
    · subst hu
      simp [setNode, hM]
    · simp only [setNode, hu, if_false]
      exact HM.head u
  · rw [← es]
    exact H2.edges a e
  · rw [← es]
    exact H2.nodup
  · by_cases hu : u = v
    · subst hu
      simp [setNode, Spec.step]
    · simp only [setNode, hu, if_false, Spec.step, List.mem_filter, ne_eq, not_false_iff, decide_true, and_true]
      exact H2.nodes u
  · have h1 := hno a e hae
    have h2 := H2.ends a e (es ▸ hae)
    simp only [Spec.step, List.mem_filter, ne_eq, decide_not, Bool.not_eq_true', decide_eq_false_iff_not]
    exact ⟨⟨h2.1, h1.1⟩, ⟨h2.2, h1.2⟩⟩
  · rw [← es]
    exact H2.num

/-! ## The property -/

theorem inv_new : Inv .new ⟨[], []⟩ where
  out := ⟨fun _ => [], fun _ => ⟨WF.nil _ _, fun _ h => (nomatch h)⟩, fun _ => rfl, fun _ _ => ⟨fun h => (nomatch h), fun h => (nomatch h)⟩⟩
  inn := ⟨fun _ => [], fun _ => ⟨WF.nil _ _, fun _ h => (nomatch h)⟩, fun _ => rfl, fun _ _ => ⟨fun h => (nomatch h), fun h => (nomatch h)⟩⟩
  alloc := fun _ => rfl
  edges := fun _ _ => ⟨fun h => (nomatch h), fun h => (nomatch h)⟩
  nodup := List.nodup_nil
  nodes := fun _ => ⟨fun h => (nomatch h), fun h => (nomatch h)⟩
  ends := fun _ _ h => (nomatch h)
  num := rfl

theorem inv_step {g : G} {s : Spec} (H : Inv g s) {op : Op} (h : s.ok op) : ∃ g', step g op = some g' ∧ Inv g' (s.step op) := by
  cases op with
  | addNode i => exact inv_addNode H h
  | addEdge a f t => exact inv_addEdge H h.1 h.2.1 h.2.2
  | removeEdge a => exact inv_removeEdge H h
  | removeNode v => exact inv_removeNode H h

theorem inv_run : ∀ (ops : List Op) {g : G} {s : Spec}, Inv g s → s.runOk ops → ∃ g', run ops g = some g' ∧ Inv g' (s.run ops) := by
  intro ops
  induction ops with
  | nil => intro g s H _; exact ⟨g, rfl, H⟩
  | cons op ops ih =>
    intro g s H h
    obtain ⟨g1, h1, H1⟩ := inv_step H h.1
    obtain ⟨g2, h2, H2⟩ := ih H1 h.2
    exact ⟨g2, by rw [run, h1]; exact h2, H2⟩

theorem outgoing_walk (g : G) (v : Nat) : ∀ (k : Nat) (p : Option Nat), outgoing.go g k p = walk (nx g.out) k p := by
  intro k
  induction k with
  | zero => intro p; rfl
  | succ k ih =>
    intro p
    cases p with
    | none => rfl
    | some e => simp only [outgoing.go, walk, ih]; rfl

theorem incoming_walk (g : G) (v : Nat) : ∀ (k : Nat) (p : Option Nat), incoming.go g k p = walk (nx g.alt) k p := by
  intro k
  induction k with
  | zero => intro p; rfl
  | succ k ih =>
    intro p
    cases p with
    | none => rfl
    | some e => simp only [incoming.go, walk, ih]; rfl

/-- **C64**: every history of allowed calls succeeds, and afterwards, with the nodes and edges there should be: the node indices are those, the number of
edges is right, walking the outgoing list of a node visits exactly the edges that start there, each once, and walking the incoming list exactly the edges
that end there, each once (walks of any length at least the number of edges, so both lists end). -/
theorem C64_consistent (ops : List Op) (h : Spec.runOk ⟨[], []⟩ ops) :
    ∃ g, run ops .new = some g ∧ g.nedges = (Spec.run ⟨[], []⟩ ops).edges.length ∧ ((Spec.run ⟨[], []⟩ ops).edges.map (·.1)).Nodup ∧
    (∀ v, (g.nodes v).isSome ↔ v ∈ (Spec.run ⟨[], []⟩ ops).nodes) ∧
    (∀ a f t, (a, Ends.mk f t) ∈ (Spec.run ⟨[], []⟩ ops).edges → f ∈ (Spec.run ⟨[], []⟩ ops).nodes ∧ t ∈ (Spec.run ⟨[], []⟩ ops).nodes) ∧
    ∀ v k, g.nedges ≤ k →
      ((outgoing g v k).Nodup ∧ ∀ a, a ∈ outgoing g v k ↔ ∃ t, (a, ⟨v, t⟩) ∈ (Spec.run ⟨[], []⟩ ops).edges) ∧
      ((incoming g v k).Nodup ∧ ∀ a, a ∈ incoming g v k ↔ ∃ f, (a, ⟨f, v⟩) ∈ (Spec.run ⟨[], []⟩ ops).edges) := by
  obtain ⟨g, hg, H⟩ := inv_run ops inv_new h
  refine ⟨g, hg, H.num, H.nodup, H.nodes, fun a f t => H.ends a _, fun v k hk => ?_⟩
  generalize Spec.run ⟨[], []⟩ ops = s at H
  obtain ⟨L, HL⟩ := H.out
  obtain ⟨M, HM⟩ := H.inn
  have hL : ∀ a, a ∈ L v ↔ ∃ t, (a, ⟨v, t⟩) ∈ s.edges := by
    intro a
    rw [HL.key, Option.map_eq_some_iff]
    constructor
    · rintro ⟨⟨f, t⟩, he, rfl⟩
      exact ⟨t, (H.edges a _).1 he⟩
    · rintro ⟨t, ht⟩
      exact ⟨_, (H.edges a _).2 ht, rfl⟩
  have hM : ∀ a, a ∈ M v ↔ ∃ f, (a, ⟨f, v⟩) ∈ s.edges := by
    intro a
    rw [HM.key, Option.map_eq_some_iff]
    constructor
    · rintro ⟨⟨f, t⟩, he, rfl⟩
      exact ⟨f, (H.edges a _).1 he⟩
    · rintro ⟨t, ht⟩
      exact ⟨_, (H.edges a _).2 ht, rfl⟩
  have lL : (L v).length ≤ k := by
    refine Nat.le_trans (List.Nodup.length_le_of_subset (l₂ := s.edges.map (·.1)) (HL.rep v).1.1 fun x hx => ?_) (by rw [List.length_map, ← H.num]; exact hk)
    obtain ⟨t, ht⟩ := (hL x).1 hx
    exact List.mem_map.2 ⟨_, ht, rfl⟩
  have lM : (M v).length ≤ k := by
    refine Nat.le_trans (List.Nodup.length_le_of_subset (l₂ := s.edges.map (·.1)) (HM.rep v).1.1 fun x hx => ?_) (by rw [List.length_map, ← H.num]; exact hk)
    obtain ⟨t, ht⟩ := (hM x).1 hx
    exact List.mem_map.2 ⟨_, ht, rfl⟩
  have eL : outgoing g v k = L v := by
    rw [outgoing, outgoing_walk g v, HL.head v]
    exact (HL.rep v).1.walk_forward k lL
  have eM : incoming g v k = M v := by
    rw [incoming, incoming_walk g v, HM.head v]
    exact (HM.rep v).1.walk_forward k lM
  rw [eL, eM]
  exact ⟨⟨(HL.rep v).1.1, hL⟩, ⟨(HM.rep v).1.1, hM⟩⟩

/-- A history that meets the hypothesis, with a self loop, parallel edges and both removals. -/
example : Spec.runOk ⟨[], []⟩ [.addNode 0, .addNode 1, .addNode 2, .addEdge 10 0 1, .addEdge 11 0 1, .addEdge 12 1 1, .addEdge 13 1 2, .removeEdge 10, .removeNode 2] ∧
    (Spec.run ⟨[], []⟩ [.addNode 0, .addNode 1, .addNode 2, .addEdge 10 0 1, .addEdge 11 0 1, .addEdge 12 1 1, .addEdge 13 1 2, .removeEdge 10, .removeNode 2]).edges =
      [(12, ⟨1, 1⟩), (11, ⟨0, 1⟩)] := by
  simp [Spec.runOk, Spec.ok, Spec.step, Spec.run]

end Verif.Graph
