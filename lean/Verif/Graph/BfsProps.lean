import Verif.Graph.Bfs
import Verif.DSet.Inv

/-!
# Breadth-first traversal (C65)
-/

namespace Verif.Graph
open Verif.DSet

/-! ## Specification -/

/-- There is a walk of `n` edges from the root to a node. -/
inductive Path (adj : Nat → List Nat) (root : Nat) : Nat → Nat → Prop
  | nil : Path adj root 0 root
  | snoc {n u t : Nat} : Path adj root n u → t ∈ adj u → Path adj root (n + 1) t

/-- The shortest one has `d` edges. -/
def Dist (adj : Nat → List Nat) (root v d : Nat) : Prop := Path adj root d v ∧ ∀ m < d, ¬ Path adj root m v

/-! ## Distances -/

variable {adj : Nat → List Nat} {root : Nat}

theorem Path.dist : ∀ {n v : Nat}, Path adj root n v → ∃ d, d ≤ n ∧ Dist adj root v d := by
  intro n
  induction n using Nat.strongRecOn with
  | ind n ih =>
    intro v h
    by_cases hm : ∃ m, m < n ∧ Path adj root m v
    · obtain ⟨m, hm, hp⟩ := hm
      obtain ⟨d, h1, h2⟩ := ih m hm hp
      exact ⟨d, by omega, h2⟩
    · exact ⟨n, Nat.le_refl _, h, fun m h1 h2 => hm ⟨m, h1, h2⟩⟩

theorem Dist.unique {v d e : Nat} (h : Dist adj root v d) (h' : Dist adj root v e) : d = e := by
  have := h.2 e
  have := h'.2 d
  rcases Nat.lt_trichotomy d e with g | g | g
  · exact absurd h.1 (this g)
  · exact g
  · exact absurd h'.1 (h.2 e g)

theorem Dist.le {v d n : Nat} (h : Dist adj root v d) (hp : Path adj root n v) : d ≤ n :=
  Nat.not_lt.1 fun g => h.2 n g hp

theorem Dist.pred {v d : Nat} (h : Dist adj root v (d + 1)) : ∃ u, Dist adj root u d ∧ v ∈ adj u := by
  obtain ⟨hp, hm⟩ := h
  cases hp with
  | snoc hp ht => exact ⟨_, ⟨hp, fun m hlt hpm => hm (m + 1) (by omega) (hpm.snoc ht)⟩, ht⟩

/-! ## The marks -/

/-- The disjoint set has put the nodes `D` (one of them the root) in the root's class. -/
structure Marked (s : DSet) (root N : Nat) (D : List Nat) : Prop where
  len : s.arr.length = N
  rootv : ∃ v : Int, v < 0 ∧ s.arr[root]? = some v
  mem : ∀ x < N, x ∈ D → ∃ k, RootN s.arr k x root
  nmem : ∀ x < N, x ∉ D → s.arr[x]? = some (-1)
  rootD : root ∈ D

theorem Marked.find {s : DSet} {N : Nat} {D : List Nat} (h : Marked s root N D) {x : Nat} (hx : x < N) :
    ∃ r s', DSet.find s x = some (r, s') ∧ (r = root ↔ x ∈ D) ∧ Marked s' root N D := by
  have key : ∀ r s', Same s.arr s'.arr → (r = root ↔ x ∈ D) → DSet.find s x = some (r, s') → _ := fun r s' hs hr hf =>
    (⟨r, s', hf, hr, hs.len.trans h.len, (by
      obtain ⟨v, h1, h2⟩ := h.rootv
      exact ⟨v, h1, (hs.entries _ _ h1).1 h2⟩), fun y hy hD => (by
      obtain ⟨k, hk⟩ := h.mem y hy hD
      obtain ⟨j, _, hj⟩ := hs.roots _ _ _ hk
      exact ⟨j, hj⟩), fun y hy hD => (hs.entries _ _ (by omega)).1 (h.nmem y hy hD), h.rootD⟩ :
      ∃ r s', DSet.find s x = some (r, s') ∧ (r = root ↔ x ∈ D) ∧ Marked s' root N D)
  by_cases hD : x ∈ D
  · obtain ⟨k, hk⟩ := h.mem x hx hD
    obtain ⟨s', h1, _, h2⟩ := find_spec s hk
    exact key _ s' h2 ⟨fun _ => hD, fun _ => rfl⟩ h1
  · obtain ⟨s', h1, _, h2⟩ := find_spec s (RootN.root (h.nmem x hx hD) (by omega))
    exact key _ s' h2 ⟨fun e => absurd h.rootD (e ▸ hD), fun h => absurd h hD⟩ h1

theorem Marked.congr {s : DSet} {N : Nat} {D E : List Nat} (h : Marked s root N D) (he : ∀ x, x ∈ D ↔ x ∈ E) : Marked s root N E :=
  ⟨h.len, h.rootv, fun x hx hE => h.mem x hx ((he x).2 hE), fun x hx hE => h.nmem x hx fun hD => hE ((he x).1 hD), (he _).1 h.rootD⟩

theorem Marked.union {s : DSet} {N : Nat} {D : List Nat} (h : Marked s root N D) {x : Nat} (hx : x < N) (hr : x ≠ root) :
    ∃ b s', DSet.union s root x = some (b, s') ∧ Marked s' root N (D ++ [x]) := by
  obtain ⟨v, hv, hrv⟩ := h.rootv
  by_cases hD : x ∈ D
  · have : invalidIndex s x = true := by
      obtain ⟨k, hk⟩ := h.mem x hx hD
      cases hk with
      | root => exact absurd rfl hr
      | step h1 h2 _ => simp only [invalidIndex, h1, decide_eq_true_eq]; exact h2
    refine ⟨false, s, ?_, h.congr fun y => ?_⟩
    · simp only [DSet.union, this, Bool.or_true, if_true]
    · rw [List.mem_append, List.mem_singleton]
      exact ⟨Or.inl, fun g => g.elim id fun e => e ▸ hD⟩
  · have h1 := h.nmem x hx hD
    have i1 : invalidIndex s root = false := by simp only [invalidIndex, hrv, decide_eq_false_iff_not]; omega
    have i2 : invalidIndex s x = false := by simp [invalidIndex, h1]
    have hroot : root < s.arr.length := (List.getElem?_eq_some_iff.1 hrv).1
    refine ⟨true, ⟨(s.arr.set root (v + -1)).set x (root : Int), s.numsets - 1⟩, ?_, ?_, ?_, fun y hy hyD => ?_, fun y hy hyD => ?_, List.mem_append_left _ h.rootD⟩
    · simp only [DSet.union, i1, i2, Bool.or_false, Bool.false_eq_true, if_false, hrv, h1, Option.bind_eq_bind, Option.bind_some]
      rw [if_neg (by omega)]
    · simp only [List.length_set]; exact h.len
    · refine ⟨v + -1, by omega, ?_⟩
      rw [List.getElem?_set_ne hr, List.getElem?_set_self hroot]
    · have : ∃ k q, RootN s.arr k y q ∧ (if q = x then root else q) = root := by
        rcases List.mem_append.1 hyD with g | g
        · obtain ⟨k, hk⟩ := h.mem y hy g
          exact ⟨k, root, hk, by split <;> rfl⟩
        · cases List.mem_singleton.1 g
          exact ⟨0, x, .root h1 (by omega), if_pos rfl⟩
      obtain ⟨k, q, hk, hq⟩ := this
      obtain ⟨j, hj⟩ := hk.link hrv hv h1 (by omega) (Ne.symm hr) (w := v + -1) (by omega)
      rw [hq] at hj
      exact ⟨j, hj⟩
    · rw [List.mem_append, List.mem_singleton, not_or] at hyD
      rw [List.getElem?_set_ne (Ne.symm hyD.2), List.getElem?_set_ne fun (e : root = y) => hyD.1 (e ▸ h.rootD)]
      exact h.nmem y hy hyD.1

theorem Marked.reset {N : Nat} (hr : root < N) : Marked (reset N) root N [root] := by
  refine ⟨by simp [DSet.reset], ⟨-1, by omega, by simp [DSet.reset, hr]⟩, fun x hx hD => ?_, fun x hx hD => by simp [DSet.reset, hx], by simp⟩
  cases List.mem_singleton.1 hD
  exact ⟨0, RootN.replicate_root hr⟩

/-! ## The queue -/

theorem push_some {cap v : Nat} {q q' : List Nat × Nat} (h : push cap q v = some q') : q' = (q.1 ++ [v], q.2 + 1) := by
  unfold push at h
  split at h
  · exact (Option.some.inj h).symm
  · cases h

theorem bfsRoot_some {cap : Nat} : ∀ {ts : List Nat} {q q' : List Nat × Nat}, bfsRoot cap root ts q = some q' →
    q' = (q.1 ++ ts.filter (· ≠ root), q.2 + (ts.filter (· ≠ root)).length) := by
  intro ts
  induction ts with
  | nil => intro q q' h; cases h; simp
  | cons t ts ih =>
    intro q q' h
    unfold bfsRoot at h
    by_cases ht : t = root
    · rw [if_neg (not_not_intro ht)] at h
      rw [ih h, List.filter_cons_of_neg (by simpa using ht)]
    · rw [if_pos ht, Option.bind_eq_some_iff] at h
      obtain ⟨q1, h1, h2⟩ := h
      rw [ih h2, push_some h1, List.filter_cons_of_pos (by simpa using ht)]
      simp only [List.append_assoc, List.singleton_append, List.length_cons]
      congr 1
      omega

theorem bfsRoot_total {cap : Nat} : ∀ {ts : List Nat} {q : List Nat × Nat}, q.2 + (ts.filter (· ≠ root)).length ≤ cap → ∃ q', bfsRoot cap root ts q = some q' := by
  intro ts
  induction ts with
  | nil => intro q _; exact ⟨q, rfl⟩
  | cons t ts ih =>
    intro q h
    unfold bfsRoot
    by_cases ht : t = root
    · rw [List.filter_cons_of_neg (by simpa using ht)] at h
      rw [if_neg (not_not_intro ht)]
      exact ih h
    · rw [List.filter_cons_of_pos (by simpa using ht), List.length_cons] at h
      rw [if_pos ht, push, if_pos (by omega)]
      exact ih (q := (q.1 ++ [t], q.2 + 1)) (by simp only; omega)

theorem bfsEdges_some {cap N : Nat} {D : List Nat} : ∀ {ts : List Nat} {s s' : DSet} {q q' : List Nat × Nat}, Marked s root N D → (∀ t ∈ ts, t < N) →
    bfsEdges cap root ts s q = some (s', q') →
    Marked s' root N D ∧ q' = (q.1 ++ ts.filter (· ∉ D), q.2 + (ts.filter (· ∉ D)).length) := by
  intro ts
  induction ts with
  | nil => intro s s' q q' hm _ h; cases h; exact ⟨hm, by simp⟩
  | cons t ts ih =>
    intro s s' q q' hm hN h
    unfold bfsEdges at h
    obtain ⟨r, s1, e1, e2, e3⟩ := hm.find (hN t List.mem_cons_self)
    have hN' : ∀ t ∈ ts, t < N := fun t ht => hN t (List.mem_cons_of_mem _ ht)
    rw [e1, Option.bind_some] at h
    by_cases ht : t ∈ D
    · simp only [if_neg (not_not_intro (e2.2 ht))] at h
      rw [List.filter_cons_of_neg (by simpa using ht)]
      exact ih e3 hN' h
    · simp only [if_pos fun e => ht (e2.1 e)] at h
      rw [Option.bind_eq_some_iff] at h
      obtain ⟨q1, h1, h2⟩ := h
      obtain ⟨g1, g2⟩ := ih e3 hN' h2
      refine ⟨g1, ?_⟩
      rw [g2, push_some h1, List.filter_cons_of_pos (by simpa using ht)]
      simp only [List.append_assoc, List.singleton_append, List.length_cons]
      congr 1
      omega

theorem bfsEdges_total {cap N : Nat} {D : List Nat} : ∀ {ts : List Nat} {s : DSet} {q : List Nat × Nat}, Marked s root N D → (∀ t ∈ ts, t < N) →
    q.2 + (ts.filter (· ∉ D)).length ≤ cap → ∃ s' q', bfsEdges cap root ts s q = some (s', q') := by
  intro ts
  induction ts with
  | nil => intro s q hm _ h; exact ⟨s, q, rfl⟩
  | cons t ts ih =>
    intro s q hm hN h
    unfold bfsEdges
    obtain ⟨r, s1, e1, e2, e3⟩ := hm.find (hN t List.mem_cons_self)
    have hN' : ∀ t ∈ ts, t < N := fun t ht => hN t (List.mem_cons_of_mem _ ht)
    rw [e1, Option.bind_some]
    by_cases ht : t ∈ D
    · simp only [if_neg (not_not_intro (e2.2 ht))]
      rw [List.filter_cons_of_neg (by simpa using ht)] at h
      exact ih e3 hN' h
    · simp only [if_pos fun e => ht (e2.1 e)]
      rw [List.filter_cons_of_pos (by simpa using ht), List.length_cons] at h
      rw [push, if_pos (by omega)]
      exact ih (q := (q.1 ++ [t], q.2 + 1)) e3 hN' (by simp only; omega)

/-! ## The traversal -/

/-- `D` has been visited and `P` is queued, with the length of the walk that led there. -/
structure BI (adj : Nat → List Nat) (root : Nat) (D : List Nat) (P : List (Nat × Nat)) : Prop where
  reach : ∀ v ∈ D, ∃ n, Path adj root n v
  closed : ∀ u ∈ D, ∀ t ∈ adj u, t ∈ D ∨ ∃ l, (t, l) ∈ P ∧ ∀ d, Dist adj root u d → l ≤ d + 1
  path : ∀ p ∈ P, Path adj root p.2 p.1
  mono : P.Pairwise fun p q => p.2 ≤ q.2
  near : ∀ p ∈ P, ∀ q ∈ P, q.2 ≤ p.2 + 1
  rootD : root ∈ D
  nroot : ∀ p ∈ P, p.1 ≠ root

theorem BI.pending {D : List Nat} {P : List (Nat × Nat)} (h : BI adj root D P) : ∀ {e w : Nat}, Dist adj root w e → w ∉ D → ∃ p ∈ P, p.2 ≤ e := by
  intro e
  induction e with
  | zero =>
    intro w hw hD
    cases hw.1
    exact absurd h.rootD hD
  | succ e ih =>
    intro w hw hD
    obtain ⟨u, hu, ht⟩ := hw.pred
    by_cases huD : u ∈ D
    · rcases h.closed u huD w ht with g | ⟨l, g1, g2⟩
      · exact absurd g hD
      · exact ⟨_, g1, g2 _ hu⟩
    · obtain ⟨p, h1, h2⟩ := ih hu huD
      exact ⟨p, h1, by omega⟩

theorem BI.before {D : List Nat} {v l : Nat} {P : List (Nat × Nat)} (h : BI adj root D ((v, l) :: P)) {w e : Nat} (hw : Dist adj root w e) (he : e < l) :
    w ∈ D := by
  refine Decidable.byContradiction fun hD => ?_
  obtain ⟨p, h1, h2⟩ := h.pending hw hD
  have := (List.pairwise_cons.1 h.mono).1
  rcases List.mem_cons.1 h1 with rfl | g
  · simp only at h2; omega
  · have := this p g
    simp only at this
    omega

theorem BI.first {D : List Nat} {v l : Nat} {P : List (Nat × Nat)} (h : BI adj root D ((v, l) :: P)) (hv : v ∉ D) : Dist adj root v l := by
  have hp := h.path (v, l) List.mem_cons_self
  obtain ⟨d, h1, h2⟩ := Path.dist hp
  rcases Nat.lt_or_ge d l with g | g
  · exact absurd (h.before h2 g) hv
  · have : d = l := by simp only at h1; omega
    exact this ▸ h2

theorem BI.start : BI adj root [root] (((adj root).filter (· ≠ root)).map fun t => (t, 1)) := by
  refine ⟨fun v hv => ?_, fun u hu t ht => ?_, fun p hp => ?_, ?_, fun p hp q hq => ?_, by simp, fun p hp => ?_⟩
  · cases List.mem_singleton.1 hv
    exact ⟨0, .nil⟩
  · cases List.mem_singleton.1 hu
    by_cases h : t = root
    · exact .inl (List.mem_singleton.2 h)
    · exact .inr ⟨1, List.mem_map.2 ⟨t, List.mem_filter.2 ⟨ht, by simpa using h⟩, rfl⟩, fun d _ => by omega⟩
  · obtain ⟨t, ht, rfl⟩ := List.mem_map.1 hp
    exact Path.nil.snoc (List.mem_filter.1 ht).1
  · rw [List.pairwise_map]
    exact List.pairwise_of_forall (fun _ _ => Nat.le_refl _)
  · obtain ⟨t, ht, rfl⟩ := List.mem_map.1 hp
    obtain ⟨t, ht, rfl⟩ := List.mem_map.1 hq
    simp
  · obtain ⟨t, ht, rfl⟩ := List.mem_map.1 hp
    simpa using (List.mem_filter.1 ht).2

theorem BI.step {D : List Nat} {v l : Nat} {P : List (Nat × Nat)} (h : BI adj root D ((v, l) :: P)) :
    BI adj root (D ++ [v]) (P ++ ((adj v).filter (· ∉ D ++ [v])).map fun t => (t, l + 1)) := by
  obtain ⟨hm1, hm2⟩ := List.pairwise_cons.1 h.mono
  have hnear : ∀ q ∈ P, q.2 ≤ l + 1 := fun q hq => h.near (v, l) List.mem_cons_self q (List.mem_cons_of_mem _ hq)
  have hnew : ∀ {p}, p ∈ ((adj v).filter (· ∉ D ++ [v])).map (fun t => (t, l + 1)) → p.2 = l + 1 ∧ p.1 ∈ adj v ∧ p.1 ∉ D ++ [v] := by
    intro p hp
    obtain ⟨t, ht, rfl⟩ := List.mem_map.1 hp
    exact ⟨rfl, (List.mem_filter.1 ht).1, by simpa using (List.mem_filter.1 ht).2⟩
  refine ⟨fun u hu => ?_, fun u hu t ht => ?_, fun p hp => ?_, ?_, fun p hp q hq => ?_, List.mem_append_left _ h.rootD, fun p hp => ?_⟩
  · rcases List.mem_append.1 hu with g | g
    · exact h.reach u g
    · cases List.mem_singleton.1 g
      exact ⟨l, h.path _ List.mem_cons_self⟩
  · by_cases htD : t ∈ D ++ [v]
    · exact .inl htD
    · right
      have old : u ∈ D → ∃ k, (t, k) ∈ P ++ ((adj v).filter (· ∉ D ++ [v])).map (fun t => (t, l + 1)) ∧ ∀ d, Dist adj root u d → k ≤ d + 1 := by
        intro g
        rcases h.closed u g t ht with g' | ⟨k, g1, g2⟩
        · exact absurd (List.mem_append_left _ g') htD
        · rcases List.mem_cons.1 g1 with e | e
          · exact absurd (List.mem_append_right _ (by simp [(Prod.mk.inj e).1])) htD
          · exact ⟨k, List.mem_append_left _ e, g2⟩
      by_cases huD : u ∈ D
      · exact old huD
      · rcases List.mem_append.1 hu with g | g
        · exact absurd g huD
        · cases List.mem_singleton.1 g
          refine ⟨l + 1, List.mem_append_right _ (List.mem_map.2 ⟨t, List.mem_filter.2 ⟨ht, by simpa using htD⟩, rfl⟩), fun d hd => ?_⟩
          rw [hd.unique (h.first huD)]
          exact Nat.le_refl _
  · rcases List.mem_append.1 hp with g | g
    · exact h.path p (List.mem_cons_of_mem _ g)
    · obtain ⟨g1, g2, _⟩ := hnew g
      rw [g1]
      exact (h.path (v, l) List.mem_cons_self).snoc g2
  · rw [List.pairwise_append]
    refine ⟨hm2, ?_, fun p hp q hq => ?_⟩
    · rw [List.pairwise_map]
      exact List.pairwise_of_forall (fun _ _ => Nat.le_refl _)
    · rw [(hnew hq).1]
      exact hnear p hp
  · have h1 : l ≤ p.2 := by
      rcases List.mem_append.1 hp with g | g
      · exact hm1 p g
      · rw [(hnew g).1]; omega
    have h2 : q.2 ≤ l + 1 := by
      rcases List.mem_append.1 hq with g | g
      · exact hnear q g
      · rw [(hnew g).1]; omega
    omega
  · rcases List.mem_append.1 hp with g | g
    · exact h.nroot p (List.mem_cons_of_mem _ g)
    · exact fun e => (hnew g).2.2 (e ▸ List.mem_append_left _ h.rootD)

/-- What is guaranteed about the calls of the action. -/
structure Good (adj : Nat → List Nat) (root : Nat) (stop : Nat → Bool) (vis : List Nat) : Prop where
  reach : ∀ v ∈ vis, ∃ n, Path adj root n v
  order : ∀ (i v : Nat), vis[i]? = some v → v ∉ vis.take i → ∀ d w e, Dist adj root v d → Dist adj root w e → e < d → w ∈ vis.take i
  stop : ∀ (i v : Nat), vis[i]? = some v → stop v = true → i + 1 = vis.length

theorem Good.snoc {stop : Nat → Bool} {D : List Nat} {v l : Nat} {P : List (Nat × Nat)} (g : Good adj root stop D) (hs : ∀ u ∈ D, stop u = false)
    (h : BI adj root D ((v, l) :: P)) : Good adj root stop (D ++ [v]) := by
  refine ⟨fun u hu => ?_, fun i u hu hn d w e hd he hlt => ?_, fun i u hu hst => ?_⟩
  · rcases List.mem_append.1 hu with g' | g'
    · exact g.reach u g'
    · cases List.mem_singleton.1 g'
      exact ⟨l, h.path _ List.mem_cons_self⟩
  · rcases Nat.lt_trichotomy i D.length with g' | g' | g'
    · rw [List.getElem?_append_left g'] at hu
      rw [List.take_append_of_le_length (by omega)] at hn ⊢
      exact g.order i u hu hn d w e hd he hlt
    · subst g'
      rw [List.getElem?_concat_length] at hu
      cases hu
      rw [List.take_left'  rfl] at hn ⊢
      have := hd.unique (h.first hn)
      exact h.before he (by omega)
    · rw [List.getElem?_eq_none (by rw [List.length_append, List.length_singleton]; omega)] at hu
      cases hu
  · rcases Nat.lt_trichotomy i D.length with g' | g' | g'
    · rw [List.getElem?_append_left g'] at hu
      rw [hs u (List.mem_of_getElem? hu)] at hst
      cases hst
    · rw [g', List.length_append, List.length_singleton]
    · rw [List.getElem?_eq_none (by rw [List.length_append, List.length_singleton]; omega)] at hu
      cases hu

theorem bfsLoop_good {stop : Nat → Bool} {cap N : Nat} (hN : ∀ u, (∃ n, Path adj root n u) → u < N) :
    ∀ {fuel : Nat} {s : DSet} {P : List (Nat × Nat)} {l : Nat} {D out : List Nat}, Marked s root N D → BI adj root D P → Good adj root stop D →
    (∀ u ∈ D, stop u = false) → bfsLoop adj stop cap root fuel s (P.map (·.1), l) D = some out →
    Good adj root stop out ∧ D <+: out ∧ ((∀ v ∈ out, stop v = false) → ∀ v, (∃ n, Path adj root n v) → v ∈ out) := by
  intro fuel
  induction fuel with
  | zero => intro s P l D out _ _ _ _ h; cases h
  | succ k ih =>
    intro s P l D out hm hb hg hs h
    cases P with
    | nil =>
      cases h
      refine ⟨hg, List.prefix_refl _, fun _ v ⟨n, hv⟩ => ?_⟩
      refine Decidable.byContradiction fun hD => ?_
      obtain ⟨d, _, hd⟩ := hv.dist
      obtain ⟨p, hp, _⟩ := hb.pending hd hD
      cases hp
    | cons p P =>
      obtain ⟨v, lv⟩ := p
      simp only [List.map_cons, bfsLoop] at h
      have hg' := hg.snoc hs hb
      by_cases hst : stop v = true
      · rw [if_pos hst] at h
        cases h
        refine ⟨hg', List.prefix_append _ _, fun hns => ?_⟩
        rw [hns v (by simp)] at hst
        cases hst
      · rw [if_neg hst] at h
        have hvN : v < N := hN v ⟨_, hb.path _ List.mem_cons_self⟩
        obtain ⟨b, s1, e1, hm1⟩ := hm.union hvN (hb.nroot _ List.mem_cons_self)
        rw [e1, Option.bind_some, Option.bind_eq_some_iff] at h
        obtain ⟨⟨s2, q⟩, e2, e3⟩ := h
        have hadj : ∀ t ∈ adj v, t < N := fun t ht => hN t ⟨_, (hb.path (v, lv) List.mem_cons_self).snoc ht⟩
        obtain ⟨hm2, rfl⟩ := bfsEdges_some hm1 hadj e2
        have hb' := hb.step
        have hs' : ∀ u ∈ D ++ [v], stop u = false := by
          intro u hu
          rcases List.mem_append.1 hu with g | g
          · exact hs u g
          · cases List.mem_singleton.1 g
            simpa using hst
        have := ih (P := P ++ ((adj v).filter (· ∉ D ++ [v])).map fun t => (t, lv + 1)) hm2 hb' hg' hs' (by
          simpa [List.map_append, List.map_map, Function.comp_def] using e3)
        exact ⟨this.1, List.IsPrefix.trans (List.prefix_append _ _) this.2.1, this.2.2⟩

/-- **C65** (whenever the traversal returns, that is, does not overrun its queue): the action is called on the root first and then only on reachable nodes; when a
node is called for the first time, every node that is nearer has been called before, so first calls come in non-decreasing distance; it stops at the first call
that asks for it; and if none does, every reachable node is called. What is missing from the full claim: a node can be called several times, and the queue can
overflow (`C65_twice_counterexample`, `C65_overflow_counterexample`); see `C65_once_partial` for when not. -/
theorem C65_visits_partial (adj : Nat → List Nat) (stop : Nat → Bool) (capacity cap root : Nat) (hN : ∀ u, (∃ n, Path adj root n u) → u < capacity)
    {vis : List Nat} (h : bfs adj stop capacity cap root = some vis) :
    vis.head? = some root ∧ (∀ v ∈ vis, ∃ n, Path adj root n v) ∧
    (∀ (i v : Nat), vis[i]? = some v → v ∉ vis.take i → ∀ d w e, Dist adj root v d → Dist adj root w e → e < d → w ∈ vis.take i) ∧
    (∀ (i v : Nat), vis[i]? = some v → stop v = true → i + 1 = vis.length) ∧
    ((∀ v ∈ vis, stop v = false) → ∀ v, (∃ n, Path adj root n v) → v ∈ vis) := by
  have hroot : Good adj root stop [root] := by
    refine ⟨fun v hv => ?_, fun i v hv _ d w e hd _ hlt => ?_, fun i v hv _ => ?_⟩
    · cases List.mem_singleton.1 hv
      exact ⟨0, .nil⟩
    · cases List.mem_singleton.1 (List.mem_of_getElem? hv)
      have := hd.le .nil
      omega
    · have := (List.getElem?_eq_some_iff.1 hv).1
      simp only [List.length_singleton] at this ⊢
      omega
  unfold bfs at h
  by_cases hst : stop root = true
  · rw [if_pos hst] at h
    cases h
    refine ⟨rfl, hroot.reach, hroot.order, hroot.stop, fun g => ?_⟩
    rw [g root (by simp)] at hst
    cases hst
  · rw [if_neg hst, Option.bind_eq_some_iff] at h
    obtain ⟨q, h1, h2⟩ := h
    have hs : ∀ u ∈ [root], stop u = false := by simpa using hst
    rw [bfsRoot_some h1] at h2
    obtain ⟨g1, g2, g3⟩ := bfsLoop_good hN (P := ((adj root).filter (· ≠ root)).map fun t => (t, 1)) (.reset (hN root ⟨0, .nil⟩)) .start hroot hs (by
      simpa [List.map_map, Function.comp_def] using h2)
    obtain ⟨r, rfl⟩ := g2
    exact ⟨rfl, g1.reach, g1.order, g1.stop, g3⟩

/-- No node other than the root is entered by two edges from nodes at its own distance or nearer (parallel edges counted). -/
structure Single (adj : Nat → List Nat) (root : Nat) : Prop where
  parallel : ∀ u t d e, t ≠ root → Dist adj root u d → Dist adj root t e → d ≤ e → (adj u).count t ≤ 1
  parent : ∀ u u' t d d' e, t ≠ root → Dist adj root u d → Dist adj root u' d' → Dist adj root t e → d ≤ e → d' ≤ e → t ∈ adj u → t ∈ adj u' → u = u'

/-- The extra invariant for such graphs. -/
structure BO (adj : Nat → List Nat) (root : Nat) (D : List Nat) (P : List (Nat × Nat)) : Prop where
  nodup : (D ++ P.map (·.1)).Nodup
  parent : ∀ p ∈ P, ∃ u ∈ D, ∃ d, Dist adj root u d ∧ p.2 = d + 1 ∧ p.1 ∈ adj u

theorem BO.start (hs : Single adj root) : BO adj root [root] (((adj root).filter (· ≠ root)).map fun t => (t, 1)) := by
  have h0 : Dist adj root root 0 := ⟨.nil, fun m hm => absurd hm (Nat.not_lt_zero m)⟩
  constructor
  · rw [List.map_map, List.singleton_append, List.nodup_cons]
    simp only [Function.comp_def, List.map_id']
    refine ⟨fun h => by simpa using (List.mem_filter.1 h).2, List.nodup_iff_count.2 fun t => ?_⟩
    by_cases ht : t ∈ (adj root).filter (· ≠ root)
    · obtain ⟨h1, h2⟩ := List.mem_filter.1 ht
      have h2 : t ≠ root := by simpa using h2
      obtain ⟨e, _, he⟩ := (Path.nil.snoc h1).dist
      rw [List.count_filter (by simpa using h2)]
      exact hs.parallel root t 0 e h2 h0 he (Nat.zero_le _)
    · rw [List.count_eq_zero.2 ht]
      omega
  · intro p hp
    obtain ⟨t, ht, rfl⟩ := List.mem_map.1 hp
    exact ⟨root, by simp, 0, h0, rfl, (List.mem_filter.1 ht).1⟩

theorem BO.step (hs : Single adj root) {D : List Nat} {v l : Nat} {P : List (Nat × Nat)} (h : BI adj root D ((v, l) :: P)) (ho : BO adj root D ((v, l) :: P)) :
    BO adj root (D ++ [v]) (P ++ ((adj v).filter (· ∉ D ++ [v])).map fun t => (t, l + 1)) := by
  have hn := ho.nodup
  rw [List.map_cons, List.nodup_append] at hn
  obtain ⟨n1, n2, n3⟩ := hn
  obtain ⟨n4, n5⟩ := List.nodup_cons.1 n2
  have hvD : v ∉ D := fun g => n3 v g v List.mem_cons_self rfl
  have hd := h.first hvD
  have hb' := h.step
  have far : ∀ t, t ∈ adj v → t ∉ D ++ [v] → ∃ e, Dist adj root t e ∧ l ≤ e := by
    intro t ht hD
    obtain ⟨e, _, he⟩ := (hd.1.snoc ht).dist
    refine ⟨e, he, Nat.not_lt.1 fun g => hD (List.mem_append_left _ (h.before he g))⟩
  have nr : ∀ t, t ∉ D ++ [v] → t ≠ root := fun t hD e => hD (e ▸ List.mem_append_left _ h.rootD)
  constructor
  · rw [List.map_append, List.map_map]
    simp only [Function.comp_def, List.map_id']
    rw [← List.append_assoc, List.nodup_append]
    refine ⟨?_, List.nodup_iff_count.2 fun t => ?_, fun a ha b hb e => ?_⟩
    · have := ho.nodup
      rwa [List.map_cons, ← List.singleton_append, ← List.append_assoc] at this
    · by_cases ht : t ∈ (adj v).filter (· ∉ D ++ [v])
      · obtain ⟨h1, h2⟩ := List.mem_filter.1 ht
        have h3 : t ∉ D ++ [v] := by simpa using h2
        obtain ⟨e, he, hle⟩ := far t h1 h3
        rw [List.count_filter (p := fun x => decide (x ∉ D ++ [v])) h2]
        exact hs.parallel v t l e (nr t h3) hd he hle
      · rw [List.count_eq_zero.2 ht]
        omega
    · subst e
      obtain ⟨h1, h2⟩ := List.mem_filter.1 hb
      have h3 : a ∉ D ++ [v] := by simpa using h2
      rcases List.mem_append.1 ha with g | g
      · exact h3 g
      · obtain ⟨p, hp, rfl⟩ := List.mem_map.1 g
        obtain ⟨u, hu, d, hud, hpd, hpu⟩ := ho.parent p (List.mem_cons_of_mem _ hp)
        obtain ⟨e, he, hle⟩ := far _ h1 h3
        have := h.near (v, l) List.mem_cons_self p (List.mem_cons_of_mem _ hp)
        simp only at this
        have := hs.parent u v p.1 d l e (nr _ h3) hud hd he (by omega) hle hpu h1
        exact hvD (this ▸ hu)
  · intro p hp
    rcases List.mem_append.1 hp with g | g
    · obtain ⟨u, hu, g'⟩ := ho.parent p (List.mem_cons_of_mem _ g)
      exact ⟨u, List.mem_append_left _ hu, g'⟩
    · obtain ⟨t, ht, rfl⟩ := List.mem_map.1 g
      exact ⟨v, by simp, l, hd, rfl, (List.mem_filter.1 ht).1⟩

theorem bfsLoop_once (hsg : Single adj root) {stop : Nat → Bool} {nodes : List Nat} {N : Nat} (hnodes : ∀ u, (∃ n, Path adj root n u) → u ∈ nodes)
    (hN : ∀ u ∈ nodes, u < N) :
    ∀ {fuel : Nat} {s : DSet} {P : List (Nat × Nat)} {l : Nat} {D : List Nat}, Marked s root N D → BI adj root D P → BO adj root D P →
    l + 1 = D.length + P.length → fuel + D.length = nodes.length + 2 →
    ∃ out, bfsLoop adj stop nodes.length root fuel s (P.map (·.1), l) D = some out ∧ out.Nodup := by
  have room : ∀ {P : List (Nat × Nat)} {D : List Nat}, BI adj root D P → BO adj root D P → D.length + P.length ≤ nodes.length := by
    intro P D hb ho
    have := ho.nodup.length_le_of_subset (l₂ := nodes) fun x hx => by
      rcases List.mem_append.1 hx with g | g
      · exact hnodes x (hb.reach x g)
      · obtain ⟨p, hp, rfl⟩ := List.mem_map.1 g
        exact hnodes _ ⟨_, hb.path p hp⟩
    simpa using this
  intro fuel
  induction fuel with
  | zero =>
    intro s P l D hm hb ho hl hf
    have := room hb ho
    omega
  | succ k ih =>
    intro s P l D hm hb ho hl hf
    cases P with
    | nil => exact ⟨D, rfl, by simpa using ho.nodup⟩
    | cons p P =>
      obtain ⟨v, lv⟩ := p
      have ho' := BO.step hsg hb ho
      have hb' := hb.step
      simp only [List.map_cons, bfsLoop]
      by_cases hst : stop v = true
      · rw [if_pos hst]
        exact ⟨_, rfl, (List.nodup_append.1 ho'.nodup).1⟩
      · rw [if_neg hst]
        have hvN : v < N := hN v (hnodes v ⟨_, hb.path _ List.mem_cons_self⟩)
        obtain ⟨b, s1, e1, hm1⟩ := hm.union hvN (hb.nroot _ List.mem_cons_self)
        have hadj : ∀ t ∈ adj v, t < N := fun t ht => hN t (hnodes t ⟨_, (hb.path (v, lv) List.mem_cons_self).snoc ht⟩)
        have hr := room hb' ho'
        simp only [List.length_append, List.length_map, List.length_singleton, List.length_cons] at hr hl
        obtain ⟨s2, q, e2⟩ := bfsEdges_total (cap := nodes.length) (q := (P.map (·.1), l)) hm1 hadj (by simp only; omega)
        obtain ⟨hm2, rfl⟩ := bfsEdges_some hm1 hadj e2
        obtain ⟨out, g1, g2⟩ := ih (P := P ++ ((adj v).filter (· ∉ D ++ [v])).map fun t => (t, lv + 1))
          (l := l + ((adj v).filter (· ∉ D ++ [v])).length) hm2 hb' ho' (by simp only [List.length_append, List.length_map, List.length_singleton]; omega)
          (by simp only [List.length_append, List.length_singleton]; omega)
        refine ⟨out, ?_, g2⟩
        rw [e1, Option.bind_some]
        simp only [e2, Option.bind_some]
        simpa [List.map_append, List.map_map, Function.comp_def] using g1

/-- **C65** (exactly once): if no node other than the root is entered by two edges from nodes at its own distance or nearer, then a queue with one entry per node
is enough, the traversal returns, and no node is called twice. (Edges back to nearer nodes, to the root and loops are allowed.) -/
theorem C65_once_partial (adj : Nat → List Nat) (stop : Nat → Bool) (capacity root : Nat) (nodes : List Nat)
    (hnodes : ∀ u, (∃ n, Path adj root n u) → u ∈ nodes) (hN : ∀ u ∈ nodes, u < capacity) (hs : Single adj root) :
    ∃ vis, bfs adj stop capacity nodes.length root = some vis ∧ vis.Nodup := by
  unfold bfs
  by_cases hst : stop root = true
  · rw [if_pos hst]
    exact ⟨_, rfl, by simp⟩
  · rw [if_neg hst]
    have hb := BI.start (adj := adj) (root := root)
    have ho := BO.start hs
    have hlen := ho.nodup.length_le_of_subset (l₂ := nodes) fun x hx => by
      rcases List.mem_append.1 hx with g | g
      · exact hnodes x (hb.reach x g)
      · obtain ⟨p, hp, rfl⟩ := List.mem_map.1 g
        exact hnodes _ ⟨_, hb.path p hp⟩
    simp only [List.length_append, List.length_map, List.length_singleton] at hlen
    obtain ⟨q, hq⟩ := bfsRoot_total (root := root) (cap := nodes.length) (ts := adj root) (q := ([], 0)) (by simp only; omega)
    rw [hq, Option.bind_some, bfsRoot_some hq]
    obtain ⟨out, g1, g2⟩ := bfsLoop_once hs (stop := stop) hnodes hN (fuel := nodes.length + 1) (l := ((adj root).filter (· ≠ root)).length)
      (.reset (hN root (hnodes root ⟨0, .nil⟩))) hb ho (by simp; omega) (by simp)
    refine ⟨out, ?_, g2⟩
    simpa [List.map_map, Function.comp_def] using g1

/-- In 0 → 1, 0 → 2, 1 → 3, 2 → 3 the action is called on node 3 twice: nodes are marked when they leave the queue, not when they enter it. -/
theorem C65_twice_counterexample :
    bfs (fun v => match v with | 0 => [1, 2] | 1 => [3] | 2 => [3] | _ => []) (fun _ => false) 4 4 0 = some [0, 1, 2, 3, 3] := by
  decide

/-- In 0 → 1, 0 → 2, 1 → 2, 1 → 3, 2 → 3 (four nodes) it writes a fifth entry into the queue of four: 1, 2, 2, 3, 3. -/
theorem C65_overflow_counterexample :
    bfs (fun v => match v with | 0 => [1, 2] | 1 => [2, 3] | 2 => [3] | _ => []) (fun _ => false) 4 4 0 = none ∧
    bfs (fun v => match v with | 0 => [1, 2] | 1 => [2, 3] | 2 => [3] | _ => []) (fun _ => false) 4 8 0 = some [0, 1, 2, 2, 3, 3, 3] := by
  decide

/-- Calls after the first one break the order of distances: node 2, next to the root, is called again after node 3, which is further away. -/
theorem C65_order_counterexample :
    bfs (fun v => match v with | 0 => [1, 2] | 1 => [3, 2] | _ => []) (fun _ => false) 4 4 0 = some [0, 1, 2, 3, 2] := by
  decide

/-- 0 → 1 → 2, a loop at 0, and edges back from 2 to 0 and 1. -/
def exAdj (v : Nat) : List Nat := match v with | 0 => [1, 0] | 1 => [2] | 2 => [0, 1] | _ => []

/-- It meets the conditions of `C65_once_partial`, and is traversed in order. -/
example : (∀ u, (∃ n, Path exAdj 0 n u) → u ∈ [0, 1, 2]) ∧ Single exAdj 0 ∧ bfs exAdj (fun _ => false) 3 3 0 = some [0, 1, 2] := by
  have m : ∀ u t, t ∈ exAdj u → (u = 0 ∧ (t = 1 ∨ t = 0)) ∨ (u = 1 ∧ t = 2) ∨ (u = 2 ∧ (t = 0 ∨ t = 1)) := by
    intro u t h
    unfold exAdj at h
    split at h <;> simp_all
  have d1 : ∀ e, Dist exAdj 0 1 e → e ≤ 1 := fun e h => h.le (Path.nil.snoc (by decide))
  have d2 : ∀ d, Dist exAdj 0 2 d → 2 ≤ d := by
    intro d h
    obtain ⟨h, _⟩ := h
    cases h with
    | snoc h ht =>
      rcases m _ _ ht with g | ⟨rfl, _⟩ | g
      · omega
      · cases h with
        | snoc => omega
      · omega
  refine ⟨fun u ⟨n, h⟩ => ?_, ⟨fun u t d e _ _ _ _ => ?_, fun u u' t d d' e ht hd hd' he h1 h2 hu hu' => ?_⟩, by decide⟩
  · cases h with
    | nil => simp
    | snoc _ ht => rcases m _ _ ht with g | g | g <;> simp <;> omega
  · unfold exAdj
    split <;> simp [List.count_cons] <;> split <;> (try split) <;> omega
  · rcases m _ _ hu with ⟨rfl, g⟩ | ⟨rfl, g⟩ | ⟨rfl, g⟩ <;> rcases m _ _ hu' with ⟨rfl, g'⟩ | ⟨rfl, g'⟩ | ⟨rfl, g'⟩ <;> try omega
    · have : t = 1 := by omega
      subst this
      have := d1 _ he; have := d2 _ hd'; omega
    · have : t = 1 := by omega
      subst this
      have := d1 _ he; have := d2 _ hd; omega

end Verif.Graph
