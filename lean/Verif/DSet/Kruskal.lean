import Verif.DSet.Props
import Mathlib.Tactic.Tauto

/-!
# C09: `MinSpanningTree` is a minimum spanning forest
-/

namespace Verif.DSet

/-- The end points of an edge. -/
def Edge.ends (e : Edge) : Nat × Nat := (e.u, e.v)

/-- Total weight of a list of edges. -/
def weight (l : List Edge) : Int := (l.map (·.w)).sum

/-! ### the exchange property of connectivity -/

theorem Conn.exchange {S : List (Nat × Nat)} {e b : Nat × Nat} (h1 : ¬ Conn S e.1 e.2) (h2 : Conn (b :: S) e.1 e.2) :
    Conn (e :: S) b.1 b.2 := by
  obtain ⟨e1, e2⟩ := e
  obtain ⟨b1, b2⟩ := b
  rw [Conn.cons_iff] at h2 ⊢
  rcases h2 with h | ⟨h, g⟩ | ⟨h, g⟩
  · exact absurd h h1
  · exact .inr (.inl ⟨h.symm, g.symm⟩)
  · exact .inr (.inr ⟨g, h⟩)

theorem Conn.lift {A B : List (Nat × Nat)} (h : ∀ e ∈ A, Conn B e.1 e.2) {x y : Nat} (hc : Conn A x y) : Conn B x y := by
  induction hc with
  | refl => exact .refl _
  | edge he => exact h _ he
  | symm _ ih => exact ih.symm
  | trans _ _ ih1 ih2 => exact ih1.trans ih2

/-- If `e` is not connected by `A` but is by `A ++ B`, some element of `B` is the one that connects it. -/
theorem Conn.pivot {A : List (Nat × Nat)} {e : Nat × Nat} : ∀ (B : List (Nat × Nat)), ¬ Conn A e.1 e.2 → Conn (A ++ B) e.1 e.2 →
    ∃ P b Q, B = P ++ b :: Q ∧ ¬ Conn (A ++ P) e.1 e.2 ∧ Conn (A ++ P ++ [b]) e.1 e.2
  | [], h1, h2 => absurd (by simpa using h2) h1
  | b :: B, h1, h2 => by
    by_cases h : Conn (A ++ [b]) e.1 e.2
    · exact ⟨[], b, B, rfl, by simpa using h1, by simpa using h⟩
    · obtain ⟨P, b', Q, e1, e2, e3⟩ := Conn.pivot (A := A ++ [b]) B h (by simpa using h2)
      exact ⟨b :: P, b', Q, by simp [e1], by simpa using e2, by simpa using e3⟩

/-- Acyclic in the one-at-a-time sense: each edge is independent of the ones after it in the list. -/
def Indep : List (Nat × Nat) → Prop
  | [] => True
  | e :: l => ¬ Conn l e.1 e.2 ∧ Indep l

theorem Conn.mem_congr {A B : List (Nat × Nat)} (h : ∀ e, e ∈ A → e ∈ B) {x y : Nat} : Conn A x y → Conn B x y :=
  Conn.mono h

/-- Steinitz exchange: an independent list whose edges are spanned by `B` is no longer than `B`. -/
theorem Indep.steinitz {B : List (Nat × Nat)} : ∀ (A : List (Nat × Nat)), Indep A → (∀ e ∈ A, Conn B e.1 e.2) →
    ∃ B' : List (Nat × Nat), B'.length + A.length = B.length ∧ ∀ b ∈ B, Conn (A ++ B') b.1 b.2
  | [], _, _ => ⟨B, by simp, fun b hb => .edge (by simpa using hb)⟩
  | e :: A, hI, hs => by
    obtain ⟨B', h1, h2⟩ := Indep.steinitz A hI.2 (fun e he => hs e (List.mem_cons_of_mem _ he))
    have he : Conn (A ++ B') e.1 e.2 := (hs e (by simp)).lift h2
    obtain ⟨P, b, Q, rfl, g1, g2⟩ := Conn.pivot B' hI.1 he
    refine ⟨P ++ Q, by simp at h1 ⊢; omega, ?_⟩
    have g3 : Conn (e :: (A ++ P)) b.1 b.2 := Conn.exchange g1 (g2.mem_congr (by
      intro x hx; simp at hx ⊢; tauto))
    intro c hc
    refine (h2 c hc).lift ?_
    intro d hd
    by_cases hdb : d = b
    · subst hdb
      exact g3.mem_congr (by intro x hx; simp at hx ⊢; tauto)
    · refine .edge ?_
      simp at hd ⊢; tauto

theorem Indep.length_le {A B : List (Nat × Nat)} (h : Indep A) (hs : ∀ e ∈ A, Conn B e.1 e.2) : A.length ≤ B.length := by
  obtain ⟨B', h1, _⟩ := h.steinitz A hs
  omega

theorem Acyclic.indep : ∀ {A : List (Nat × Nat)}, Acyclic A → Indep A
  | [], _ => trivial
  | e :: A, h => by
    refine ⟨by simpa using h [] e A rfl, Acyclic.indep (A := A) ?_⟩
    intro l1 x l2 he hc
    exact h (e :: l1) x l2 (by simp [he]) (hc.mem_congr (by intro y hy; simp at hy ⊢; tauto))

theorem Indep.acyclic {A : List (Nat × Nat)} (h : Indep A) : Acyclic A := by
  intro l1 e l2 he hc
  subst he
  -- l1 ++ e :: l2 would be spanned by the shorter l1 ++ l2
  have := h.length_le (B := l1 ++ l2) (by
    intro x hx
    by_cases hxe : x = e
    · subst hxe; exact hc
    · exact .edge (by simp at hx ⊢; tauto))
  simp at this
  omega

theorem Acyclic.perm {A B : List (Nat × Nat)} (h : A.Perm B) (hA : Acyclic A) : Acyclic B := by
  intro l1 e l2 he hc
  have hp : A.Perm (e :: (l1 ++ l2)) := h.trans (he ▸ List.perm_middle)
  have hm : e ∈ A := hp.mem_iff.2 (by simp)
  obtain ⟨m1, m2, rfl⟩ := List.append_of_mem hm
  have hp2 : (m1 ++ m2).Perm (l1 ++ l2) := (List.perm_cons e).1 ((List.perm_middle).symm.trans hp)
  exact hA m1 e m2 rfl (hc.mem_congr (fun x hx => hp2.mem_iff.2 hx))

theorem Acyclic.sublist {A B : List (Nat × Nat)} (h : A.Sublist B) (hB : Acyclic B) : Acyclic A := by
  refine Indep.acyclic ?_
  have hi := hB.indep
  clear hB
  induction h with
  | slnil => trivial
  | cons a _ ih => exact ih hi.2
  | cons_cons a hs ih => exact ⟨fun hc => hi.1 (hc.mono hs.subset), ih hi.2⟩

/-! ### the loop -/

/-- What the loop has done: the output so far is a sublist of the edges seen, independent, and spans them. -/
structure KInv (seen out : List Edge) : Prop where
  sub : out.Sublist seen
  indep : Indep (out.reverse.map Edge.ends)
  span : ∀ e ∈ seen, Conn (out.map Edge.ends) e.u e.v

theorem KInv.take {seen out : List Edge} {e : Edge} (h : KInv seen out) (hc : ¬ Conn (out.map Edge.ends) e.u e.v) :
    KInv (seen ++ [e]) (out ++ [e]) where
  sub := h.sub.append (List.Sublist.refl _)
  indep := by
    simp only [List.reverse_append, List.reverse_cons, List.reverse_nil, List.nil_append, List.singleton_append, List.map_cons]
    exact ⟨fun g => hc (g.mem_congr (by intro x hx; simpa using hx)), h.indep⟩
  span x hx := by
    rcases List.mem_append.1 hx with hx | hx
    · exact (h.span x hx).mono (by intro y hy; rw [List.map_append]; exact List.mem_append_left _ hy)
    · simp at hx; subst hx; exact .edge (by simp [Edge.ends])

theorem KInv.skip {seen out : List Edge} {e : Edge} (h : KInv seen out) (hc : Conn (out.map Edge.ends) e.u e.v) :
    KInv (seen ++ [e]) out where
  sub := h.sub.trans (List.sublist_append_left _ _)
  indep := h.indep
  span x hx := by
    rcases List.mem_append.1 hx with hx | hx
    · exact h.span x hx
    · simp at hx; subst hx; exact hc

/-- `Taken seen out`: the greedy outcome, edge by edge. -/
inductive Taken : List Edge → List Edge → Prop
  | nil : Taken [] []
  | take {seen out e} : Taken seen out → ¬ Conn (out.map Edge.ends) e.u e.v → Taken (seen ++ [e]) (out ++ [e])
  | skip {seen out e} : Taken seen out → Conn (out.map Edge.ends) e.u e.v → Taken (seen ++ [e]) out

theorem Taken.kinv {seen out : List Edge} (h : Taken seen out) : KInv seen out := by
  induction h with
  | nil => exact ⟨List.Sublist.refl _, trivial, by simp⟩
  | take _ hc ih => exact ih.take hc
  | skip _ hc ih => exact ih.skip hc

theorem mstLoop_spec {n : Nat} : ∀ (es : List Edge) (s : DSet) (us : List (Nat × Nat)) (seen out : List Edge), Reach n s us 0 →
    (∀ x y, Conn us x y ↔ Conn (out.map Edge.ends) x y) → (∀ e ∈ es, e.u < n ∧ e.v < n) → Taken seen out →
    ∃ out' s', mstLoop es s out = some (out', s') ∧ Taken (seen ++ es) out'
  | [], s, us, seen, out, _, _, _, h => ⟨out, s, rfl, by simpa using h⟩
  | e :: es, s, us, seen, out, hr, hconn, hes, h => by
    have hb := hes e (by simp)
    obtain ⟨a, s1, b, s2, f1, f2, f3⟩ := C07_find_iff_connected hr (x := e.u) (y := e.v) hb.1 hb.2
    have r1 := Reach.find hr hb.1 f1
    have r2 := Reach.find r1 hb.2 f2
    simp only [mstLoop, f1, f2, Option.bind_eq_bind, Option.bind_some]
    by_cases hab : a = b
    · rw [if_neg (by simpa using hab)]
      have hc := (hconn _ _).1 (f3.1 hab)
      obtain ⟨o, s', g1, g2⟩ := mstLoop_spec es s2 us (seen ++ [e]) out r2 hconn (fun x hx => hes x (by simp [hx])) (h.skip hc)
      exact ⟨o, s', g1, by simpa using g2⟩
    · rw [if_pos hab]
      have hc : ¬ Conn (out.map Edge.ends) e.u e.v := fun hc => hab (f3.2 ((hconn _ _).2 hc))
      -- both arguments are set names of the right classes
      obtain ⟨a', s1', fa, ca, na, na1, _⟩ := C07_find_is_set_name hr (x := e.u) hb.1
      rw [f1] at fa; simp at fa; obtain ⟨rfl, rfl⟩ := fa
      obtain ⟨b', s2', fb, cb, nb, nb1, _⟩ := C07_find_is_set_name r1 (x := e.v) hb.2
      rw [f2] at fb; simp at fb; obtain ⟨rfl, rfl⟩ := fb
      obtain ⟨ok, s3, u1, u2, _⟩ := C07_union_total r2 hab
      have na2 : isSetName s2 a = true := by
        obtain ⟨hi, hl⟩ := r1.inv
        obtain ⟨k, r, s', _, q2, _, q4⟩ := find_inv hi (by rw [hl]; exact hb.2 : e.v < s1.arr.length)
        rw [f2] at q2; simp at q2; obtain ⟨rfl, rfl⟩ := q2
        unfold isSetName at na1 ⊢
        cases hv : s1.arr[a]? with
        | none => simp [hv] at na1
        | some v =>
          simp [hv] at na1
          rw [(q4.entries a v na1).1 hv]; simp [na1]
      rw [na2, nb1] at u2
      simp at u2; subst u2
      simp only [u1, Option.bind_some]
      have r3 := Reach.united r2 hab u1
      have hconn' : ∀ x y, Conn ((a, b) :: us) x y ↔ Conn ((out ++ [e]).map Edge.ends) x y := by
        intro x y
        have e1 : Conn ((out ++ [e]).map Edge.ends) x y ↔ Conn ((e.u, e.v) :: us) x y := by
          have : Conn ((out ++ [e]).map Edge.ends) x y ↔ Conn ((e.u, e.v) :: out.map Edge.ends) x y :=
            Conn.congr (by intro z; rw [List.map_append, List.mem_append, List.mem_cons]; simp only [List.map_cons, List.map_nil, List.mem_singleton, Edge.ends]; exact Or.comm)
          rw [this, Conn.cons_iff, Conn.cons_iff]
          simp only [hconn]
        rw [e1, Conn.cons_iff, Conn.cons_iff]
        constructor
        · rintro (h | ⟨h1, h2⟩ | ⟨h1, h2⟩)
          · exact .inl h
          · exact .inr (.inl ⟨h1.trans ca.symm, cb.trans h2⟩)
          · exact .inr (.inr ⟨h1.trans cb.symm, ca.trans h2⟩)
        · rintro (h | ⟨h1, h2⟩ | ⟨h1, h2⟩)
          · exact .inl h
          · exact .inr (.inl ⟨h1.trans ca, cb.symm.trans h2⟩)
          · exact .inr (.inr ⟨h1.trans cb, ca.symm.trans h2⟩)
      obtain ⟨o, s', g1, g2⟩ := mstLoop_spec es s3 ((a, b) :: us) (seen ++ [e]) (out ++ [e]) r3 hconn'
        (fun x hx => hes x (by simp [hx])) (h.take hc)
      exact ⟨o, s', g1, by simpa using g2⟩

theorem mst_taken {n : Nat} {edges : List Edge} (hv : ∀ e ∈ edges, e.u < n ∧ e.v < n) :
    ∃ out, minSpanningTree n edges = some out ∧ Taken edges out := by
  obtain ⟨o, s, h1, h2⟩ := mstLoop_spec edges (reset n) [] [] [] Reach.init (by simp) hv .nil
  exact ⟨o, by simp [minSpanningTree, h1], by simpa using h2⟩

/-! ### minimality -/

/-- A greedy run restricted to a prefix: the output chosen up to any output edge spans everything before it. -/
theorem Taken.prefix_span {seen out : List Edge} (h : Taken seen out) : ∀ (o1 : List Edge) (x : Edge) (o2 : List Edge),
    out = o1 ++ x :: o2 → ∃ s1 s2, seen = s1 ++ x :: s2 ∧ ∀ e ∈ s1, Conn (o1.map Edge.ends) e.u e.v := by
  induction h with
  | nil => intro o1 x o2 h; simp at h
  | @take seen out e ht hc ih =>
    intro o1 x o2 h
    rcases List.eq_nil_or_concat o2 with rfl | ⟨o2', y, rfl⟩
    · have := List.append_inj' (show out ++ [e] = o1 ++ [x] from h) rfl
      obtain ⟨rfl, h2⟩ := this
      simp at h2; subst h2
      exact ⟨seen, [], rfl, ht.kinv.span⟩
    · have : out ++ [e] = (o1 ++ x :: o2') ++ [y] := by simpa using h
      obtain ⟨rfl, h2⟩ := List.append_inj' this rfl
      obtain ⟨s1, s2, g1, g2⟩ := ih o1 x o2' rfl
      exact ⟨s1, s2 ++ [e], by simp [g1], g2⟩
  | @skip _ _ e _ _ ih =>
    intro o1 x o2 h
    obtain ⟨s1, s2, g1, g2⟩ := ih o1 x o2 h
    exact ⟨s1, s2 ++ [e], by simp [g1], g2⟩

theorem sum_le_of_pointwise : ∀ (a b : List Edge), a.length = b.length →
    (∀ (i : Nat) (x y : Edge), a[i]? = some x → b[i]? = some y → x.w ≤ y.w) → weight a ≤ weight b
  | [], [], _, _ => Int.le_refl _
  | x :: a, y :: b, hl, h => by
    have h0 := h 0 x y rfl rfl
    have h1 := sum_le_of_pointwise a b (by simpa using hl) (fun i x y hx hy => h (i + 1) x y (by simpa using hx) (by simpa using hy))
    simp only [weight, List.map_cons, List.sum_cons] at h1 ⊢
    omega

theorem weight_perm {a b : List Edge} (h : a.Perm b) : weight a = weight b := by
  induction h with
  | nil => rfl
  | cons x _ ih => simp only [weight, List.map_cons, List.sum_cons] at ih ⊢; omega
  | swap x y l => simp only [weight, List.map_cons, List.sum_cons]; omega
  | trans _ _ ih1 ih2 => omega

theorem Taken.minimal {edges out : List Edge} (h : Taken edges out) (hs : edges.Pairwise (fun a b => a.w ≤ b.w))
    {F : List Edge} (hF : ∀ e ∈ F, e ∈ edges) (hac : Acyclic (F.map Edge.ends))
    (hspan : ∀ x y, Conn (edges.map Edge.ends) x y → Conn (F.map Edge.ends) x y) : weight out ≤ weight F := by
  have hk := h.kinv
  let F' := F.mergeSort (fun a b => decide (a.w ≤ b.w))
  have hp : F'.Perm F := List.mergeSort_perm F _
  have hsort : F'.Pairwise (fun a b => a.w ≤ b.w) := by
    have := List.pairwise_mergeSort (le := fun a b : Edge => decide (a.w ≤ b.w)) (by simp; omega) (by simp; omega) F
    simpa [F'] using this
  rw [← weight_perm hp]
  have hac' : Acyclic (F'.map Edge.ends) := hac.perm (hp.map _).symm
  have hlen : out.length = F'.length := by
    apply Nat.le_antisymm
    · have := hk.indep.length_le (B := F.map Edge.ends) (by
        intro e he
        simp only [List.mem_map, List.mem_reverse] at he
        obtain ⟨x, hx, rfl⟩ := he
        exact hspan _ _ (.edge (List.mem_map.2 ⟨x, hk.sub.subset hx, rfl⟩)))
      rw [hp.length_eq]; simpa using this
    · have := hac'.indep.length_le (B := out.map Edge.ends) (by
        intro e he
        obtain ⟨x, hx, rfl⟩ := List.mem_map.1 he
        exact hk.span x (hF x (hp.mem_iff.1 hx)))
      simpa using this
  refine sum_le_of_pointwise _ _ hlen ?_
  intro i x y hx hy
  refine Decidable.byContradiction fun hlt => ?_
  have hi := (List.getElem?_eq_some_iff.1 hx).1
  have hsplit : out = out.take i ++ x :: out.drop (i + 1) := by
    have hg : out[i] = x := (List.getElem?_eq_some_iff.1 hx).2
    rw [← hg, ← List.drop_eq_getElem_cons hi, List.take_append_drop]
  obtain ⟨s1, s2, g1, g2⟩ := h.prefix_span _ _ _ hsplit
  have hi' := (List.getElem?_eq_some_iff.1 hy).1
  have hle : ∀ z ∈ F'.take (i + 1), z.w ≤ y.w := by
    intro z hz
    obtain ⟨j, hj, rfl⟩ := List.mem_iff_getElem.1 hz
    have hj' : j < i + 1 := by simp at hj; omega
    rw [List.getElem_take]
    have hgy : F'[i] = y := (List.getElem?_eq_some_iff.1 hy).2
    rcases Nat.lt_or_ge j i with hji | hji
    · have := List.pairwise_iff_getElem.1 hsort j i (by omega) hi' hji
      rw [hgy] at this; exact this
    · have : j = i := by omega
      subst this; rw [hgy]; exact Int.le_refl _
  rw [g1, List.pairwise_append, List.pairwise_cons] at hs
  have hsp : ∀ e ∈ (F'.take (i + 1)).map Edge.ends, Conn ((out.take i).map Edge.ends) e.1 e.2 := by
    intro e he
    obtain ⟨z, hz, rfl⟩ := List.mem_map.1 he
    have hw := hle z hz
    have hmem : z ∈ edges := hF z (hp.mem_iff.1 (List.mem_of_mem_take hz))
    rw [g1] at hmem
    rcases List.mem_append.1 hmem with hm | hm
    · exact g2 z hm
    · rcases List.mem_cons.1 hm with rfl | hm
      · omega
      · have := hs.2.1.1 z hm; omega
  have := (hac'.sublist ((List.take_sublist (i + 1) F').map _)).indep.length_le hsp
  simp at this
  omega

/-- C09: for every edge list over `n` vertices sorted by weight, `MinSpanningTree` returns a subset of the edges (in
order, no edge used more often than it was given) which is cycle-free, connects exactly what all the edges connect,
fits the `n - 1` slots the convenience overload allocates, and whose total weight is minimal among all cycle-free
selections from the same edges with that connectivity. -/
theorem C09_kruskal_minimum_forest {n : Nat} {edges : List Edge} (hv : ∀ e ∈ edges, e.u < n ∧ e.v < n)
    (hs : edges.Pairwise (fun a b => a.w ≤ b.w)) :
    ∃ out, minSpanningTree n edges = some out ∧ out.Sublist edges ∧ Acyclic (out.map Edge.ends) ∧
      (∀ x y, Conn (out.map Edge.ends) x y ↔ Conn (edges.map Edge.ends) x y) ∧ out.length ≤ n - 1 ∧
      ∀ F : List Edge, (∀ e ∈ F, e ∈ edges) → Acyclic (F.map Edge.ends) →
        (∀ x y, Conn (F.map Edge.ends) x y ↔ Conn (edges.map Edge.ends) x y) → weight out ≤ weight F := by
  obtain ⟨out, h1, h2⟩ := mst_taken hv
  have hk := h2.kinv
  have hlen : out.length ≤ n - 1 := by
    have := hk.indep.length_le (B := (List.range (n - 1)).map (fun i => (0, i + 1))) (by
      intro e he
      simp only [List.mem_map, List.mem_reverse] at he
      obtain ⟨x, hx, rfl⟩ := he
      have hb := hv x (hk.sub.subset hx)
      have star : ∀ i, i < n → Conn ((List.range (n - 1)).map (fun i => (0, i + 1))) 0 i := by
        intro i hi
        cases i with
        | zero => exact .refl _
        | succ i => exact .edge (List.mem_map.2 ⟨i, List.mem_range.2 (by omega), rfl⟩)
      exact (star _ hb.1).symm.trans (star _ hb.2))
    simpa using this
  refine ⟨out, h1, hk.sub, ?_, ?_, hlen, ?_⟩
  · have : (out.reverse.map Edge.ends).Perm (out.map Edge.ends) := (List.reverse_perm out).map _
    exact hk.indep.acyclic.perm this
  · intro x y
    constructor
    · exact fun hc => hc.mono (hk.sub.map _).subset
    · refine fun hc => hc.lift ?_
      intro e he
      obtain ⟨z, hz, rfl⟩ := List.mem_map.1 he
      exact hk.span z hz
  · intro F hF hac hsp
    exact h2.minimal hs hF hac (fun x y hc => (hsp x y).2 hc)

/-- A triangle with a pendant edge and a parallel edge: the hypotheses hold and the heavy edges are left out. -/
example : let edges : List Edge := [⟨0, 1, 1⟩, ⟨1, 2, 2⟩, ⟨1, 0, 3⟩, ⟨0, 2, 4⟩, ⟨2, 3, 9⟩]
    (∀ e ∈ edges, e.u < 5 ∧ e.v < 5) ∧ edges.Pairwise (fun a b => a.w ≤ b.w) ∧
    minSpanningTree 5 edges = some [⟨0, 1, 1⟩, ⟨1, 2, 2⟩, ⟨2, 3, 9⟩] := by
  refine ⟨by decide, ?_, by decide +kernel⟩
  simp [List.pairwise_cons]

end Verif.DSet
