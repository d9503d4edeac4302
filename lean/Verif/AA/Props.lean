import Verif.AA.Lemmas
import Verif.Common.Run
import Mathlib.Tactic.Tauto

/-!
# C22: the AA tree

The specification is a list, latest insertion first: `Insert` pushes, `Remove` deletes the first (that is, latest
inserted) element equal to its argument.
-/

namespace Verif.AA

variable {α : Type}

/-- The calls of a history. -/
inductive Op (α : Type) where
  | insert (d : α)
  | remove (d : α)
  | get (d : α)
  | clear

/-- The specification's state: the contents, latest first, and whether some `Remove` has met an element not above its
argument. -/
abbrev SState (α : Type) := List α × Bool

/-- What the calls mean.  Not allowed are `Clear` of a tree that is not empty, and a first effective `Remove` below
every element (see the counterexamples). -/
def spec (cmp : α → α → Int) : Op α → SState α → Option (SState α × Bool)
  | .insert d, (s, i) => some ((d :: s, i), true)
  | .remove d, (s, i) =>
    if i = true ∨ s = [] ∨ ∃ x ∈ s, 0 ≤ cmp d x then
      some ((s.eraseP fun x => cmp d x = 0, i || s.any fun x => 0 ≤ cmp d x), s.any fun x => cmp d x = 0)
    else none
  | .get d, (s, i) => some ((s, i), s.any fun x => cmp d x = 0)
  | .clear, (s, i) => if s = [] then some ((s, i), true) else none

/-- The calls on the object; for `Get` the answer is whether a node was found. -/
def exec (cmp : α → α → Int) : Op α → Obj α → Option (Obj α × Bool)
  | .insert d, o => (o.insert cmp d).map fun o => (o, true)
  | .remove d, o => o.remove cmp d
  | .get d, o => (o.get cmp d).map fun r => (o, r.isSome)
  | .clear, o => o.clear.map fun o => (o, true)

/-- The elements equal to `q`. -/
def eqs (cmp : α → α → Int) (q : α) (l : List α) : List α := l.filter fun x => cmp q x = 0

/-- The object stands for the specification's state. -/
structure Rep (cmp : α → α → Int) (s : SState α) (o : Obj α) : Prop where
  live : o.freed = false
  aa : AATree o.root
  asc : Asc cmp (toList o.root)
  eqs : ∀ q, eqs cmp q (toList o.root) = (eqs cmp q s.1).reverse
  init : s.2 = true → o.del ≠ .undef
  del : ∀ x, o.del = .node x → x ∈ toList o.root

section
variable {cmp : α → α → Int} (ho : CmpOrd cmp)
include ho

theorem Rep.mem {s : SState α} {o : Obj α} (h : Rep cmp s o) (x : α) : x ∈ toList o.root ↔ x ∈ s.1 := by
  have e := h.eqs x
  have h1 : x ∈ AA.eqs cmp x (toList o.root) ↔ x ∈ toList o.root := by simp [AA.eqs, ho.refl x]
  have h2 : x ∈ (AA.eqs cmp x s.1).reverse ↔ x ∈ s.1 := by simp [AA.eqs, ho.refl x]
  rw [← h1, e, h2]

theorem eqs_eraseP_same {d q : α} (h : cmp q d = 0) : ∀ s : List α,
    eqs cmp q (s.eraseP fun x => cmp d x = 0) = (eqs cmp q s).tail := by
  have hiff : ∀ x, cmp q x = 0 ↔ cmp d x = 0 := fun x =>
    ⟨fun h1 => ho.eq_trans (ho.swap_eq.1 h) h1, fun h1 => ho.eq_trans h h1⟩
  intro s
  induction s with
  | nil => rfl
  | cons x s ih =>
    by_cases hx : cmp d x = 0
    · rw [List.eraseP_cons_of_pos (by simpa using hx)]
      simp [eqs, (hiff x).2 hx]
    · rw [List.eraseP_cons_of_neg (by simpa using hx)]
      have h3 : ¬ cmp q x = 0 := fun h0 => hx ((hiff x).1 h0)
      unfold eqs at ih ⊢
      rw [List.filter_cons_of_neg (by simpa using h3), List.filter_cons_of_neg (by simpa using h3), ih]

theorem eqs_eraseP_other {d q : α} (h : cmp q d ≠ 0) : ∀ s : List α,
    eqs cmp q (s.eraseP fun x => cmp d x = 0) = eqs cmp q s := by
  intro s
  induction s with
  | nil => rfl
  | cons x s ih =>
    by_cases hx : cmp d x = 0
    · rw [List.eraseP_cons_of_pos (by simpa using hx)]
      have h3 : ¬ cmp q x = 0 := fun h0 => h (ho.eq_trans h0 (ho.swap_eq.1 hx))
      unfold eqs
      rw [List.filter_cons_of_neg (by simpa using h3)]
    · rw [List.eraseP_cons_of_neg (by simpa using hx)]
      unfold eqs at ih ⊢
      by_cases h3 : cmp q x = 0
      · rw [List.filter_cons_of_pos (by simpa using h3), List.filter_cons_of_pos (by simpa using h3), ih]
      · rw [List.filter_cons_of_neg (by simpa using h3), List.filter_cons_of_neg (by simpa using h3), ih]

/-- A sorted list splits at any value. -/
theorem asc_split (d : α) : ∀ L : List α, Asc cmp L →
    ∃ A B, L = A ++ B ∧ (∀ a ∈ A, 0 ≤ cmp d a) ∧ (∀ b ∈ B, cmp d b < 0) := by
  intro L
  induction L with
  | nil => intro _; exact ⟨[], [], rfl, by simp, by simp⟩
  | cons x L ih =>
    intro h
    have h' := List.pairwise_cons.1 h
    by_cases hx : cmp d x < 0
    · refine ⟨[], x :: L, rfl, by simp, ?_⟩
      intro b hb
      rcases List.mem_cons.1 hb with rfl | hb
      · exact hx
      · exact ho.lt_of_lt_of_le hx (h'.1 b hb)
    · obtain ⟨A, B, e1, e2, e3⟩ := ih h'.2
      refine ⟨x :: A, B, by simp [e1], ?_, e3⟩
      intro a ha
      rcases List.mem_cons.1 ha with rfl | ha
      · omega
      · exact e2 a ha

theorem insert_sim {s : SState α} {o : Obj α} (h : Rep cmp s o) (d : α) :
    ∃ o', o.insert cmp d = some o' ∧ Rep cmp (d :: s.1, s.2) o' := by
  obtain ⟨t', e1, e2, _⟩ := insert_aa (cmp := cmp) d o.root h.aa
  obtain ⟨A, B, f1, f2, f3, f4⟩ := insert_toList ho d o.root t' h.asc e1
  refine ⟨{ o with root := t' }, by simp [Obj.insert, h.live, e1], h.live, e2, ?_, ?_, h.init, ?_⟩
  · have := h.asc
    unfold Asc at this ⊢
    rw [f1, List.pairwise_append] at this
    show List.Pairwise _ (toList t')
    rw [f2, List.pairwise_append, List.pairwise_cons]
    refine ⟨this.1, ⟨fun b hb => by have := f4 b hb; omega, this.2.1⟩, ?_⟩
    intro a ha b hb
    rcases List.mem_cons.1 hb with rfl | hb
    · exact ho.swap_le.2 (f3 a ha)
    · exact this.2.2 a ha b hb
  · intro q
    have := h.eqs q
    show eqs cmp q (toList t') = _
    rw [f2]
    rw [f1] at this
    simp only [AA.eqs, List.filter_append] at this ⊢
    by_cases hq : cmp q d = 0
    · have hB : B.filter (fun x => decide (cmp q x = 0)) = [] := by
        rw [List.filter_eq_nil_iff]
        intro b hb h0
        simp only [decide_eq_true_eq] at h0
        have h5 := ho.eq_trans (ho.swap_eq.1 hq) h0
        have := f4 b hb
        omega
      rw [List.filter_cons_of_pos (by simpa using hq), List.filter_cons_of_pos (by simpa using hq), List.reverse_cons, ← this, hB]
      simp
    · rw [List.filter_cons_of_neg (by simpa using hq), List.filter_cons_of_neg (by simpa using hq), this]
  · intro x hx
    show x ∈ toList t'
    have := h.del x hx
    rw [f1] at this
    rw [f2]
    simp at this ⊢
    tauto

theorem remove_sim {s : SState α} {o : Obj α} (h : Rep cmp s o) (d : α)
    (hl : s.2 = true ∨ s.1 = [] ∨ ∃ x ∈ s.1, 0 ≤ cmp d x) :
    ∃ o', o.remove cmp d = some (o', s.1.any fun x => cmp d x = 0) ∧
      Rep cmp (s.1.eraseP fun x => cmp d x = 0, s.2 || s.1.any fun x => 0 ≤ cmp d x) o' := by
  obtain ⟨A, B, f1, f2, f3⟩ := asc_split ho d _ h.asc
  have hmem := h.mem ho
  by_cases hs : o.root = .sent
  · have hnil : s.1 = [] := by
      cases hs1 : s.1 with
      | nil => rfl
      | cons x l =>
        have := (hmem x).2 (by rw [hs1]; simp)
        rw [hs] at this
        simp [toList] at this
    refine ⟨o, ?_, ?_⟩
    · simp only [Obj.remove, h.live, Bool.false_eq_true, if_false, hs, AA.remove, Option.bind_some, Option.isSome_none, hnil, List.any_nil]
      have := h.live
      cases o; simp_all
    · rw [hnil]
      simp only [List.eraseP_nil, List.any_nil, Bool.or_false]
      have := h
      rw [show s = (s.1, s.2) from rfl, hnil] at this
      exact this
  · have hr := remove_spec d o.root o.del A B hs h.aa f1 f2 f3
    simp only [RemSpec] at hr
    cases hA : A.getLast? with
    | some p =>
      rw [hA] at hr
      obtain ⟨A', rfl⟩ : ∃ A', A = A' ++ [p] := List.getLast?_eq_some_iff.1 hA
      have hp : p ∈ s.1 := (hmem p).1 (by rw [f1]; simp)
      have hany : (s.1.any fun x => decide (0 ≤ cmp d x)) = true := by
        rw [List.any_eq_true]
        exact ⟨p, hp, by simpa using f2 p (by simp)⟩
      simp only [List.dropLast_concat] at hr
      by_cases h0 : cmp d p = 0
      · rw [if_pos h0] at hr
        obtain ⟨t', e1, e2, _, e4⟩ := hr
        have hfound : (s.1.any fun x => decide (cmp d x = 0)) = true := by
          rw [List.any_eq_true]
          exact ⟨p, hp, by simpa using h0⟩
        refine ⟨{ o with root := t', del := .sent }, ?_, h.live, e2, ?_, ?_, by simp, by simp⟩
        · simp [Obj.remove, h.live, e1, hfound]
        · have := h.asc
          unfold Asc at this ⊢
          rw [f1, List.pairwise_append, List.pairwise_append] at this
          show List.Pairwise _ (toList t')
          rw [e4, List.pairwise_append]
          exact ⟨this.1.1, this.2.1, fun a ha b hb => this.2.2 a (by simp [ha]) b hb⟩
        · intro q
          have hq := h.eqs q
          show eqs cmp q (toList t') = _
          rw [e4]
          rw [f1] at hq
          by_cases hqd : cmp q d = 0
          · rw [eqs_eraseP_same ho hqd]
            have hB : B.filter (fun x => decide (cmp q x = 0)) = [] := by
              rw [List.filter_eq_nil_iff]
              intro b hb h0
              simp only [decide_eq_true_eq] at h0
              have h5 := ho.eq_trans (ho.swap_eq.1 hqd) h0
              have := f3 b hb
              omega
            have hqp := ho.eq_trans hqd h0
            simp only [AA.eqs, List.filter_append, hB, List.append_nil] at hq ⊢
            rw [List.filter_cons_of_pos (by simpa using hqp), List.filter_nil] at hq
            have := congrArg List.reverse hq
            simp only [List.reverse_append, List.reverse_cons, List.reverse_nil, List.nil_append, List.reverse_reverse, List.singleton_append] at this
            rw [← this]
            simp
          · rw [eqs_eraseP_other ho hqd, ← hq]
            have hqp : ¬ cmp q p = 0 := fun h6 => hqd (ho.eq_trans h6 (ho.swap_eq.1 h0))
            simp only [AA.eqs, List.filter_append]
            rw [List.filter_cons_of_neg (by simpa using hqp)]
            simp
      · rw [if_neg h0] at hr
        have hno : ∀ x ∈ s.1, ¬ cmp d x = 0 := by
          intro x hx h6
          have h7 := (hmem x).2 hx
          rw [f1] at h7
          simp only [List.mem_append, List.mem_singleton] at h7
          rcases h7 with (h7 | rfl) | h7
          · -- `x` is before `p`, so `p` is between
            have := h.asc
            unfold Asc at this
            rw [f1, List.pairwise_append, List.pairwise_append] at this
            have h8 := this.1.2.2 x h7 p (by simp)
            have h9 := ho.trans d x p (by omega) h8
            have := f2 p (by simp)
            omega
          · exact h0 h6
          · have := f3 x h7; omega
        have hfound : (s.1.any fun x => decide (cmp d x = 0)) = false := by
          rw [List.any_eq_false]
          intro x hx
          simpa using hno x hx
        have herase : (s.1.eraseP fun x => decide (cmp d x = 0)) = s.1 := by
          apply List.eraseP_of_forall_not
          intro x hx
          simpa using hno x hx
        refine ⟨{ o with del := .node p }, ?_, h.live, h.aa, h.asc, ?_, by simp, ?_⟩
        · simp [Obj.remove, h.live, hr, hfound]
        · simp only [herase]; exact h.eqs
        · intro x hx
          simp only [Del.node.injEq] at hx
          subst hx
          show p ∈ toList o.root
          rw [f1]; simp
    | none =>
      rw [hA] at hr
      rw [List.getLast?_eq_none_iff] at hA
      subst hA
      simp only [List.nil_append] at f1
      have hno : ∀ x ∈ s.1, cmp d x < 0 := fun x hx => f3 x (f1 ▸ (hmem x).2 hx)
      have hdef : o.del ≠ .undef := by
        rcases hl with hl | hl | ⟨x, hx, hl⟩
        · exact h.init hl
        · cases hB : B with
          | nil =>
            rw [hB] at f1
            cases hroot : o.root with
            | sent => exact absurd hroot hs
            | node lv l x r => rw [hroot] at f1; simp [toList] at f1
          | cons b B' =>
            have := (hmem b).1 (by rw [f1, hB]; simp)
            rw [hl] at this
            simp at this
        · have := hno x hx; omega
      have hhit : hit cmp d o.del = some false := by
        cases hd : o.del with
        | undef => exact absurd hd hdef
        | sent => rfl
        | node y =>
          have := f3 y (f1 ▸ h.del y hd)
          simp only [hit, Option.some.injEq, decide_eq_false_iff_not]
          omega
      rw [hhit] at hr
      have hfound : (s.1.any fun x => decide (cmp d x = 0)) = false := by
        rw [List.any_eq_false]
        intro x hx
        have := hno x hx
        simp only [decide_eq_true_eq]
        omega
      have herase : (s.1.eraseP fun x => decide (cmp d x = 0)) = s.1 := by
        apply List.eraseP_of_forall_not
        intro x hx
        have := hno x hx
        simp only [decide_eq_true_eq]
        omega
      refine ⟨o, ?_, h.live, h.aa, h.asc, ?_, ?_, h.del⟩
      · have : o.remove cmp d = some (o, false) := by
          simp only [Obj.remove, h.live, Bool.false_eq_true, if_false]
          rw [show AA.remove cmp d o.root o.del = _ from hr]
          have := h.live
          cases o; simp_all
        rw [this, hfound]
      · simp only [herase]; exact h.eqs
      · intro _; exact hdef

variable (hsg : ∀ a b, cmp a b = -1 ∨ cmp a b = 0 ∨ cmp a b = 1)
include hsg

theorem get_sim {s : SState α} {o : Obj α} (h : Rep cmp s o) (d : α) :
    (get cmp d o.root).isSome = s.1.any fun x => decide (cmp d x = 0) := by
  obtain ⟨g1, g2⟩ := get_spec ho hsg d o.root h.asc
  cases hg : get cmp d o.root with
  | some x =>
    obtain ⟨h1, h2⟩ := g1 x hg
    symm
    simp only [Option.isSome_some, List.any_eq_true]
    exact ⟨x, (h.mem ho x).1 h1, by simpa using h2⟩
  | none =>
    symm
    simp only [Option.isSome_none, List.any_eq_false]
    intro x hx
    simpa using g2 hg x ((h.mem ho x).2 hx)

theorem exec_sim (op : Op α) (s : SState α) (o : Obj α) (s' : SState α) (r : Bool) (h : Rep cmp s o)
    (hs : spec cmp op s = some (s', r)) : ∃ o', exec cmp op o = some (o', r) ∧ Rep cmp s' o' := by
  obtain ⟨S, i⟩ := s
  cases op with
  | insert d =>
    simp only [spec, Option.some.injEq, Prod.mk.injEq] at hs
    obtain ⟨rfl, rfl⟩ := hs
    obtain ⟨o', e1, e2⟩ := insert_sim ho h d
    exact ⟨o', by simp [exec, e1], e2⟩
  | remove d =>
    simp only [spec] at hs
    split at hs
    · next hl =>
      simp only [Option.some.injEq, Prod.mk.injEq] at hs
      obtain ⟨rfl, rfl⟩ := hs
      exact remove_sim ho h d hl
    · cases hs
  | get d =>
    simp only [spec, Option.some.injEq, Prod.mk.injEq] at hs
    obtain ⟨rfl, rfl⟩ := hs
    refine ⟨o, ?_, h⟩
    simp only [exec, Obj.get, h.live, Bool.false_eq_true, if_false, Option.map_some]
    rw [get_sim ho hsg h d]
  | clear =>
    simp only [spec] at hs
    split at hs
    · next hn =>
      simp only [Option.some.injEq, Prod.mk.injEq] at hs
      obtain ⟨rfl, rfl⟩ := hs
      have hroot : o.root = .sent := by
        cases hr : o.root with
        | sent => rfl
        | node lv l x r =>
          have := (h.mem ho x).1 (by rw [hr]; simp [toList])
          simp [hn] at this
      refine ⟨o, ?_, h⟩
      have := h.live
      cases o
      simp_all [exec, Obj.clear]
    · cases hs

/-- C22 (partial: see `C22_first_remove_counterexample` and `C22_clear_counterexample` for the histories left out): every
allowed history runs without undefined behaviour, each `Remove` and `Get` answers whether an equal element is present,
and at the end the elements of the tree are the inserted minus the removed ones, in ascending order, equal ones in order
of insertion. -/
theorem C22_contents_partial {os : List (Op α)} {s : List α} {i : Bool} {rs : List Bool}
    (h : runAll (spec cmp) os ([], false) = some ((s, i), rs)) :
    ∃ o, runAll (exec cmp) os Obj.new = some (o, rs) ∧ ((toList o.root).Pairwise fun a b => cmp a b ≤ 0) ∧
      ∀ q, (toList o.root).filter (fun x => cmp q x = 0) = (s.filter fun x => cmp q x = 0).reverse := by
  obtain ⟨o, e1, e2⟩ := runAll_sim (R := Rep cmp) (exec_sim ho hsg) os ([], false) Obj.new (s, i) rs
    ⟨rfl, trivial, List.Pairwise.nil, fun _ => rfl, by simp, by simp [Obj.new]⟩ h
  exact ⟨o, e1, e2.asc, e2.eqs⟩

/-- C22: in particular the elements are a permutation of the inserted minus the removed ones. -/
theorem C22_multiset_partial {os : List (Op α)} {s : List α} {i : Bool} {rs : List Bool}
    (h : runAll (spec cmp) os ([], false) = some ((s, i), rs)) :
    ∃ o, runAll (exec cmp) os Obj.new = some (o, rs) ∧ (toList o.root).Perm s := by
  obtain ⟨o, e1, _, e2⟩ := C22_contents_partial ho hsg h
  refine ⟨o, e1, ?_⟩
  classical
  rw [List.perm_iff_count]
  intro x
  have h1 : ∀ l : List α, (l.filter fun y => decide (cmp x y = 0)).count x = l.count x := by
    intro l
    rw [List.count_filter]
    simpa using ho.refl x
  rw [← h1, e2 x, List.count_reverse, h1]

/-- An object reached by an allowed history. -/
def Reach (cmp : α → α → Int) (o : Obj α) : Prop :=
  ∃ os s rs, runAll (spec cmp) os ([], false) = some (s, rs) ∧ runAll (exec cmp) os Obj.new = some (o, rs)

theorem Reach.rep {o : Obj α} (h : Reach cmp o) : ∃ s, Rep cmp s o := by
  obtain ⟨os, s, rs, h1, h2⟩ := h
  obtain ⟨o', e1, e2⟩ := runAll_sim (R := Rep cmp) (exec_sim ho hsg) os ([], false) Obj.new s rs
    ⟨rfl, trivial, List.Pairwise.nil, fun _ => rfl, by simp, by simp [Obj.new]⟩ h1
  rw [h2] at e1
  simp only [Option.some.injEq, Prod.mk.injEq] at e1
  rw [e1.1]
  exact ⟨s, e2⟩

/-- `s` is a node of `t` or the sentinel below one. -/
inductive Sub : Tree α → Tree α → Prop
  | refl (t) : Sub t t
  | left {s lv l x r} : Sub s l → Sub s (.node lv l x r)
  | right {s lv l x r} : Sub s r → Sub s (.node lv l x r)

omit ho hsg in
theorem AATree.sub {s t : Tree α} (h : Sub s t) (hi : AATree t) : AATree s := by
  induction h with
  | refl => exact hi
  | left _ ih => exact ih hi.1
  | right _ ih => exact ih hi.2.1

/-- C22: the level rules hold at every node of a reached tree: a node has level at least 1, its left child's level is one
less, its right child's level is the same or one less, and its right grandchild's level is less. -/
theorem C22_levels_partial {o : Obj α} (h : Reach cmp o) {lv : Int} {l r : Tree α} {x : α} (hs : Sub (.node lv l x r) o.root) :
    1 ≤ lv ∧ level l = lv - 1 ∧ (level r = lv ∨ level r = lv - 1) ∧ level (right r) < lv := by
  obtain ⟨s, hr⟩ := Reach.rep ho hsg h
  have := AATree.sub hs hr.aa
  exact this.2.2

/-- C22: what `Get` returns is an element of the tree equal to the argument, and null means there is none. -/
theorem C22_get_partial {o : Obj α} (h : Reach cmp o) (d : α) :
    ∃ r, o.get cmp d = some r ∧ (∀ x, r = some x → x ∈ toList o.root ∧ cmp d x = 0) ∧
      (r = none → ∀ x ∈ toList o.root, cmp d x ≠ 0) := by
  obtain ⟨s, hr⟩ := Reach.rep ho hsg h
  exact ⟨get cmp d o.root, by simp [Obj.get, hr.live], get_spec ho hsg d o.root hr.asc⟩

end

/-- Number of nodes on the longest path. -/
def height : Tree α → Nat
  | .sent => 0
  | .node _ l _ r => 1 + max (height l) (height r)

theorem aa_height : ∀ t : Tree α, AATree t →
    (height t : Int) ≤ 2 * level t ∧ (level (right t) < level t → (height t : Int) ≤ 2 * level t - 1) ∧
    2 ^ (level t).toNat ≤ (toList t).length + 1 := by
  intro t
  induction t with
  | sent => intro _; simp [height, level, right, toList]
  | node lv l x r ihl ihr =>
    intro h
    obtain ⟨hl, hr, h1, h2, h3, h4⟩ := h
    obtain ⟨a1, a2, a3⟩ := ihl hl
    obtain ⟨b1, b2, b3⟩ := ihr hr
    simp only [height, level_node, right_node, toList, List.length_append, List.length_cons]
    refine ⟨?_, ?_, ?_⟩
    · rcases h3 with h3 | h3
      · have := b2 (by omega)
        omega
      · omega
    · intro h5; omega
    · obtain ⟨m, rfl⟩ : ∃ m, lv = m + 1 := ⟨lv - 1, by omega⟩
      have e1 : (m + 1).toNat = m.toNat + 1 := by omega
      have e2 : level l = m := by omega
      have e3 : 2 ^ m.toNat ≤ 2 ^ (level r).toNat := Nat.pow_le_pow_right (by decide) (by omega)
      rw [e2] at a3
      rw [e1, Nat.pow_succ]
      omega

/-- C22: the longest path of a reached tree of n elements has at most 2·L nodes, where L is the root's level, and
`2 ^ L ≤ n + 1`. -/
theorem C22_height_partial {cmp : α → α → Int} (ho : CmpOrd cmp) (hsg : ∀ a b, cmp a b = -1 ∨ cmp a b = 0 ∨ cmp a b = 1)
    {o : Obj α} (h : Reach cmp o) :
    (height o.root : Int) ≤ 2 * level o.root ∧ 2 ^ (level o.root).toNat ≤ (toList o.root).length + 1 := by
  obtain ⟨s, hr⟩ := Reach.rep ho hsg h
  have := aa_height o.root hr.aa
  exact ⟨this.1, this.2.2⟩

/-- C22 fails for a first `Remove` below all elements: it reads the uninitialised member `_deleted`. -/
theorem C22_first_remove_counterexample : runAll (exec icmp) [.insert 5, .remove 3] Obj.new = none := by decide +kernel

/-- C22 fails after `Clear`: the root still points to freed nodes, so any later call, including the destructor's own
`Clear`, uses freed memory. -/
theorem C22_clear_counterexample :
    runAll (exec icmp) [.insert 5, .clear, .get 5] Obj.new = none ∧
    runAll (exec icmp) [.insert 5, .clear, .insert 6] Obj.new = none ∧
    runAll (exec icmp) [.insert 5, .clear, .clear] Obj.new = none := by decide +kernel

theorem icmp_sgn (a b : Int) : icmp a b = -1 ∨ icmp a b = 0 ∨ icmp a b = 1 := by
  unfold icmp
  split
  · simp
  · split <;> simp

/-- A history with duplicates, splits, skews and removals meets the hypothesis. -/
example : runAll (spec icmp) [.insert 5, .insert 3, .insert 8, .insert 5, .insert 1, .insert 2, .insert 9, .insert 7,
      .remove 8, .remove 0, .remove 5, .get 5, .remove 1, .remove 3, .get 3] ([], false) =
    some (([7, 9, 2, 5], true), [true, true, true, true, true, true, true, true, true, false, true, true, true, true, false]) := by
  decide +kernel

example : ∃ o, Reach icmp o ∧ toList o.root = [2, 5, 7, 9] ∧ level o.root = 2 :=
  ⟨_, ⟨[.insert 5, .insert 3, .insert 8, .insert 5, .insert 1, .insert 2, .insert 9, .insert 7, .remove 8, .remove 0,
    .remove 5, .get 5, .remove 1, .remove 3, .get 3], _, _, rfl, rfl⟩, by decide +kernel, by decide +kernel⟩

end Verif.AA
