import Verif.Spatial.KDTree

/-!
# Rectangle queries (C61)

`Meets`: the two closed rectangles have a common point.
-/

namespace Verif.Spatial

variable (A : Arith) (rect : Nat → Nat → Int)

/-- A rectangle `left, top, right, bottom` that is not inside out. -/
def Proper (q : Nat → Int) : Prop := q 0 ≤ q 2 ∧ q 1 ≤ q 3

/-- The two rectangles have a common point. -/
def Meets (p q : Nat → Int) : Prop := ∃ x y : Int, (p 0 ≤ x ∧ x ≤ p 2 ∧ p 1 ≤ y ∧ y ≤ p 3) ∧ (q 0 ≤ x ∧ x ≤ q 2 ∧ q 1 ≤ y ∧ y ≤ q 3)

theorem hit_iff {q : Nat → Int} {x : Nat} (hq : Proper q) (hx : Proper (rect x)) : hit rect q x = true ↔ Meets (rect x) q := by
  unfold hit Meets
  simp only [Bool.and_eq_true, decide_eq_true_eq]
  constructor
  · rintro ⟨⟨⟨h0, h1⟩, h2⟩, h3⟩
    exact ⟨max (rect x 0) (q 0), max (rect x 1) (q 1), by unfold Proper at hq hx; omega, by unfold Proper at hq hx; omega⟩
  · rintro ⟨a, b, h, h'⟩
    omega

/-- All items of a tree. -/
def T.items : T → List Nat
  | .nil => []
  | .node _ xs l r => xs ++ (l.items ++ r.items)

/-- Every count is right. -/
def NumOk : T → Prop
  | .nil => True
  | .node i xs l r => i.num = xs.length + (l.items.length + r.items.length) ∧ NumOk l ∧ NumOk r

theorem num_eq {t : T} (h : NumOk t) : t.num = t.items.length := by
  cases t with
  | nil => rfl
  | node i xs l r => simp [T.num, T.items, h.1]

/-! ## Queries report stored items that meet the rectangle, once -/

theorem traverse_sublist (q : Nat → Int) : ∀ (t : T) (c : Nat), (traverse rect q t c).Sublist (t.items.filter (hit rect q)) := by
  intro t
  induction t with
  | nil => intro c; exact .slnil
  | node i xs l r ihl ihr =>
    intro c
    simp only [traverse, T.items, List.filter_append]
    refine (List.Sublist.refl _).append (.append ?_ ?_)
    · split
      · exact ihl _
      · exact List.nil_sublist _
    · split
      · exact ihr _
      · exact List.nil_sublist _

/-! ## Nothing is lost -/

theorem nil_of_isNil {t : T} (h : t.isNil = true) : t = .nil := by
  cases t with
  | nil => rfl
  | node => cases h

theorem checkDestroy_items {t : T} (h : NumOk t) : (checkDestroy t).items = t.items ∧ NumOk (checkDestroy t) := by
  unfold checkDestroy
  split
  · rename_i h0
    rw [num_eq h, List.length_eq_zero_iff] at h0
    exact ⟨h0.symm, trivial⟩
  · exact ⟨rfl, h⟩

theorem filter_perm (p : Nat → Bool) (l : List Nat) : (l.filter p ++ l.filter fun x => !p x).Perm l := List.filter_append_perm p l

theorem rebalance_ok : ∀ (t : T) (r3 : Option Int), NumOk t →
    NumOk (rebalance A rect t r3).1 ∧ ((rebalance A rect t r3).1.items ++ (rebalance A rect t r3).2).Perm t.items := by
  intro t
  induction t with
  | nil => intro r3 _; exact ⟨trivial, .refl _⟩
  | node i xs l r ihl ihr =>
    intro r3 h
    obtain ⟨hn, hl, hr⟩ := h
    have hnl := num_eq hl
    have hnr := num_eq hr
    -- the children
    have HL : ∀ r3, NumOk (if l.isNil then ((.nil, []) : T × List Nat) else rebalance A rect l r3).1 ∧
        ((if l.isNil then ((.nil, []) : T × List Nat) else rebalance A rect l r3).1.items ++ (if l.isNil then ((.nil, []) : T × List Nat) else rebalance A rect l r3).2).Perm l.items := by
      intro r3
      by_cases hz : l.isNil = true
      · rw [if_pos hz, nil_of_isNil hz]
        exact ⟨trivial, .refl _⟩
      · rw [if_neg hz]
        exact ihl r3 hl
    have HR : ∀ r3, NumOk (if r.isNil then ((.nil, []) : T × List Nat) else rebalance A rect r r3).1 ∧
        ((if r.isNil then ((.nil, []) : T × List Nat) else rebalance A rect r r3).1.items ++ (if r.isNil then ((.nil, []) : T × List Nat) else rebalance A rect r r3).2).Perm r.items := by
      intro r3
      by_cases hz : r.isNil = true
      · rw [if_pos hz, nil_of_isNil hz]
        exact ⟨trivial, .refl _⟩
      · rw [if_neg hz]
        exact ihr r3 hr
    simp only [rebalance]
    generalize hLe : (if l.isNil then ((.nil, []) : T × List Nat) else rebalance A rect l (if i.axis = 1 then some (redivide A i).div else r3)) = L
    generalize hRe : (if r.isNil then ((.nil, []) : T × List Nat) else rebalance A rect r r3) = R
    have HL' := hLe ▸ HL _
    have HR' := hRe ▸ HR _
    obtain ⟨okL, pL⟩ := HL'
    obtain ⟨okR, pR⟩ := HR'
    have lenL := pL.length_eq
    have lenR := pR.length_eq
    rw [List.length_append] at lenL lenR
    have cL := checkDestroy_items okL
    have cR := checkDestroy_items okR
    have nL := num_eq okL
    have nR := num_eq okR
    have l0 : l.isNil = true → l.items = [] := fun hz => by rw [nil_of_isNil hz]; rfl
    have r0 : r.isNil = true → r.items = [] := fun hz => by rw [nil_of_isNil hz]; rfl
    have hfl : ∀ zs : List Nat, (zs.filter (moves rect r3)).length + (zs.filter fun x => !moves rect r3 x).length = zs.length := fun zs => by
      have := (filter_perm (moves rect r3) zs).length_eq
      rwa [List.length_append] at this
    constructor
    · refine ⟨?_, cL.2, cR.2⟩
      rw [cL.1, cR.1]
      have hr1 : (redivide A i).num = i.num := rfl
      by_cases ha : i.axis = 1 <;> by_cases hz : l.isNil = true <;> by_cases hw : r.isNil = true <;>
        simp only [ha, hz, hw, release, receive, hr1, if_true, if_false, and_self, and_true, true_and, and_false, false_and,
          Bool.true_eq_false, Bool.false_eq_true, List.length_append, List.length_reverse] <;>
        (have h1 := hfl xs
         have h2 := hfl L.2
         have h3 := hfl R.2
         try simp only [List.filter_append, List.filter_reverse, List.length_append, List.length_reverse]
         first
         | (have h4 := congrArg List.length (l0 hz)
            have h5 := congrArg List.length (r0 hw)
            simp only [List.length_nil] at h4 h5
            omega)
         | (have h4 := congrArg List.length (l0 hz)
            simp only [List.length_nil] at h4
            omega)
         | (have h5 := congrArg List.length (r0 hw)
            simp only [List.length_nil] at h5
            omega)
         | omega)
    · simp only [T.items, cL.1, cR.1, release]
      by_cases ha : i.axis = 1 <;> by_cases hz : l.isNil = false <;>
        simp only [ha, hz, receive, if_true, if_false, and_self, and_true, true_and, and_false, false_and,
          Bool.true_eq_false, Bool.false_eq_true] <;>
        (rw [List.perm_iff_count] at pL pR ⊢
         intro a
         have pLa := pL a
         have pRa := pR a
         have hf : ∀ zs : List Nat, (zs.filter (moves rect r3)).count a + (zs.filter fun x => !moves rect r3 x).count a = zs.count a := fun zs => by
           have := (filter_perm (moves rect r3) zs).count_eq a
           rwa [List.count_append] at this
         rw [List.count_append] at pLa pRa
         simp only [List.count_append, List.filter_append, List.filter_reverse, List.count_reverse, List.count_nil]
         have h1 := hf xs
         have h2 := hf L.2
         have h3 := hf R.2
         omega)

theorem rebalance_none : ∀ t : T, (rebalance A rect t none).2 = [] := by
  intro t
  induction t with
  | nil => rfl
  | node i xs l r ihl ihr =>
    have hm : ∀ zs : List Nat, zs.filter (moves rect none) = [] := fun zs => List.filter_eq_nil_iff.2 fun a _ => by simp [moves]
    simp only [rebalance, release, hm]
    by_cases ha : i.axis = 1
    · simp only [ha, true_and, if_true, List.nil_append, List.append_nil, ihr]
      split
      · rfl
      · split
        · rfl
        · exact ihr
    · simp only [ha, false_and, if_false, List.append_nil]
      split <;> split <;> simp only [ihl, ihr, List.append_nil]

theorem rebalanceTop_ok {t : T} (h : NumOk t) : NumOk (rebalanceTop A rect t) ∧ (rebalanceTop A rect t).items.Perm t.items := by
  have := rebalance_ok A rect t none h
  rw [rebalance_none, List.append_nil] at this
  exact this

/-- What an operation leaves, rebalanced or not. -/
def ResOk (r : Res) (xs : List Nat) : Prop :=
  (NumOk r.plain ∧ r.plain.items.Perm xs) ∧ ∀ t, r.rebal = some t → NumOk t ∧ t.items.Perm xs

theorem ResOk.final {r : Res} {xs : List Nat} (h : ResOk r xs) : NumOk r.final ∧ r.final.items.Perm xs := by
  unfold Res.final
  cases hr : r.rebal with
  | none => exact h.1
  | some t => exact h.2 t hr

theorem ResOk.wrap {r : Res} {xs ys : List Nat} (h : ResOk r xs) (rb : Bool) (f : T → T)
    (hf : ∀ t, NumOk t → t.items.Perm xs → NumOk (f t) ∧ (f t).items.Perm ys) : ResOk (r.wrap A rect rb f) ys := by
  have hp := hf _ h.1.1 h.1.2
  refine ⟨hp, ?_⟩
  intro t ht
  unfold Res.wrap at ht
  cases rb with
  | true =>
    cases ht
    have := rebalanceTop_ok A rect hp.1
    exact ⟨this.1, this.2.trans hp.2⟩
  | false =>
    obtain ⟨u, hu, rfl⟩ := Option.map_eq_some_iff.1 ht
    have := h.2 u hu
    exact hf u this.1 this.2

theorem insert_ok (thr x : Nat) : ∀ (t : T) (c : Nat), NumOk t → ResOk (insert A rect thr x t c) (x :: t.items) := by
  intro t
  induction t with
  | nil => intro c _; exact ⟨⟨⟨rfl, trivial, trivial⟩, .refl _⟩, fun t h => nomatch h⟩
  | node i xs l r ihl ihr =>
    intro c h
    obtain ⟨hn, hl, hr⟩ := h
    unfold insert
    dsimp only
    split
    · refine (ihl _ hl).wrap A rect _ _ fun t ht hp => ⟨⟨?_, ht, hr⟩, ?_⟩
      · have := hp.length_eq
        simp only [List.length_cons] at this
        dsimp only
        omega
      · simp only [T.items]
        refine ((hp.append_right _).append_left _).trans ?_
        exact List.perm_middle
    · split
      · refine (ihr _ hr).wrap A rect _ _ fun t ht hp => ⟨⟨?_, hl, ht⟩, ?_⟩
        · have := hp.length_eq
          simp only [List.length_cons] at this
          dsimp only
          omega
        · simp only [T.items]
          refine ((hp.append_left _).append_left _).trans ?_
          exact (List.perm_middle.append_left _).trans List.perm_middle
      · refine ⟨⟨⟨?_, hl, hr⟩, .refl _⟩, fun t h => by cases h⟩
        simp only [List.length_cons]
        omega

theorem remove_ok (thr x : Nat) : ∀ t : T, NumOk t →
    (x ∈ t.items → ∃ r, remove A rect thr x t = some r) ∧ ∀ r, remove A rect thr x t = some r → x ∈ t.items ∧ ResOk r (t.items.erase x) := by
  intro t
  induction t with
  | nil => intro _; exact ⟨fun h => (nomatch h), fun r h => (nomatch h)⟩
  | node i xs l r ihl ihr =>
    intro h
    obtain ⟨hn, hl, hr⟩ := h
    have IL := ihl hl
    have IR := ihr hr
    unfold remove
    by_cases hx : xs.contains x = true
    · have hm : x ∈ xs := List.contains_iff_mem.1 hx
      rw [if_pos hx]
      refine ⟨fun _ => ⟨_, rfl⟩, ?_⟩
      intro res hres
      cases hres
      refine ⟨List.mem_append_left _ hm, ?_⟩
      have hlen := List.length_erase_of_mem hm
      have hpos := List.length_pos_of_mem hm
      have hok : NumOk (.node (lose A rect i x true false) (xs.erase x) l r) := by
        refine ⟨?_, hl, hr⟩
        simp only [lose]
        omega
      have hit : (T.node (lose A rect i x true false) (xs.erase x) l r).items.Perm ((T.node i xs l r).items.erase x) := by
        simp only [T.items]
        rw [List.erase_append_left _ hm]
      refine ⟨⟨hok, hit⟩, fun t ht => ?_⟩
      dsimp only at ht
      split at ht
      · cases ht
        have := rebalanceTop_ok A rect hok
        exact ⟨this.1, this.2.trans hit⟩
      · cases ht
    · have hm : x ∉ xs := fun h => hx (List.contains_iff_mem.2 h)
      rw [if_neg hx]
      cases e : remove A rect thr x l with
      | some res =>
        obtain ⟨hxl, hok⟩ := IL.2 res e
        dsimp only
        refine ⟨fun _ => ⟨_, rfl⟩, ?_⟩
        intro res' hres
        cases hres
        refine ⟨List.mem_append_right _ (List.mem_append_left _ hxl), ?_⟩
        refine hok.wrap A rect _ _ fun t ht hp => ⟨⟨?_, ht, hr⟩, ?_⟩
        · have h1 := hp.length_eq
          rw [List.length_erase_of_mem hxl] at h1
          have := List.length_pos_of_mem hxl
          simp only [lose]
          omega
        · simp only [T.items]
          rw [List.erase_append_right _ hm, List.erase_append_left _ hxl]
          exact (hp.append_right _).append_left _
      | none =>
        have hnl : x ∉ l.items := fun h => by
          obtain ⟨r, hr⟩ := IL.1 h
          rw [e] at hr
          cases hr
        dsimp only
        constructor
        · intro hx'
          have : x ∈ r.items := by
            simp only [T.items, List.mem_append] at hx'
            rcases hx' with h | h | h
            · exact absurd h hm
            · exact absurd h hnl
            · exact h
          obtain ⟨res, hres⟩ := IR.1 this
          exact ⟨_, by rw [hres]; rfl⟩
        · intro res' hres
          obtain ⟨res, hres1, rfl⟩ := Option.map_eq_some_iff.1 hres
          obtain ⟨hxr, hok⟩ := IR.2 res hres1
          refine ⟨List.mem_append_right _ (List.mem_append_right _ hxr), ?_⟩
          refine hok.wrap A rect _ _ fun t ht hp => ⟨⟨?_, hl, ht⟩, ?_⟩
          · have h1 := hp.length_eq
            rw [List.length_erase_of_mem hxr] at h1
            have := List.length_pos_of_mem hxr
            simp only [lose]
            omega
          · simp only [T.items]
            rw [List.erase_append_right _ hm, List.erase_append_right _ hnl]
            exact (hp.append_left _).append_left _

/-- The state of a history. -/
structure Good (s : State) : Prop where
  num : NumOk s.t
  perm : s.t.items.Perm s.stored
  nodup : s.stored.Nodup

theorem step_good {thr : Nat} {s s' : State} {op : Op} (h : Good s) (hs : step A rect thr s op = some s') : Good s' := by
  unfold step at hs
  cases op with
  | ins x =>
    dsimp only at hs
    split at hs
    · cases hs
    · rename_i hx
      cases hs
      have := (insert_ok A rect thr x s.t 0 h.num).final
      exact ⟨this.1, this.2.trans (h.perm.cons x), List.nodup_cons.2 ⟨hx, h.nodup⟩⟩
  | del x =>
    dsimp only at hs
    split at hs
    · obtain ⟨r, hr, rfl⟩ := Option.map_eq_some_iff.1 hs
      have := ((remove_ok A rect thr x s.t h.num).2 r hr).2.final
      exact ⟨this.1, this.2.trans (h.perm.erase x), h.nodup.erase x⟩
    · cases hs

theorem run_good {thr : Nat} : ∀ {ops : List Op} {s s' : State}, Good s → run A rect thr ops s = some s' → Good s' := by
  intro ops
  induction ops with
  | nil => intro s s' h hs; cases hs; exact h
  | cons op ops ih =>
    intro s s' h hs
    obtain ⟨u, hu, hs⟩ := Option.bind_eq_some_iff.1 hs
    exact ih (step_good A rect h hu) hs

theorem new_good : Good .new := ⟨trivial, .refl _, List.nodup_nil⟩

/-! ## Exactness while the dividers are respected -/

/-- Everything left of a divider ends before it, everything right of it starts after it. -/
def Placed : T → Nat → Prop
  | .nil, _ => True
  | .node i _ l r, c => (∀ x ∈ l.items, rect x (c + 2) ≤ i.div) ∧ (∀ x ∈ r.items, i.div ≤ rect x c) ∧ Placed l (1 - c) ∧ Placed r (1 - c)

theorem hit_axis {q : Nat → Int} {x c : Nat} (hc : c ≤ 1) (h : hit rect q x = true) : q c ≤ rect x (c + 2) ∧ rect x c ≤ q (c + 2) := by
  unfold hit at h
  simp only [Bool.and_eq_true, decide_eq_true_eq] at h
  rcases Nat.le_one_iff_eq_zero_or_eq_one.1 hc with rfl | rfl
  · exact ⟨h.1.2, h.1.1.1⟩
  · exact ⟨h.2, h.1.1.2⟩

theorem traverse_exact (q : Nat → Int) : ∀ (t : T) (c : Nat), c ≤ 1 → Placed rect t c → traverse rect q t c = t.items.filter (hit rect q) := by
  intro t
  induction t with
  | nil => intro c _ _; rfl
  | node i xs l r ihl ihr =>
    intro c hc h
    obtain ⟨h1, h2, h3, h4⟩ := h
    simp only [traverse, T.items, List.filter_append]
    congr 1
    congr 1
    · split
      · exact ihl _ (by omega) h3
      · refine (List.filter_eq_nil_iff.2 fun x hx hh => ?_).symm
        have := hit_axis rect hc hh
        have := h1 x hx
        omega
    · split
      · exact ihr _ (by omega) h4
      · refine (List.filter_eq_nil_iff.2 fun x hx hh => ?_).symm
        have := hit_axis rect hc hh
        have := h2 x hx
        omega

theorem insert_placed (thr x : Nat) : ∀ (t : T) (c : Nat), NumOk t → Placed rect t c → Placed rect (insert A rect thr x t c).plain c := by
  intro t
  induction t with
  | nil => intro c _ _; exact ⟨fun _ h => (nomatch h), fun _ h => (nomatch h), trivial, trivial⟩
  | node i xs l r ihl ihr =>
    intro c hn h
    obtain ⟨h1, h2, h3, h4⟩ := h
    unfold insert
    dsimp only
    split
    · rename_i hd
      refine ⟨fun y hy => ?_, h2, ihl _ hn.2.1 h3, h4⟩
      have := (insert_ok A rect thr x l (1 - c) hn.2.1).1.2.mem_iff.1 hy
      rcases List.mem_cons.1 this with rfl | hy
      · exact Int.le_of_lt hd
      · exact h1 y hy
    · split
      · rename_i hd
        refine ⟨h1, fun y hy => ?_, h3, ihr _ hn.2.2 h4⟩
        have := (insert_ok A rect thr x r (1 - c) hn.2.2).1.2.mem_iff.1 hy
        rcases List.mem_cons.1 this with rfl | hy
        · exact Int.le_of_lt hd
        · exact h2 y hy
      · exact ⟨h1, h2, h3, h4⟩

theorem remove_placed (thr x : Nat) : ∀ (t : T) (c : Nat) (res : Res), NumOk t → Placed rect t c → remove A rect thr x t = some res → Placed rect res.plain c := by
  intro t
  induction t with
  | nil => intro c res _ _ h; cases h
  | node i xs l r ihl ihr =>
    intro c res hn h hres
    obtain ⟨h1, h2, h3, h4⟩ := h
    unfold remove at hres
    split at hres
    · cases hres
      exact ⟨h1, h2, h3, h4⟩
    · cases e : remove A rect thr x l with
      | some r1 =>
        rw [e] at hres
        cases hres
        refine ⟨fun y hy => h1 y ?_, h2, ihl _ _ hn.2.1 h3 e, h4⟩
        exact List.mem_of_mem_erase (((remove_ok A rect thr x l hn.2.1).2 r1 e).2.1.2.mem_iff.1 hy)
      | none =>
        rw [e] at hres
        obtain ⟨r1, e1, rfl⟩ := Option.map_eq_some_iff.1 hres
        refine ⟨h1, fun y hy => h2 y ?_, h3, ihr _ _ hn.2.2 h4 e1⟩
        exact List.mem_of_mem_erase (((remove_ok A rect thr x r hn.2.2).2 r1 e1).2.1.2.mem_iff.1 hy)

theorem step_placed {thr : Nat} {s s' : State} {op : Op} (h : Good s) (hs : step A rect thr s op = some s')
    (hq : s'.rebalanced = false) : s.rebalanced = false ∧ (Placed rect s.t 0 → Placed rect s'.t 0) := by
  unfold step at hs
  cases op with
  | ins x =>
    dsimp only at hs
    split at hs
    · cases hs
    · cases hs
      obtain ⟨h1, h2⟩ := Bool.or_eq_false_iff.1 hq
      refine ⟨h1, fun hp => ?_⟩
      have : (insert A rect thr x s.t 0).rebal = none := Option.not_isSome_iff_eq_none.1 (by rw [h2]; exact Bool.false_ne_true)
      simp only [Res.final, this, Option.getD_none]
      exact insert_placed A rect thr x s.t 0 h.num hp
  | del x =>
    dsimp only at hs
    split at hs
    · obtain ⟨r, hr, rfl⟩ := Option.map_eq_some_iff.1 hs
      obtain ⟨h1, h2⟩ := Bool.or_eq_false_iff.1 hq
      refine ⟨h1, fun hp => ?_⟩
      have : r.rebal = none := Option.not_isSome_iff_eq_none.1 (by rw [h2]; exact Bool.false_ne_true)
      simp only [Res.final, this, Option.getD_none]
      exact remove_placed A rect thr x s.t 0 r h.num hp hr
    · cases hs

theorem run_placed {thr : Nat} : ∀ {ops : List Op} {s s' : State}, Good s → run A rect thr ops s = some s' → s'.rebalanced = false →
    s.rebalanced = false ∧ (Placed rect s.t 0 → Placed rect s'.t 0) := by
  intro ops
  induction ops with
  | nil => intro s s' h hs hq; cases hs; exact ⟨hq, id⟩
  | cons op ops ih =>
    intro s s' h hs hq
    obtain ⟨u, hu, hs⟩ := Option.bind_eq_some_iff.1 hs
    obtain ⟨h1, h2⟩ := ih (step_good A rect h hu) hs hq
    obtain ⟨h3, h4⟩ := step_placed A rect h hu h1
    exact ⟨h3, fun hp => h2 (h4 hp)⟩

/-! ## Insertions alone do not rebalance when the threshold is at least 100 -/

/-- `balance` never exceeds `num`. -/
def BalOk : T → Prop
  | .nil => True
  | .node i _ l r => i.balance.natAbs ≤ i.num ∧ BalOk l ∧ BalOk r

theorem trigger_false {thr : Nat} {i : Info} (h : i.balance.natAbs ≤ i.num) (ht : 100 ≤ thr) : trigger thr i = false := by
  unfold trigger
  refine decide_eq_false fun h' => ?_
  have : i.balance.natAbs * 100 / i.num ≤ 100 := by
    refine Nat.div_le_of_le_mul ?_
    omega
  omega

theorem insert_quiet {thr : Nat} (ht : 100 ≤ thr) (x : Nat) : ∀ (t : T) (c : Nat), BalOk t →
    (insert A rect thr x t c).rebal = none ∧ BalOk (insert A rect thr x t c).plain := by
  intro t
  induction t with
  | nil => intro c _; exact ⟨rfl, Nat.zero_le _, trivial, trivial⟩
  | node i xs l r ihl ihr =>
    intro c h
    obtain ⟨hb, hl, hr⟩ := h
    unfold insert
    dsimp only
    split
    · obtain ⟨h1, h2⟩ := ihl (1 - c) hl
      have hb' : (i.balance - 1).natAbs ≤ i.num + 1 := by omega
      refine ⟨?_, hb', h2, hr⟩
      simp only [Res.wrap, h1, Option.map_none]
      rw [trigger_false (by exact hb') ht]
      rfl
    · split
      · obtain ⟨h1, h2⟩ := ihr (1 - c) hr
        have hb' : (i.balance + 1).natAbs ≤ i.num + 1 := by omega
        refine ⟨?_, hb', hl, h2⟩
        simp only [Res.wrap, h1, Option.map_none]
        rw [trigger_false (by exact hb') ht]
        rfl
      · exact ⟨rfl, Nat.le_succ_of_le hb, hl, hr⟩

theorem run_quiet {thr : Nat} (ht : 100 ≤ thr) : ∀ {ops : List Op} {s s' : State}, (∀ op ∈ ops, ∃ x, op = .ins x) → BalOk s.t → s.rebalanced = false →
    run A rect thr ops s = some s' → s'.rebalanced = false := by
  intro ops
  induction ops with
  | nil => intro s s' _ _ hq hs; cases hs; exact hq
  | cons op ops ih =>
    intro s s' hops hb hq hs
    obtain ⟨u, hu, hs⟩ := Option.bind_eq_some_iff.1 hs
    obtain ⟨x, rfl⟩ := hops op List.mem_cons_self
    unfold step at hu
    dsimp only at hu
    split at hu
    · cases hu
    · cases hu
      obtain ⟨h1, h2⟩ := insert_quiet A rect ht x s.t 0 hb
      refine ih (fun o ho => hops o (List.mem_cons_of_mem _ ho)) ?_ ?_ hs
      · simp only [Res.final, h1, Option.getD_none]
        exact h2
      · simp only [hq, h1, Option.isSome_none, Bool.or_self]

/-! ## The property -/

/-- **C61** (what holds for every history of insertions and removals, with every threshold and every rounding): an item can be inserted exactly if it is
not stored and removed exactly if it is; a query reports only stored items that meet the rectangle, each at most once; the tree holds exactly the
stored items, none lost or duplicated. Missing: that every such item is reported, see the counterexample. -/
theorem C61_sound_partial (thr : Nat) (ops : List Op) (s : State) (hr : run A rect thr ops .new = some s) :
    s.stored.Nodup ∧ s.t.items.Perm s.stored ∧
    (∀ x, ((step A rect thr s (.ins x)).isSome ↔ x ∉ s.stored) ∧ ((step A rect thr s (.del x)).isSome ↔ x ∈ s.stored)) ∧
    ∀ q, (traverse rect q s.t 0).Nodup ∧ ∀ x ∈ traverse rect q s.t 0, x ∈ s.stored ∧ (Proper q → Proper (rect x) → Meets (rect x) q) := by
  have hg := run_good A rect new_good hr
  refine ⟨hg.nodup, hg.perm, fun x => ⟨?_, ?_⟩, fun q => ⟨?_, fun x hx => ?_⟩⟩
  · unfold step
    dsimp only
    split <;> simp_all
  · unfold step
    dsimp only
    split
    · rename_i hx
      obtain ⟨r, hr⟩ := (remove_ok A rect thr x s.t hg.num).1 (hg.perm.mem_iff.2 hx)
      simp [hr, hx]
    · rename_i hx
      simp [hx]
  · exact (traverse_sublist rect q s.t 0).nodup ((hg.perm.nodup_iff.2 hg.nodup).filter _)
  · have := (traverse_sublist rect q s.t 0).subset hx
    obtain ⟨h1, h2⟩ := List.mem_filter.1 this
    exact ⟨hg.perm.mem_iff.1 h1, fun hq hp => (hit_iff rect hq hp).1 h2⟩

/-- **C61** for histories in which no rebalancing was due: the query reports exactly the stored items that meet the rectangle, each once. -/
theorem C61_exact_partial (thr : Nat) (ops : List Op) (s : State) (hr : run A rect thr ops .new = some s) (hq : s.rebalanced = false)
    (hp : ∀ x ∈ s.stored, Proper (rect x)) (q : Nat → Int) (hqp : Proper q) :
    (traverse rect q s.t 0).Nodup ∧ ∀ x, x ∈ traverse rect q s.t 0 ↔ x ∈ s.stored ∧ Meets (rect x) q := by
  refine ⟨((C61_sound_partial A rect thr ops s hr).2.2.2 q).1, fun x => ?_⟩
  have hg := run_good A rect new_good hr
  rw [traverse_exact rect q s.t 0 (by omega) ((run_placed A rect new_good hr hq).2 trivial), List.mem_filter, hg.perm.mem_iff]
  constructor
  · rintro ⟨h1, h2⟩
    exact ⟨h1, (hit_iff rect hqp (hp x h1)).1 h2⟩
  · rintro ⟨h1, h2⟩
    exact ⟨h1, (hit_iff rect hqp (hp x h1)).2 h2⟩

/-- **C61** for insertions with a threshold of at least 100: no rebalancing is due, so queries are exact. -/
theorem C61_insertions_partial (thr : Nat) (ht : 100 ≤ thr) (ops : List Op) (hops : ∀ op ∈ ops, ∃ x, op = .ins x) (s : State)
    (hr : run A rect thr ops .new = some s) (hp : ∀ x ∈ s.stored, Proper (rect x)) (q : Nat → Int) (hqp : Proper q) :
    (traverse rect q s.t 0).Nodup ∧ ∀ x, x ∈ traverse rect q s.t 0 ↔ x ∈ s.stored ∧ Meets (rect x) q :=
  C61_exact_partial A rect thr ops s hr (run_quiet A rect (s := .new) ht hops trivial rfl hr) hp q hqp

/-! ## Rebalancing loses items -/

/-- Exact arithmetic, rounding down. -/
def exactArith : Arith := ⟨(· + ·), (· - ·), fun a n => a / (n : Int)⟩

/-- Four squares of side 10 in a row, 20 apart. -/
def rowRect (x k : Nat) : Int :=
  match k with
  | 0 => 20 * x
  | 1 => 0
  | 2 => 20 * x + 10
  | _ => 10

/-- With the default threshold of 20, after inserting four squares from left to right, asking for exactly the second one reports nothing: the divider has moved past it, and the loop that should move it only looks at the bottom edge. -/
theorem C61_missed_counterexample : ∃ s, run exactArith rowRect 20 [.ins 0, .ins 1, .ins 2, .ins 3] .new = some s ∧ 1 ∈ s.stored ∧
    traverse rowRect (rowRect 1) s.t 0 = [] ∧ Meets (rowRect 1) (rowRect 1) := by
  refine ⟨_, rfl, by decide, by decide +kernel, 20, 0, by decide, by decide⟩

/-- The hypotheses can be met: five squares, one removed, without rebalancing; the query reports two of them. -/
example : ∃ s, run exactArith rowRect 100 [.ins 2, .ins 0, .ins 3, .ins 1, .ins 4, .del 0] .new = some s ∧ s.rebalanced = false ∧
    s.stored = [4, 1, 3, 2] ∧ traverse rowRect (fun k => [25, 0, 45, 5].getD k 0) s.t 0 = [2, 1] ∧ (∀ x ∈ s.stored, Proper (rowRect x)) :=
  ⟨_, rfl, by decide +kernel, by decide +kernel, by decide +kernel, by unfold Proper; decide⟩

end Verif.Spatial
