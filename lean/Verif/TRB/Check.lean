import Verif.TRB.Props

/-!
# The checks of `TRBtree`: `DEBUGVERIFY` and `Validate` (`include/bss-util/TRBtree.h`)

`DEBUGVERIFY` looks at the raw pointers, so it is modelled on a memory of nodes: addresses are numbers, 0 is the null
pointer.  `Validate` is modelled on the tree and thread of `Verif/TRB/Model.lean`.
-/

namespace Verif.TRB
namespace Check

/-- `TRBtree.h:17,54-62`: the pointers and the colour of a node (`LLBase.h` has `next` and `prev`). -/
structure PN where
  parent : Nat
  left : Nat
  right : Nat
  next : Nat
  prev : Nat
  color : Int
deriving DecidableEq, Repr

/-- `TRBtree.h:168-187` `DEBUGVERIFY(n, NIL)`; the first argument bounds the depth of the recursion, `none` stands for
a null pointer that is followed or a recursion that is deeper than that.  Simplified: a node with a null child counts as
followed at once (the code might return -1 before it gets there). -/
def verify (h : Nat → PN) (nil : Nat) : Nat → Nat → Option Int
  | 0, _ => none
  | f + 1, n =>
    if n = 0 then none
    else if n = nil then some (if (h n).color = 0 then 1 else -1)
    else if (h n).left = 0 ∨ (h n).right = 0 then none
    else if (h n).color = 1 ∧ ((h (h n).left).color ≠ 0 ∨ (h (h n).right).color ≠ 0) then some (-1)
    else if (h n).left ≠ nil ∧ (h (h n).left).parent ≠ n then some (-1)
    else if (h n).right ≠ nil ∧ (h (h n).right).parent ≠ n then some (-1)
    else if (h n).next ≠ 0 ∧ (h (h n).next).prev ≠ n then some (-1)
    else if (h n).prev ≠ 0 ∧ (h (h n).prev).next ≠ n then some (-1)
    else
      match verify h nil f (h n).left, verify h nil f (h n).right with
      | some l, some r =>
        if l < 0 ∨ r < 0 ∨ r ≠ l then some (-1) else some (l + if (h n).color = 0 then 1 else 0)
      | _, _ => none

/-! ## Specification -/

/-- The nodes under `n` are finitely many levels deep and have no null child. -/
inductive Finite (h : Nat → PN) (nil : Nat) : Nat → Prop
  | nil : nil ≠ 0 → Finite h nil nil
  | node {n} : n ≠ 0 → n ≠ nil → Finite h nil (h n).left → Finite h nil (h n).right → Finite h nil n

/-- `Below n m`: `m` is `n` or under it. -/
inductive Below (h : Nat → PN) (nil : Nat) : Nat → Nat → Prop
  | refl {n} : Below h nil n n
  | left {n m} : n ≠ nil → Below h nil (h n).left m → Below h nil n m
  | right {n m} : n ≠ nil → Below h nil (h n).right m → Below h nil n m

/-- `Walk n k`: some way down from `n` to the sentinel has `k` black nodes, the sentinel included. -/
inductive Walk (h : Nat → PN) (nil : Nat) : Nat → Nat → Prop
  | nil : Walk h nil nil 1
  | left {n k} : n ≠ nil → Walk h nil (h n).left k → Walk h nil n (k + if (h n).color = 0 then 1 else 0)
  | right {n k} : n ≠ nil → Walk h nil (h n).right k → Walk h nil n (k + if (h n).color = 0 then 1 else 0)

/-- What is asked of a single node: the children of a red node are black, its children have it as parent, and its
neighbours in the thread have it as neighbour. -/
structure NodeOK (h : Nat → PN) (nil m : Nat) : Prop where
  red : (h m).color = 1 → (h (h m).left).color = 0 ∧ (h (h m).right).color = 0
  left : (h m).left ≠ nil → (h (h m).left).parent = m
  right : (h m).right ≠ nil → (h (h m).right).parent = m
  next : (h m).next ≠ 0 → (h (h m).next).prev = m
  prev : (h m).prev ≠ 0 → (h (h m).prev).next = m

/-- The structure under `n` is a red-black tree of black height `k`, up to the colour of `n` itself. -/
def RedBlack (h : Nat → PN) (nil n k : Nat) : Prop :=
  (h nil).color = 0 ∧ (∀ m, Below h nil n m → m ≠ nil → NodeOK h nil m) ∧ ∀ j, Walk h nil n j → j = k

theorem exists_walk {h : Nat → PN} {nil n : Nat} (hf : Finite h nil n) : ∃ k, Walk h nil n k := by
  induction hf with
  | nil _ => exact ⟨_, .nil⟩
  | node _ hn _ _ ihl _ => obtain ⟨k, hk⟩ := ihl; exact ⟨_, .left hn hk⟩

theorem below_nil {h : Nat → PN} {nil m : Nat} (hb : Below h nil nil m) : m = nil := by
  cases hb with
  | refl => rfl
  | left h1 _ => exact absurd rfl h1
  | right h1 _ => exact absurd rfl h1

theorem walk_nil {h : Nat → PN} {nil k : Nat} (hb : Walk h nil nil k) : k = 1 := by
  cases hb with
  | nil => rfl
  | left h1 _ => exact absurd rfl h1
  | right h1 _ => exact absurd rfl h1

theorem redBlack_node {h : Nat → PN} {nil n k : Nat} (hn : n ≠ nil) (hl : Finite h nil (h n).left)
    (hr : Finite h nil (h n).right) :
    RedBlack h nil n k ↔ NodeOK h nil n ∧ ∃ j, RedBlack h nil (h n).left j ∧ RedBlack h nil (h n).right j ∧
      k = j + if (h n).color = 0 then 1 else 0 := by
  constructor
  · rintro ⟨h1, h2, h3⟩
    obtain ⟨j, hj⟩ := exists_walk hl
    have e := h3 _ (.left hn hj)
    refine ⟨h2 n .refl hn, j, ⟨h1, fun m hm => h2 m (.left hn hm), fun i hi => ?_⟩,
      ⟨h1, fun m hm => h2 m (.right hn hm), fun i hi => ?_⟩, e.symm⟩
    · have := h3 _ (.left hn hi); omega
    · have := h3 _ (.right hn hi); omega
  · rintro ⟨h0, j, ⟨h1, h2, h3⟩, ⟨_, h5, h6⟩, rfl⟩
    refine ⟨h1, fun m hm hmn => ?_, fun i hi => ?_⟩
    · cases hm with
      | refl => exact h0
      | left _ hb => exact h2 m hb hmn
      | right _ hb => exact h5 m hb hmn
    · cases hi with
      | nil => exact absurd rfl hn
      | left _ hw => rw [h3 _ hw]
      | right _ hw => rw [h6 _ hw]

theorem finite_ne {h : Nat → PN} {nil n : Nat} (hf : Finite h nil n) : n ≠ 0 := by
  cases hf <;> assumption

/-- `DEBUGVERIFY` ends, never follows a null pointer, and returns the black height if the nodes form a red-black tree
with consistent links and -1 if they do not. -/
theorem C190_decides_partial {h : Nat → PN} {nil n : Nat} (hf : Finite h nil n) :
    ∃ d, ∀ f, d ≤ f → ∃ r : Int, verify h nil f n = some r ∧ (r = -1 ∨ 0 < r) ∧
      ∀ k : Nat, r = k ↔ RedBlack h nil n k := by
  induction hf with
  | nil h0 =>
    refine ⟨1, fun f hd => ?_⟩
    obtain ⟨f, rfl⟩ : ∃ g, f = g + 1 := ⟨f - 1, by omega⟩
    rw [verify, if_neg h0, if_pos rfl]
    refine ⟨_, rfl, ?_, fun k => ?_⟩
    · split <;> simp
    · constructor
      · intro e
        by_cases hc : (h nil).color = 0
        · rw [if_pos hc] at e
          refine ⟨hc, fun m hm hne => absurd (below_nil hm) hne, fun j hj => ?_⟩
          have := walk_nil hj
          omega
        · rw [if_neg hc] at e; omega
      · rintro ⟨h1, _, h3⟩
        rw [if_pos h1, ← h3 1 .nil]; rfl
  | @node n h0 hn hl hr ihl ihr =>
    obtain ⟨d1, ih1⟩ := ihl
    obtain ⟨d2, ih2⟩ := ihr
    refine ⟨max d1 d2 + 1, fun f hd => ?_⟩
    obtain ⟨f, rfl⟩ : ∃ g, f = g + 1 := ⟨f - 1, by omega⟩
    obtain ⟨l, e1, c1, s1⟩ := ih1 f (by omega)
    obtain ⟨r, e2, c2, s2⟩ := ih2 f (by omega)
    have bad : ∀ {P : Prop}, P → (NodeOK h nil n → ¬ P) → ∀ k : Nat, ((-1 : Int) = k ↔ RedBlack h nil n k) := by
      intro P hP hno k
      constructor
      · intro e; omega
      · intro hrb; exact absurd hP (hno ((redBlack_node hn hl hr).1 hrb).1)
    rw [verify, if_neg h0, if_neg hn, if_neg (by have := finite_ne hl; have := finite_ne hr; omega), e1, e2]
    by_cases p1 : (h n).color = 1 ∧ ((h (h n).left).color ≠ 0 ∨ (h (h n).right).color ≠ 0)
    · rw [if_pos p1]
      exact ⟨-1, rfl, .inl rfl, bad p1 fun ok p => by
        obtain ⟨a, b⟩ := ok.red p.1
        rcases p.2 with h | h
        · exact h a
        · exact h b⟩
    rw [if_neg p1]
    by_cases p2 : (h n).left ≠ nil ∧ (h (h n).left).parent ≠ n
    · rw [if_pos p2]
      exact ⟨-1, rfl, .inl rfl, bad p2 fun ok p => p.2 (ok.left p.1)⟩
    rw [if_neg p2]
    by_cases p3 : (h n).right ≠ nil ∧ (h (h n).right).parent ≠ n
    · rw [if_pos p3]
      exact ⟨-1, rfl, .inl rfl, bad p3 fun ok p => p.2 (ok.right p.1)⟩
    rw [if_neg p3]
    by_cases p4 : (h n).next ≠ 0 ∧ (h (h n).next).prev ≠ n
    · rw [if_pos p4]
      exact ⟨-1, rfl, .inl rfl, bad p4 fun ok p => p.2 (ok.next p.1)⟩
    rw [if_neg p4]
    by_cases p5 : (h n).prev ≠ 0 ∧ (h (h n).prev).next ≠ n
    · rw [if_pos p5]
      exact ⟨-1, rfl, .inl rfl, bad p5 fun ok p => p.2 (ok.prev p.1)⟩
    rw [if_neg p5]
    have ok : NodeOK h nil n := by
      refine ⟨fun hc => ?_, fun hc => ?_, fun hc => ?_, fun hc => ?_, fun hc => ?_⟩
      · constructor
        · exact Decidable.byContradiction fun h' => p1 ⟨hc, .inl h'⟩
        · exact Decidable.byContradiction fun h' => p1 ⟨hc, .inr h'⟩
      · exact Decidable.byContradiction fun h' => p2 ⟨hc, h'⟩
      · exact Decidable.byContradiction fun h' => p3 ⟨hc, h'⟩
      · exact Decidable.byContradiction fun h' => p4 ⟨hc, h'⟩
      · exact Decidable.byContradiction fun h' => p5 ⟨hc, h'⟩
    dsimp only
    by_cases p6 : l < 0 ∨ r < 0 ∨ r ≠ l
    · rw [if_pos p6]
      refine ⟨-1, rfl, .inl rfl, fun k => ⟨fun e => by omega, fun hrb => ?_⟩⟩
      obtain ⟨_, j, hj1, hj2, _⟩ := (redBlack_node hn hl hr).1 hrb
      have a := (s1 j).2 hj1
      have b := (s2 j).2 hj2
      omega
    · rw [if_neg p6]
      have hl0 : 0 < l := by omega
      have hrl : r = l := by omega
      subst hrl
      obtain ⟨j, rfl⟩ := Int.eq_ofNat_of_zero_le (Int.le_of_lt hl0)
      refine ⟨_, rfl, .inr (by split <;> omega), fun k => ?_⟩
      rw [redBlack_node hn hl hr]
      constructor
      · intro e
        refine ⟨ok, j, (s1 j).1 rfl, (s2 j).1 rfl, ?_⟩
        split at e <;> split <;> omega
      · rintro ⟨_, j', h1, _, rfl⟩
        have := (s1 j').2 h1
        have e : j = j' := by omega
        subst e
        split <;> simp

/-- A tree of three nodes: 1 is the sentinel, 2 the root, 3 and 4 its red children. -/
def ex3 : Nat → PN
  | 1 => ⟨0, 1, 1, 0, 0, 0⟩
  | 2 => ⟨0, 3, 4, 4, 3, 0⟩
  | 3 => ⟨2, 1, 1, 2, 0, 1⟩
  | 4 => ⟨2, 1, 1, 0, 2, 1⟩
  | _ => ⟨0, 0, 0, 0, 0, 0⟩

example : Finite ex3 1 2 :=
  .node (by decide) (by decide) (.node (by decide) (by decide) (.nil (by decide)) (.nil (by decide)))
    (.node (by decide) (by decide) (.nil (by decide)) (.nil (by decide)))

example : verify ex3 1 5 2 = some 2 := by decide +kernel

/-- Two red nodes in a row are found. -/
example : verify (fun n => if n = 2 then { ex3 2 with color := 1 } else ex3 n) 1 5 2 = some (-1) := by decide +kernel

/-- The full statement, "a structure that passes is a red-black tree", is false: the root may be red. -/
theorem C190_root_counterexample :
    let h : Nat → PN := fun n => if n = 2 then ⟨0, 1, 1, 0, 0, 1⟩ else ⟨0, 1, 1, 0, 0, 0⟩
    Finite h 1 2 ∧ verify h 1 5 2 = some 1 ∧ (h 2).color = 1 :=
  ⟨.node (by decide) (by decide) (.nil (by decide)) (.nil (by decide)), by decide +kernel, rfl⟩

/-- Nor are the links between duplicates checked: node 2 is followed by its duplicates 3 and 4, and 4 does not lead
back to 3. -/
theorem C190_duplicate_counterexample :
    let h : Nat → PN := fun n =>
      if n = 2 then ⟨0, 1, 1, 3, 0, 0⟩ else if n = 3 then ⟨0, 1, 1, 4, 2, -1⟩ else if n = 4 then ⟨0, 1, 1, 0, 0, -1⟩
      else ⟨0, 1, 1, 0, 0, 0⟩
    Finite h 1 2 ∧ verify h 1 5 2 = some 2 ∧ (h 3).next = 4 ∧ (h 4).prev ≠ 3 :=
  ⟨.node (by decide) (by decide) (.nil (by decide)) (.nil (by decide)), by decide +kernel, rfl, by decide⟩

/-! ## `Validate` -/

variable {α : Type}

/-- `TRBtree.h:64-66,479` `Validate(node)`; `none` if there is no such node. -/
def validate (cmp : α → α → Int) (i : Nat) (t : T α) : Option Bool :=
  match t.thread.find? (fun a => a.1.id = i), prevOf i none t.thread, nextOf i t.thread with
  | some x, some p, some n =>
    some ((match p with
      | none => true
      | some p => decide (cmp x.1.val p.1.val ≥ 0)) &&
    (match n with
      | none => true
      | some n => decide (cmp x.1.val n.1.val ≤ 0)))
  | _, _, _ => none

/-- Change of the value of the node `i` by the user (`TRBtree.h:390` `value` is public). -/
def setE (i : Nat) (v : α) (e : E α) : E α := if e.id = i then ⟨i, v⟩ else e

/-- The same in the tree. -/
def setTree (i : Nat) (v : α) : Tree α → Tree α
  | .leaf => .leaf
  | .node c l x r => .node c (setTree i v l) (setE i v x) (setTree i v r)

/-- The same in the tree and the thread. -/
def setKey (i : Nat) (v : α) (t : T α) : T α := ⟨setTree i v t.tree, t.thread.map fun a => (setE i v a.1, a.2)⟩

theorem find_mid {i : Nat} {a b : List (Entry α)} {x : Entry α} (hx : x.1.id = i) (ha : ∀ y ∈ a, y.1.id ≠ i) :
    (a ++ x :: b).find? (fun a => decide (a.1.id = i)) = some x := by
  rw [List.find?_append, List.find?_eq_none.2 (by simpa using ha)]
  simp [hx]

theorem nextOf_mid {i : Nat} {a b : List (Entry α)} {x : Entry α} (hx : x.1.id = i) (ha : ∀ y ∈ a, y.1.id ≠ i) :
    nextOf i (a ++ x :: b) = some b.head? := by
  induction a with
  | nil => simp [nextOf, hx]
  | cons y a ih =>
    rw [List.cons_append, nextOf, if_neg (ha y (by simp)), ih fun z hz => ha z (by simp [hz])]

theorem prevOf_mid {i : Nat} {a b : List (Entry α)} {x : Entry α} (hx : x.1.id = i) (ha : ∀ y ∈ a, y.1.id ≠ i)
    (p : Option (Entry α)) : prevOf i p (a ++ x :: b) = some (a.getLast?.or p) := by
  induction a generalizing p with
  | nil => simp [prevOf, hx]
  | cons y a ih =>
    rw [List.cons_append, prevOf, if_neg (ha y (by simp)), ih fun z hz => ha z (by simp [hz])]
    rcases a.eq_nil_or_concat with rfl | ⟨a', z, rfl⟩ <;> simp [List.getLast?_cons]

/-- In a thread whose other elements are in order, `Validate` of a node tells whether the whole thread is in order. -/
theorem C191_order {cmp : α → α → Int} (ho : CmpOrd cmp) {t : T α} {a b : List (Entry α)} {x : Entry α}
    (ht : t.thread = a ++ x :: b) (hx : ∀ y ∈ a, y.1.id ≠ x.1.id)
    (hs : ((a ++ b).map fun y => y.1.val).Pairwise fun u v => cmp u v ≤ 0) :
    ∃ r, validate cmp x.1.id t = some r ∧
      (r = true ↔ (t.thread.map fun y => y.1.val).Pairwise fun u v => cmp u v ≤ 0) := by
  rw [validate, ht, find_mid rfl hx, prevOf_mid rfl hx, nextOf_mid rfl hx]
  refine ⟨_, rfl, ?_⟩
  simp only [List.map_append, List.map_cons, List.pairwise_append, List.pairwise_cons, List.mem_map,
    List.mem_cons, forall_exists_index, and_imp, forall_apply_eq_imp_iff₂, Option.or_none, Bool.and_eq_true] at hs ⊢
  obtain ⟨sa, sb, sab⟩ := hs
  constructor
  · rintro ⟨h1, h2⟩
    have hB : ∀ y ∈ b, cmp x.1.val y.1.val ≤ 0 := by
      cases b with
      | nil => simp
      | cons z b =>
        simp only [List.head?_cons, decide_eq_true_eq] at h2
        intro y hy
        rcases List.mem_cons.1 hy with rfl | hy
        · exact h2
        · simp only [List.map_cons, List.pairwise_cons, List.mem_map, forall_exists_index, and_imp,
            forall_apply_eq_imp_iff₂] at sb
          exact ho.trans _ _ _ h2 (sb.1 y hy)
    have hA : ∀ y ∈ a, cmp y.1.val x.1.val ≤ 0 := by
      rcases a.eq_nil_or_concat with rfl | ⟨a, z, rfl⟩
      · simp
      · simp only [List.concat_eq_append, List.getLast?_concat, decide_eq_true_eq] at h1
        have hz : cmp z.1.val x.1.val ≤ 0 := ho.swap_le.2 h1
        intro y hy
        simp only [List.concat_eq_append, List.mem_append, List.mem_singleton] at hy
        rcases hy with hy | rfl
        · simp only [List.concat_eq_append, List.map_append, List.map_cons, List.map_nil, List.pairwise_append,
            List.mem_map, List.mem_singleton, forall_exists_index, and_imp, forall_apply_eq_imp_iff₂] at sa
          exact ho.trans _ _ _ (sa.2.2 y hy _ rfl) hz
        · exact hz
    refine ⟨sa, ⟨hB, sb⟩, ?_⟩
    rintro y hy w (rfl | ⟨z, hz, rfl⟩)
    · exact hA y hy
    · exact sab y hy z hz
  · rintro ⟨_, ⟨hB, _⟩, hAB⟩
    constructor
    · cases hl : a.getLast? with
      | none => rfl
      | some z =>
        have hz : z ∈ a := List.mem_of_getLast? hl
        simp only [decide_eq_true_eq]
        exact ho.swap_le.1 (hAB z hz _ (.inl rfl))
    · cases b with
      | nil => rfl
      | cons z b => simpa using hB z (by simp)

example : (let t : T Int := ⟨.node .black (.node .red .leaf ⟨1, 3⟩ .leaf) ⟨2, 5⟩ .leaf, [(⟨1, 3⟩, false), (⟨2, 5⟩, false)]⟩
    (validate (fun a b => (a - b).sign) 1 (setKey 1 4 t), validate (fun a b => (a - b).sign) 1 (setKey 1 6 t))) =
    (some true, some false) := by decide +kernel

theorem toList_set (i : Nat) (v : α) (t : Tree α) : toList (setTree i v t) = (toList t).map (setE i v) := by
  induction t with
  | leaf => rfl
  | node c l x r ihl ihr => simp [toList, setTree, ihl, ihr]

/-- Search in a tree whose values are in order, equal ones allowed. -/
theorem getNode_spec {cmp : α → α → Int} (ho : CmpOrd cmp) (hs : ∀ a b, cmp a b = -1 ∨ cmp a b = 0 ∨ cmp a b = 1)
    (w : α) {t : Tree α} (h : (toList t).Pairwise fun a b => cmp a.val b.val ≤ 0) :
    (∀ e, getNode cmp w t = some e → e ∈ toList t ∧ cmp w e.val = 0) ∧
    (getNode cmp w t = none → ∀ e ∈ toList t, cmp w e.val ≠ 0) := by
  induction t with
  | leaf => simp [getNode, toList]
  | node c l x r ihl ihr =>
    simp only [toList, List.pairwise_append, List.pairwise_cons, List.mem_cons] at h
    obtain ⟨hl, ⟨hxr, hr⟩, hlr⟩ := h
    have il := ihl hl
    have ir := ihr hr
    rw [getNode]
    by_cases h1 : cmp w x.val = -1
    · rw [if_pos h1]
      refine ⟨fun e he => ⟨?_, (il.1 e he).2⟩, fun hn e he => ?_⟩
      · simp [toList, (il.1 e he).1]
      · simp only [toList, List.mem_append, List.mem_cons] at he
        rcases he with he | rfl | he
        · exact il.2 hn e he
        · omega
        · have := ho.lt_of_lt_of_le (by omega : cmp w x.val < 0) (hxr e he)
          omega
    rw [if_neg h1]
    by_cases h2 : cmp w x.val = 1
    · rw [if_pos h2]
      refine ⟨fun e he => ⟨?_, (ir.1 e he).2⟩, fun hn e he => ?_⟩
      · simp [toList, (ir.1 e he).1]
      · simp only [toList, List.mem_append, List.mem_cons] at he
        rcases he with he | rfl | he
        · have h3 := hlr e he x (.inl rfl)
          have h4 : cmp x.val w < 0 := (ho.sym x.val w).2 (by omega)
          have h5 := ho.lt_of_le_of_lt h3 h4
          have h6 := ho.sym e.val w
          omega
        · omega
        · exact ir.2 hn e he
    · rw [if_neg h2]
      refine ⟨fun e he => ?_, fun hn => by simp at hn⟩
      cases he
      refine ⟨by simp [toList], ?_⟩
      rcases hs w x.val with h | h | h <;> omega

/-- In a tree without equal elements: if a node's value is changed and `Validate` accepts it, `Get` still finds exactly
the values that are in the tree. -/
theorem C191_find_partial {cmp : α → α → Int} (ho : CmpOrd cmp)
    (hs : ∀ a b, cmp a b = -1 ∨ cmp a b = 0 ∨ cmp a b = 1) {t : T α} (h : Reach cmp t)
    (hd : ∀ a ∈ t.thread, a.2 = false) (i : Nat) (v : α) (hv : validate cmp i (setKey i v t) = some true) (w : α) :
    (∀ e, getNode cmp w (setKey i v t).tree = some e → e ∈ (setKey i v t).thread.map (·.1) ∧ cmp w e.val = 0) ∧
    (getNode cmp w (setKey i v t).tree = none → ∀ e ∈ (setKey i v t).thread.map (·.1), cmp w e.val ≠ 0) := by
  have e1 : t.thread.map (·.1) = toList t.tree := by
    rw [← (C23_thread_is_inorder ho hs h).1, List.filter_eq_self.2]
    intro a ha; simp [hd a ha]
  have e2 : (setKey i v t).thread.map (·.1) = toList (setKey i v t).tree := by
    rw [setKey, toList_set, ← e1]
    simp [Function.comp_def]
  rw [e2]
  apply getNode_spec ho hs
  rw [← e2]
  -- the changed node in the thread
  have hsort := C23_iteration_sorted ho hs h
  obtain ⟨gs, hi⟩ := h.inv ho hs
  have hnd : (ids t.thread).Nodup := by rw [hi.thread]; exact hi.nodup
  by_cases hm : ∃ x ∈ t.thread, x.1.id = i
  · obtain ⟨x, hx, rfl⟩ := hm
    obtain ⟨a, b, hab⟩ := List.append_of_mem hx
    rw [hab] at hnd hsort
    simp only [ids, List.map_append, List.map_cons, List.nodup_append, List.nodup_cons, List.mem_map,
      List.mem_cons, not_exists, not_and] at hnd
    have na : ∀ y ∈ a, y.1.id ≠ x.1.id := fun y hy => hnd.2.2 _ ⟨y, hy, rfl⟩ _ (.inl rfl)
    have nb : ∀ y ∈ b, y.1.id ≠ x.1.id := fun y hy => hnd.2.1.1 y hy
    have ma : (a.map fun y => (setE x.1.id v y.1, y.2)) = a := by
      conv => rhs; rw [← List.map_id a]
      exact List.map_congr_left fun y hy => by simp [setE, na y hy]
    have mb : (b.map fun y => (setE x.1.id v y.1, y.2)) = b := by
      conv => rhs; rw [← List.map_id b]
      exact List.map_congr_left fun y hy => by simp [setE, nb y hy]
    have ht : (setKey x.1.id v t).thread = a ++ (⟨x.1.id, v⟩, x.2) :: b := by
      rw [setKey, hab]
      simp only [List.map_append, List.map_cons, ma, mb]
      simp [setE]
    obtain ⟨r, hr1, hr2⟩ := C191_order (cmp := cmp) ho (x := (⟨x.1.id, v⟩, x.2)) ht na (by
      simp only [List.map_append, List.map_cons, List.pairwise_append, List.pairwise_cons, List.mem_map,
        List.mem_cons] at hsort
      rw [List.pairwise_map, List.pairwise_append]
      obtain ⟨q1, ⟨_, q2⟩, q3⟩ := hsort
      rw [List.pairwise_map] at q1 q2
      exact ⟨q1, q2, fun y hy z hz => q3 _ ⟨y, hy, rfl⟩ _ (.inr ⟨z, hz, rfl⟩)⟩)
    have hr3 : r = true := by rw [hr1] at hv; simpa using hv
    have := hr2.1 hr3
    rw [List.pairwise_map] at this ⊢
    exact this
  · have hmap : (setKey i v t).thread = t.thread := by
      rw [setKey]
      conv => rhs; rw [← List.map_id t.thread]
      exact List.map_congr_left fun y hy => by simp [setE, show y.1.id ≠ i from fun h' => hm ⟨y, hy, h'⟩]
    rw [hmap]; exact hsort

/-- The hypotheses can be met: a tree with the values 3 and 5, the first of which is changed to 4. -/
example : ∃ t : T Int, Reach (fun a b => (a - b).sign) t ∧ (∀ a ∈ t.thread, a.2 = false) ∧
    validate (fun a b => (a - b).sign) 1 (setKey 1 4 t) = some true :=
  ⟨_, ⟨[.insert ⟨2, 5⟩, .insert ⟨1, 3⟩], _, _, rfl, rfl⟩, by decide +kernel, by decide +kernel⟩

/-- With equal elements it is false: the tree holds 5 twice, the first is changed to 4 and `Validate` accepts it, but
`Get(5)` no longer finds the other one. -/
theorem C191_duplicate_counterexample :
    ∃ t : T Int, Reach (fun a b => (a - b).sign) t ∧
      validate (fun a b => (a - b).sign) 1 (setKey 1 4 t) = some true ∧
      ((setKey 1 4 t).thread.map fun a => a.1.val) = [4, 5] ∧
      getNode (fun a b => (a - b).sign) 5 (setKey 1 4 t).tree = none :=
  ⟨_, ⟨[.insert ⟨1, 5⟩, .insert ⟨2, 5⟩], _, _, rfl, rfl⟩, by decide +kernel, by decide +kernel, by decide +kernel⟩

end Check
end Verif.TRB
