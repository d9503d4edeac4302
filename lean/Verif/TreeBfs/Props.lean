import Verif.TreeBfs.Model

/-!
# Breadth-first traversal of a binary tree (C82)
-/

namespace Verif.TreeBfs

variable {A : Type}

/-! ## Specification -/

/-- A binary tree of nodes. -/
inductive Tree (A : Type) where
  | nil
  | node (a : A) (l r : Tree A)

namespace Tree

def size : Tree A → Nat
  | nil => 0
  | node _ l r => 1 + l.size + r.size

def height : Tree A → Nat
  | nil => 0
  | node _ l r => 1 + max l.height r.height

/-- The nodes at depth `k`, from left to right. -/
def level : Nat → Tree A → List A
  | _, nil => []
  | 0, node a _ _ => [a]
  | k + 1, node _ l r => l.level k ++ r.level k

/-- The nodes by depth. -/
def levelOrder (t : Tree A) : List A := (List.range t.height).flatMap fun k => t.level k

/-- The number of nodes with exactly one child. -/
def ones : Tree A → Nat
  | nil => 0
  | node _ nil nil => 0
  | node _ nil r => 1 + r.ones
  | node _ l nil => 1 + l.ones
  | node _ l r => l.ones + r.ones

/-- The pointer `p` leads to the tree `t`. -/
def Rep (lchild rchild : A → Option A) : Option A → Tree A → Prop
  | p, nil => p = none
  | p, node a l r => p = some a ∧ Rep lchild rchild (lchild a) l ∧ Rep lchild rchild (rchild a) r

end Tree

/-- The list up to and including the first element that satisfies `act`. -/
def upTo (act : A → Bool) : List A → List A
  | [] => []
  | a :: l => if act a then [a] else a :: upTo act l

/-! ## Breadth-first order by a queue -/

open Tree

/-- The tree, unless it is empty. -/
def single : Tree A → List (Tree A)
  | .nil => []
  | .node a l r => [.node a l r]

/-- The children of a tree, without empty ones. -/
def kids : Tree A → List (Tree A)
  | .nil => []
  | .node _ l r => single l ++ single r

/-- The label. -/
def label : Tree A → List A
  | .nil => []
  | .node a _ _ => [a]

/-- The number of nodes of a forest. -/
def total (q : List (Tree A)) : Nat := (q.map Tree.size).sum

theorem total_cons (t : Tree A) (q : List (Tree A)) : total (t :: q) = t.size + total q := by simp [total]

theorem total_append (p q : List (Tree A)) : total (p ++ q) = total p + total q := by simp [total]

theorem total_kids (a : A) (l r : Tree A) : total (kids (.node a l r)) = l.size + r.size := by
  cases l <;> cases r <;> simp [kids, single, total, Tree.size]

/-- Breadth-first search with a queue. -/
def qbfs : Nat → List (Tree A) → List A
  | 0, _ => []
  | _, [] => []
  | n + 1, t :: q => label t ++ qbfs n (q ++ kids t)

theorem qbfs_nil (n : Nat) : qbfs n ([] : List (Tree A)) = [] := by cases n <;> rfl

/-- One level of the queue. -/
theorem qbfs_level : ∀ (p q : List (Tree A)) (n : Nat), qbfs (n + p.length) (p ++ q) = p.flatMap label ++ qbfs n (q ++ p.flatMap kids)
  | [], q, n => by simp
  | t :: p, q, n => by
    rw [List.length_cons, ← Nat.add_assoc, List.cons_append, qbfs, List.append_assoc, qbfs_level p (q ++ kids t) n, List.flatMap_cons, List.flatMap_cons, List.append_assoc,
      List.append_assoc]

theorem level_kids (k : Nat) (t : Tree A) : t.level (k + 1) = (kids t).flatMap (·.level k) := by
  rcases t with _ | ⟨a, l, r⟩
  · rfl
  · rcases l with _ | ⟨b, ll, lr⟩ <;> rcases r with _ | ⟨c, rl, rr⟩ <;> simp [kids, single, Tree.level]

theorem level_zero (t : Tree A) : t.level 0 = label t := by cases t <;> rfl

/-- The nodes of a forest at depth below `h`. -/
theorem qbfs_forest : ∀ (h : Nat) (p : List (Tree A)) (n : Nat), (∀ t ∈ p, t ≠ .nil) → (∀ t ∈ p, t.height ≤ h) → total p ≤ n →
    qbfs n p = (List.range h).flatMap fun k => p.flatMap (·.level k)
  | 0, p, n, hn, hh, _ => by
    rcases p with _ | ⟨t, p⟩
    · rw [qbfs_nil]; rfl
    · have h1 := hh t (List.mem_cons_self ..)
      have h2 := hn t (List.mem_cons_self ..)
      cases t with
      | nil => exact absurd rfl h2
      | node a l r => simp [Tree.height] at h1
  | h + 1, p, n, hn, hh, ht => by
    have hlen : p.length + total (p.flatMap kids) = total p := by
      clear hh ht
      induction p with
      | nil => rfl
      | cons t p ih =>
        rw [List.flatMap_cons, total_append, total_cons, List.length_cons, ← ih fun t ht => hn t (List.mem_cons_of_mem _ ht)]
        have h2 := hn t (List.mem_cons_self ..)
        cases t with
        | nil => exact absurd rfl h2
        | node a l r => rw [total_kids, Tree.size]; omega
    obtain ⟨m, rfl⟩ : ∃ m, n = m + p.length := ⟨n - p.length, by omega⟩
    have := qbfs_level p [] m
    rw [List.append_nil, List.nil_append] at this
    rw [this, qbfs_forest h (p.flatMap kids) m ?_ ?_ (by omega), List.range_succ_eq_map, List.flatMap_cons, List.flatMap_map]
    · congr 1
      · congr 1
        funext t
        exact (level_zero t).symm
      · congr 1
        funext k
        rw [List.flatMap_assoc]
        congr 1
        funext t
        exact (level_kids k t).symm
    · intro t ht
      rw [List.mem_flatMap] at ht
      obtain ⟨s, -, hs⟩ := ht
      rcases s with _ | ⟨a, l, r⟩
      · simp [kids] at hs
      · intro e
        subst e
        rcases l with _ | ⟨b, ll, lr⟩ <;> rcases r with _ | ⟨c, rl, rr⟩ <;> simp [kids, single] at hs
    · intro t ht
      rw [List.mem_flatMap] at ht
      obtain ⟨s, hsp, hs⟩ := ht
      have hh' := hh s hsp
      rcases s with _ | ⟨a, l, r⟩
      · simp [kids] at hs
      · have : t = l ∨ t = r := by
          rcases l with _ | ⟨b, ll, lr⟩ <;> rcases r with _ | ⟨c, rl, rr⟩ <;> simp [kids, single] at hs <;> simp [hs]
        rw [Tree.height] at hh'
        rcases this with rfl | rfl <;> omega

theorem qbfs_levelOrder {t : Tree A} (h : t ≠ .nil) {n : Nat} (hn : t.size ≤ n) : qbfs n [t] = t.levelOrder := by
  rw [qbfs_forest t.height [t] n (by simpa using h) (by simp) (by simpa [total] using hn)]
  simp [Tree.levelOrder]

/-! ## The ring of slots -/

/-- The ring holds the pointers to the trees `q` from slot `i` on. -/
structure Ring (lchild rchild : A → Option A) (m : Nat) (queue : List (Option A)) (i l : Nat) (q : List (Tree A)) : Prop where
  len : queue.length = m
  il : i < m
  el : l = (i + q.length) % m
  at' : ∀ (j : Nat) (t : Tree A), q[j]? = some t → ∃ p : Option A, queue[(i + j) % m]? = some p ∧ Tree.Rep lchild rchild p t ∧ t ≠ .nil

theorem mod_ne {m i j : Nat} (hm : 0 < m) (hi : i < m) (hj : 0 < j) (hjm : j < m) : (i + j) % m ≠ i := by
  by_cases h : i + j < m
  · rw [Nat.mod_eq_of_lt h]; omega
  · have : (i + j) % m = i + j - m := by rw [Nat.mod_eq_sub_mod (by omega), Nat.mod_eq_of_lt (by omega)]
    omega

theorem mod_inj {m i j k : Nat} (hm : 0 < m) (hj : j < m) (hk : k < m) (h : (i + j) % m = (i + k) % m) : j = k := by
  have h1 := Nat.div_add_mod (i + j) m
  have h2 := Nat.div_add_mod (i + k) m
  rw [h] at h1
  rcases Nat.lt_trichotomy ((i + j) / m) ((i + k) / m) with h3 | h3 | h3
  · have : m * ((i + j) / m + 1) ≤ m * ((i + k) / m) := Nat.mul_le_mul_left m h3
    rw [Nat.mul_add] at this
    omega
  · rw [h3] at h1; omega
  · have : m * ((i + k) / m + 1) ≤ m * ((i + j) / m) := Nat.mul_le_mul_left m h3
    rw [Nat.mul_add] at this
    omega

theorem ring_get {q : List (Tree A)} {lchild rchild : A → Option A} {m : Nat} {queue : List (Option A)} {i l : Nat} (R : Ring lchild rchild m queue i l q) {j : Nat}
    {a : A} {x y : Tree A} (h : q[j]? = some (.node a x y)) : queue[(i + j) % m]? = some (some a) ∧ Tree.Rep lchild rchild (lchild a) x ∧ Tree.Rep lchild rchild (rchild a) y := by
  obtain ⟨p, h1, h2, -⟩ := R.at' j _ h
  exact ⟨by rw [h1, h2.1], h2.2.1, h2.2.2⟩

/-- Appending a pointer: it only counts if it is not null. -/
theorem ring_push {lchild rchild : A → Option A} {m : Nat} {queue : List (Option A)} {i l : Nat} {q : List (Tree A)} (R : Ring lchild rchild m queue i l q) (hq : q.length < m)
    {p : Option A} {t : Tree A} (ht : Tree.Rep lchild rchild p t) :
    l < queue.length ∧ Ring lchild rchild m (queue.set l p) i ((l + if p.isSome then 1 else 0) % m) (q ++ single t) := by
  have hm : 0 < m := Nat.lt_of_le_of_lt (Nat.zero_le _) R.il
  have hl : l < queue.length := by rw [R.el, R.len]; exact Nat.mod_lt _ hm
  refine ⟨hl, ?_⟩
  have hold : ∀ (j : Nat) (t : Tree A), q[j]? = some t → ∃ p' : Option A, (queue.set l p)[(i + j) % m]? = some p' ∧ Tree.Rep lchild rchild p' t ∧ t ≠ .nil := by
    intro j s hj
    obtain ⟨p', h1, h2⟩ := R.at' j s hj
    have hjl : j < q.length := (List.getElem?_eq_some_iff.1 hj).1
    refine ⟨p', ?_, h2⟩
    rw [List.getElem?_set_ne, h1]
    rw [R.el]
    intro e
    exact absurd (mod_inj hm hq (by omega) e) (by omega)
  cases t with
  | nil =>
    simp only [Tree.Rep] at ht
    subst ht
    refine ⟨by rw [List.length_set, R.len], R.il, ?_, ?_⟩
    · rw [R.el]; simp [single]
    · simpa [single] using hold
  | node a x y =>
    have hp : p = some a := ht.1
    refine ⟨by rw [List.length_set, R.len], R.il, ?_, ?_⟩
    · rw [R.el, hp]; simp [single, Nat.add_assoc]
    · intro j s hj
      rw [List.getElem?_append] at hj
      split at hj
      · exact hold j s hj
      · rename_i hjl
        have hj0 : j = q.length := by
          have := (List.getElem?_eq_some_iff.1 hj).1
          simp [single] at this
          omega
        subst hj0
        simp only [single, Nat.sub_self, List.getElem?_cons_zero, Option.some.injEq] at hj
        subst hj
        exact ⟨p, by rw [← R.el, List.getElem?_set_self hl], ht, by simp⟩

/-- Taking the first element away. -/
theorem ring_pop {lchild rchild : A → Option A} {m : Nat} {queue : List (Option A)} {i l : Nat} {t : Tree A} {q : List (Tree A)} (R : Ring lchild rchild m queue i l (t :: q)) :
    Ring lchild rchild m queue ((i + 1) % m) l q := by
  have hm : 0 < m := Nat.lt_of_le_of_lt (Nat.zero_le _) R.il
  refine ⟨R.len, Nat.mod_lt _ hm, ?_, ?_⟩
  · rw [R.el, Nat.mod_add_mod, List.length_cons]; congr 1; omega
  · intro j s hj
    obtain ⟨p, h1, h2⟩ := R.at' (j + 1) s hj
    refine ⟨p, ?_, h2⟩
    rw [Nat.mod_add_mod, show i + 1 + j = i + (j + 1) by omega]
    exact h1

/-! ## How many nodes wait -/

/-- The number of nodes with one child in a forest. -/
def onesAll (q : List (Tree A)) : Nat := (q.map Tree.ones).sum

/-- `v` nodes have been visited, the trees `q` wait, `d` children are missing among the visited nodes. -/
structure Count (t : Tree A) (v d : Nat) (q : List (Tree A)) : Prop where
  tot : v + total q = t.size
  len : q.length + d = v + 1
  ones : d = 0 → onesAll q = t.ones

theorem count_step {t : Tree A} {v d : Nat} {a : A} {l r : Tree A} {q : List (Tree A)} (C : Count t v d (.node a l r :: q)) :
    ∃ d', Count t (v + 1) d' (q ++ kids (.node a l r)) := by
  refine ⟨d + (2 - (kids (.node a l r)).length), ?_, ?_, ?_⟩
  · have := C.tot
    rw [total_cons, Tree.size] at this
    rw [total_append, total_kids]
    omega
  · have := C.len
    rw [List.length_cons] at this
    rw [List.length_append]
    have : (kids (.node a l r)).length ≤ 2 := by
      cases l <;> cases r <;> simp [kids, single]
    omega
  · intro hd
    have h0 : d = 0 := by omega
    have h2 : 2 ≤ (kids (.node a l r)).length := by omega
    have := C.ones h0
    rw [← this]
    rcases l with _ | ⟨b, ll, lr⟩ <;> rcases r with _ | ⟨c, rl, rr⟩ <;> simp [kids, single] at h2
    simp [onesAll, kids, single, Tree.ones]
    omega

theorem total_ge : ∀ (q : List (Tree A)), (∀ t ∈ q, t ≠ .nil) → q.length ≤ total q ∧ (q.length = total q → onesAll q = 0)
  | [], _ => ⟨Nat.le_refl _, fun _ => rfl⟩
  | t :: q, h => by
    obtain ⟨h1, h2⟩ := total_ge q fun t ht => h t (List.mem_cons_of_mem _ ht)
    have h3 := h t (List.mem_cons_self ..)
    rcases t with _ | ⟨a, l, r⟩
    · exact absurd rfl h3
    · rw [total_cons, List.length_cons, Tree.size]
      refine ⟨by omega, fun e => ?_⟩
      have hl : l = .nil := by
        cases l with
        | nil => rfl
        | node b x y => rw [Tree.size] at e; omega
      have hr : r = .nil := by
        cases r with
        | nil => rfl
        | node b x y => rw [Tree.size] at e; omega
      subst hl hr
      have := h2 (by simp only [Tree.size] at e; omega)
      simpa [onesAll, Tree.ones] using this

/-- Fewer nodes wait than there are slots. -/
theorem count_lt {t : Tree A} {v d n : Nat} {q : List (Tree A)} (C : Count t v d q) (hq : ∀ t ∈ q, t ≠ .nil) (hn : t.size ≤ n)
    (hok : n % 2 = 0 ∨ t.size < n ∨ 0 < t.ones) : q.length < n / 2 + 1 := by
  obtain ⟨h1, h2⟩ := total_ge q hq
  have a1 := C.tot
  have a2 := C.len
  rcases hok with h | h | h
  · omega
  · omega
  · refine Decidable.byContradiction fun hc => ?_
    have hd : d = 0 := by omega
    have := C.ones hd
    have := h2 (by omega)
    omega

theorem upTo_cons (act : A → Bool) (a : A) (l : List A) : upTo act (a :: l) = if act a then [a] else a :: upTo act l := rfl

theorem loop_spec {act : A → Bool} {lchild rchild : A → Option A} {n : Nat} {t : Tree A} (hn : t.size ≤ n) (hok : n % 2 = 0 ∨ t.size < n ∨ 0 < t.ones) :
    ∀ (fuel : Nat) (queue : List (Option A)) (i l v d : Nat) (q : List (Tree A)), Ring lchild rchild (n / 2 + 1) queue i l q → Count t v d q → total q < fuel →
      loop act lchild rchild (n / 2 + 1) fuel queue i l = some (upTo act (qbfs (fuel - 1) q))
  | 0, _, _, _, _, _, _, _, _, h => absurd h (Nat.not_lt_zero _)
  | fuel + 1, queue, i, l, v, d, q, R, C, hf => by
    have hnil : ∀ t ∈ q, t ≠ .nil := by
      intro s hs
      obtain ⟨j, hj⟩ := List.getElem?_of_mem hs
      obtain ⟨p, -, -, h⟩ := R.at' j s hj
      exact h
    have hlt := count_lt C hnil hn hok
    rw [loop, Nat.add_sub_cancel]
    rcases q with _ | ⟨s, q⟩
    · have hil : i = l := by rw [R.el, List.length_nil, Nat.add_zero, Nat.mod_eq_of_lt R.il]
      rw [if_pos hil, qbfs_nil]
      rfl
    · have hil : i ≠ l := by
        rw [R.el]
        exact fun e => mod_ne (by omega) R.il (by rw [List.length_cons]; omega) hlt e.symm
      rw [if_neg hil]
      rcases s with _ | ⟨a, x, y⟩
      · exact absurd rfl (hnil _ (List.mem_cons_self ..))
      · obtain ⟨g1, g2, g3⟩ := ring_get R (j := 0) rfl
        rw [Nat.add_zero, Nat.mod_eq_of_lt R.il] at g1
        have hft : 0 < fuel := by rw [total_cons, Tree.size] at hf; omega
        obtain ⟨fuel, rfl⟩ : ∃ k, fuel = k + 1 := ⟨fuel - 1, by omega⟩
        rw [qbfs, label, List.singleton_append, upTo_cons]
        simp only [g1]
        by_cases ha : act a = true
        · rw [if_pos ha, if_pos ha]
        · rw [if_neg ha, if_neg ha]
          obtain ⟨b1, R1⟩ := ring_push R hlt g2
          rw [if_pos b1]
          have g1' : (queue.set l (lchild a))[i]? = some (some a) := by rw [List.getElem?_set_ne (Ne.symm hil), g1]
          have hlt1 : q.length + 1 < n / 2 + 1 := by simpa using hlt
          simp only [g1']
          rw [List.cons_append] at R1
          have R2 := ring_pop R1
          have hx : (single x).length ≤ 1 := by cases x <;> simp [single]
          have hlt2 : (q ++ single x).length < n / 2 + 1 := by rw [List.length_append]; omega
          obtain ⟨b2, R3⟩ := ring_push R2 hlt2 g3
          rw [if_pos b2]
          rw [List.append_assoc] at R3
          obtain ⟨d', C'⟩ := count_step C
          have htot := C'.tot
          have htot' := C.tot
          rw [total_cons, Tree.size] at hf htot'
          rw [loop_spec hn hok (fuel + 1) _ _ _ _ _ _ R3 C' (by rw [kids] at htot; omega)]
          rfl

/-- **C82**: `BreadthFirstTree` called with the number of nodes (or more) visits the nodes of the tree by depth and from left to right, each once, until the action says stop. This holds if
the number is even, more than the number of nodes, or some node has exactly one child. -/
theorem C82_levels_partial (act : A → Bool) (lchild rchild : A → Option A) (junk : Nat → Option A) (root : A) {t : Tree A} (ht : Tree.Rep lchild rchild (some root) t) {n : Nat}
    (hn : t.size ≤ n) (hok : n = 1 ∨ n % 2 = 0 ∨ t.size < n ∨ 0 < t.ones) :
    breadthFirstTree act lchild rchild junk root n = some (upTo act t.levelOrder) := by
  rcases t with _ | ⟨a, l, r⟩
  · simp [Tree.Rep] at ht
  · have ha : root = a := Option.some.inj ht.1
    subst ha
    rw [breadthFirstTree, if_neg (by rw [Tree.size] at hn; omega)]
    by_cases h1 : n = 1
    · rw [if_pos h1]
      have hl : l = .nil := by
        cases l with
        | nil => rfl
        | node b x y => simp only [Tree.size] at hn; omega
      have hr : r = .nil := by
        cases r with
        | nil => rfl
        | node b x y => simp only [Tree.size] at hn; omega
      subst hl hr
      simp [Tree.levelOrder, Tree.height, Tree.level, upTo, List.range_succ]
    · rw [if_neg h1]
      have R : Ring lchild rchild (n / 2 + 1) (some root :: (List.range (n / 2 + 1 - 1)).map junk) 0 1 [.node root l r] := by
        refine ⟨by simp, by omega, ?_, ?_⟩
        · rw [List.length_singleton, Nat.zero_add, Nat.mod_eq_of_lt (by rw [Tree.size] at hn; omega)]
        · intro j s hj
          rcases j with _ | j
          · simp only [List.getElem?_cons_zero, Option.some.injEq] at hj
            subst hj
            exact ⟨some root, by simp, ht, by simp⟩
          · simp at hj
      have C : Count (.node root l r) 0 0 [.node root l r] := ⟨by simp [total], rfl, fun _ => by simp [onesAll]⟩
      have := loop_spec (act := act) hn (by omega) (n + 1) _ _ _ _ _ _ R C (by rw [total_cons]; simp only [total, List.map_nil, List.sum_nil]; omega)
      simp only []
      rw [this, Nat.add_sub_cancel, qbfs_levelOrder (by simp) hn]

/-- A tree of four nodes. -/
example : Tree.Rep (fun a : Nat => if a = 1 then some 2 else if a = 2 then some 4 else none) (fun a => if a = 1 then some 3 else none) (some 1)
    (.node 1 (.node 2 (.node 4 .nil .nil) .nil) (.node 3 .nil .nil)) ∧
    breadthFirstTree (fun _ => false) (fun a : Nat => if a = 1 then some 2 else if a = 2 then some 4 else none) (fun a => if a = 1 then some 3 else none) (fun _ => none) 1 4 =
      some [1, 2, 3, 4] := by
  simp [Tree.Rep]
  decide +kernel

/-- **C82**: the code has too few slots for a full tree: of a root with two children only the root is visited. -/
theorem C82_full_counterexample :
    Tree.Rep (fun a : Nat => if a = 1 then some 2 else none) (fun a => if a = 1 then some 3 else none) (some 1) (.node 1 (.node 2 .nil .nil) (.node 3 .nil .nil)) ∧
    breadthFirstTree (fun _ => false) (fun a : Nat => if a = 1 then some 2 else none) (fun a => if a = 1 then some 3 else none) (fun _ => none) 1 3 = some [1] := by
  simp [Tree.Rep]
  decide +kernel

end Verif.TreeBfs
