import Verif.Heap.Lemmas2

/-!
# Properties C01, C02, C03 of `BinaryHeap`
-/

namespace Verif.Heap

variable {α : Type _} {cmp : α → α → Int}

/-- **C01.** Every history of `Insert`/`Pop`/`Set` calls on an initially empty heap in which `Pop` is never
called on an empty heap runs without out-of-range access, its observable outcomes are those of a bag of
values (each `Pop` removes and returns a value no held value exceeds), the held values are exactly the
bag, and `Peek` shows a maximum. -/
theorem C01_heap_history (ho : CmpOrd cmp) (ops : List (Spec.Op α)) (hv : Spec.Valid 0 ops) :
    ∃ a outs, run cmp [] ops = some (a, outs) ∧ Spec.Run cmp [] ops outs a ∧
      (a ≠ [] → ∃ m, peek a = some m ∧ m ∈ a ∧ ∀ x ∈ a, cmp x m ≤ 0) := by
  suffices H : ∀ (ops : List (Spec.Op α)) (a : List α), Spec.IsHeap cmp a → Spec.Valid a.length ops →
      ∃ a' outs, run cmp a ops = some (a', outs) ∧ Spec.Run cmp a ops outs a' ∧ Spec.IsHeap cmp a' by
    obtain ⟨a, outs, h1, h2, h3⟩ := H ops [] (by intro i x y _ hx; simp at hx) hv
    refine ⟨a, outs, h1, h2, fun hne => ?_⟩
    have h0 : 0 < a.length := List.length_pos_iff.2 hne
    exact ⟨a[0], rd_of_lt h0, List.getElem_mem h0, heap_root_max ho h3 (by simp [h0])⟩
  intro ops
  induction ops with
  | nil => intro a h _; exact ⟨a, [], rfl, .nil (List.Perm.refl _), h⟩
  | cons op ops ih =>
    intro a h hv
    cases op with
    | insert v =>
      obtain ⟨r, h1, h2, h3⟩ := insert_spec ho h v
      have hl : r.length = a.length + 1 := by simpa using h3.length_eq
      obtain ⟨a', outs, e1, e2, e3⟩ := ih r h2 (by rw [hl]; exact hv)
      exact ⟨a', .unit :: outs, by simp [run, step, h1, e1], .cons (.insert v h3) e2, e3⟩
    | pop =>
      obtain ⟨h0, hv⟩ := hv
      obtain ⟨r, h1, h2, h3⟩ := pop_spec ho h h0
      have hl : a.length = r.length + 1 := by simpa using h3.length_eq
      obtain ⟨a', outs, e1, e2, e3⟩ := ih r h2 (by rw [hl] at hv; simpa using hv)
      exact ⟨a', .popped a[0] :: outs, by simp [run, step, h1, e1],
        .cons (.pop _ (heap_root_max ho h (by simp [h0])) h3) e2, e3⟩
    | set i v =>
      by_cases hi : i < a.length
      · obtain ⟨r, h1, h2, h3⟩ := set_spec ho h hi v
        have hl : r.length = a.length := by simpa using h3.length_eq
        obtain ⟨a', outs, e1, e2, e3⟩ := ih r h2 (by rw [hl]; exact hv)
        refine ⟨a', .set (some a[i]) :: outs, by simp [run, step, h1, e1, rd_of_lt hi],
          .cons (.setOk (t := a.eraseIdx i) i v a[i] ?_ ?_) e2, e3⟩
        · rw [List.eraseIdx_eq_take_drop_succ]
          conv => lhs; rw [← List.take_append_drop i a, List.drop_eq_getElem_cons hi]
          exact List.perm_middle
        · refine h3.trans ?_
          rw [List.set_eq_take_append_cons_drop, if_pos hi, List.eraseIdx_eq_take_drop_succ]
          exact List.perm_middle
      · have e : set cmp a i v = some (a, false) := by simp [set, Nat.le_of_not_lt hi]
        obtain ⟨a', outs, e1, e2, e3⟩ := ih a h hv
        exact ⟨a', .set none :: outs, by simp [run, step, e, e1],
          .cons (.setFail i v (by omega) (List.Perm.refl _)) e2, e3⟩

/-- Non-vacuity of C01: a history with inserts, a set and pops. -/
example : Spec.Valid 0 [.insert (3 : Int), .insert 5, .insert 4, .set 2 9, .pop, .pop] ∧
    (run icmp [] [.insert (3 : Int), .insert 5, .insert 4, .set 2 9, .pop, .pop]).isSome := by
  refine ⟨by simp [Spec.Valid], ?_⟩
  decide +kernel

/-- **C01** (companion). `Set(i, v)` replaces exactly the value `Get(i)` showed before. -/
theorem C01_set_replaces_indexed (ho : CmpOrd cmp) {a : List α} (h : Spec.IsHeap cmp a) {i : Nat}
    (hi : i < a.length) (v : α) :
    ∃ a', set cmp a i v = some (a', true) ∧ Spec.IsHeap cmp a' ∧ a'.Perm (a.set i v) :=
  set_spec ho h hi v

example : Spec.IsHeap icmp [5, 3, 4] ∧ 1 < [5, 3, (4 : Int)].length := by
  refine ⟨?_, by simp⟩
  intro i x y hi hx hy
  have : i < 3 := by simpa using (List.getElem?_eq_some_iff.1 hx).1
  have : i = 1 ∨ i = 2 := by omega
  rcases this with rfl | rfl <;> simp at hx hy <;> subst hx hy <;> decide

/-- **C02.** `HeapSort` terminates without out-of-range access, its result is a permutation of the input
and is ascending under the comparison. -/
theorem C02_heapSort_sorts (ho : CmpOrd cmp) (a : List α) :
    ∃ r, heapSort cmp a a.length = some r ∧ r.Perm a ∧ r.Pairwise (fun x y => cmp x y ≤ 0) := by
  obtain ⟨b, h1, h2, h3⟩ := heapify_spec ho a
  have hl : b.length = a.length := h3.length_eq
  obtain ⟨r, e1, e2, e3⟩ := heapSortLoop_spec ho b.length b (Nat.le_refl _) (heapFrom_zero_iff.2 h2)
    (by simp) (by simp)
  refine ⟨r, ?_, e2.trans h3, e3⟩
  unfold heapSort
  rw [h1, ← hl]; exact e1

/-- **C02** (companion). `Heapify` yields a heap with the same multiset. -/
theorem C02_heapify_heap (ho : CmpOrd cmp) (a : List α) :
    ∃ r, heapify cmp a a.length = some r ∧ Spec.IsHeap cmp r ∧ r.Perm a :=
  heapify_spec ho a

/-- C02 runs on a non-trivial input. -/
example : heapSort icmp [3, 1, 2, 3, 0, 7] 6 = some [0, 1, 2, 3, 3, 7] := by decide +kernel

/-- **C03** fails for the code as it is: removing index 3 from this valid heap leaves value 8 below its
parent 2 (the replacement came from the other subtree and is only percolated down). -/
theorem C03_remove_counterexample :
    ∃ (a r : List Int), Spec.IsHeap icmp a ∧ remove icmp a 3 = some (r, true) ∧ ¬ Spec.IsHeap icmp r := by
  refine ⟨[10, 2, 9, 1, 0, 8, 8], [10, 2, 9, 8, 0, 8], ?_, by decide +kernel, ?_⟩
  · intro i x y hi hx hy
    have hlt : i < 7 := by simpa using (List.getElem?_eq_some_iff.1 hx).1
    have : i = 1 ∨ i = 2 ∨ i = 3 ∨ i = 4 ∨ i = 5 ∨ i = 6 := by omega
    rcases this with rfl | rfl | rfl | rfl | rfl | rfl <;> simp at hx hy <;> subst hx hy <;> decide
  · intro h
    have := h 3 8 2 (by omega) (by simp) (by simp)
    revert this; decide

/-- The broken heap is observable: the very next pops come out in the wrong order. -/
theorem C03_remove_counterexample_observable :
    ∃ (a r r1 r2 r3 : List Int) (x y z : Int), Spec.IsHeap icmp a ∧ remove icmp a 3 = some (r, true) ∧
      pop icmp r = some (r1, x) ∧ pop icmp r1 = some (r2, y) ∧ pop icmp r2 = some (r3, z) ∧
      ∃ w ∈ r3, icmp z w < 0 := by
  refine ⟨[10, 2, 9, 1, 1, 5, 8], [10, 2, 9, 8, 1, 5], [9, 2, 5, 8, 1], [5, 2, 1, 8], [8, 2, 1], 10, 9, 5,
    ?_, by decide +kernel, by decide +kernel, by decide +kernel, by decide +kernel, 8, by simp, by decide⟩
  intro i x y hi hx hy
  have hlt : i < 7 := by simpa using (List.getElem?_eq_some_iff.1 hx).1
  have : i = 1 ∨ i = 2 ∨ i = 3 ∨ i = 4 ∨ i = 5 ∨ i = 6 := by omega
  rcases this with rfl | rfl | rfl | rfl | rfl | rfl <;> simp at hx hy <;> subst hx hy <;> decide

/-- **C03 (partial).** `Remove(i)` removes exactly the element at `i` and keeps the heap valid provided the
last element does not exceed the parent of the removed position (always the case for `i = 0`, for the last
index, and when the last element lies below the parent).  Missing for the full claim: the code never
percolates up. -/
theorem C03_remove_partial (ho : CmpOrd cmp) {a : List α} (h : Spec.IsHeap cmp a) {i : Nat}
    (hi : i < a.length)
    (hok : ∀ p l, 0 < i → i ≠ a.length - 1 → a[(i - 1) / 2]? = some p → a[a.length - 1]? = some l →
      cmp l p ≤ 0) :
    ∃ r, remove cmp a i = some (r, true) ∧ Spec.IsHeap cmp r ∧ a.Perm (a[i] :: r) :=
  remove_spec ho h hi hok

/-- The hypotheses of the partial theorem are met with an inner index (`i = 1` of a 5-element heap). -/
example : Spec.IsHeap icmp [9, 7, 4, 3, 2] ∧ remove icmp [9, 7, 4, 3, 2] 1 = some ([9, 3, 4, 2], true) ∧
    (∀ p l, [9, 7, 4, 3, (2 : Int)][(1 - 1) / 2]? = some p → [9, 7, 4, 3, (2 : Int)][4]? = some l → icmp l p ≤ 0) := by
  refine ⟨?_, by decide +kernel, ?_⟩
  · intro i x y hi hx hy
    have hlt : i < 5 := by simpa using (List.getElem?_eq_some_iff.1 hx).1
    have : i = 1 ∨ i = 2 ∨ i = 3 ∨ i = 4 := by omega
    rcases this with rfl | rfl | rfl | rfl <;> simp at hx hy <;> subst hx hy <;> decide
  · intro p l hp hl
    simp at hp hl
    subst hp hl
    decide

/-- `Remove` with an invalid index reports failure and changes nothing. -/
theorem C03_remove_invalid (a : List α) (i : Nat) (hi : a.length ≤ i) :
    remove cmp a i = some (a, false) := by simp [remove, hi]

end Verif.Heap
