import Verif.Heap.Lemmas

namespace Verif.Heap

variable {α : Type _} {cmp : α → α → Int}

theorem heapFrom_zero_iff {a : List α} : HeapFrom cmp a a.length 0 ↔ Spec.IsHeap cmp a := by
  constructor
  · intro h i x y hi hx hy
    refine h i x y hi ?_ (Nat.zero_le _) hx hy
    exact (List.getElem?_eq_some_iff.1 hx).1
  · intro h i x y hi _ _ hx hy
    exact h i x y hi hx hy

/-- In a heap prefix the root dominates every slot. -/
theorem root_max (ho : CmpOrd cmp) {a : List α} {n : Nat} (hn : n ≤ a.length)
    (h : HeapFrom cmp a n 0) {r : α} (hr : a[0]? = some r) :
    ∀ i x, i < n → a[i]? = some x → cmp x r ≤ 0 := by
  intro i
  induction i using Nat.strongRecOn with
  | _ i ih =>
    intro x hi hx
    by_cases h0 : i = 0
    · subst h0
      rw [hr] at hx; cases hx
      rw [ho.refl]; omega
    · have hp : (i - 1) / 2 < a.length := by omega
      have h1 := h i x a[(i-1)/2] (by omega) hi (Nat.zero_le _) hx (by simp [hp])
      exact ho.trans _ _ _ h1 (ih ((i - 1) / 2) (by omega) _ (by omega) (by simp [hp]))

theorem heap_root_max (ho : CmpOrd cmp) {a : List α} (h : Spec.IsHeap cmp a) {r : α}
    (hr : a[0]? = some r) : ∀ x ∈ a, cmp x r ≤ 0 := by
  intro x hx
  obtain ⟨i, hi, rfl⟩ := List.mem_iff_getElem.1 hx
  exact root_max ho (Nat.le_refl _) (heapFrom_zero_iff.2 h) hr i _ hi (by simp)

theorem set_append_length (a : List α) (v w : α) : (a ++ [w]).set a.length v = a ++ [v] := by
  simp

theorem insert_spec (ho : CmpOrd cmp) {a : List α} (h : Spec.IsHeap cmp a) (v : α) :
    ∃ r, insert cmp a v = some r ∧ Spec.IsHeap cmp r ∧ r.Perm (v :: a) := by
  unfold insert
  obtain ⟨r, h1, h2, h3⟩ := percolateUp_spec ho a.length (a ++ [v]) v (by simp)
    (by
      intro i x y hi hne _ hx hy
      have hil : i < a.length := by
        have := (List.getElem?_eq_some_iff.1 hx).1
        simp at this; omega
      rw [List.getElem?_append_left hil] at hx
      rw [List.getElem?_append_left (by omega)] at hy
      exact h i x y hi hx hy)
    (by
      intro i x hi hk hx
      have := (List.getElem?_eq_some_iff.1 hx).1
      simp at this; omega)
    (by
      intro i x y hi _ hk hx
      have := (List.getElem?_eq_some_iff.1 hx).1
      simp at this; omega)
  refine ⟨r, h1, h2, h3.trans ?_⟩
  rw [set_append_length]
  exact List.perm_append_comm

theorem set_spec (ho : CmpOrd cmp) {a : List α} (h : Spec.IsHeap cmp a) {i : Nat} (hi : i < a.length)
    (v : α) : ∃ r, set cmp a i v = some (r, true) ∧ Spec.IsHeap cmp r ∧ r.Perm (a.set i v) := by
  unfold set
  rw [if_neg (by omega)]
  simp only [rd_of_lt hi, Option.bind_eq_bind, Option.bind_some]
  split
  · next hle =>
    obtain ⟨r, h1, h2, h3⟩ := percolateUp_spec ho i a v hi
      (fun j x y hj _ _ hx hy => h j x y hj hx hy)
      (fun j x hj hjk hx => ho.trans _ _ _ (h j x a[i] hj hx (by rw [hjk]; simp [hi])) hle)
      (by
        intro j x y hj hk hjk hx hy
        exact ho.trans _ _ _ (h j x a[i] hj hx (by rw [hjk]; simp [hi])) (h i a[i] y hk (by simp [hi]) hy))
    exact ⟨r, by rw [h1]; rfl, h2, h3⟩
  · next hgt =>
    have hgt : cmp v a[i] ≤ 0 := ho.ge_of_gt (by omega)
    obtain ⟨r, h1, h2, h3, _⟩ := percolateDown_spec ho a.length 0 _ i a v rfl hi (Nat.le_refl _) (Nat.zero_le _)
      (fun j x y hj _ _ _ _ hx hy => h j x y hj hx hy)
      (fun y hk _ hy _ => ho.trans _ _ _ hgt (h i a[i] y hk (by simp [hi]) hy))
      (by
        intro j x y hj _ hk hjk _ hx hy
        exact ho.trans _ _ _ (h j x a[i] hj hx (by rw [hjk]; simp [hi])) (h i a[i] y hk (by simp [hi]) hy))
    have hl : r.length = a.length := by have := h3.length_eq; simpa using this
    refine ⟨r, by rw [h1]; rfl, heapFrom_zero_iff.1 (by rw [hl]; exact h2), h3⟩

theorem isHeap_dropLast {r : List α} {n : Nat} (h : HeapFrom cmp r n 0) (hn : n = r.length - 1) :
    Spec.IsHeap cmp r.dropLast := by
  intro i x y hi hx hy
  have hil := (List.getElem?_eq_some_iff.1 hx).1
  have hjl := (List.getElem?_eq_some_iff.1 hy).1
  rw [List.getElem?_dropLast] at hx hy
  simp at hil hjl
  rw [if_pos hil] at hx
  rw [if_pos hjl] at hy
  exact h i x y hi (by omega) (Nat.zero_le _) hx hy

/-- Removal when the element moved into the hole does not exceed the hole's parent. -/
theorem remove_spec (ho : CmpOrd cmp) {a : List α} (h : Spec.IsHeap cmp a) {i : Nat} (hi : i < a.length)
    (hok : ∀ p l, 0 < i → i ≠ a.length - 1 → a[(i - 1) / 2]? = some p → a[a.length - 1]? = some l → cmp l p ≤ 0) :
    ∃ r, remove cmp a i = some (r, true) ∧ Spec.IsHeap cmp r ∧ a.Perm (a[i] :: r) := by
  unfold remove
  rw [if_neg (by omega)]
  split
  · next h1 =>
    have hl : a.length - 1 < a.length := by omega
    simp only [rd_of_lt hl, Option.bind_eq_bind, Option.bind_some]
    obtain ⟨r, hr, hH, hP, hF⟩ := percolateDown_spec ho (a.length - 1) 0 _ i a a[a.length - 1] rfl hi (by omega)
      (Nat.zero_le _) (fun j x y hj _ _ _ _ hx hy => h j x y hj hx hy)
      (fun y hk _ hy hlt => hok y _ hk (by omega) hy (by simp [hl]))
      (by
        intro j x y hj _ hk hjk _ hx hy
        exact ho.trans _ _ _ (h j x a[i] hj hx (by rw [hjk]; simp [hi])) (h i a[i] y hk (by simp [hi]) hy))
    have hlen : r.length = a.length := by have := hP.length_eq; simpa using this
    refine ⟨r.dropLast, by rw [hr]; rfl, isHeap_dropLast (by rw [← hlen] at hH; exact hH) rfl, ?_⟩
    -- multiset bookkeeping
    have hlast : r[a.length - 1]? = some a[a.length - 1] := by
      by_cases hik : i = a.length - 1
      · -- the hole is the last slot: percolateDown just writes it back
        subst hik
        rw [percolateDown, dif_neg (by omega), if_neg (by omega)] at hr
        simp at hr
        rw [hr.2]; simp [hl]
      · rw [hF _ (Nat.le_refl _) (fun e => hik e.symm)]; simp [hl]
    have hrne : r ≠ [] := by intro e; subst e; simp at hlen; omega
    have hrl : r = r.dropLast ++ [a[a.length - 1]] := by
      conv => lhs; rw [← List.dropLast_concat_getLast hrne]
      congr 2
      rw [List.getLast_eq_getElem]
      have : r[r.length - 1]? = some a[a.length - 1] := by rw [hlen]; exact hlast
      exact (List.getElem?_eq_some_iff.1 this).2
    have hset : (a.set i a[a.length - 1]).Perm (a[a.length - 1] :: a.eraseIdx i) := by
      rw [List.set_eq_take_append_cons_drop, if_pos hi, List.eraseIdx_eq_take_drop_succ]
      exact List.perm_middle
    have ha : a.Perm (a[i] :: a.eraseIdx i) := by
      rw [List.eraseIdx_eq_take_drop_succ]
      conv => lhs; rw [← List.take_append_drop i a, List.drop_eq_getElem_cons hi]
      exact List.perm_middle
    refine ha.trans (List.Perm.cons _ ?_)
    have h5 : (a[a.length - 1] :: a.eraseIdx i).Perm (a[a.length - 1] :: r.dropLast) := by
      refine hset.symm.trans (hP.symm.trans ?_)
      conv => lhs; rw [hrl]
      exact List.perm_append_comm
    exact h5.cons_inv
  · next h1 =>
    have hl1 : a.length = 1 := by omega
    obtain ⟨x, rfl⟩ := List.length_eq_one_iff.1 hl1
    have : i = 0 := by simp at hi; exact hi
    subst this
    refine ⟨[], by simp, ?_, by simp⟩
    intro i x y _ hx; simp at hx

theorem pop_spec (ho : CmpOrd cmp) {a : List α} (h : Spec.IsHeap cmp a) (hi : 0 < a.length) :
    ∃ r, pop cmp a = some (r, a[0]) ∧ Spec.IsHeap cmp r ∧ a.Perm (a[0] :: r) := by
  obtain ⟨r, h1, h2, h3⟩ := remove_spec ho h hi (by intro p l h0; omega)
  refine ⟨r, ?_, h2, h3⟩
  unfold pop
  simp [rd_of_lt hi, h1]

theorem heapifyLoop_spec (ho : CmpOrd cmp) : ∀ (i : Nat) (a : List α), i ≤ a.length / 2 →
    HeapFrom cmp a a.length i →
    ∃ r, heapifyLoop cmp a.length i a = some r ∧ Spec.IsHeap cmp r ∧ r.Perm a := by
  intro i
  induction i with
  | zero => intro a _ h; exact ⟨a, rfl, heapFrom_zero_iff.1 h, List.Perm.refl _⟩
  | succ i ih =>
    intro a hi h
    have hil : i < a.length := by omega
    unfold heapifyLoop
    simp only [rd_of_lt hil, Option.bind_eq_bind, Option.bind_some]
    obtain ⟨r, hr, hH, hP, _⟩ := percolateDown_spec ho a.length i _ i a a[i] rfl hil (Nat.le_refl _) (Nat.le_refl _)
      (fun j x y hj hjn hs _ hne hx hy => h j x y hj hjn (by omega) hx hy)
      (fun y hk hs _ _ => by omega)
      (fun j x y _ _ _ _ _ hx hy => by omega)
    have hlen : r.length = a.length := by have := hP.length_eq; simpa using this
    rw [hr]
    simp only [Option.bind_some]
    rw [← hlen] at hH ⊢
    obtain ⟨r', h1, h2, h3⟩ := ih r (by omega) hH
    refine ⟨r', h1, h2, h3.trans (hP.trans ?_)⟩
    simp

theorem heapify_spec (ho : CmpOrd cmp) (a : List α) :
    ∃ r, heapify cmp a a.length = some r ∧ Spec.IsHeap cmp r ∧ r.Perm a := by
  apply heapifyLoop_spec ho _ _ (Nat.le_refl _)
  intro i x y hi hin hs _ _
  omega

theorem heapSortLoop_spec (ho : CmpOrd cmp) : ∀ (m : Nat) (a : List α), m ≤ a.length →
    HeapFrom cmp a m 0 → (∀ x ∈ a.take m, ∀ y ∈ a.drop m, cmp x y ≤ 0) →
    (a.drop m).Pairwise (fun x y => cmp x y ≤ 0) →
    ∃ r, heapSortLoop cmp m a = some r ∧ r.Perm a ∧ r.Pairwise (fun x y => cmp x y ≤ 0) := by
  intro m
  induction m with
  | zero => intro a _ _ _ hp; exact ⟨a, rfl, List.Perm.refl _, by simpa using hp⟩
  | succ m ih =>
    intro a hm hH hle hp
    cases m with
    | zero =>
      refine ⟨a, rfl, List.Perm.refl _, ?_⟩
      rw [← List.take_append_drop 1 a, List.pairwise_append]
      refine ⟨?_, hp, hle⟩
      cases a with
      | nil => simp
      | cons x xs => simp
    | succ m =>
      have h0 : 0 < a.length := by omega
      have hm1 : m + 1 < a.length := by omega
      unfold heapSortLoop
      simp only [rd_of_lt h0, rd_of_lt hm1, wr_of_lt hm1, Option.bind_eq_bind, Option.bind_some]
      have hrootmax := root_max ho hm hH (r := a[0]) (by simp [h0])
      generalize hb : a.set (m + 1) a[0] = b
      have hbl : b.length = a.length := by subst hb; simp
      have hbget : ∀ j, j ≠ m + 1 → b[j]? = a[j]? := by
        intro j hj; subst hb; rw [List.getElem?_set, if_neg (fun e => hj e.symm)]
      obtain ⟨r, hr, hH', hP, hF⟩ := percolateDown_spec ho (m + 1) 0 _ 0 b a[m + 1] rfl (by omega) (by omega)
        (Nat.zero_le _)
        (by
          intro j x y hj hjn _ hne hne' hx hy
          rw [hbget _ (by omega)] at hx hy
          exact hH j x y hj (by omega) (Nat.zero_le _) hx hy)
        (fun y hk => by omega) (fun j x y _ _ hk => by omega)
      rw [hr]
      simp only [Option.bind_some]
      have hlen : r.length = a.length := by have := hP.length_eq; simpa [hbl] using this
      have hPa : r.Perm a := by
        refine hP.trans ?_
        subst hb
        have := List.set_set_perm (as := a) (i := m + 1) (j := 0) hm1 h0
        exact this
      have hdrop : r.drop (m + 1) = a[0] :: a.drop (m + 2) := by
        apply List.ext_getElem?
        intro j
        rw [List.getElem?_drop, hF _ (by omega) (by omega)]
        cases j with
        | zero => subst hb; simp [hm1]
        | succ j =>
          rw [hbget _ (by omega), List.getElem?_cons_succ, List.getElem?_drop]
          congr 1; omega
      have htake : (r.take (m + 1)).Perm ((b.set 0 a[m + 1]).take (m + 1)) := by
        have h1 : r.drop (m + 1) = (b.set 0 a[m + 1]).drop (m + 1) := by
          rw [hdrop, List.drop_set_of_lt (by omega)]
          apply List.ext_getElem?
          intro j
          rw [List.getElem?_drop]
          cases j with
          | zero => subst hb; simp [hm1]
          | succ j =>
            rw [hbget _ (by omega), List.getElem?_cons_succ, List.getElem?_drop]
            congr 1; omega
        have h2 := hP
        rw [← List.take_append_drop (m + 1) r, ← List.take_append_drop (m + 1) (b.set 0 a[m + 1]), h1] at h2
        exact (List.perm_append_right_iff _).1 h2
      -- every element of the new prefix sits in the old prefix
      have hsub : ∀ x ∈ r.take (m + 1), ∃ i, i < m + 2 ∧ a[i]? = some x := by
        intro x hx
        have hx := htake.mem_iff.1 hx
        obtain ⟨i, hxi⟩ := List.mem_iff_getElem?.1 hx
        have hi := (List.getElem?_eq_some_iff.1 hxi).1
        simp at hi
        rw [List.getElem?_take, if_pos (by omega), List.getElem?_set] at hxi
        split at hxi
        · next h =>
          rw [if_pos (by omega)] at hxi
          exact ⟨m + 1, by omega, by simpa [hm1] using hxi⟩
        · next h =>
          rw [hbget _ (by omega)] at hxi
          exact ⟨i, by omega, hxi⟩
      obtain ⟨r', h1, h2, h3⟩ := ih r (by omega) hH'
        (by
          intro x hx y hy
          obtain ⟨i, hi, hxi⟩ := hsub x hx
          rw [hdrop] at hy
          rcases List.mem_cons.1 hy with rfl | hy
          · exact hrootmax i x hi hxi
          · refine hle x ?_ y hy
            rw [List.mem_iff_getElem?]
            exact ⟨i, by rw [List.getElem?_take, if_pos (by omega)]; exact hxi⟩)
        (by
          rw [hdrop, List.pairwise_cons]
          refine ⟨?_, hp⟩
          intro y hy
          refine hle _ ?_ y hy
          rw [List.mem_iff_getElem?]
          exact ⟨0, by rw [List.getElem?_take, if_pos (by omega)]; simp [h0]⟩)
      exact ⟨r', h1, h2.trans hPa, h3⟩

end Verif.Heap
