import Verif.Heap.Model
import Verif.Heap.Spec

namespace Verif.Heap

variable {α : Type _} {cmp : α → α → Int}

theorem percolateUp_spec (ho : CmpOrd cmp) : ∀ (k : Nat) (a : List α) (val : α), k < a.length →
    (∀ i x y, 0 < i → i ≠ k → (i - 1) / 2 ≠ k → a[i]? = some x → a[(i - 1) / 2]? = some y → cmp x y ≤ 0) →
    (∀ i x, 0 < i → (i - 1) / 2 = k → a[i]? = some x → cmp x val ≤ 0) →
    (∀ i x y, 0 < i → 0 < k → (i - 1) / 2 = k → a[i]? = some x → a[(k - 1) / 2]? = some y → cmp x y ≤ 0) →
    ∃ r, percolateUp cmp a k val = some r ∧ Spec.IsHeap cmp r ∧ r.Perm (a.set k val) := by
  intro k
  induction k using Nat.strongRecOn with
  | _ k ih =>
    intro a val hk hheap hch hgr
    rw [percolateUp]
    split
    · next h0 =>
      subst h0
      refine ⟨a.set 0 val, wr_of_lt hk, ?_, List.Perm.refl _⟩
      intro i x y hi hx hy
      have hi0 : i ≠ 0 := by omega
      rw [List.getElem?_set] at hx hy
      rw [if_neg (by omega)] at hx
      split at hy
      · next h => 
        simp only [hk, if_true, Option.some.injEq] at hy
        subst hy
        exact hch i x hi h.symm hx
      · next h => exact hheap i x y hi hi0 (fun h' => h h'.symm) hx hy
    · next h0 =>
      have hp : parent k < a.length := by unfold parent; omega
      simp only [rd_of_lt hp, Option.bind_eq_bind, Option.bind_some]
      split
      · next hlt =>
        refine ⟨a.set k val, wr_of_lt hk, ?_, List.Perm.refl _⟩
        intro i x y hi hx hy
        rw [List.getElem?_set] at hx hy
        split at hx
        · next h =>
          subst h
          simp only [hk, if_true, Option.some.injEq] at hx
          subst hx
          rw [if_neg (by omega)] at hy
          have : a[parent k] = y := by
            have : (k-1)/2 < a.length := hp
            simpa [parent, this] using hy
          subst this; omega
        · next h =>
          split at hy
          · next h' =>
            simp only [hk, if_true, Option.some.injEq] at hy
            subst hy
            exact hch i x hi h'.symm hx
          · next h' => exact hheap i x y hi (fun e => h e.symm) (fun e => h' e.symm) hx hy
      · next hge =>
        simp only [wr_of_lt hk, Option.bind_some]
        have hle : cmp a[parent k] val ≤ 0 := ho.le_of_not_lt hge
        have hpk : parent k ≠ k := by unfold parent; omega
        have hlt : parent k < k := by unfold parent; omega
        obtain ⟨r, hr, hH, hP⟩ := ih (parent k) hlt (a.set k a[parent k]) val (by simpa using hp)
          (by
            intro i x y hi hne hne' hx hy
            rw [List.getElem?_set] at hx hy
            split at hx
            · next h => subst h; exact absurd rfl hne'
            · next h =>
              split at hy
              · next h' =>
                simp only [hk, if_true, Option.some.injEq] at hy
                subst hy
                refine hgr i x _ hi (by omega) h'.symm hx ?_
                simp [parent] at hp ⊢
              · next h' => exact hheap i x y hi (fun e => h e.symm) (fun e => h' e.symm) hx hy)
          (by
            intro i x hi hpi hx
            rw [List.getElem?_set] at hx
            split at hx
            · next h =>
              simp only [hk, if_true, Option.some.injEq] at hx
              subst hx; exact hle
            · next h =>
              refine ho.trans _ _ _ ?_ hle
              refine hheap i x _ hi (fun e => h e.symm) (by omega) hx ?_
              rw [hpi]; simp [hp])
          (by
            intro i x y hi hpos hpi hx hy
            rw [List.getElem?_set] at hx hy
            have hpp : (parent k - 1) / 2 ≠ k := by omega
            rw [if_neg (fun e => hpp e.symm)] at hy
            have hpar : cmp a[parent k] y ≤ 0 :=
              hheap (parent k) _ y hpos hpk hpp (by simp [hp]) hy
            split at hx
            · next h =>
              simp only [hk, if_true, Option.some.injEq] at hx
              subst hx; exact hpar
            · next h =>
              refine ho.trans _ _ _ ?_ hpar
              refine hheap i x _ hi (fun e => h e.symm) (by omega) hx ?_
              rw [hpi]; simp [hp])
        refine ⟨r, hr, hH, hP.trans ?_⟩
        exact perm_set_hole hk (by simp [hp]) hpk

/-- Heap order restricted to the first `n` slots and to parents at index `≥ s`. -/
def HeapFrom (cmp : α → α → Int) (a : List α) (n s : Nat) : Prop :=
  ∀ i x y, 0 < i → i < n → s ≤ (i - 1) / 2 → a[i]? = some x → a[(i - 1) / 2]? = some y → cmp x y ≤ 0

theorem percolateDown_spec (ho : CmpOrd cmp) (n s : Nat) : ∀ (d k : Nat) (a : List α) (val : α),
    n - k = d → k < a.length → n ≤ a.length → s ≤ k →
    (∀ i x y, 0 < i → i < n → s ≤ (i - 1) / 2 → i ≠ k → (i - 1) / 2 ≠ k →
      a[i]? = some x → a[(i - 1) / 2]? = some y → cmp x y ≤ 0) →
    (∀ y, 0 < k → s ≤ (k - 1) / 2 → a[(k - 1) / 2]? = some y → k < n → cmp val y ≤ 0) →
    (∀ i x y, 0 < i → i < n → 0 < k → (i - 1) / 2 = k → s ≤ (k - 1) / 2 →
      a[i]? = some x → a[(k - 1) / 2]? = some y → cmp x y ≤ 0) →
    ∃ r, percolateDown cmp a n k val = some r ∧ HeapFrom cmp r n s ∧ r.Perm (a.set k val) ∧
      ∀ j, n ≤ j → j ≠ k → r[j]? = a[j]? := by
  intro d
  induction d using Nat.strongRecOn with
  | _ d ih =>
    intro k a val hd hk hn hs hheap hpar hgr
    -- the "stop here" case
    have stop : (∀ i x, 0 < i → i < n → (i - 1) / 2 = k → a[i]? = some x → cmp x val ≤ 0) →
        ∃ r, wr a k val = some r ∧ HeapFrom cmp r n s ∧ r.Perm (a.set k val) ∧
          ∀ j, n ≤ j → j ≠ k → r[j]? = a[j]? := by
      intro hch
      refine ⟨a.set k val, wr_of_lt hk, ?_, List.Perm.refl _, ?_⟩
      · intro i x y hi hin hsi hx hy
        rw [List.getElem?_set] at hx hy
        split at hx
        · next h =>
          subst h
          simp only [hk, if_true, Option.some.injEq] at hx
          subst hx
          rw [if_neg (by omega)] at hy
          exact hpar y hi hsi hy hin
        · next h =>
          split at hy
          · next h' =>
            simp only [hk, if_true, Option.some.injEq] at hy
            subst hy
            exact hch i x hi hin h'.symm hx
          · next h' => exact hheap i x y hi hin hsi (fun e => h e.symm) (fun e => h' e.symm) hx hy
      · intro j _ hj
        rw [List.getElem?_set, if_neg (fun e => hj e.symm)]
    rw [percolateDown]
    split
    · next h2 =>
      have hl : 2 * k + 1 < a.length := by omega
      have hr : 2 * k + 2 < a.length := by omega
      simp only [rd_of_lt hl, rd_of_lt hr, Option.bind_eq_bind, Option.bind_some]
      generalize hi : (if cmp a[2 * k + 1] a[2 * k + 2] > 0 then 2 * k + 1 else 2 * k + 2) = i
      generalize hc : (if cmp a[2 * k + 1] a[2 * k + 2] > 0 then a[2 * k + 1] else a[2 * k + 2]) = c
      have hbig : cmp a[2 * k + 1] c ≤ 0 ∧ cmp a[2 * k + 2] c ≤ 0 := by
        subst hc
        split
        · next h => exact ⟨by rw [ho.refl]; omega, ho.ge_of_gt h⟩
        · next h => exact ⟨by omega, by rw [ho.refl]; omega⟩
      have hic : a[i]? = some c := by
        subst hi hc
        split <;> simp [hl, hr]
      have hip : (i - 1) / 2 = k := by subst hi; split <;> omega
      have hi0 : 0 < i := by subst hi; split <;> omega
      have hin : i < n := by subst hi; split <;> omega
      have hchild : ∀ j x, 0 < j → j < n → (j - 1) / 2 = k → a[j]? = some x → cmp x c ≤ 0 := by
        intro j x hj hjn hjk hx
        have : j = 2 * k + 1 ∨ j = 2 * k + 2 := by omega
        rcases this with rfl | rfl
        · simp [hl] at hx; subst hx; exact hbig.1
        · simp [hr] at hx; subst hx; exact hbig.2
      split
      · next hgt =>
        apply stop
        intro j x hj hjn hjk hx
        exact ho.trans _ _ _ (hchild j x hj hjn hjk hx) (ho.ge_of_gt hgt)
      · next hle =>
        have hle : cmp val c ≤ 0 := by omega
        simp only [wr_of_lt hk, Option.bind_some]
        have hik : i ≠ k := by omega
        have hki : k < i := by omega
        obtain ⟨r, hr', hH, hP, hF⟩ := ih (n - i) (by omega) i (a.set k c) val rfl (by simp; omega)
          (by simpa using hn) (by omega)
          (by
            intro j x y hj hjn hsj hne hne' hx hy
            rw [List.getElem?_set] at hx hy
            split at hx
            · next h =>
              subst h
              simp only [hk, if_true, Option.some.injEq] at hx
              subst hx
              rw [if_neg (by omega)] at hy
              exact hgr i c y hi0 hin hj hip hsj hic hy
            · next h =>
              split at hy
              · next h' =>
                simp only [hk, if_true, Option.some.injEq] at hy
                subst hy
                exact hchild j x hj hjn h'.symm hx
              · next h' => exact hheap j x y hj hjn hsj (fun e => h e.symm) (fun e => h' e.symm) hx hy)
          (by
            intro y _ _ hy _
            rw [hip, List.getElem?_set] at hy
            simp only [if_true, hk, Option.some.injEq] at hy
            subst hy; exact hle)
          (by
            intro j x y hj hjn _ hji _ hx hy
            rw [hip, List.getElem?_set] at hy
            simp only [if_true, hk, Option.some.injEq] at hy
            subst hy
            rw [List.getElem?_set, if_neg (by omega)] at hx
            refine hheap j x c hj hjn (by omega) (by omega) (by omega) hx ?_
            rw [hji]; exact hic)
        refine ⟨r, hr', hH, hP.trans (perm_set_hole hk hic hik), ?_⟩
        intro j hj hjk
        rw [hF j hj (by omega), List.getElem?_set, if_neg (fun e => hjk e.symm)]
    · next h2 =>
      split
      · next h1 =>
        have hl : 2 * k + 1 < a.length := by omega
        simp only [rd_of_lt hl, Option.bind_eq_bind, Option.bind_some]
        have honly : ∀ j x, 0 < j → j < n → (j - 1) / 2 = k → a[j]? = some x → x = a[2 * k + 1] := by
          intro j x hj hjn hjk hx
          have : j = 2 * k + 1 := by omega
          subst this
          simpa [hl, eq_comm] using hx
        split
        · next hle =>
          simp only [wr_of_lt hk, Option.bind_some]
          rw [wr_of_lt (by simpa using hl)]
          refine ⟨_, rfl, ?_, perm_set_hole hk (by simp [hl]) (by omega), ?_⟩
          · intro j x y hj hjn hsj hx hy
            simp only [List.getElem?_set, List.length_set, hk, hl, if_true] at hx hy
            split at hx
            · next h =>
              subst h
              have e : (2 * k + 1 - 1) / 2 = k := by omega
              simp only [e, if_true, Option.some.injEq, if_neg (show ¬ (2 * k + 1 = k) by omega)] at hx hy
              subst hx hy
              exact hle
            · next h =>
              split at hx
              · next h' =>
                subst h'
                simp only [Option.some.injEq] at hx
                subst hx
                rw [if_neg (by omega), if_neg (by omega)] at hy
                exact hgr (2 * k + 1) _ y (by omega) h1 hj (by omega) hsj (by simp [hl]) hy
              · next h' =>
                split at hy
                · next h'' => omega
                · next h'' =>
                  split at hy
                  · next h3 =>
                    have := honly j x hj hjn h3.symm hx
                    omega
                  · next h3 =>
                    exact hheap j x y hj hjn hsj (fun e => h' e.symm) (fun e => h3 e.symm) hx hy
          · intro j hj hjk
            rw [List.getElem?_set, if_neg (by omega), List.getElem?_set, if_neg (fun e => hjk e.symm)]
        · next hgt =>
          apply stop
          intro j x hj hjn hjk hx
          rw [honly j x hj hjn hjk hx]
          exact ho.ge_of_gt (by omega)
      · next h1 =>
        apply stop
        intro j x hj hjn hjk hx
        omega

end Verif.Heap
