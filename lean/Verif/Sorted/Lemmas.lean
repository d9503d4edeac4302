import Verif.Sorted.Model

namespace Verif.Sorted

open Spec

variable {α β κ ν : Type _}

/-- Partition point found by `near` when `test` is true on a prefix of the range and false after it. -/
theorem near_spec (test : α → Bool) (arr : List α) (c : Nat) : ∀ first, first + c ≤ arr.length →
    (∀ i j x y, first ≤ i → i < j → j < first + c → arr[i]? = some x → arr[j]? = some y →
      test y = true → test x = true) →
    ∃ r, near test arr first c = some r ∧ first ≤ r ∧ r ≤ first + c ∧
      (∀ i x, first ≤ i → i < r → arr[i]? = some x → test x = true) ∧
      (∀ i x, r ≤ i → i < first + c → arr[i]? = some x → test x = false) := by
  induction c using Nat.strongRecOn with
  | _ c ih =>
    intro first hlen hmono
    rw [near]
    split
    · next h0 =>
      subst h0
      exact ⟨first, rfl, Nat.le_refl _, by omega, fun i x h1 h2 => by omega, fun i x h1 h2 => by omega⟩
    · next h0 =>
      have hm : first + c / 2 < arr.length := by omega
      simp only [rd_of_lt hm, Option.bind_eq_bind, Option.bind_some]
      split
      · next ht =>
        obtain ⟨r, h1, h2, h3, h4, h5⟩ := ih (c - (c / 2 + 1)) (by omega) (first + c / 2 + 1) (by omega)
          (fun i j x y hi hij hj => hmono i j x y (by omega) hij (by omega))
        refine ⟨r, h1, by omega, by omega, ?_, fun i x hi hi2 => h5 i x hi (by omega)⟩
        intro i x hi hir hx
        by_cases hle : first + c / 2 + 1 ≤ i
        · exact h4 i x hle hir hx
        · by_cases he : i = first + c / 2
          · subst he
            simp [hm] at hx; subst hx; exact ht
          · exact hmono i (first + c / 2) x _ hi (by omega) (by omega) hx (by simp [hm]) ht
      · next ht =>
        obtain ⟨r, h1, h2, h3, h4, h5⟩ := ih (c / 2) (by omega) first (by omega)
          (fun i j x y hi hij hj => hmono i j x y hi hij (by omega))
        refine ⟨r, h1, h2, by omega, h4, ?_⟩
        intro i x hi hi2 hx
        by_cases hlt : i < first + c / 2
        · exact h5 i x hi hlt hx
        · by_cases he : i = first + c / 2
          · subst he
            simp [hm] at hx; subst hx; simpa using ht
          · cases htx : test x
            · rfl
            · exact absurd (hmono (first + c / 2) i _ x (by omega) (by omega) (by omega) (by simp [hm]) hx htx) ht

theorem exactLoop_spec (cmpF : α → β → Int) (arr : List α) (data : β) (lo hi : Nat) (hlen : hi ≤ arr.length)
    (hmono : ∀ i j x y, lo ≤ i → i < j → j < hi → arr[i]? = some x → arr[j]? = some y →
      (cmpF y data < 0 → cmpF x data < 0) ∧ (0 < cmpF x data → 0 < cmpF y data)) :
    ∀ (n : Nat) (f l : Int), (l - f + 1).toNat = n → (lo : Int) ≤ f → l < hi →
    (∀ (i : Nat) x, lo ≤ i → (i : Int) < f → arr[i]? = some x → cmpF x data < 0) →
    (∀ (i : Nat) x, (l : Int) < i → i < hi → arr[i]? = some x → 0 < cmpF x data) →
    (∃ (i : Nat) (x : α), exactLoop cmpF arr data f l = some (i : Int) ∧ lo ≤ i ∧ i < hi ∧ arr[i]? = some x ∧ cmpF x data = 0) ∨
    (exactLoop cmpF arr data f l = some (-1) ∧ ∀ i x, lo ≤ i → i < hi → arr[i]? = some x → cmpF x data ≠ 0) := by
  intro n
  induction n using Nat.strongRecOn with
  | _ n ih =>
    intro f l hn hf hl hlow hhigh
    rw [exactLoop]
    split
    · next hfl =>
      have hm0 : ¬ (f + (l - f) / 2 < 0) := by omega
      have hmlt : (f + (l - f) / 2).toNat < arr.length := by omega
      simp only [if_neg hm0, rd_of_lt hmlt, Option.bind_eq_bind, Option.bind_some]
      generalize hx : arr[(f + (l - f) / 2).toNat] = x
      have hxm : arr[(f + (l - f) / 2).toNat]? = some x := by simp [hmlt, hx]
      split
      · next hlt =>
        apply ih _ _ _ _ rfl (by omega) hl
        · intro i y hi hif hy
          by_cases he : i = (f + (l - f) / 2).toNat
          · subst he; rw [hxm] at hy; cases hy; exact hlt
          · exact (hmono i _ y x hi (by omega) (by omega) hy hxm).1 hlt
        · exact hhigh
        · omega
      · next hge =>
        split
        · next hgt =>
          apply ih _ _ _ _ rfl hf (by omega) hlow
          · intro i y hi hif hy
            by_cases he : i = (f + (l - f) / 2).toNat
            · subst he; rw [hxm] at hy; cases hy; exact hgt
            · exact (hmono _ i x y (by omega) (by omega) (by omega) hxm hy).2 hgt
          · omega
        · next hle =>
          left
          refine ⟨(f + (l - f) / 2).toNat, x, ?_, by omega, by omega, hxm, by omega⟩
          congr 1; omega
    · next hfl =>
      right
      refine ⟨rfl, ?_⟩
      intro i x hi hih hx
      by_cases h : (i : Int) < f
      · have := hlow i x hi h hx; omega
      · have := hhigh i x (by omega) hih hx; omega

theorem sorted_sortedIn {cmp : α → α → Int} {a : List α} (h : Sorted cmp a) (lo hi : Nat) :
    SortedIn cmp a lo hi := by
  intro i j x y _ hij _ hx hy
  obtain ⟨hi, rfl⟩ := List.getElem?_eq_some_iff.1 hx
  obtain ⟨hj, rfl⟩ := List.getElem?_eq_some_iff.1 hy
  exact List.pairwise_iff_getElem.1 h i j hi hj hij

theorem after_spec {cmp : α → α → Int} (ho : CmpOrd cmp) (hs : Sgn cmp) {arr : List α} {first last : Nat}
    (hlen : last ≤ arr.length) (hfl : first ≤ last) (hsort : SortedIn cmp arr first last) (data : α) :
    ∃ r, searchAfter cmp arr data first last = some r ∧ first ≤ r ∧ r ≤ last ∧
      (∀ i x, first ≤ i → i < r → arr[i]? = some x → cmp x data < 0) ∧
      (∀ i x, r ≤ i → i < last → arr[i]? = some x → 0 ≤ cmp x data) := by
  unfold searchAfter
  obtain ⟨r, h1, h2, h3, h4, h5⟩ := near_spec (fun x => cmp data x == 1) arr (last - first) first (by omega)
    (by
      intro i j x y hi hij hj hx hy ht
      have hxy := hsort i j x y hi hij (by omega) hx hy
      simp only [beq_iff_eq] at ht ⊢
      have h1 := ho.lt_of_le_of_lt hxy ((ho.sym y data).2 (by omega))
      have h2 := (ho.sym x data).1 h1
      rcases hs data x with h | h | h <;> omega)
  refine ⟨r, h1, h2, by omega, ?_, ?_⟩
  · intro i x hi hir hx
    have := h4 i x hi hir hx
    simp only [beq_iff_eq] at this
    exact (ho.sym x data).2 (by omega)
  · intro i x hi hil hx
    have := h5 i x hi (by omega) hx
    simp only [beq_eq_false_iff_ne] at this
    have h6 := ho.sym x data
    rcases hs data x with h | h | h <;> omega

/-- `searchBefore` for heterogeneous keys: `cmpF data x` compares the key with an element. -/
theorem before_spec_gen {cmpF : β → α → Int} (hs : Sgn cmpF) {arr : List α} {first last : Nat}
    (hlen : last ≤ arr.length) (hfl : first ≤ last) (data : β)
    (hmono : ∀ i j x y, first ≤ i → i < j → j < last → arr[i]? = some x → arr[j]? = some y →
      0 ≤ cmpF data y → 0 ≤ cmpF data x) :
    ∃ r : Nat, searchBefore cmpF arr data first last = some ((r : Int) - 1) ∧ first ≤ r ∧ r ≤ last ∧
      (∀ i x, first ≤ i → i < r → arr[i]? = some x → 0 ≤ cmpF data x) ∧
      (∀ i x, r ≤ i → i < last → arr[i]? = some x → cmpF data x < 0) := by
  unfold searchBefore
  obtain ⟨r, h1, h2, h3, h4, h5⟩ := near_spec (fun x => cmpF data x != -1) arr (last - first) first (by omega)
    (by
      intro i j x y hi hij hj hx hy ht
      simp only [bne_iff_ne] at ht ⊢
      have := hmono i j x y hi hij (by omega) hx hy (by rcases hs data y with h | h | h <;> omega)
      omega)
  refine ⟨r, by rw [h1]; rfl, h2, by omega, ?_, ?_⟩
  · intro i x hi hir hx
    have := h4 i x hi hir hx
    simp only [bne_iff_ne] at this
    rcases hs data x with h | h | h <;> omega
  · intro i x hi hil hx
    have := h5 i x hi (by omega) hx
    simp only [bne_eq_false_iff_eq] at this
    omega

theorem before_spec {cmp : α → α → Int} (ho : CmpOrd cmp) (hs : Sgn cmp) {arr : List α} {first last : Nat}
    (hlen : last ≤ arr.length) (hfl : first ≤ last) (hsort : SortedIn cmp arr first last) (data : α) :
    ∃ r : Nat, searchBefore cmp arr data first last = some ((r : Int) - 1) ∧ first ≤ r ∧ r ≤ last ∧
      (∀ i x, first ≤ i → i < r → arr[i]? = some x → cmp x data ≤ 0) ∧
      (∀ i x, r ≤ i → i < last → arr[i]? = some x → 0 < cmp x data) := by
  obtain ⟨r, h1, h2, h3, h4, h5⟩ := before_spec_gen (cmpF := cmp) hs hlen hfl data
    (by
      intro i j x y hi hij hj hx hy h
      have hxy := hsort i j x y hi hij hj hx hy
      exact ho.swap_le.1 (ho.trans _ _ _ hxy (ho.swap_le.2 h)))
  exact ⟨r, h1, h2, h3, fun i x hi hir hx => ho.swap_le.2 (h4 i x hi hir hx),
    fun i x hi hil hx => (ho.sym data x).1 (h5 i x hi hil hx)⟩

theorem exact_spec {cmp : α → α → Int} (ho : CmpOrd cmp) {arr : List α} {first last : Nat}
    (hlen : last ≤ arr.length) (hsort : SortedIn cmp arr first last) (data : α) :
    (∃ (i : Nat) (x : α), searchExact cmp arr data first last = some (i : Int) ∧ first ≤ i ∧ i < last ∧ arr[i]? = some x ∧
      cmp x data = 0) ∨
    (searchExact cmp arr data first last = some (-1) ∧
      ∀ i x, first ≤ i → i < last → arr[i]? = some x → cmp x data ≠ 0) := by
  unfold searchExact
  apply exactLoop_spec cmp arr data first last hlen _ _ _ _ rfl (by omega) (by omega)
  · intro i x h1 h2; omega
  · intro i x h1 h2; omega
  · intro i j x y hi hij hj hx hy
    have hxy := hsort i j x y hi hij hj hx hy
    refine ⟨fun h => ho.lt_of_le_of_lt hxy h, fun h => ?_⟩
    have h1 := (ho.sym data x).2 h
    have h2 := ho.lt_of_lt_of_le h1 hxy
    exact (ho.sym data y).1 h2

/-! ### Insertion -/

theorem sorted_insertAt {cmp : α → α → Int} (_ho : CmpOrd cmp) {a : List α} (h : Sorted cmp a) {v : α} {loc : Nat}
    (hl : ∀ i x, i < loc → a[i]? = some x → cmp x v ≤ 0)
    (hr : ∀ i x, loc ≤ i → a[i]? = some x → cmp v x ≤ 0) :
    Sorted cmp (a.take loc ++ v :: a.drop loc) := by
  unfold Sorted at *
  rw [List.pairwise_append]
  refine ⟨h.sublist (List.take_sublist _ _), ?_, ?_⟩
  · rw [List.pairwise_cons]
    refine ⟨?_, h.sublist (List.drop_sublist _ _)⟩
    intro y hy
    obtain ⟨i, hi⟩ := List.mem_iff_getElem?.1 hy
    rw [List.getElem?_drop] at hi
    exact hr _ y (by omega) hi
  · intro x hx y hy
    obtain ⟨i, hxi⟩ := List.mem_iff_getElem?.1 hx
    have hil := (List.getElem?_eq_some_iff.1 hxi).1
    rw [List.length_take] at hil
    have hil : i < loc ∧ i < a.length := by omega
    rw [List.getElem?_take, if_pos hil.1] at hxi
    rcases List.mem_cons.1 hy with rfl | hy
    · exact hl i x hil.1 hxi
    · rw [← List.take_append_drop loc a, List.pairwise_append] at h
      exact h.2.2 x hx y hy

theorem insertLoc_spec {cmp : α → α → Int} (ho : CmpOrd cmp) (hs : Sgn cmp) {a : List α} (h : Sorted cmp a)
    (v : α) : ∃ loc, insertLoc cmp a v = some loc ∧ loc ≤ a.length ∧
      (∀ i x, i < loc → a[i]? = some x → cmp x v ≤ 0) ∧ (∀ i x, loc ≤ i → a[i]? = some x → cmp v x ≤ 0) := by
  unfold insertLoc
  split
  · next h0 => exact ⟨0, rfl, by omega, fun i x hi => by omega, fun i x _ hx => by
      have := (List.getElem?_eq_some_iff.1 hx).1; omega⟩
  · next h0 =>
    have hp : 0 < a.length := by omega
    have hpl : a.length - 1 < a.length := by omega
    simp only [rd_of_lt hp, rd_of_lt hpl, Option.bind_eq_bind, Option.bind_some]
    have hsi := sorted_sortedIn h 0 a.length
    split
    · next hlt =>
      refine ⟨0, rfl, by omega, fun i x hi => by omega, fun i x _ hx => ?_⟩
      by_cases hi : i = 0
      · subst hi; simp [hp] at hx; subst hx; omega
      · have hil := (List.getElem?_eq_some_iff.1 hx).1
        exact ho.trans _ _ _ (by omega) (hsi 0 i a[0] x (by omega) (by omega) hil (by simp [hp]) hx)
    · next hge =>
      split
      · next hge2 =>
        refine ⟨a.length, rfl, by omega, fun i x hi hx => ?_, fun i x hi hx => ?_⟩
        · have hlast : cmp a[a.length - 1] v ≤ 0 := ho.swap_le.2 (by omega)
          by_cases he : i = a.length - 1
          · subst he; simp [hpl] at hx; subst hx; exact hlast
          · exact ho.trans _ _ _ (hsi i (a.length - 1) x _ (by omega) (by omega) hpl hx (by simp [hpl])) hlast
        · have := (List.getElem?_eq_some_iff.1 hx).1; omega
      · next hlt2 =>
        obtain ⟨r, h1, _, h3, h4, h5⟩ := after_spec ho hs (Nat.le_refl _) (Nat.zero_le _) hsi v
        exact ⟨r, h1, h3, fun i x hi hx => by have := h4 i x (by omega) hi hx; omega,
          fun i x hi hx => ho.swap_le.2 (h5 i x hi (List.getElem?_eq_some_iff.1 hx).1 hx)⟩

theorem insert_spec {cmp : α → α → Int} (ho : CmpOrd cmp) (hs : Sgn cmp) {a : List α} (h : Sorted cmp a)
    (v : α) : ∃ loc, insert cmp a v = some (a.take loc ++ v :: a.drop loc, loc) ∧ loc ≤ a.length ∧
      Sorted cmp (a.take loc ++ v :: a.drop loc) ∧
      (∀ i x, i < loc → a[i]? = some x → cmp x v ≤ 0) ∧ (∀ i x, loc ≤ i → a[i]? = some x → cmp v x ≤ 0) := by
  obtain ⟨loc, h1, h2, h3, h4⟩ := insertLoc_spec ho hs h v
  exact ⟨loc, by simp [insert, h1, h2], h2, sorted_insertAt ho h h3 h4, h3, h4⟩

/-! ### ReplaceData -/

theorem rd_mid (L R : List α) (x : α) : rd (L ++ x :: R) L.length = some x := by simp [rd]

theorem wr_mid (L R : List α) (x y : α) : wr (L ++ x :: R) L.length y = some (L ++ y :: R) := by
  simp [wr]

/-- `bubbleUp` moves the element left past exactly the larger ones. -/
theorem bubbleUp_spec {cmp : α → α → Int} : ∀ (n : Nat) (L R : List α) (x : α), L.length = n →
    ∃ L' R', bubbleUp cmp (L ++ x :: R) n = some (L' ++ x :: R', L'.length) ∧ L' ++ R' = L ++ R ∧
      (∀ p ∈ L'.getLast?, cmp p x ≤ 0) ∧ (R' = R ∨ ∃ y, R'.head? = some y ∧ 0 < cmp y x) := by
  intro n
  induction n with
  | zero =>
    intro L R x hL
    have : L = [] := List.length_eq_zero_iff.1 hL
    subst this
    exact ⟨[], R, rfl, rfl, by simp, .inl rfl⟩
  | succ n ih =>
    intro L R x hL
    rcases List.eq_nil_or_concat L with rfl | ⟨L, p, rfl⟩
    · simp at hL
    · simp only [List.concat_eq_append, List.length_append, List.length_cons, List.length_nil] at hL
      have hL : L.length = n := by omega
      subst hL
      unfold bubbleUp
      have e1 : rd (L ++ [p] ++ x :: R) L.length = some p := by simp [rd]
      have e2 : rd (L ++ [p] ++ x :: R) (L.length + 1) = some x := by
        have := rd_mid (L ++ [p]) R x; simpa using this
      have e3 : wr (L ++ [p] ++ x :: R) (L.length + 1) p = some (L ++ [p] ++ p :: R) := by
        have := wr_mid (L ++ [p]) R x p; simpa using this
      have e4 : wr (L ++ [p] ++ p :: R) L.length x = some (L ++ x :: (p :: R)) := by simp [wr]
      simp only [List.concat_eq_append, e1, e2, e3, e4, Option.bind_eq_bind, Option.bind_some]
      split
      · next hgt =>
        obtain ⟨L', R', h1, h2, h3, h4⟩ := ih L (p :: R) x rfl
        refine ⟨L', R', h1, by simpa using h2, h3, .inr ?_⟩
        rcases h4 with rfl | h4
        · exact ⟨p, rfl, hgt⟩
        · exact h4
      · next hle =>
        exact ⟨L ++ [p], R, by simp, rfl, by simp; omega, .inl rfl⟩

theorem bubbleDown_spec {cmp : α → α → Int} : ∀ (R L : List α) (x : α), (∀ p ∈ L.getLast?, cmp p x ≤ 0) →
    ∃ L' R', bubbleDown cmp (L ++ x :: R) L.length R.length = some (L' ++ x :: R', L'.length) ∧
      L' ++ R' = L ++ R ∧ (∀ p ∈ L'.getLast?, cmp p x ≤ 0) ∧ (∀ y ∈ R'.head?, 0 ≤ cmp y x) := by
  intro R
  induction R with
  | nil => intro L x hp; exact ⟨L, [], rfl, rfl, hp, by simp⟩
  | cons y R ih =>
    intro L x hp
    have e1 : rd (L ++ x :: y :: R) (L.length + 1) = some y := by
      have := rd_mid (L ++ [x]) R y; simpa using this
    have e2 := rd_mid L (y :: R) x
    have e3 := wr_mid L (y :: R) x y
    have e4 : wr (L ++ y :: y :: R) (L.length + 1) x = some ((L ++ [y]) ++ x :: R) := by
      have := wr_mid (L ++ [y]) R y x; simpa using this
    simp only [List.length_cons, bubbleDown, e1, e2, e3, e4, Option.bind_eq_bind, Option.bind_some]
    split
    · next hlt =>
      obtain ⟨L', R', h1, h2, h3, h4⟩ := ih (L ++ [y]) x (by simp; omega)
      refine ⟨L', R', by simpa using h1, by simpa using h2, h3, h4⟩
    · next hge =>
      exact ⟨L, y :: R, rfl, rfl, hp, by simp; omega⟩

theorem sorted_mid {cmp : α → α → Int} (ho : CmpOrd cmp) {L R : List α} {x : α} (h : Sorted cmp (L ++ R))
    (hl : ∀ p ∈ L.getLast?, cmp p x ≤ 0) (hr : ∀ y ∈ R.head?, 0 ≤ cmp y x) : Sorted cmp (L ++ x :: R) := by
  unfold Sorted at *
  rw [List.pairwise_append] at h ⊢
  obtain ⟨h1, h2, h3⟩ := h
  have hR : ∀ y ∈ R, cmp x y ≤ 0 := by
    intro y hy
    cases R with
    | nil => simp at hy
    | cons z R =>
      have hz : cmp x z ≤ 0 := ho.swap_le.2 (hr z (by simp))
      rcases List.mem_cons.1 hy with rfl | hy
      · exact hz
      · exact ho.trans _ _ _ hz ((List.pairwise_cons.1 h2).1 y hy)
  have hL : ∀ y ∈ L, cmp y x ≤ 0 := by
    intro y hy
    rcases List.eq_nil_or_concat L with rfl | ⟨L, z, rfl⟩
    · simp at hy
    · simp only [List.concat_eq_append] at *
      have hz : cmp z x ≤ 0 := hl z (by simp)
      rcases List.mem_append.1 hy with hy | hy
      · exact ho.trans _ _ _ ((List.pairwise_append.1 h1).2.2 y hy z (by simp)) hz
      · simp at hy; subst hy; exact hz
  refine ⟨h1, List.pairwise_cons.2 ⟨hR, h2⟩, ?_⟩
  intro a ha b hb
  rcases List.mem_cons.1 hb with rfl | hb
  · exact hL a ha
  · exact h3 a ha b hb

theorem replaceData_spec {cmp : α → α → Int} (ho : CmpOrd cmp) {a : List α} (h : Sorted cmp a) {i : Nat}
    (hi : i < a.length) (v : α) : ∃ a' j, replaceData cmp a i v = some (a', j) ∧ Sorted cmp a' ∧
      a'.Perm (a.take i ++ v :: a.drop (i + 1)) ∧ a'[j]? = some v := by
  unfold replaceData
  have hset : a.set i v = a.take i ++ v :: a.drop (i + 1) := by
    rw [List.set_eq_take_append_cons_drop, if_pos hi]
  have hlt : (a.take i).length = i := by simp; omega
  have hsub : Sorted cmp (a.take i ++ a.drop (i + 1)) := by
    have h' : Sorted cmp (a.take i ++ a.drop i) := by rw [List.take_append_drop]; exact h
    refine List.Pairwise.sublist ?_ h'
    apply List.Sublist.append_left
    rw [List.drop_eq_getElem_cons hi]
    exact List.sublist_cons_self _ _
  obtain ⟨L, R, h1, h2, h3, _⟩ := bubbleUp_spec (cmp := cmp) i (a.take i) (a.drop (i + 1)) v hlt
  obtain ⟨L', R', e1, e2, e3, e4⟩ := bubbleDown_spec (cmp := cmp) R L v h3
  have hlen : (L ++ v :: R).length - 1 - L.length = R.length := by simp
  rw [wr_of_lt hi, hset]
  simp only [Option.bind_eq_bind, Option.bind_some, h1, hlen, e1]
  refine ⟨_, _, rfl, ?_, ?_, by simp⟩
  · apply sorted_mid ho _ e3 e4
    rw [e2, h2]; exact hsub
  · refine List.perm_middle.trans (List.Perm.trans ?_ List.perm_middle.symm)
    rw [e2, h2]

end Verif.Sorted
