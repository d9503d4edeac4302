import Verif.Sorted.MapLemmas

/-!
# C04–C06: binary searches, `ArraySort`, `Map`
-/

namespace Verif.Sorted

open Spec

variable {α κ ν : Type _}

theorem icmp_sgn : Sgn icmp := by
  intro a b; unfold icmp; split
  · simp
  · split <;> simp

/-! ## C04: the searches -/

/-- C04: `BinarySearchBefore` over any range sorted in the array: the result is the last position of the
range whose element is not greater than the key, `first - 1` if there is none (no out-of-range read). -/
theorem C04_before {cmp : α → α → Int} (ho : CmpOrd cmp) (hs : Sgn cmp) {arr : List α} {first last : Nat}
    (hlen : last ≤ arr.length) (hfl : first ≤ last) (hsort : SortedIn cmp arr first last) (data : α) :
    ∃ r : Int, searchBefore cmp arr data first last = some r ∧ (first : Int) - 1 ≤ r ∧ r < last ∧
      (∀ (i : Nat) (x : α), first ≤ i → (i : Int) ≤ r → arr[i]? = some x → cmp x data ≤ 0) ∧
      (∀ (i : Nat) (x : α), r < (i : Int) → i < last → arr[i]? = some x → first ≤ i → 0 < cmp x data) := by
  obtain ⟨r, h1, h2, h3, h4, h5⟩ := before_spec ho hs hlen hfl hsort data
  exact ⟨(r : Int) - 1, h1, by omega, by omega, fun i x hi hir hx => h4 i x hi (by omega) hx,
    fun i x hi hil hx _ => h5 i x (by omega) hil hx⟩

/-- C04: `BinarySearchAfter`: the result is the first position of the range whose element is not less than
the key, `last` if there is none. -/
theorem C04_after {cmp : α → α → Int} (ho : CmpOrd cmp) (hs : Sgn cmp) {arr : List α} {first last : Nat}
    (hlen : last ≤ arr.length) (hfl : first ≤ last) (hsort : SortedIn cmp arr first last) (data : α) :
    ∃ r, searchAfter cmp arr data first last = some r ∧ first ≤ r ∧ r ≤ last ∧
      (∀ i x, first ≤ i → i < r → arr[i]? = some x → cmp x data < 0) ∧
      (∀ i x, r ≤ i → i < last → arr[i]? = some x → 0 ≤ cmp x data) :=
  after_spec ho hs hlen hfl hsort data

/-- C04: `BinarySearchExact` returns the index of an equal element of the range, or `-1`, and then no
element of the range is equal.  (Only the sign of the comparison is used here.) -/
theorem C04_exact {cmp : α → α → Int} (ho : CmpOrd cmp) {arr : List α} {first last : Nat}
    (hlen : last ≤ arr.length) (hsort : SortedIn cmp arr first last) (data : α) :
    (∃ (i : Nat) (x : α), searchExact cmp arr data first last = some (i : Int) ∧ first ≤ i ∧ i < last ∧
      arr[i]? = some x ∧ cmp x data = 0) ∨
    (searchExact cmp arr data first last = some (-1) ∧
      ∀ i x, first ≤ i → i < last → arr[i]? = some x → cmp x data ≠ 0) :=
  exact_spec ho hlen hsort data

/-- C04: a three-way comparison that returns other magnitudes (as `strcmp` or a subtraction do) breaks the
approximate searches: with `cmp a b = a - b`, `BinarySearchAfter` for 5 in `[1,2,3]` answers 0, not 3. -/
theorem C04_magnitude_counterexample :
    CmpOrd (fun a b : Int => a - b) ∧ searchAfter (fun a b : Int => a - b) [1, 2, 3] 5 0 3 = some 0 :=
  ⟨⟨fun a b => by omega, fun a b c => by omega⟩, by decide +kernel⟩

example : (3 : Nat) ≤ [5, 1, 2, 2, 0].length ∧ SortedIn icmp [5, 1, 2, 2, 0] 1 4 ∧
    searchBefore icmp [5, 1, 2, 2, 0] 2 1 4 = some 3 ∧ searchAfter icmp [5, 1, 2, 2, 0] 2 1 4 = some 2 := by
  refine ⟨by decide, ?_, by decide +kernel, by decide +kernel⟩
  intro i j x y hi hij hj
  have : (i = 1 ∨ i = 2) ∧ (j = 2 ∨ j = 3) := by omega
  rcases this with ⟨rfl | rfl, rfl | rfl⟩ <;> simp <;> rintro rfl rfl <;> decide

/-! ## C05: `ArraySort` histories -/

theorem step_spec {cmp : α → α → Int} (ho : CmpOrd cmp) (hs : Sgn cmp) {a : List α} (h : Sorted cmp a)
    (op : Op α) (hv : match op with | .replace i _ => i < a.length | _ => True) :
    ∃ a' o, step cmp a op = some (a', o) ∧ Step a op o a' ∧ Sorted cmp a' := by
  cases op with
  | insert v =>
    obtain ⟨loc, h1, h2, h3, _, _⟩ := insert_spec ho hs h v
    exact ⟨_, _, by simp only [step, h1, Option.bind_eq_bind, Option.bind_some], .insert v loc h2, h3⟩
  | remove i =>
    by_cases hi : i < a.length
    · refine ⟨a.take i ++ a.drop (i + 1), .ok true, ?_, .remove i hi, ?_⟩
      · simp only [step, remove, if_neg (Nat.not_le.2 hi)]
      · rw [← List.eraseIdx_eq_take_drop_succ]
        exact List.Pairwise.sublist (List.eraseIdx_sublist ..) h
    · exact ⟨a, .ok false, by simp only [step, remove, if_pos (Nat.not_lt.1 hi)], .removeBad i (by omega), h⟩
  | replace i v =>
    obtain ⟨a', j, h1, h2, h3, h4⟩ := replaceData_spec ho h hv v
    exact ⟨a', .idx j, by simp only [step, h1, Option.bind_eq_bind, Option.bind_some], .replace i v j hv h3 h4, h2⟩
  | discard n =>
    have e : discard a n = a.take (a.length - n) := by
      unfold discard; split
      · congr 1; omega
      · rfl
    exact ⟨_, _, rfl, e ▸ .discard n, e ▸ List.Pairwise.sublist (List.take_sublist ..) h⟩
  | clear => exact ⟨_, _, rfl, .clear, List.Pairwise.nil⟩

/-- C05: every history of `Insert`, `Remove`, `ReplaceData`, `Discard` and `Clear` (with valid replace indices) from any sorted
array runs without undefined behaviour, each call has exactly its documented effect on the sequence, and
the array ends sorted. -/
theorem C05_history {cmp : α → α → Int} (ho : CmpOrd cmp) (hs : Sgn cmp) (ops : List (Op α)) :
    ∀ (a : List α), Sorted cmp a → Valid a.length ops →
    ∃ a' outs, run cmp a ops = some (a', outs) ∧ Run a ops outs a' ∧ Sorted cmp a' := by
  induction ops with
  | nil => intro a h _; exact ⟨a, [], rfl, .nil, h⟩
  | cons op ops ih =>
    intro a h hv
    obtain ⟨a1, o, h1, h2, h3⟩ := step_spec ho hs h op (by
      cases op with
      | insert v => trivial
      | remove i => trivial
      | replace i v => exact hv.1
      | discard n => trivial
      | clear => trivial)
    have hv' : Valid a1.length ops := by
      cases h2 with
      | insert v loc hl =>
        have : (a.take loc ++ v :: a.drop loc).length = a.length + 1 := by simp; omega
        rw [this]; exact hv
      | remove i hi =>
        have : (a.take i ++ a.drop (i + 1)).length = a.length - 1 := by simp; omega
        rw [this]
        simp only [Valid, if_pos hi] at hv
        exact hv
      | removeBad i hi =>
        simp only [Valid, if_neg (Nat.not_lt.2 hi)] at hv
        exact hv
      | replace i v j hi hp hj =>
        have : (a.take i ++ v :: a.drop (i + 1)).length = a.length := by simp; omega
        rw [hp.length_eq, this]; exact hv.2
      | discard n =>
        have : (a.take (a.length - n)).length = a.length - n := by simp
        rw [this]; exact hv
      | clear => exact hv
    obtain ⟨a2, os, e1, e2, e3⟩ := ih a1 h3 hv'
    exact ⟨a2, o :: os, by simp only [run, h1, e1, Option.bind_eq_bind, Option.bind_some], .cons h2 e2, e3⟩

/-- C05: `Insert` returns the index at which `operator[]` then yields the item; the array is still sorted and
has gained exactly that item. -/
theorem C05_insert_index {cmp : α → α → Int} (ho : CmpOrd cmp) (hs : Sgn cmp) {a : List α} (h : Sorted cmp a)
    (v : α) : ∃ a' loc, insert cmp a v = some (a', loc) ∧ a'[loc]? = some v ∧
      a'.Perm (v :: a) ∧ Sorted cmp a' := by
  obtain ⟨loc, h1, h2, h3, _⟩ := insert_spec ho hs h v
  refine ⟨_, loc, h1, ?_, ?_, h3⟩
  · rw [List.getElem?_append_right (by simp; omega)]; simp [Nat.min_eq_left h2]
  · exact List.perm_middle.trans (by rw [List.take_append_drop])

/-- C05: `Find` on a sorted array returns the index of an equal element exactly when one exists. -/
theorem C05_find {cmp : α → α → Int} (ho : CmpOrd cmp) {a : List α} (h : Sorted cmp a) (v : α) :
    (∃ (i : Nat) (x : α), find cmp a v = some (i : Int) ∧ a[i]? = some x ∧ cmp x v = 0) ∨
    (find cmp a v = some (-1) ∧ ∀ x ∈ a, cmp x v ≠ 0) := by
  rcases exact_spec ho (Nat.le_refl _) (sorted_sortedIn h 0 a.length) v with ⟨i, x, h1, _, _, h4, h5⟩ | ⟨h1, h2⟩
  · exact .inl ⟨i, x, h1, h4, h5⟩
  · refine .inr ⟨h1, fun x hx => ?_⟩
    obtain ⟨i, hi⟩ := List.mem_iff_getElem?.1 hx
    exact h2 i x (Nat.zero_le _) (List.getElem?_eq_some_iff.1 hi).1 hi

/-- C05: `FindNear(item, true)` is the last element not greater than the item, `-1` when every element is
greater. -/
theorem C05_findNear_before {cmp : α → α → Int} (ho : CmpOrd cmp) (hs : Sgn cmp) {a : List α}
    (h : Sorted cmp a) (v : α) :
    (∃ (i : Nat) (x : α), findNear cmp a v true = some (i : Int) ∧ a[i]? = some x ∧ cmp x v ≤ 0 ∧
      ∀ (j : Nat) (y : α), i < j → a[j]? = some y → 0 < cmp y v) ∨
    (findNear cmp a v true = some (-1) ∧ ∀ x ∈ a, 0 < cmp x v) := by
  obtain ⟨r, h1, _, h3, h4, h5⟩ := before_spec ho hs (Nat.le_refl _) (Nat.zero_le _)
    (sorted_sortedIn h 0 a.length) v
  have hlt : (r : Int) - 1 < a.length := by omega
  have hf : findNear cmp a v true = some ((r : Int) - 1) := by
    simp [findNear, h1, hlt]
  rw [hf]
  by_cases hr : r = 0
  · subst hr
    refine .inr ⟨rfl, fun x hx => ?_⟩
    obtain ⟨i, hi⟩ := List.mem_iff_getElem?.1 hx
    exact h5 i x (Nat.zero_le _) (List.getElem?_eq_some_iff.1 hi).1 hi
  · have hl : r - 1 < a.length := by omega
    refine .inl ⟨r - 1, a[r - 1], by congr 1; omega, by simp [hl], h4 (r - 1) _ (by omega) (by omega) (by simp [hl]), ?_⟩
    intro j y hj hy
    exact h5 j y (by omega) (List.getElem?_eq_some_iff.1 hy).1 hy

/-- C05: `FindNear(item, false)` is the first element not less than the item, `-1` when every element is
less. -/
theorem C05_findNear_after {cmp : α → α → Int} (ho : CmpOrd cmp) (hs : Sgn cmp) {a : List α}
    (h : Sorted cmp a) (v : α) :
    (∃ (i : Nat) (x : α), findNear cmp a v false = some (i : Int) ∧ a[i]? = some x ∧ 0 ≤ cmp x v ∧
      ∀ (j : Nat) (y : α), j < i → a[j]? = some y → cmp y v < 0) ∨
    (findNear cmp a v false = some (-1) ∧ ∀ x ∈ a, cmp x v < 0) := by
  obtain ⟨r, h1, _, h3, h4, h5⟩ := after_spec ho hs (Nat.le_refl _) (Nat.zero_le _)
    (sorted_sortedIn h 0 a.length) v
  by_cases hr : r < a.length
  · have hlt : (r : Int) < a.length := by omega
    refine .inl ⟨r, a[r], by simp [findNear, h1, hr], by simp [hr], h5 r _ (Nat.le_refl _) hr (by simp [hr]), ?_⟩
    intro j y hj hy
    exact h4 j y (Nat.zero_le _) hj hy
  · have hlt : ¬ (r : Int) < a.length := by omega
    refine .inr ⟨by simp [findNear, h1, hr], fun x hx => ?_⟩
    obtain ⟨i, hi⟩ := List.mem_iff_getElem?.1 hx
    have := (List.getElem?_eq_some_iff.1 hi).1
    exact h4 i x (Nat.zero_le _) (by omega) hi

example : Sorted icmp ([] : List Int) ∧
    Valid 0 ([.insert 5, .insert 3, .insert 5, .replace 0 9, .remove 1, .remove 7, .discard 1] : List (Op Int)) := by
  simp [Sorted, Valid]

example : run icmp [] [.insert 5, .insert 3, .insert 5, .replace 0 9] =
    some ([5, 5, 9], [.idx 0, .idx 0, .idx 2, .idx 2]) := by decide +kernel

/-! ## C06: `Map` histories -/

/-- C06: every history of `Insert` (absent keys), `Set`, `Remove` and `Get` on a `Map`, started empty, runs
without undefined behaviour and gives exactly the answers of a finite map. -/
theorem C06_map_history {cmp : κ → κ → Int} (ho : CmpOrd cmp) (hs : Sgn cmp) (ops : List (MOp κ ν))
    (hv : MValid cmp (fun _ => none) ops) :
    ∃ a, mrun cmp ([] : List (κ × ν)) ops = some (a, (Spec.mrun cmp (fun _ => none) ops).2) ∧
      ∀ k v, (Spec.mrun cmp (fun _ => none) ops).1 k = some v ↔ ∃ p ∈ a, cmp k p.1 = 0 ∧ p.2 = v := by
  have main : ∀ (ops : List (MOp κ ν)) (a : List (κ × ν)) (f : AMap κ ν), StrictKeys cmp a → Rep cmp a f →
      MValid cmp f ops → ∃ a', mrun cmp a ops = some (a', (Spec.mrun cmp f ops).2) ∧
        Rep cmp a' (Spec.mrun cmp f ops).1 := by
    intro ops
    induction ops with
    | nil => intro a f _ hr _; exact ⟨a, rfl, hr⟩
    | cons op ops ih =>
      intro a f hst hr hv
      obtain ⟨a1, h1, h2, h3⟩ := mstep_spec ho hs hst hr op hv.1
      obtain ⟨a2, e1, e2⟩ := ih a1 _ h2 h3 hv.2
      exact ⟨a2, by simp only [mrun, h1, e1, Option.bind_eq_bind, Option.bind_some, Spec.mrun], e2⟩
  exact main ops [] _ List.Pairwise.nil (fun k v => by simp) hv

example : MValid icmp (fun _ => none) ([.insert 5 'a', .insert 3 'b', .set 5 'c', .get 5, .set 4 'x', .get 4,
    .remove 3, .insert 3 'd', .get 3] : List (MOp Int Char)) := by
  simp [MValid, Spec.mstep, upd, icmp]

end Verif.Sorted
