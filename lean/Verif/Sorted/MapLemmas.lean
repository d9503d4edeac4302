import Verif.Sorted.Lemmas

namespace Verif.Sorted

open Spec

variable {κ ν : Type _} {cmp : κ → κ → Int}

/-- Keys strictly ascending. -/
def StrictKeys (cmp : κ → κ → Int) (a : List (κ × ν)) : Prop := a.Pairwise (fun p q => cmp p.1 q.1 < 0)

/-- The array holds exactly the associations of `f`. -/
def Rep (cmp : κ → κ → Int) (a : List (κ × ν)) (f : AMap κ ν) : Prop :=
  ∀ k v, f k = some v ↔ ∃ p ∈ a, cmp k p.1 = 0 ∧ p.2 = v

theorem pcmp_ord (ho : CmpOrd cmp) : CmpOrd (pcmp (ν := ν) cmp) where
  sym a b := ho.sym a.1 b.1
  trans a b c := ho.trans a.1 b.1 c.1

theorem pcmp_sgn (hs : Sgn cmp) : Sgn (pcmp (ν := ν) cmp) := fun a b => hs a.1 b.1

theorem rep_none {a : List (κ × ν)} {f : AMap κ ν} (h : Rep cmp a f) (k : κ) :
    f k = none ↔ ∀ p ∈ a, cmp k p.1 ≠ 0 := by
  constructor
  · intro hn p hp he
    have := (h k p.2).2 ⟨p, hp, he, rfl⟩
    simp [hn] at this
  · intro hall
    cases hf : f k with
    | none => rfl
    | some v =>
      obtain ⟨p, hp, he, _⟩ := (h k v).1 hf
      exact absurd he (hall p hp)

theorem strict_unique (ho : CmpOrd cmp) {a : List (κ × ν)} (hst : StrictKeys cmp a) {i j : Nat} {p q : κ × ν} {k : κ}
    (hp : a[i]? = some p) (hq : a[j]? = some q) (hkp : cmp k p.1 = 0) (hkq : cmp k q.1 = 0) : i = j := by
  obtain ⟨hi, rfl⟩ := List.getElem?_eq_some_iff.1 hp
  obtain ⟨hj, rfl⟩ := List.getElem?_eq_some_iff.1 hq
  have h0 : cmp a[i].1 a[j].1 = 0 := ho.eq_trans (ho.swap_eq.1 hkp) hkq
  have h0' := ho.swap_eq.1 h0
  have hpw := List.pairwise_iff_getElem.1 hst
  rcases Nat.lt_trichotomy i j with h | h | h
  · have := hpw i j hi hj h; omega
  · exact h
  · have := hpw j i hj hi h; omega

/-- Where `GetNear` lands, and what that says about the key. -/
theorem getNear_spec (ho : CmpOrd cmp) (hs : Sgn cmp) {a : List (κ × ν)} (hst : StrictKeys cmp a) (k : κ) :
    (getNear cmp a k = some (-1) ∧ ∀ p ∈ a, cmp k p.1 ≠ 0) ∨
    (∃ (i : Nat) (p : κ × ν), getNear cmp a k = some (i : Int) ∧ a[i]? = some p ∧
      (cmp k p.1 ≠ 0 → ∀ q ∈ a, cmp k q.1 ≠ 0)) := by
  have hpw := List.pairwise_iff_getElem.1 hst
  obtain ⟨r, h1, _, h3, h4, h5⟩ := before_spec_gen (cmpF := mapComp (ν := ν) cmp) (fun a b => hs a b.1)
    (Nat.le_refl a.length) (Nat.zero_le _) k
    (by
      intro i j x y _ hij hj hx hy h
      obtain ⟨hi', rfl⟩ := List.getElem?_eq_some_iff.1 hx
      obtain ⟨hj', rfl⟩ := List.getElem?_eq_some_iff.1 hy
      have hxy := hpw i j hi' hj' hij
      exact ho.swap_le.1 (ho.trans _ _ _ (by omega) (ho.swap_le.2 h)))
  simp only [mapComp] at h4 h5
  by_cases hr : r = 0
  · subst hr
    left
    refine ⟨?_, ?_⟩
    · have : ((0 : Nat) : Int) - 1 < (a.length : Int) := by omega
      simp only [getNear, h1, Option.bind_eq_bind, Option.bind_some, if_pos this]
      rfl
    · intro p hp
      obtain ⟨i, hi⟩ := List.mem_iff_getElem?.1 hp
      have := h5 i p (by omega) (List.getElem?_eq_some_iff.1 hi).1 hi
      omega
  · right
    have hlt : r - 1 < a.length := by omega
    refine ⟨r - 1, a[r - 1], ?_, by simp [hlt], ?_⟩
    · have : (r : Int) - 1 < (a.length : Int) := by omega
      simp only [getNear, h1, Option.bind_eq_bind, Option.bind_some, if_pos this]
      congr 1; omega
    · intro hne q hq
      obtain ⟨i, hi⟩ := List.mem_iff_getElem?.1 hq
      obtain ⟨hil, hiq⟩ := List.getElem?_eq_some_iff.1 hi
      subst hiq
      by_cases hir : r ≤ i
      · have := h5 i _ hir hil hi; omega
      · by_cases he : i = r - 1
        · subst he; exact hne
        · have hge := h4 (r - 1) a[r - 1] (by omega) (by omega) (by simp [hlt])
          have hlt2 := hpw i (r - 1) hil hlt (by omega)
          have h6 : cmp a[r - 1].1 k ≤ 0 := ho.swap_le.2 hge
          have h7 := ho.lt_of_lt_of_le hlt2 h6
          have := (ho.sym _ _).1 h7
          omega

theorem mget_spec (ho : CmpOrd cmp) (hs : Sgn cmp) {a : List (κ × ν)} (hst : StrictKeys cmp a) (k : κ) :
    (mget cmp a k = some (-1) ∧ ∀ p ∈ a, cmp k p.1 ≠ 0) ∨
    (∃ (i : Nat) (p : κ × ν), mget cmp a k = some (i : Int) ∧ a[i]? = some p ∧ cmp k p.1 = 0) := by
  rcases getNear_spec ho hs hst k with ⟨h1, h2⟩ | ⟨i, p, h1, h2, h3⟩
  · left; exact ⟨by simp [mget, h1], h2⟩
  · have hne : ¬ ((i : Int) = -1) := by omega
    have hr : rd a i = some p := h2
    by_cases hk : cmp k p.1 = 0
    · right
      exact ⟨i, p, by simp [mget, h1, hne, hr, hk], h2, hk⟩
    · left
      exact ⟨by simp [mget, h1, hne, hr, hk], h3 hk⟩

theorem mem_set_iff {α : Type _} {a : List α} {i : Nat} {x q : α} (hi : i < a.length) :
    q ∈ a.set i x ↔ q = x ∨ ∃ j, j ≠ i ∧ a[j]? = some q := by
  rw [List.mem_iff_getElem?]
  constructor
  · rintro ⟨j, hj⟩
    by_cases he : i = j
    · subst he; rw [List.getElem?_set_self hi] at hj; left; simpa using hj.symm
    · rw [List.getElem?_set_ne he] at hj; right; exact ⟨j, fun e => he e.symm, hj⟩
  · rintro (rfl | ⟨j, hj, hq⟩)
    · exact ⟨i, List.getElem?_set_self hi⟩
    · exact ⟨j, by rw [List.getElem?_set_ne (fun e => hj e.symm)]; exact hq⟩

theorem mem_erase_iff {α : Type _} {a : List α} {i : Nat} {q : α} (hi : i < a.length) :
    q ∈ a.take i ++ a.drop (i + 1) ↔ ∃ j, j ≠ i ∧ a[j]? = some q := by
  rw [← List.eraseIdx_eq_take_drop_succ, List.mem_eraseIdx_iff_getElem?]

theorem mstep_spec (ho : CmpOrd cmp) (hs : Sgn cmp) {a : List (κ × ν)} {f : AMap κ ν}
    (hst : StrictKeys cmp a) (hrep : Rep cmp a f) (op : MOp κ ν)
    (hv : match op with | .insert k _ => f k = none | _ => True) :
    ∃ a', mstep cmp a op = some (a', (Spec.mstep cmp f op).2) ∧ StrictKeys cmp a' ∧
      Rep cmp a' (Spec.mstep cmp f op).1 := by
  cases op with
  | insert k v =>
    simp only at hv
    have hsorted : Sorted (pcmp cmp) a := List.Pairwise.imp (fun h => by unfold pcmp; omega) hst
    obtain ⟨loc, h1, h2, h3, h4, h5⟩ := insert_spec (pcmp_ord ho) (pcmp_sgn hs) hsorted (k, v)
    have hno := (rep_none hrep k).1 hv
    refine ⟨a.take loc ++ (k, v) :: a.drop loc, by simp [mstep, minsert, h1, Spec.mstep], ?_, ?_⟩
    · unfold StrictKeys
      have hmem : ∀ p ∈ a.take loc ++ a.drop loc, cmp k p.1 ≠ 0 := by
        rw [List.take_append_drop]; exact hno
      unfold Sorted at h3
      have hst' : StrictKeys cmp (a.take loc ++ a.drop loc) := by rw [List.take_append_drop]; exact hst
      unfold StrictKeys at hst'
      rw [List.pairwise_append] at h3 hst' ⊢
      obtain ⟨_, h3b, h3c⟩ := h3
      obtain ⟨g1, g2, g3⟩ := hst'
      refine ⟨g1, List.pairwise_cons.2 ⟨?_, g2⟩, ?_⟩
      · intro q hq
        have q1 := (List.pairwise_cons.1 h3b).1 q hq
        have q2 := hmem q (List.mem_append_right _ hq)
        simp only [pcmp] at q1
        simp only
        omega
      · intro p hp q hq
        rcases List.mem_cons.1 hq with rfl | hq
        · have q1 := h3c p hp _ (List.mem_cons_self ..)
          have q2 := hmem p (List.mem_append_left _ hp)
          simp only [pcmp] at q1
          have : cmp p.1 k ≠ 0 := fun e => q2 (ho.swap_eq.1 e)
          simp only
          omega
        · exact g3 p hp q hq
    · intro k' w
      have hmem : ∀ p, p ∈ a.take loc ++ (k, v) :: a.drop loc ↔ p = (k, v) ∨ p ∈ a := by
        intro p
        rw [List.perm_middle.mem_iff, List.mem_cons, List.take_append_drop]
      simp only [Spec.mstep, upd]
      split
      · next he =>
        constructor
        · rintro ⟨⟩
          exact ⟨(k, v), (hmem _).2 (.inl rfl), ho.swap_eq.1 he, rfl⟩
        · rintro ⟨p, hp, hp1, hp2⟩
          rcases (hmem _).1 hp with rfl | hp
          · simp at hp2; simp [hp2]
          · exact absurd (ho.eq_trans he hp1) (hno p hp)
      · next he =>
        rw [hrep k' w]
        constructor
        · rintro ⟨p, hp, h⟩; exact ⟨p, (hmem _).2 (.inr hp), h⟩
        · rintro ⟨p, hp, hp1, hp2⟩
          rcases (hmem _).1 hp with rfl | hp
          · exact absurd (ho.swap_eq.1 hp1) he
          · exact ⟨p, hp, hp1, hp2⟩
  | get k =>
    rcases mget_spec ho hs hst k with ⟨h1, h2⟩ | ⟨i, p, h1, h2, h3⟩
    · have := (rep_none hrep k).2 h2
      exact ⟨a, by simp [mstep, h1, dataAt, Spec.mstep, this], hst, hrep⟩
    · have hf : f k = some p.2 := (hrep k p.2).2 ⟨p, List.mem_of_getElem? h2, h3, rfl⟩
      have hne : ¬ ((i : Int) = -1) := by omega
      have hr : rd a i = some p := h2
      exact ⟨a, by simp [mstep, h1, dataAt, Spec.mstep, hf, hne, hr], hst, hrep⟩
  | remove k =>
    rcases mget_spec ho hs hst k with ⟨h1, h2⟩ | ⟨i, p, h1, h2, h3⟩
    · have hf := (rep_none hrep k).2 h2
      refine ⟨a, by simp [mstep, mremove, h1, dataAt, Spec.mstep, hf], hst, ?_⟩
      intro k' w
      simp only [Spec.mstep, upd]
      split
      · next he =>
        simp only [reduceCtorEq, false_iff]
        rintro ⟨p, hp, hp1, _⟩
        exact h2 p hp (ho.eq_trans he hp1)
      · exact hrep k' w
    · have hf : f k = some p.2 := (hrep k p.2).2 ⟨p, List.mem_of_getElem? h2, h3, rfl⟩
      have hne : ¬ ((i : Int) = -1) := by omega
      have hr : rd a i = some p := h2
      have hil := (List.getElem?_eq_some_iff.1 h2).1
      have hnle : ¬ a.length ≤ i := by omega
      refine ⟨a.take i ++ a.drop (i + 1), by simp [mstep, mremove, h1, dataAt, Spec.mstep, hf, hne, hr, remove, hnle],
        ?_, ?_⟩
      · unfold StrictKeys
        rw [← List.eraseIdx_eq_take_drop_succ]
        exact List.Pairwise.sublist (List.eraseIdx_sublist ..) hst
      · intro k' w
        simp only [Spec.mstep, upd]
        split
        · next he =>
          simp only [reduceCtorEq, false_iff]
          rintro ⟨q, hq, hq1, _⟩
          obtain ⟨j, hj, hjq⟩ := (mem_erase_iff hil).1 hq
          exact hj (strict_unique ho hst hjq h2 (ho.eq_trans he hq1) h3)
        · next he =>
          rw [hrep k' w]
          constructor
          · rintro ⟨q, hq, hq1, hq2⟩
            obtain ⟨j, hj⟩ := List.mem_iff_getElem?.1 hq
            refine ⟨q, (mem_erase_iff hil).2 ⟨j, ?_, hj⟩, hq1, hq2⟩
            rintro rfl
            rw [h2] at hj; cases hj
            exact he (ho.eq_trans h3 (ho.swap_eq.1 hq1))
          · rintro ⟨q, hq, h⟩
            obtain ⟨j, _, hjq⟩ := (mem_erase_iff hil).1 hq
            exact ⟨q, List.mem_of_getElem? hjq, h⟩
  | set k v =>
    rcases getNear_spec ho hs hst k with ⟨h1, h2⟩ | ⟨i, p, h1, h2, h3⟩
    · have hf := (rep_none hrep k).2 h2
      exact ⟨a, by simp [mstep, mset, h1, Spec.mstep], hst, by simpa [Spec.mstep, hf] using hrep⟩
    · have hne : ¬ ((i : Int) = -1) := by omega
      have hr : rd a i = some p := h2
      have hil := (List.getElem?_eq_some_iff.1 h2).1
      by_cases hk : cmp k p.1 = 0
      · have hf : f k = some p.2 := (hrep k p.2).2 ⟨p, List.mem_of_getElem? h2, hk, rfl⟩
        refine ⟨a.set i (p.1, v), by simp [mstep, mset, h1, hne, hr, hk, wr_of_lt hil, Spec.mstep], ?_, ?_⟩
        · unfold StrictKeys at *
          rw [List.pairwise_iff_getElem] at hst ⊢
          intro m n hm hn hmn
          simp only [List.length_set] at hm hn
          have := hst m n hm hn hmn
          have hpi : a[i] = p := (List.getElem?_eq_some_iff.1 h2).2
          have key : ∀ m (hm : m < a.length), ((a.set i (p.1, v))[m]'(by simpa using hm)).1 = (a[m]).1 := by
            intro m hm
            rw [List.getElem_set]
            split
            · next e => subst e; rw [hpi]
            · rfl
          rw [key m hm, key n hn]; exact this
        · intro k' w
          simp only [Spec.mstep, hf, Option.isSome_some, if_true, upd]
          split
          · next he =>
            constructor
            · rintro ⟨⟩
              exact ⟨(p.1, v), (mem_set_iff hil).2 (.inl rfl), ho.eq_trans (ho.swap_eq.1 he) hk, rfl⟩
            · rintro ⟨q, hq, hq1, hq2⟩
              rcases (mem_set_iff hil).1 hq with rfl | ⟨j, hj, hjq⟩
              · simp at hq2; simp [hq2]
              · exact absurd (strict_unique ho hst hjq h2 (ho.eq_trans he hq1) hk) hj
          · next he =>
            rw [hrep k' w]
            constructor
            · rintro ⟨q, hq, hq1, hq2⟩
              obtain ⟨j, hj⟩ := List.mem_iff_getElem?.1 hq
              refine ⟨q, (mem_set_iff hil).2 (.inr ⟨j, ?_, hj⟩), hq1, hq2⟩
              rintro rfl
              rw [h2] at hj; cases hj
              exact he (ho.eq_trans hk (ho.swap_eq.1 hq1))
            · rintro ⟨q, hq, hq1, hq2⟩
              rcases (mem_set_iff hil).1 hq with rfl | ⟨j, hj, hjq⟩
              · exact absurd (ho.eq_trans hk (ho.swap_eq.1 hq1)) he
              · exact ⟨q, List.mem_of_getElem? hjq, hq1, hq2⟩
      · have hf := (rep_none hrep k).2 (h3 hk)
        exact ⟨a, by simp [mstep, mset, h1, hne, hr, hk, Spec.mstep], hst, by simpa [Spec.mstep, hf] using hrep⟩

end Verif.Sorted
