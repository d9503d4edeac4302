import Verif.DSet.Inv

/-!
# C07, C08: union-find

`Reach n s us m`: the object built with `n` elements can be in state `s` after some history of calls in which the
`Union` calls that reported success had the arguments `us` and `AddSets` added `m` elements in total.  `Union` is only
ever called with two different arguments; they need not be set names (it then reports failure).
-/

namespace Verif.DSet

inductive Reach (n : Nat) : DSet → List (Nat × Nat) → Nat → Prop
  | init : Reach n (reset n) [] 0
  | united {s s' : DSet} {us : List (Nat × Nat)} {m a b : Nat} : Reach n s us m → a ≠ b → union s a b = some (true, s') →
      Reach n s' ((a, b) :: us) m
  | refused {s s' : DSet} {us : List (Nat × Nat)} {m a b : Nat} : Reach n s us m → a ≠ b → union s a b = some (false, s') →
      Reach n s' us m
  | find {s s' : DSet} {us : List (Nat × Nat)} {m x r : Nat} : Reach n s us m → x < n + m → find s x = some (r, s') →
      Reach n s' us m
  | numElements {s s' : DSet} {us : List (Nat × Nat)} {m x : Nat} {v : Int} : Reach n s us m →
      numElements s x = some (v, s') → Reach n s' us m
  | getElements {s s' : DSet} {us : List (Nat × Nat)} {m x : Nat} {l : List Nat} : Reach n s us m → x < n + m →
      getElements s x = some (l, s') → Reach n s' us m
  | addSets {s : DSet} {us : List (Nat × Nat)} {m k : Nat} : Reach n s us m → Reach n (addSets s k) us (m + k)

theorem numElements_spec {s : DSet} {us : List (Nat × Nat)} {m : Nat} (h : Inv s us m) {x : Nat} (hx : x < s.arr.length) :
    ∃ k r v s', RootN s.arr k x r ∧ s.arr[r]? = some v ∧ v < 0 ∧ numElements s x = some (-v, s') ∧ Inv s' us m ∧ Same s.arr s'.arr := by
  obtain ⟨k, r, s', h1, h2, h3, h4⟩ := find_inv h hx
  obtain ⟨v, hv, hv0⟩ := h1.is_root
  refine ⟨k, r, v, s', h1, hv, hv0, ?_, h3, h4⟩
  unfold numElements
  rw [if_neg (by omega)]
  simp only [h2, Option.bind_eq_bind, Option.bind_some, (h4.entries r v hv0).1 hv]

theorem getElements_spec {s : DSet} {us : List (Nat × Nat)} {m : Nat} (h : Inv s us m) {x : Nat} (hx : x < s.arr.length) :
    ∃ l s', getElements s x = some (l, s') ∧ Inv s' us m ∧ Same s.arr s'.arr ∧ l.Pairwise (· < ·) ∧
      ∀ i, i ∈ l ↔ i < s.arr.length ∧ Conn us i x := by
  obtain ⟨k, r, s', h1, h2, h3, h4⟩ := find_inv h hx
  obtain ⟨l, s2, g1, g2, g3, g4, g5⟩ := getElementsLoop_spec r s.arr (List.range s'.arr.length) s' [] h3 h4
    (by simp) h.total List.pairwise_lt_range (by simp) (by simp)
  refine ⟨l, s2, ?_, g2, g3, g4, ?_⟩
  · simp only [getElements, h2, Option.bind_eq_bind, Option.bind_some, g1]
  · intro i
    rw [g5]
    simp only [List.not_mem_nil, false_or, List.mem_range, h4.len]
    constructor
    · rintro ⟨hi, k', hk'⟩
      exact ⟨hi, (h.conn i x _ _ _ _ hk' h1).1 rfl⟩
    · rintro ⟨hi, hc⟩
      obtain ⟨k', r', hk'⟩ := h.total i hi
      have := (h.conn i x _ _ _ _ hk' h1).2 hc
      subst this
      exact ⟨hi, k', hk'⟩

theorem Reach.inv {n : Nat} {s : DSet} {us : List (Nat × Nat)} {m : Nat} (h : Reach n s us m) :
    Inv s us m ∧ s.arr.length = n + m := by
  induction h with
  | init => exact ⟨Inv.reset n, by simp [reset]⟩
  | united _ hab hu ih =>
    rcases union_spec ih.1 hab with ⟨h, _⟩ | ⟨s', h, h2, h3⟩
    · rw [hu] at h; simp at h
    · rw [hu] at h; simp at h; subst h; exact ⟨h2, by rw [h3]; exact ih.2⟩
  | refused _ hab hu ih =>
    rcases union_spec ih.1 hab with ⟨h, _⟩ | ⟨s', h, h2⟩
    · rw [hu] at h; simp at h; subst h; exact ih
    · rw [hu] at h; simp at h
  | find _ hx hf ih =>
    obtain ⟨k, r, s', h1, h2, h3, h4⟩ := find_inv ih.1 (by rw [ih.2]; exact hx)
    rw [hf] at h2; simp at h2; obtain ⟨_, rfl⟩ := h2
    exact ⟨h3, by rw [h4.len]; exact ih.2⟩
  | @numElements s _ _ _ x _ _ hf ih =>
    by_cases hx : x < s.arr.length
    · obtain ⟨k, r, v, s', h1, _, _, h2, h3, h4⟩ := numElements_spec ih.1 hx
      rw [hf] at h2; simp at h2; obtain ⟨_, rfl⟩ := h2
      exact ⟨h3, by rw [h4.len]; exact ih.2⟩
    · unfold DSet.numElements at hf
      rw [if_pos (by omega)] at hf
      simp at hf; obtain ⟨_, rfl⟩ := hf
      exact ih
  | getElements _ hx hf ih =>
    obtain ⟨l, s', h2, h3, h4, _⟩ := getElements_spec ih.1 (by rw [ih.2]; exact hx)
    rw [hf] at h2; simp at h2; obtain ⟨_, rfl⟩ := h2
    exact ⟨h3, by rw [h4.len]; exact ih.2⟩
  | addSets _ ih => exact ⟨ih.1.addSets _, by simp [DSet.addSets, ih.2]; omega⟩

/-- C07: in every reachable state `Find` terminates on every element, and two `Find` calls agree exactly when the
successfully united pairs connect the two elements. -/
theorem C07_find_iff_connected {n : Nat} {s : DSet} {us : List (Nat × Nat)} {m : Nat} (h : Reach n s us m) {x y : Nat}
    (hx : x < n + m) (hy : y < n + m) :
    ∃ rx s₁ ry s₂, find s x = some (rx, s₁) ∧ find s₁ y = some (ry, s₂) ∧ (rx = ry ↔ Conn us x y) := by
  obtain ⟨hi, hl⟩ := h.inv
  obtain ⟨k1, r1, s1, a1, a2, a3, a4⟩ := find_inv hi (by omega : x < s.arr.length)
  obtain ⟨k2, r2, s2, b1, b2, b3, b4⟩ := find_inv a3 (by rw [a4.len]; omega : y < s1.arr.length)
  refine ⟨r1, s1, r2, s2, a2, b2, ?_⟩
  obtain ⟨j, hj⟩ := (a4.root_iff hi.total).2 ⟨_, b1⟩
  exact hi.conn _ _ _ _ _ _ a1 hj

/-- C07: `Find` returns a set name of the element's own class, and asking again gives the same answer. -/
theorem C07_find_is_set_name {n : Nat} {s : DSet} {us : List (Nat × Nat)} {m : Nat} (h : Reach n s us m) {x : Nat}
    (hx : x < n + m) :
    ∃ r s₁, find s x = some (r, s₁) ∧ Conn us x r ∧ isSetName s r = true ∧ isSetName s₁ r = true ∧
      ∃ s₂, find s₁ r = some (r, s₂) := by
  obtain ⟨hi, hl⟩ := h.inv
  obtain ⟨k1, r1, s1, a1, a2, a3, a4⟩ := find_inv hi (by omega : x < s.arr.length)
  obtain ⟨v, hv, hv0⟩ := a1.is_root
  have hv' := (a4.entries r1 v hv0).1 hv
  have hr : RootN s1.arr 0 r1 r1 := .root hv' hv0
  obtain ⟨s2, b1, _⟩ := find_spec s1 hr
  exact ⟨r1, s1, a2, (hi.conn x r1 _ _ _ _ a1 (.root hv hv0)).1 rfl, by simp [isSetName, hv, hv0],
    by simp [isSetName, hv', hv0], s2, b1⟩

/-- C07: `Union` of two different ids never fails to return; it succeeds exactly on two set names, otherwise nothing
changes. -/
theorem C07_union_total {n : Nat} {s : DSet} {us : List (Nat × Nat)} {m : Nat} (h : Reach n s us m) {a b : Nat} (hab : a ≠ b) :
    ∃ ok s', union s a b = some (ok, s') ∧ ok = (isSetName s a && isSetName s b) ∧ (ok = false → s' = s) := by
  rcases union_spec h.inv.1 hab with ⟨h1, h2⟩ | ⟨s', h1, _⟩
  · refine ⟨false, s, h1, ?_, fun _ => rfl⟩
    rcases h2 with h2 | h2
    · have : isSetName s a = false := by
        unfold isSetName
        cases hv : s.arr[a]? with
        | none => rfl
        | some v => simpa using h2 v hv
      simp [this]
    · have : isSetName s b = false := by
        unfold isSetName
        cases hv : s.arr[b]? with
        | none => rfl
        | some v => simpa using h2 v hv
      simp [this]
  · refine ⟨true, s', h1, ?_, by simp⟩
    unfold union at h1
    by_cases hi : (invalidIndex s a || invalidIndex s b) = true
    · rw [if_pos hi] at h1; simp at h1
    · simp only [Bool.or_eq_true, not_or, Bool.not_eq_true] at hi
      obtain ⟨va, ha, hva⟩ := invalidIndex_false hi.1
      obtain ⟨vb, hb, hvb⟩ := invalidIndex_false hi.2
      simp [isSetName, ha, hb, hva, hvb]

/-- C08: `NumSets` plus the number of elements added later by `AddSets` is the number of classes: there is a system of
representatives of that length. -/
theorem C08_numSets {n : Nat} {s : DSet} {us : List (Nat × Nat)} {m : Nat} (h : Reach n s us m) :
    ∃ reps : List Nat, reps.Nodup ∧ (∀ r ∈ reps, r < n + m) ∧
      (∀ r ∈ reps, ∀ q ∈ reps, Conn us r q → r = q) ∧ (∀ x, x < n + m → ∃ r ∈ reps, Conn us x r) ∧
      (reps.length : Int) = numSets s + m := by
  obtain ⟨hi, hl⟩ := h.inv
  have hmem : ∀ r, r ∈ (List.range s.arr.length).filter (isSetName s) ↔ RootN s.arr 0 r r := by
    intro r
    rw [List.mem_filter, List.mem_range]
    constructor
    · rintro ⟨h1, h2⟩
      unfold isSetName at h2
      cases hv : s.arr[r]? with
      | none => simp [hv] at h2
      | some v => simp [hv] at h2; exact .root hv h2
    · intro hr
      obtain ⟨v, hv, hv0⟩ := hr.is_root
      exact ⟨hr.lt, by simp [isSetName, hv, hv0]⟩
  refine ⟨(List.range s.arr.length).filter (isSetName s), List.nodup_range.filter _, ?_, ?_, ?_, ?_⟩
  · intro r hr
    have := ((hmem r).1 hr).lt
    omega
  · intro r hr q hq hc
    exact (hi.conn r q _ _ _ _ ((hmem r).1 hr) ((hmem q).1 hq)).2 hc
  · intro x hx
    obtain ⟨k, r, hk⟩ := hi.total x (by omega)
    obtain ⟨v, hv, hv0⟩ := hk.is_root
    exact ⟨r, (hmem r).2 (.root hv hv0), (hi.conn x r _ _ _ _ hk (.root hv hv0)).1 rfl⟩
  · have hc := hi.count
    have : ((List.range s.arr.length).filter (isSetName s)).length = s.arr.countP (fun v => decide (v < 0)) := by
      rw [← List.countP_eq_length_filter]
      have e : s.arr.countP (fun v => decide (v < 0)) =
          ((List.range s.arr.length).map (fun i => s.arr[i]?.getD 0)).countP (fun v => decide (v < 0)) := by
        congr 1
        apply List.ext_getElem
        · simp
        · intro i h1 h2
          simp [List.getElem?_eq_getElem h1]
      rw [e, List.countP_map]
      apply List.countP_congr
      intro i hi
      rw [List.mem_range] at hi
      simp [isSetName, List.getElem?_eq_getElem hi]
    unfold numSets
    omega

/-- C08: `NumElements(x)` is the size of the class of `x`, and `GetElements(x)` lists that class in increasing order. -/
theorem C08_elements {n : Nat} {s : DSet} {us : List (Nat × Nat)} {m : Nat} (h : Reach n s us m) {x : Nat} (hx : x < n + m) :
    ∃ l v s₁ s₂, numElements s x = some (v, s₁) ∧ getElements s x = some (l, s₂) ∧ l.Nodup ∧ l.Pairwise (· < ·) ∧
      (∀ i, i ∈ l ↔ i < n + m ∧ Conn us i x) ∧ v = l.length := by
  obtain ⟨hi, hl⟩ := h.inv
  have hx' : x < s.arr.length := by omega
  obtain ⟨k, r, v, s1, a1, a2, a3, a4, a5, a6⟩ := numElements_spec hi hx'
  obtain ⟨l, s2, b1, b2, b3, b4, b5⟩ := getElements_spec hi hx'
  have hnd : l.Nodup := b4.imp (fun h => Nat.ne_of_lt h)
  refine ⟨l, -v, s1, s2, a4, b1, hnd, b4, fun i => by rw [b5, hl], ?_⟩
  obtain ⟨l', c1, c2, c3⟩ := hi.weight r v a2 a3
  have hiff : ∀ i, i ∈ l' ↔ i ∈ l := by
    intro i
    rw [c2, b5]
    constructor
    · rintro ⟨k', hk'⟩; exact ⟨hk'.lt, (hi.conn i x _ _ _ _ hk' a1).1 rfl⟩
    · rintro ⟨hi', hc⟩
      obtain ⟨k', r', hk'⟩ := hi.total i hi'
      have := (hi.conn i x _ _ _ _ hk' a1).2 hc
      subst this; exact ⟨k', hk'⟩
  have hp : l'.Perm l := (List.perm_ext_iff_of_nodup c1 hnd).2 hiff
  rw [← hp.length_eq]; omega

/-- C08: an id outside the structure has `NumElements` equal to -1. -/
theorem C08_outside {n : Nat} {s : DSet} {us : List (Nat × Nat)} {m : Nat} (h : Reach n s us m) {x : Nat} (hx : n + m ≤ x) :
    numElements s x = some (-1, s) := by
  have := h.inv.2
  unfold numElements
  rw [if_pos (by omega)]

/-- A non-trivial reachable state: five elements, two unions, one of them of unequal sizes, with path compression. -/
example : ∃ s, Reach 5 s [(4, 0), (2, 3), (0, 1)] 0 ∧ numSets s = 2 ∧ (numElements s 1).map (·.1) = some 3 := by
  have e1 := Reach.united (a := 0) (b := 1) (s' := ⟨[-2, 0, -1, -1, -1], 4⟩) (Reach.init (n := 5)) (by decide) (by decide +kernel)
  have e2 := Reach.united (a := 2) (b := 3) (s' := ⟨[-2, 0, -2, 2, -1], 3⟩) e1 (by decide) (by decide +kernel)
  have e3 := Reach.united (a := 4) (b := 0) (s' := ⟨[-3, 0, -2, 2, 0], 2⟩) e2 (by decide) (by decide +kernel)
  exact ⟨_, e3, by decide +kernel, by decide +kernel⟩

/-- C07 (why `Union` must be given different ids): uniting a set with itself reports success, makes the root its own
parent, and every later `Find` of it runs out of any amount of fuel. -/
theorem C07_self_union_counterexample :
    union (reset 2) 1 1 = some (true, ⟨[-1, 1], 1⟩) ∧ ∀ fuel, findRoot [-1, 1] fuel 1 = none := by
  refine ⟨by decide +kernel, ?_⟩
  intro fuel
  induction fuel with
  | zero => rfl
  | succ f ih => simpa [findRoot] using ih

/-- C08 (why `NumSets` is stated up to `AddSets`): `AddSets` does not update the count. -/
theorem C08_addSets_counterexample : numSets (addSets (reset 2) 3) = 2 ∧ (addSets (reset 2) 3).arr.length = 5 := by
  decide +kernel

end Verif.DSet
