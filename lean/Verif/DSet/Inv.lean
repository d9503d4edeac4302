import Verif.DSet.Lemmas

namespace Verif.DSet

/-- The invariant: `us` are the pairs united so far, `m` the number of elements added by `AddSets`. -/
structure Inv (s : DSet) (us : List (Nat × Nat)) (m : Nat) : Prop where
  total : ∀ i, i < s.arr.length → ∃ k r, RootN s.arr k i r
  conn : ∀ i j ki kj ri rj, RootN s.arr ki i ri → RootN s.arr kj j rj → (ri = rj ↔ Conn us i j)
  inr : ∀ e ∈ us, e.1 < s.arr.length ∧ e.2 < s.arr.length
  weight : ∀ (r : Nat) (v : Int), s.arr[r]? = some v → v < 0 →
    ∃ l : List Nat, l.Nodup ∧ (∀ i, i ∈ l ↔ ∃ k, RootN s.arr k i r) ∧ (l.length : Int) = -v
  count : s.numsets + m = (s.arr.countP (fun v => decide (v < 0)) : Nat)

theorem Conn.lt {us : List (Nat × Nat)} {n : Nat} (h : ∀ e ∈ us, e.1 < n ∧ e.2 < n) {x y : Nat} (hc : Conn us x y) :
    x = y ∨ (x < n ∧ y < n) := by
  induction hc with
  | refl => exact .inl rfl
  | edge he => exact .inr (h _ he)
  | symm _ ih => omega
  | trans _ _ ih1 ih2 => omega

theorem Conn.nil {x y : Nat} (h : Conn [] x y) : x = y := by
  induction h with
  | refl => rfl
  | edge h => cases h
  | symm _ ih => exact ih.symm
  | trans _ _ ih1 ih2 => exact ih1.trans ih2

theorem RootN.replicate {n k i r : Nat} (h : RootN (List.replicate n (-1)) k i r) : i = r ∧ i < n := by
  cases h with
  | root h1 _ => exact ⟨rfl, by simpa using (List.getElem?_eq_some_iff.1 h1).1⟩
  | step h1 h2 _ =>
    have := (List.getElem?_eq_some_iff.1 h1).2
    simp at this; omega

theorem RootN.replicate_root {n i : Nat} (h : i < n) : RootN (List.replicate n (-1)) 0 i i :=
  .root (v := -1) (by simp [h]) (by omega)

theorem Inv.reset (n : Nat) : Inv (reset n) [] 0 where
  total i hi := ⟨0, i, RootN.replicate_root (by simpa [DSet.reset] using hi)⟩
  conn i j ki kj ri rj h1 h2 := by
    have a := RootN.replicate h1
    have b := RootN.replicate h2
    constructor
    · intro h
      have : i = j := by omega
      subst this; exact .refl _
    · intro h
      have := h.nil; omega
  inr := by simp
  weight r v h1 h2 := by
    have hlt : r < n := by simpa [DSet.reset] using (List.getElem?_eq_some_iff.1 h1).1
    have hv : v = -1 := by simpa [DSet.reset, hlt] using h1.symm
    refine ⟨[r], by simp, ?_, by simp [hv]⟩
    intro i
    simp only [List.mem_singleton]
    constructor
    · rintro rfl; exact ⟨0, RootN.replicate_root hlt⟩
    · rintro ⟨k, h⟩; exact (RootN.replicate h).1
  count := by simp [DSet.reset, List.countP_replicate]

theorem Same.root_iff {a b : List Int} (h : Same a b) (ht : ∀ i, i < a.length → ∃ k r, RootN a k i r) {i r : Nat} :
    (∃ k, RootN a k i r) ↔ (∃ k, RootN b k i r) := by
  constructor
  · rintro ⟨k, hk⟩
    obtain ⟨j, _, hj⟩ := h.roots _ _ _ hk
    exact ⟨j, hj⟩
  · rintro ⟨k, hk⟩
    obtain ⟨k', r', hk'⟩ := ht i (by have := hk.lt; have := h.len; omega)
    obtain ⟨j, _, hj⟩ := h.roots _ _ _ hk'
    have := (RootN.det hk hj).2
    subst this
    exact ⟨k', hk'⟩

theorem countP_eq_of_same {a b : List Int} (hl : b.length = a.length)
    (h : ∀ (y : Nat) (v : Int), v < 0 → (a[y]? = some v ↔ b[y]? = some v)) :
    a.countP (fun v => decide (v < 0)) = b.countP (fun v => decide (v < 0)) := by
  induction a generalizing b with
  | nil =>
    have : b = [] := List.eq_nil_of_length_eq_zero (by simpa using hl)
    subst this; rfl
  | cons x a ih =>
    cases b with
    | nil => simp at hl
    | cons y b =>
      have h0 := h 0
      simp only [List.getElem?_cons_zero, Option.some.injEq] at h0
      have := ih (b := b) (by simpa using hl) (fun i v hv => by simpa using h (i + 1) v hv)
      simp only [List.countP_cons, this]
      have e : decide (x < 0) = decide (y < 0) := by
        by_cases hx : x < 0
        · have := (h0 x hx).1 rfl; simp [this]
        · by_cases hy : y < 0
          · exact absurd ((h0 y hy).2 rfl) (by omega)
          · simp [hx, hy]
      rw [e]

theorem Inv.same {s s' : DSet} {us : List (Nat × Nat)} {m : Nat} (h : Inv s us m) (hn : s'.numsets = s.numsets)
    (hs : Same s.arr s'.arr) : Inv s' us m where
  total i hi := by
    obtain ⟨k, r, hk⟩ := h.total i (by have := hs.len; omega)
    obtain ⟨j, _, hj⟩ := hs.roots _ _ _ hk
    exact ⟨j, r, hj⟩
  conn i j ki kj ri rj h1 h2 := by
    obtain ⟨a, ha⟩ := (hs.root_iff h.total).2 ⟨_, h1⟩
    obtain ⟨b, hb⟩ := (hs.root_iff h.total).2 ⟨_, h2⟩
    exact h.conn i j a b ri rj ha hb
  inr e he := by rw [hs.len]; exact h.inr e he
  weight r v h1 h2 := by
    obtain ⟨l, a, b, c⟩ := h.weight r v ((hs.entries r v h2).2 h1) h2
    exact ⟨l, a, fun i => by rw [b, hs.root_iff h.total], c⟩
  count := by
    rw [hn, ← countP_eq_of_same hs.len hs.entries]; exact h.count

/-- What a union does to the array: the root `b` is linked under `a`. -/
theorem Inv.link {s : DSet} {us : List (Nat × Nat)} {m : Nat} (h : Inv s us m) {a b : Nat} {va vb : Int}
    (ha : s.arr[a]? = some va) (hva : va < 0) (hb : s.arr[b]? = some vb) (hvb : vb < 0) (hab : a ≠ b) :
    Inv ⟨(s.arr.set a (va + vb)).set b (a : Int), s.numsets - 1⟩ ((a, b) :: us) m := by
  have halt := (List.getElem?_eq_some_iff.1 ha).1
  have hblt := (List.getElem?_eq_some_iff.1 hb).1
  have hra : RootN s.arr 0 a a := .root ha hva
  have hrb : RootN s.arr 0 b b := .root hb hvb
  have link := fun {k y q : Nat} (hh : RootN s.arr k y q) =>
    RootN.link ha hva hb hvb hab (show va + vb < 0 by omega) hh
  -- roots in the new array come from roots in the old one
  have back : ∀ {k y q : Nat}, RootN ((s.arr.set a (va + vb)).set b (a : Int)) k y q →
      ∃ k' q', RootN s.arr k' y q' ∧ q = if q' = b then a else q' := by
    intro k y q hh
    obtain ⟨k', q', hk'⟩ := h.total y (by simpa using hh.lt)
    obtain ⟨j, hj⟩ := link hk'
    exact ⟨k', q', hk', (RootN.det hj hh).2⟩
  refine ⟨?_, ?_, ?_, ?_, ?_⟩
  · intro i hi
    obtain ⟨k, r, hk⟩ := h.total i (by simpa using hi)
    obtain ⟨j, hj⟩ := link hk
    exact ⟨j, _, hj⟩
  · intro i j ki kj ri rj h1 h2
    obtain ⟨k1, q1, g1, rfl⟩ := back h1
    obtain ⟨k2, q2, g2, rfl⟩ := back h2
    rw [Conn.cons_iff, ← h.conn _ _ _ _ _ _ g1 g2, ← h.conn _ _ _ _ _ _ g1 hra, ← h.conn _ _ _ _ _ _ g1 hrb,
      ← h.conn _ _ _ _ _ _ hra g2, ← h.conn _ _ _ _ _ _ hrb g2]
    split <;> split <;> omega
  · intro e he
    simp only [List.length_set]
    rcases List.mem_cons.1 he with rfl | he
    · exact ⟨halt, hblt⟩
    · exact h.inr e he
  · intro r v h1 h2
    by_cases hrb' : b = r
    · subst hrb'
      rw [List.getElem?_set_self (by simpa using hblt)] at h1
      injection h1; omega
    · rw [List.getElem?_set_ne hrb'] at h1
      have hmem : ∀ i, (∃ k, RootN ((s.arr.set a (va + vb)).set b (a : Int)) k i r) ↔
          ∃ k q, RootN s.arr k i q ∧ r = if q = b then a else q := by
        intro i
        constructor
        · rintro ⟨k, hk⟩; exact back hk
        · rintro ⟨k, q, hk, rfl⟩; exact link hk
      by_cases hra' : a = r
      · subst hra'
        rw [List.getElem?_set_self halt] at h1
        injection h1 with h1
        obtain ⟨la, a1, a2, a3⟩ := h.weight a va ha hva
        obtain ⟨lb, b1, b2, b3⟩ := h.weight b vb hb hvb
        refine ⟨la ++ lb, ?_, ?_, ?_⟩
        · rw [List.nodup_append]
          refine ⟨a1, b1, ?_⟩
          intro x hx y hy e
          subst e
          obtain ⟨k1, g1⟩ := (a2 x).1 hx
          obtain ⟨k2, g2⟩ := (b2 x).1 hy
          exact hab (RootN.det g2 g1).2
        · intro i
          rw [hmem, List.mem_append, a2, b2]
          constructor
          · rintro (⟨k, hk⟩ | ⟨k, hk⟩)
            · exact ⟨k, a, hk, by rw [if_neg hab]⟩
            · exact ⟨k, b, hk, by rw [if_pos rfl]⟩
          · rintro ⟨k, q, hk, hq⟩
            by_cases hqb : q = b
            · subst hqb; exact .inr ⟨k, hk⟩
            · rw [if_neg hqb] at hq; subst hq; exact .inl ⟨k, hk⟩
        · simp only [List.length_append]; omega
      · rw [List.getElem?_set_ne hra'] at h1
        obtain ⟨l, l1, l2, l3⟩ := h.weight r v h1 h2
        refine ⟨l, l1, ?_, l3⟩
        intro i
        rw [hmem, l2]
        constructor
        · rintro ⟨k, hk⟩; exact ⟨k, r, hk, by rw [if_neg (Ne.symm hrb')]⟩
        · rintro ⟨k, q, hk, hq⟩
          by_cases hqb : q = b
          · rw [if_pos hqb] at hq; exact absurd hq.symm hra'
          · rw [if_neg hqb] at hq; subst hq; exact ⟨k, hk⟩
  · have hc := h.count
    have e1 : (s.arr.set a (va + vb)).countP (fun v => decide (v < 0)) = s.arr.countP (fun v => decide (v < 0)) := by
      rw [List.countP_set halt]
      have hpos : 0 < s.arr.countP (fun v => decide (v < 0)) :=
        List.countP_pos_iff.2 ⟨va, List.mem_of_getElem? ha, by simpa using hva⟩
      have hg : s.arr[a] = va := (List.getElem?_eq_some_iff.1 ha).2
      simp only [hg, hva, show va + vb < 0 by omega, decide_true, if_true]
      omega
    have e2 : ((s.arr.set a (va + vb)).set b (a : Int)).countP (fun v => decide (v < 0)) + 1 =
        s.arr.countP (fun v => decide (v < 0)) := by
      have hblt' : b < (s.arr.set a (va + vb)).length := by simpa using hblt
      have hg : (s.arr.set a (va + vb))[b] = vb := by
        have : (s.arr.set a (va + vb))[b]? = some vb := by rw [List.getElem?_set_ne hab]; exact hb
        exact (List.getElem?_eq_some_iff.1 this).2
      rw [List.countP_set hblt', e1]
      have hpos : 0 < s.arr.countP (fun v => decide (v < 0)) :=
        List.countP_pos_iff.2 ⟨va, List.mem_of_getElem? ha, by simpa using hva⟩
      have hn : ¬ ((a : Int) < 0) := by omega
      simp only [hg, hvb, hn, decide_true, decide_false, if_true]
      simp
      omega
    simp only
    omega

theorem Inv.congr {s : DSet} {us vs : List (Nat × Nat)} {m : Nat} (h : Inv s us m) (hc : ∀ x y, Conn us x y ↔ Conn vs x y)
    (hv : ∀ e ∈ vs, e.1 < s.arr.length ∧ e.2 < s.arr.length) : Inv s vs m :=
  ⟨h.total, fun i j ki kj ri rj h1 h2 => by rw [h.conn i j ki kj ri rj h1 h2, hc], hv, h.weight, h.count⟩

theorem invalidIndex_false {s : DSet} {x : Nat} (h : invalidIndex s x = false) : ∃ v, s.arr[x]? = some v ∧ v < 0 := by
  unfold invalidIndex at h
  cases hx : s.arr[x]? with
  | none => simp [hx] at h
  | some v => simp [hx] at h; exact ⟨v, rfl, h⟩

theorem Conn.swap {us : List (Nat × Nat)} {a b x y : Nat} : Conn ((a, b) :: us) x y ↔ Conn ((b, a) :: us) x y := by
  rw [Conn.cons_iff, Conn.cons_iff]
  constructor
  · rintro (h | h | h)
    · exact .inl h
    · exact .inr (.inr h)
    · exact .inr (.inl h)
  · rintro (h | h | h)
    · exact .inl h
    · exact .inr (.inr h)
    · exact .inr (.inl h)

/-- `Union` either reports failure and changes nothing, or reports success and joins the two classes. -/
theorem union_spec {s : DSet} {us : List (Nat × Nat)} {m : Nat} (h : Inv s us m) {a b : Nat} (hab : a ≠ b) :
    (union s a b = some (false, s) ∧ ((∀ v, s.arr[a]? = some v → 0 ≤ v) ∨ (∀ v, s.arr[b]? = some v → 0 ≤ v))) ∨
    (∃ s', union s a b = some (true, s') ∧ Inv s' ((a, b) :: us) m ∧ s'.arr.length = s.arr.length) := by
  unfold union
  by_cases hi : (invalidIndex s a || invalidIndex s b) = true
  · rw [if_pos hi]
    refine .inl ⟨rfl, ?_⟩
    rcases Bool.or_eq_true_iff.1 hi with hi | hi
    · left; intro v hv; simpa [invalidIndex, hv] using hi
    · right; intro v hv; simpa [invalidIndex, hv] using hi
  · rw [if_neg hi]
    right
    simp only [Bool.or_eq_true, not_or, Bool.not_eq_true] at hi
    obtain ⟨va, ha, hva⟩ := invalidIndex_false hi.1
    obtain ⟨vb, hb, hvb⟩ := invalidIndex_false hi.2
    simp only [ha, hb, Option.bind_eq_bind, Option.bind_some]
    by_cases hw : va > vb
    · rw [if_pos hw]
      have := h.link hb hvb ha hva (Ne.symm hab)
      refine ⟨_, rfl, this.congr (fun x y => Conn.swap) ?_, by simp⟩
      intro e he
      rcases List.mem_cons.1 he with rfl | he
      · have := this.inr (b, a) (by simp); exact ⟨this.2, this.1⟩
      · exact this.inr e (List.mem_cons_of_mem _ he)
    · rw [if_neg hw]
      exact ⟨_, rfl, h.link ha hva hb hvb hab, by simp⟩

theorem find_inv {s : DSet} {us : List (Nat × Nat)} {m : Nat} (h : Inv s us m) {x : Nat} (hx : x < s.arr.length) :
    ∃ k r s', RootN s.arr k x r ∧ find s x = some (r, s') ∧ Inv s' us m ∧ Same s.arr s'.arr := by
  obtain ⟨k, r, hk⟩ := h.total x hx
  obtain ⟨s', h1, h2, h3⟩ := find_spec s hk
  exact ⟨k, r, s', hk, h1, h.same h2 h3, h3⟩

theorem Same.trans {a b c : List Int} (h1 : Same a b) (h2 : Same b c) : Same a c where
  len := h2.len.trans h1.len
  roots k y q h := by
    obtain ⟨j, hj, h3⟩ := h1.roots k y q h
    obtain ⟨j', hj', h4⟩ := h2.roots j y q h3
    exact ⟨j', by omega, h4⟩
  entries y v hv := (h1.entries y v hv).trans (h2.entries y v hv)

theorem getElementsLoop_spec {us : List (Nat × Nat)} {m : Nat} (set : Nat) (a0 : List Int) :
    ∀ (is : List Nat) (s : DSet) (acc : List Nat), Inv s us m → Same a0 s.arr → (∀ i ∈ is, i < s.arr.length) →
    (∀ i, i < a0.length → ∃ k r, RootN a0 k i r) → is.Pairwise (· < ·) → (∀ i ∈ acc, ∀ j ∈ is, i < j) → acc.Pairwise (· < ·) →
    ∃ l s', getElementsLoop set is s acc = some (l, s') ∧ Inv s' us m ∧ Same a0 s'.arr ∧ l.Pairwise (· < ·) ∧
      (∀ i, i ∈ l ↔ i ∈ acc ∨ (i ∈ is ∧ ∃ k, RootN a0 k i set))
  | [], s, acc, h, hs, _, _, _, _, hacc => ⟨acc, s, rfl, h, hs, hacc, by simp⟩
  | i :: is, s, acc, h, hs, hi, ht, hsort, hlt, hacc => by
    obtain ⟨k, r, s', h1, h2, h3, h4⟩ := find_inv h (hi i (by simp))
    simp only [getElementsLoop, h2, Option.bind_eq_bind, Option.bind_some]
    rw [List.pairwise_cons] at hsort
    have hri : ∀ q, (∃ k, RootN a0 k i q) ↔ q = r := by
      intro q
      rw [hs.root_iff ht]
      constructor
      · rintro ⟨k', hk'⟩; exact (RootN.det h1 hk').2
      · rintro rfl; exact ⟨k, h1⟩
    have hacc' : (if r = set then acc ++ [i] else acc).Pairwise (· < ·) := by
      split
      · rw [List.pairwise_append]
        refine ⟨hacc, by simp, ?_⟩
        intro x hx y hy
        simp at hy; subst hy
        exact hlt x hx _ (by simp)
      · exact hacc
    have hlt' : ∀ x ∈ (if r = set then acc ++ [i] else acc), ∀ j ∈ is, x < j := by
      intro x hx j hj
      have h5 := hlt
      split at hx
      · rcases List.mem_append.1 hx with hx | hx
        · exact hlt x hx j (by simp [hj])
        · simp at hx; subst hx; exact hsort.1 j hj
      · exact hlt x hx j (by simp [hj])
    obtain ⟨l, s2, g1, g2, g3, g4, g5⟩ := getElementsLoop_spec set a0 is s' _ h3 (hs.trans h4)
      (fun j hj => by rw [h4.len]; exact hi j (by simp [hj])) ht hsort.2 hlt' hacc'
    refine ⟨l, s2, g1, g2, g3, g4, ?_⟩
    intro j
    rw [g5]
    by_cases hr : r = set
    · subst hr
      rw [if_pos rfl]
      simp only [List.mem_append, List.mem_cons, List.not_mem_nil, or_false]
      constructor
      · rintro ((h | rfl) | h)
        · exact .inl h
        · exact .inr ⟨.inl rfl, (hri r).2 rfl⟩
        · exact .inr ⟨.inr h.1, h.2⟩
      · rintro (h | ⟨rfl | h, g⟩)
        · exact .inl (.inl h)
        · exact .inl (.inr rfl)
        · exact .inr ⟨h, g⟩
    · rw [if_neg hr]
      simp only [List.mem_cons]
      constructor
      · rintro (h | h)
        · exact .inl h
        · exact .inr ⟨.inr h.1, h.2⟩
      · rintro (h | ⟨rfl | h, g⟩)
        · exact .inl h
        · exact absurd ((hri set).1 g).symm hr
        · exact .inr ⟨h, g⟩

theorem RootN.append {arr : List Int} (ext : List Int) {k i r : Nat} (h : RootN arr k i r) : RootN (arr ++ ext) k i r := by
  induction h with
  | root h1 h2 => exact .root (by rw [List.getElem?_append_left (List.getElem?_eq_some_iff.1 h1).1]; exact h1) h2
  | step h1 h2 _ ih => exact .step (by rw [List.getElem?_append_left (List.getElem?_eq_some_iff.1 h1).1]; exact h1) h2 ih

theorem Inv.addSets {s : DSet} {us : List (Nat × Nat)} {m : Nat} (h : Inv s us m) (n : Nat) : Inv (addSets s n) us (m + n) := by
  have new : ∀ i, s.arr.length ≤ i → i < s.arr.length + n → RootN (s.arr ++ List.replicate n (-1)) 0 i i := by
    intro i h1 h2
    refine .root (v := -1) ?_ (by omega)
    rw [List.getElem?_append_right h1, List.getElem?_replicate, if_pos (by omega)]
  have rlt : ∀ {k i r}, RootN s.arr k i r → r < s.arr.length := by
    intro k i r hh
    obtain ⟨v, h1, _⟩ := hh.is_root
    exact (List.getElem?_eq_some_iff.1 h1).1
  have back : ∀ {k i r}, RootN (s.arr ++ List.replicate n (-1)) k i r →
      (i < s.arr.length ∧ RootN s.arr k i r) ∨ (s.arr.length ≤ i ∧ r = i) := by
    intro k i r hh
    have hlt := hh.lt
    by_cases hi : i < s.arr.length
    · obtain ⟨k', r', h'⟩ := h.total i hi
      have := RootN.det hh (h'.append _)
      obtain ⟨e1, e2⟩ := this
      subst e1; subst e2
      exact .inl ⟨hi, h'⟩
    · exact .inr ⟨by omega, (RootN.det (new i (by omega) (by simpa using hlt)) hh).2⟩
  refine ⟨?_, ?_, ?_, ?_, ?_⟩
  · intro i hi
    simp only [DSet.addSets, List.length_append, List.length_replicate] at hi
    by_cases h' : i < s.arr.length
    · obtain ⟨k, r, hk⟩ := h.total i h'
      exact ⟨k, r, hk.append _⟩
    · exact ⟨0, i, new i (by omega) hi⟩
  · intro i j ki kj ri rj h1 h2
    rcases back h1 with ⟨a1, a2⟩ | ⟨a1, a2⟩ <;> rcases back h2 with ⟨b1, b2⟩ | ⟨b1, b2⟩
    · exact h.conn i j ki kj ri rj a2 b2
    · have := rlt a2
      constructor
      · omega
      · intro hc
        have := Conn.lt h.inr hc
        omega
    · have := rlt b2
      constructor
      · omega
      · intro hc
        have := Conn.lt h.inr hc
        omega
    · subst a2; subst b2
      constructor
      · rintro rfl; exact .refl _
      · intro hc
        have := Conn.lt h.inr hc
        omega
  · intro e he
    have := h.inr e he
    simp only [DSet.addSets, List.length_append]
    omega
  · intro r v h1 h2
    simp only [DSet.addSets] at h1 ⊢
    have hlt := (List.getElem?_eq_some_iff.1 h1).1
    simp at hlt
    by_cases hr : r < s.arr.length
    · rw [List.getElem?_append_left hr] at h1
      obtain ⟨l, l1, l2, l3⟩ := h.weight r v h1 h2
      refine ⟨l, l1, ?_, l3⟩
      intro i
      rw [l2]
      constructor
      · rintro ⟨k, hk⟩; exact ⟨k, hk.append _⟩
      · rintro ⟨k, hk⟩
        rcases back hk with ⟨_, g⟩ | ⟨g1, g2⟩
        · exact ⟨k, g⟩
        · omega
    · rw [List.getElem?_append_right (by omega), List.getElem?_replicate, if_pos (by omega)] at h1
      injection h1 with h1
      refine ⟨[r], by simp, ?_, by simp [← h1]⟩
      intro i
      simp only [List.mem_singleton]
      constructor
      · rintro rfl; exact ⟨0, new i (by omega) hlt⟩
      · rintro ⟨k, hk⟩
        rcases back hk with ⟨_, g⟩ | ⟨g1, g2⟩
        · have := rlt g; omega
        · omega
  · have := h.count
    simp only [DSet.addSets, List.countP_append, List.countP_replicate]
    simp
    omega

end Verif.DSet
