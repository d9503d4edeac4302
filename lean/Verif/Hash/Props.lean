import Verif.Hash.Lemmas
import Verif.Hash.Spec
import Verif.Common.Run

/-!
# C24, C25: the hash table
-/

namespace Verif.Hash

variable {κ δ : Type}

/-- The calls on the model. -/
def step (H : κ → Nat) (eq : κ → κ → Bool) : Spec.Op κ δ → Tbl κ δ → Option (Tbl κ δ × Spec.Res δ)
  | .insert k v, t => (insert H eq k v t).map fun r => (r.1, .unit)
  | .set k v, t => (set H eq k v t).map fun r => (r.1, .bool r.2)
  | .remove k, t => (remove H eq k t).map fun r => (r.1, .bool r.2)
  | .get k, t => (get H eq k t).map fun r => (t, .val r)
  | .has k, t => (exist H eq k t).map fun r => (t, .bool r)
  | .length, t => some (t, .nat t.size)
  | .clear, t => some (clear t, .unit)
  | .setCapacity c, t => (setCapacity H c t).map fun t => (t, .unit)

/-- Abstraction: the buckets in use hold exactly the associations. -/
def Rel (H : κ → Nat) (eq : κ → κ → Bool) (s : List (κ × δ)) (t : Tbl κ δ) : Prop := Inv H eq t ∧ t.entries.Perm s

theorem new_inv (H : κ → Nat) (eq : κ → κ → Bool) : Inv H eq (new : Tbl κ δ) :=
  ⟨Or.inl rfl, by simp [new, upperBound], rfl, Nat.le_refl _, rfl, fun i hi => (by cases hi), List.Pairwise.nil⟩

theorem clear_entries (t : Tbl κ δ) : (clear t).entries = [] := entries_none (fun i _ => rfl)

theorem clear_inv {H : κ → Nat} {eq : κ → κ → Bool} {t : Tbl κ δ} (h : Inv H eq t) : Inv H eq (clear t) := by
  refine ⟨h.pow, h.upper, ?_, Nat.zero_le _, ?_, ?_, ?_⟩
  · rw [entries_none (fun i _ => by simp [usedv, clear, Slot.used])]; rfl
  · rw [clear_entries]; rfl
  · intro i _ k v hs; simp [clear] at hs
  · rw [clear_entries]; exact List.Pairwise.nil

theorem has_perm {eq : κ → κ → Bool} {a b : List (κ × δ)} (hp : a.Perm b) (k : κ) : Spec.has eq k a = Spec.has eq k b := by
  unfold Spec.has
  cases h1 : b.any (fun e => eq e.1 k) with
  | true =>
    rw [List.any_eq_true] at h1 ⊢
    obtain ⟨x, hx, hk⟩ := h1
    exact ⟨x, hp.mem_iff.2 hx, hk⟩
  | false =>
    rw [List.any_eq_false] at h1 ⊢
    intro x hx
    exact h1 x (hp.mem_iff.1 hx)

theorem get_of_mem {H : κ → Nat} {eq : κ → κ → Bool} (he : HashOK H eq) {s : List (κ × δ)} (hd : Distinct eq s) {k' k : κ} {v : δ}
    (hm : (k', v) ∈ s) (hk : eq k' k = true) : Spec.get eq k s = some v := by
  obtain ⟨A, B, rfl⟩ := List.append_of_mem hm
  unfold Distinct at hd
  rw [List.pairwise_append] at hd
  have hA : A.find? (fun e => eq e.1 k) = none := by
    rw [List.find?_eq_none]
    intro x hx hxk
    have := hd.2.2 x hx (k', v) (by simp)
    rw [he.trans _ _ _ hxk (he.symm _ _ hk)] at this
    cases this
  unfold Spec.get
  rw [List.find?_append, hA]
  simp [hk]

theorem get_of_not {eq : κ → κ → Bool} {s : List (κ × δ)} {k : κ} (hno : ∀ e ∈ s, eq e.1 k = false) : Spec.get eq k s = none := by
  unfold Spec.get
  rw [List.find?_eq_none.2 (fun x hx => by simp [hno x hx])]
  rfl

theorem has_of_mem {eq : κ → κ → Bool} {s : List (κ × δ)} {k k' : κ} {v : δ} (hm : (k', v) ∈ s) (hk : eq k' k = true) :
    Spec.has eq k s = true := List.any_eq_true.2 ⟨_, hm, hk⟩

theorem has_of_not {eq : κ → κ → Bool} {s : List (κ × δ)} {k : κ} (hno : ∀ e ∈ s, eq e.1 k = false) : Spec.has eq k s = false := by
  unfold Spec.has
  rw [List.any_eq_false]
  intro x hx
  simp [hno x hx]

/-- Replacing the value of a present key, on lists. -/
theorem insert_present {H : κ → Nat} {eq : κ → κ → Bool} (he : HashOK H eq) {A B : List (κ × δ)} {k' k : κ} {w : δ} (v : δ)
    (hd : Distinct eq (A ++ (k', w) :: B)) (hk : eq k' k = true) {s : List (κ × δ)} (hp : (A ++ (k', w) :: B).Perm s) :
    (A ++ (k', v) :: B).Perm (Spec.insert eq k v s) := by
  have hh : s.any (fun e => eq e.1 k) = true :=
    List.any_eq_true.2 ⟨(k', w), hp.mem_iff.1 (by simp), hk⟩
  unfold Spec.insert
  rw [if_pos hh]
  refine List.Perm.trans ?_ (hp.map _)
  unfold Distinct at hd
  rw [List.pairwise_append, List.pairwise_cons] at hd
  obtain ⟨_, ⟨d2, _⟩, d4⟩ := hd
  have hAk : ∀ x ∈ A, eq x.1 k = false := by
    intro x hx
    cases hxk : eq x.1 k with
    | false => rfl
    | true =>
      have := d4 x hx (k', w) (by simp)
      rw [he.trans _ _ _ hxk (he.symm _ _ hk)] at this
      cases this
  have hBk : ∀ x ∈ B, eq x.1 k = false := by
    intro x hx
    cases hxk : eq x.1 k with
    | false => rfl
    | true =>
      have := d2 x hx
      rw [he.trans _ _ _ hk (he.symm _ _ hxk)] at this
      cases this
  have hA : A.map (fun e => if eq e.1 k then (e.1, v) else e) = A := by
    conv => rhs; rw [← List.map_id A]
    apply List.map_congr_left
    intro x hx; simp [hAk x hx]
  have hB : B.map (fun e => if eq e.1 k then (e.1, v) else e) = B := by
    conv => rhs; rw [← List.map_id B]
    apply List.map_congr_left
    intro x hx; simp [hBk x hx]
  rw [List.map_append, List.map_cons, hA, hB]
  simp [hk]

theorem existsIter_full {t : Tbl κ δ} {i : Nat} {k : κ} {v : δ} (hi : i < t.n) (hs : t.slot i = .full k v) : existsIter i t = true := by
  simp [existsIter, hi, hs, Slot.kv]

theorem existsIter_end (t : Tbl κ δ) : existsIter t.n t = false := by simp [existsIter]

theorem insert_step {H : κ → Nat} {eq : κ → κ → Bool} (he : HashOK H eq) {s : List (κ × δ)} {t : Tbl κ δ} (hR : Rel H eq s t)
    (hlen : s.length < 2 ^ 29) (k : κ) (v : δ) :
    ∃ t' x, insert H eq k v t = some (t', x) ∧ Rel H eq (Spec.insert eq k v s) t' ∧
      ∃ k', x < t'.n ∧ t'.slot x = .full k' v ∧ eq k' k = true := by
  obtain ⟨hI, hp⟩ := hR
  obtain ⟨t1, e1, e2, e3, e4, e5, e6⟩ := room_spec he hI (by rw [hI.size, hp.length_eq]; exact hlen)
  obtain ⟨x, f1, f2, f3⟩ := putLoop_spec he e2 e4 k
  have hp1 : t1.entries.Perm s := e3.trans hp
  refine ⟨fill k v t1 x, x, by unfold insert; rw [e1, Option.bind_some, f1]; rfl, ?_⟩
  rcases f3 with ⟨k', w, g1, g2⟩ | ⟨g1, g2, g3⟩
  · have hf : fill k v t1 x = { t1 with slot := upd t1.slot x (.full k' v) } := by simp [fill, g1]
    rw [hf]
    obtain ⟨i1, A, B, i2, i3⟩ := store_value e2 f2 g1 v
    refine ⟨⟨i1, ?_⟩, k', f2, upd_same _ _ _, g2⟩
    rw [i3]
    rw [i2] at hp1
    exact insert_present he v (by rw [← i2]; exact e2.distinct) g2 hp1
  · obtain ⟨i1, i2, i3, i4⟩ := store_new he e2 f2 g1 v g3 g2 e6
    refine ⟨⟨i1, ?_⟩, k, by rw [i3]; exact f2, i4, he.refl k⟩
    have hno : ∀ e ∈ t1.entries, eq e.1 k = false := by
      intro e hm
      obtain ⟨j, hj, hjs⟩ := mem_entries.1 hm
      cases hsl : t1.slot j with
      | empty => simp [hsl, Slot.kv] at hjs
      | del => simp [hsl, Slot.kv] at hjs
      | full k' v' =>
        simp only [hsl, Slot.kv, Option.some.injEq] at hjs
        subst hjs
        have := g2 j hj
        simpa [hsl, Slot.holds] using this
    have hh : s.any (fun e => eq e.1 k) = false := by
      have := has_perm (eq := eq) hp1 k
      rw [has_of_not hno] at this
      exact this.symm
    unfold Spec.insert
    rw [hh]
    simp only [Bool.false_eq_true, if_false]
    exact i2.trans ((hp1.cons (k, v)).trans (List.perm_append_singleton (k, v) s).symm)

theorem setCapacity_step {H : κ → Nat} {eq : κ → κ → Bool} (he : HashOK H eq) {s : List (κ × δ)} {t : Tbl κ δ} (hR : Rel H eq s t)
    {c : Nat} (hc : c ≤ 2 ^ 31) : ∃ t', setCapacity H c t = some t' ∧ Rel H eq s t' := by
  obtain ⟨hI, hp⟩ := hR
  unfold setCapacity
  by_cases hn : t.n < c
  · rw [if_pos hn]
    obtain ⟨k, k1, k2, k3, k4, _⟩ := target_spec (c := c) (by omega) hc
    have hlt : t.size < upperBound (target c) := by
      have h1 := hI.size_le_occ
      have h2 := hI.le
      rw [hI.upper] at h2
      rcases hI.pow with h0 | ⟨j, j1, j2, _⟩
      · rw [h0] at h2
        have : upperBound 0 = 0 := rfl
        unfold upperBound at h2 ⊢
        omega
      · have hjk : j < k := by
          have : 2 ^ j < 2 ^ k := by omega
          exact (Nat.pow_lt_pow_iff_right (by decide : 1 < 2)).1 this
        have h3 : 2 ^ (j + 1) ≤ 2 ^ k := Nat.pow_le_pow_right (by decide) hjk
        rw [Nat.pow_succ, ← j1, ← k1] at h3
        unfold upperBound at h2 ⊢
        omega
    obtain ⟨t', e1, e2, e3, _⟩ := resize_spec he hI (c := c) (by omega) hc hlt
    exact ⟨t', e1, e2, e3.trans hp⟩
  · rw [if_neg hn]; exact ⟨t, rfl, hI, hp⟩

theorem step_sim {H : κ → Nat} {eq : κ → κ → Bool} (he : HashOK H eq) :
    ∀ (o : Spec.Op κ δ) (s : List (κ × δ)) (t : Tbl κ δ) (s' : List (κ × δ)) (r : Spec.Res δ), Rel H eq s t →
      Spec.step eq o s = some (s', r) → ∃ t', step H eq o t = some (t', r) ∧ Rel H eq s' t' := by
  intro o s t s' r hR hs
  have hI := hR.1
  have hp := hR.2
  have hds : Distinct eq s := hI.distinct.perm he hp
  cases o with
  | insert k v =>
    simp only [Spec.step] at hs
    split at hs
    · next hlen =>
      simp only [Option.some.injEq, Prod.mk.injEq] at hs
      obtain ⟨rfl, rfl⟩ := hs
      obtain ⟨t', x, e1, e2, _⟩ := insert_step he hR hlen k v
      exact ⟨t', by simp [step, e1], e2⟩
    · cases hs
  | set k v =>
    obtain ⟨i, e1, e2⟩ := iter_entries he hI k
    rcases e2 with ⟨k', w, g1, g2, g3, g4⟩ | ⟨g1, g2⟩
    · have hh : Spec.has eq k s = true := has_of_mem (hp.mem_iff.1 g4) g3
      simp only [Spec.step, hh, if_true, Option.some.injEq, Prod.mk.injEq] at hs
      obtain ⟨rfl, rfl⟩ := hs
      obtain ⟨i1, A, B, i2, i3⟩ := store_value hI g1 g2 v
      refine ⟨{ t with slot := upd t.slot i (.full k' v) }, ?_, i1, ?_⟩
      · simp [step, set, e1, existsIter_full g1 g2, setAt, g2]
      · rw [i3]
        exact insert_present he v (by rw [← i2]; exact hI.distinct) g3 (by rw [← i2]; exact hp)
    · have hh : Spec.has eq k s = false := has_of_not (fun e hm => g2 e (hp.mem_iff.2 hm))
      simp only [Spec.step, hh, Bool.false_eq_true, if_false, Option.some.injEq, Prod.mk.injEq] at hs
      obtain ⟨rfl, rfl⟩ := hs
      refine ⟨t, ?_, hR⟩
      simp [step, set, e1, g1, existsIter_end]
  | remove k =>
    obtain ⟨i, e1, e2⟩ := iter_entries he hI k
    simp only [Spec.step, Option.some.injEq, Prod.mk.injEq] at hs
    obtain ⟨rfl, rfl⟩ := hs
    rcases e2 with ⟨k', w, g1, g2, g3, g4⟩ | ⟨g1, g2⟩
    · have hh : Spec.has eq k s = true := has_of_mem (hp.mem_iff.1 g4) g3
      obtain ⟨i1, i2⟩ := delete_spec he hI g1 g2
      refine ⟨delete i t, ?_, i1, ?_⟩
      · simp [step, remove, e1, hh, show ¬ t.n = i by omega]
      · unfold Spec.remove
        refine List.Perm.trans ?_ (hp.filter _)
        refine List.Perm.trans ?_ (i2.filter _).symm
        rw [List.filter_cons_of_neg (by simp [g3])]
        have hd := hI.distinct.perm he i2
        unfold Distinct at hd
        rw [List.pairwise_cons] at hd
        rw [List.filter_eq_self.2]
        intro e hm
        have h1 := hd.1 e hm
        cases hek : eq e.1 k with
        | false => rfl
        | true => rw [he.trans _ _ _ g3 (he.symm _ _ hek)] at h1; cases h1
    · have hno := fun e hm => g2 e (hp.mem_iff.2 hm)
      have hh : Spec.has eq k s = false := has_of_not hno
      refine ⟨t, ?_, hI, ?_⟩
      · simp [step, remove, e1, hh, g1]
      · unfold Spec.remove
        rw [List.filter_eq_self.2 (fun e hm => by simp [hno e hm])]
        exact hp
  | get k =>
    obtain ⟨i, e1, e2⟩ := iter_entries he hI k
    simp only [Spec.step, Option.some.injEq, Prod.mk.injEq] at hs
    obtain ⟨rfl, rfl⟩ := hs
    refine ⟨t, ?_, hR⟩
    rcases e2 with ⟨k', w, g1, g2, g3, g4⟩ | ⟨g1, g2⟩
    · rw [get_of_mem he hds (hp.mem_iff.1 g4) g3]
      simp [step, get, e1, existsIter_full g1 g2, g2, Slot.kv]
    · rw [get_of_not (fun e hm => g2 e (hp.mem_iff.2 hm))]
      simp [step, get, e1, g1, existsIter_end]
  | has k =>
    obtain ⟨i, e1, e2⟩ := iter_entries he hI k
    simp only [Spec.step, Option.some.injEq, Prod.mk.injEq] at hs
    obtain ⟨rfl, rfl⟩ := hs
    refine ⟨t, ?_, hR⟩
    rcases e2 with ⟨k', w, g1, g2, g3, g4⟩ | ⟨g1, g2⟩
    · rw [has_of_mem (hp.mem_iff.1 g4) g3]
      simp [step, exist, e1, existsIter_full g1 g2]
    · rw [has_of_not (fun e hm => g2 e (hp.mem_iff.2 hm))]
      simp [step, exist, e1, g1, existsIter_end]
  | length =>
    simp only [Spec.step, Option.some.injEq, Prod.mk.injEq] at hs
    obtain ⟨rfl, rfl⟩ := hs
    exact ⟨t, by simp [step, hI.size, hp.length_eq], hR⟩
  | clear =>
    simp only [Spec.step, Option.some.injEq, Prod.mk.injEq] at hs
    obtain ⟨rfl, rfl⟩ := hs
    exact ⟨clear t, rfl, clear_inv hI, by rw [clear_entries]⟩
  | setCapacity c =>
    simp only [Spec.step] at hs
    split at hs
    · next hc =>
      simp only [Option.some.injEq, Prod.mk.injEq] at hs
      obtain ⟨rfl, rfl⟩ := hs
      obtain ⟨t', e1, e2⟩ := setCapacity_step he hR hc
      exact ⟨t', by simp [step, e1], e2⟩
    · cases hs

/-- **C24**: every history of calls gives the answers of a finite map — values, presence, lengths — and iterating over
the buckets afterwards visits exactly the associations of that map, once each. No call fails to terminate. -/
theorem C24_history {H : κ → Nat} {eq : κ → κ → Bool} (he : HashOK H eq) (ops : List (Spec.Op κ δ)) (s : List (κ × δ))
    (rs : List (Spec.Res δ)) (hs : runAll (Spec.step eq) ops [] = some (s, rs)) :
    ∃ t, runAll (step H eq) ops new = some (t, rs) ∧ t.entries.Perm s ∧ t.entries.Pairwise fun a b => eq a.1 b.1 = false := by
  obtain ⟨t, e1, e2⟩ := runAll_sim (R := Rel H eq) (step_sim he) ops [] new s rs ⟨new_inv H eq, List.Perm.refl _⟩ hs
  exact ⟨t, e1, e2.2, e2.1.distinct⟩

/-- **C24**: the iterator returned by an insertion refers to the entry just stored: same key, the new value; reading
the key back gives that value. -/
theorem C24_insert_iterator {H : κ → Nat} {eq : κ → κ → Bool} (he : HashOK H eq) (ops : List (Spec.Op κ δ)) (s : List (κ × δ))
    (rs : List (Spec.Res δ)) (hs : runAll (Spec.step eq) ops [] = some (s, rs)) (hlen : s.length < 2 ^ 29) (k : κ) (v : δ) :
    ∃ t t' i k', runAll (step H eq) ops new = some (t, rs) ∧ insert H eq k v t = some (t', i) ∧ existsIter i t' = true ∧
      (t'.slot i).kv = some (k', v) ∧ eq k' k = true ∧ get H eq k t' = some (some v) := by
  obtain ⟨t, e1, e2⟩ := runAll_sim (R := Rel H eq) (step_sim he) ops [] new s rs ⟨new_inv H eq, List.Perm.refl _⟩ hs
  obtain ⟨t', x, f1, f2, k', f3, f4, f5⟩ := insert_step he e2 hlen k v
  refine ⟨t, t', x, k', e1, f1, existsIter_full f3 f4, by simp [f4, Slot.kv], f5, ?_⟩
  obtain ⟨t2, g1, _⟩ := step_sim he (.get k) _ t' _ _ f2 rfl
  have hm : (k', v) ∈ t'.entries := mem_entries.2 ⟨x, f3, by simp [f4, Slot.kv]⟩
  have hget := get_of_mem he (f2.1.distinct.perm he f2.2) (f2.2.mem_iff.1 hm) f5
  rw [hget] at g1
  simp only [step, Option.map_eq_some_iff, Prod.mk.injEq, Spec.Res.val.injEq] at g1
  obtain ⟨r, h1, _, h2⟩ := g1
  rw [h1, h2]

/-- **C24**: removing through an iterator removes exactly the entry it refers to and leaves all others. -/
theorem C24_remove_iterator {H : κ → Nat} {eq : κ → κ → Bool} (he : HashOK H eq) (ops : List (Spec.Op κ δ)) (s : List (κ × δ))
    (rs : List (Spec.Res δ)) (hs : runAll (Spec.step eq) ops [] = some (s, rs)) :
    ∃ t, runAll (step H eq) ops new = some (t, rs) ∧ ∀ i, existsIter i t = true →
      ∃ e, (t.slot i).kv = some e ∧ (removeIter i t).2 = true ∧ s.Perm (e :: (removeIter i t).1.entries) := by
  obtain ⟨t, e1, e2⟩ := runAll_sim (R := Rel H eq) (step_sim he) ops [] new s rs ⟨new_inv H eq, List.Perm.refl _⟩ hs
  refine ⟨t, e1, ?_⟩
  intro i hi
  have hi' := hi
  simp only [existsIter, Bool.decide_and, Bool.and_eq_true, decide_eq_true_eq] at hi'
  cases hsl : t.slot i with
  | empty => simp [hsl, Slot.kv] at hi'
  | del => simp [hsl, Slot.kv] at hi'
  | full k v =>
    obtain ⟨_, i2⟩ := delete_spec he e2.1 hi'.1 hsl
    refine ⟨(k, v), rfl, by simp [removeIter, hi], ?_⟩
    simp only [removeIter, hi, if_true]
    exact e2.2.symm.trans i2

/-- **C24**: copy assignment gives a table with the contents of the source, whatever the target held, and it goes on
behaving as a map. -/
theorem C24_assign {H : κ → Nat} {eq : κ → κ → Bool} (he : HashOK H eq) (ops ops' : List (Spec.Op κ δ)) (s s' : List (κ × δ))
    (rs rs' : List (Spec.Res δ)) (hs : runAll (Spec.step eq) ops [] = some (s, rs))
    (hs' : runAll (Spec.step eq) ops' [] = some (s', rs')) (ops2 : List (Spec.Op κ δ)) (s2 : List (κ × δ)) (rs2 : List (Spec.Res δ))
    (h2 : runAll (Spec.step eq) ops2 s = some (s2, rs2)) :
    ∃ t t' c c2, runAll (step H eq) ops new = some (t, rs) ∧ runAll (step H eq) ops' new = some (t', rs') ∧
      assign H t t' = some c ∧ c.entries = t.entries ∧ runAll (step H eq) ops2 c = some (c2, rs2) ∧ c2.entries.Perm s2 := by
  obtain ⟨t, e1, e2⟩ := runAll_sim (R := Rel H eq) (step_sim he) ops [] new s rs ⟨new_inv H eq, List.Perm.refl _⟩ hs
  obtain ⟨t', e3, e4⟩ := runAll_sim (R := Rel H eq) (step_sim he) ops' [] new s' rs' ⟨new_inv H eq, List.Perm.refl _⟩ hs'
  have key : ∃ c, assign H t t' = some c ∧ c.entries = t.entries ∧ Inv H eq c := by
    unfold assign
    by_cases hn : t.n = 0
    · rw [if_pos hn]
      refine ⟨new, rfl, ?_, new_inv H eq⟩
      simp [Tbl.entries, hn, new, entries]
    · rw [if_neg hn]
      obtain ⟨k, k1, k2, k3⟩ : ∃ k, t.n = 2 ^ k ∧ 4 ≤ t.n ∧ t.n ≤ 2 ^ 31 := by
        rcases e2.1.pow with h0 | h
        · exact absurd h0 hn
        · exact h
      have hk2 : 2 ≤ k := by
        rw [k1] at k2
        have : (2 : Nat) ^ 2 ≤ 2 ^ k := k2
        exact (Nat.pow_le_pow_iff_right (by decide)).1 this
      obtain ⟨_, _, _, _, _, hu⟩ := target_spec (c := t.n) (by omega) k3
      have ht : target t.n = t.n := by rw [hu k hk2 (by omega) (by omega), k1]
      obtain ⟨c, f1, f2, f3, f4, f5, f6⟩ := resize_spec he (clear_inv e4.1) (c := t.n) (by omega) k3 (by
        rw [ht]; show 0 < _; unfold upperBound; omega)
      have hc : (⟨c.n, t.size, t.occ, t.upper, t.slot⟩ : Tbl κ δ) = t := by rw [f4, ht]
      unfold docopy
      rw [f1, Option.map_some, hc]
      exact ⟨t, rfl, rfl, e2.1⟩
  obtain ⟨c, g1, g2, g3⟩ := key
  obtain ⟨c2, i1, i2⟩ := runAll_sim (R := Rel H eq) (step_sim he) ops2 s c s2 rs2 ⟨g3, by rw [g2]; exact e2.2⟩ h2
  exact ⟨t, t', c, c2, e1, e3, g1, g2, i1, i2.2⟩

/-- **C24**: assigning a table to itself empties it: the contents are destroyed before they are copied. -/
theorem C24_self_assign_counterexample :
    (insert (fun k => k) (fun a b => a == b) 7 1 (new : Tbl Nat Nat)).bind (fun r =>
      (assignSelf (fun k => k) r.1).map fun c => (r.1.entries, c.entries)) = some ([(7, 1)], []) := by
  decide +kernel

/-- **C25**: from every starting bucket the probe sequence visits every bucket of a power-of-two table within as many
probes as there are buckets. -/
theorem C25_probe_covers (k h i : Nat) (hi : i < 2 ^ k) : ∃ s, s < 2 ^ k ∧ (h + s * (s + 1) / 2) % 2 ^ k = i := by
  obtain ⟨s, h1, h2⟩ := pos_surj h rfl hi
  exact ⟨s, h1, h2⟩

/-- **C25**: after every history there is a bucket that was never used since the last rehash, unless there are no
buckets at all; and the number of buckets is a power of two. -/
theorem C25_never_used_bucket {H : κ → Nat} {eq : κ → κ → Bool} (he : HashOK H eq) (ops : List (Spec.Op κ δ)) (s : List (κ × δ))
    (rs : List (Spec.Res δ)) (hs : runAll (Spec.step eq) ops [] = some (s, rs)) :
    ∃ t, runAll (step H eq) ops new = some (t, rs) ∧
      (t.n = 0 ∨ ((∃ k, t.n = 2 ^ k) ∧ ∃ i, i < t.n ∧ t.slot i = .empty)) := by
  obtain ⟨t, e1, e2⟩ := runAll_sim (R := Rel H eq) (step_sim he) ops [] new s rs ⟨new_inv H eq, List.Perm.refl _⟩ hs
  refine ⟨t, e1, ?_⟩
  by_cases hn : t.n = 0
  · exact Or.inl hn
  · right
    obtain ⟨k, k1, _⟩ := e2.1.pow.resolve_left hn
    obtain ⟨i, i1, i2⟩ := e2.1.has_empty hn
    refine ⟨⟨k, k1⟩, i, i1, ?_⟩
    cases hsl : t.slot i <;> simp [hsl, Slot.used] at i2 ⊢

/-- **C25**: after every history every lookup, every insertion and every resize terminates: the probe loops end within
as many probes as there are buckets, and moving displaced entries ends within as many moves as there are entries. (The
model's loops fail when they exceed these numbers.) -/
theorem C25_terminates {H : κ → Nat} {eq : κ → κ → Bool} (he : HashOK H eq) (ops : List (Spec.Op κ δ)) (s : List (κ × δ))
    (rs : List (Spec.Res δ)) (hs : runAll (Spec.step eq) ops [] = some (s, rs)) :
    ∃ t, runAll (step H eq) ops new = some (t, rs) ∧ (∀ k, (iter H eq k t).isSome) ∧
      (s.length < 2 ^ 29 → ∀ k v, (insert H eq k v t).isSome) ∧ (∀ c, c ≤ 2 ^ 31 → (setCapacity H c t).isSome) := by
  obtain ⟨t, e1, e2⟩ := runAll_sim (R := Rel H eq) (step_sim he) ops [] new s rs ⟨new_inv H eq, List.Perm.refl _⟩ hs
  refine ⟨t, e1, ?_, ?_, ?_⟩
  · intro k
    obtain ⟨i, h, _⟩ := iter_spec he e2.1 k
    simp [h]
  · intro hlen k v
    obtain ⟨t', x, h, _⟩ := insert_step he e2 hlen k v
    simp [h]
  · intro c hc
    obtain ⟨t', h, _⟩ := setCapacity_step he e2 hc
    simp [h]

/-! ### Examples: the hypotheses are met -/

/-- Keys equal modulo 100, all hashing to the same two buckets. -/
theorem ex_hash : HashOK (fun k : Nat => k % 2) (fun a b => a % 100 == b % 100) := by
  refine ⟨?_, ?_, ?_, ?_⟩
  · intro a; simp
  · intro a b h; simp at h ⊢; exact h.symm
  · intro a b c h1 h2; simp at h1 h2 ⊢; exact h1.trans h2
  · intro a b h; simp at h ⊢; omega

example : runAll (Spec.step (fun a b : Nat => a % 100 == b % 100))
    [.insert 1 10, .insert 3 30, .insert 101 11, .remove 3, .insert 5 50, .get 1, .get 3, .set 5 55, .has 5, .length, .setCapacity 100, .get 105]
      ([] : List (Nat × Nat)) =
    some ([(1, 11), (5, 55)], [.unit, .unit, .unit, .bool true, .unit, .val (some 11), .val none, .bool true, .bool true, .nat 2, .unit, .val (some 55)]) := by
  decide +kernel

example := C24_history ex_hash [.insert 1 10, .insert 3 30, .insert 101 11, .remove 3, .insert 5 50] [(1, 11), (5, 50)]
  [.unit, .unit, .unit, .bool true, .unit] (by decide +kernel)

example : (101 : Nat) % 100 = 1 ∧ [(1, 11), (5, 50)].length < 2 ^ 29 := by decide

end Verif.Hash
