import Verif.Compact.Model

/-!
# Compact arrays (C73)
-/

namespace Verif.Compact

variable {α : Type}

/-- A well-formed compact array with `n` inline elements that holds `l`. -/
def Rep (n : Nat) (s : CA α) (l : List α) : Prop :=
  s.len = l.length ∧ s.len ≤ s.mem.length ∧ s.mem.take s.len = l ∧ (if s.inlined = true then s.mem.length = n else n < s.mem.length)

theorem fbnext_gt (c : Nat) : c < Arith.fbnextN c := (Arith.C56_fbnext (y := 0)).1

theorem rep_split {n : Nat} {s : CA α} {l : List α} (h : Rep n s l) : ∃ rest, s.mem = l ++ rest ∧ s.len = l.length := by
  obtain ⟨h1, h2, h3, _⟩ := h
  exact ⟨s.mem.drop s.len, by rw [← h3, List.take_append_drop], h1⟩

theorem copyAt_eq {pre old src post : List α} (h : src.length = old.length) : copyAt (pre ++ old ++ post) pre.length src = some (pre ++ src ++ post) := by
  rw [copyAt, if_pos (by simp; omega)]
  congr 1
  have e1 : (pre ++ old ++ post).take pre.length = pre := by rw [List.append_assoc, List.take_left]
  have e2 : (pre ++ old ++ post).drop (pre.length + src.length) = post := by rw [h, ← List.length_append, List.drop_left]
  rw [e1, e2]

theorem setCapacity_rep {n : Nat} {junk : α} {s : CA α} {l : List α} (h : Rep n s l) {c : Nat} (hc : l.length ≤ c ∨ c ≤ n) :
    ∃ s', s.setCapacity n junk c = some s' ∧ Rep n s' l ∧ (c ≤ s'.mem.length) := by
  obtain ⟨rest, hm, hl⟩ := rep_split h
  obtain ⟨h1, h2, h3, h4⟩ := h
  have hf := fbnext_gt c
  rw [CA.setCapacity]
  by_cases hcn : c > n
  · have hc : l.length ≤ c := by omega
    rw [if_pos hcn]
    simp only
    by_cases hi : s.inlined = true
    · rw [if_pos hi, h3]
      have e := copyAt_eq (pre := []) (old := List.replicate l.length junk) (src := l) (post := List.replicate (Arith.fbnextN c - l.length) junk) (by simp)
      rw [List.nil_append, List.replicate_append_replicate, Nat.add_sub_cancel' (by omega)] at e
      rw [List.length_nil] at e
      rw [e, Option.map_some]
      refine ⟨_, rfl, ⟨hl, ?_, ?_, ?_⟩, ?_⟩
      · simp; omega
      · simp only; rw [hl]; simp
      · simp; omega
      · simp; omega
    · rw [if_neg hi]
      refine ⟨_, rfl, ⟨hl, ?_, ?_, ?_⟩, ?_⟩
      · simp only [realloc, List.length_append, List.length_take, List.length_replicate]; omega
      · simp only [realloc]
        rw [List.take_append_of_le_length (by rw [List.length_take]; omega), List.take_take, Nat.min_eq_left (by omega), h3]
      · simp only [realloc, List.length_append, List.length_take, List.length_replicate]; simp; omega
      · simp only [realloc, List.length_append, List.length_take, List.length_replicate]; omega
  · rw [if_neg hcn]
    refine ⟨s, rfl, ⟨h1, h2, h3, h4⟩, ?_⟩
    split at h4 <;> omega

/-- **C73**: a compact array with room for `n` elements inline acts as the sequence of its elements, inline or on the heap, over any history that takes it across the limit in
either direction: there is a relation between arrays and sequences, which holds of the empty ones, under which `Length` and the elements are those of the sequence,
and which `Add`, `Insert`, `Remove`, `SetLength`, `Clear`, `Set`, `SetCapacity` (not below the length), copying, assigning and moving keep. -/
theorem C73_sequence (n : Nat) (junk : α) : ∃ R : CA α → List α → Prop, R (CA.empty n junk) [] ∧ ∀ s l, R s l →
    (s.len = l.length ∧ ∀ i, s.get i = l[i]?) ∧
    (∀ x, ∃ s', s.add n junk x = some (s', l.length) ∧ R s' (l ++ [x])) ∧
    (∀ x i, i ≤ l.length → ∃ s', s.insert n junk x i = some s' ∧ R s' (l.take i ++ x :: l.drop i)) ∧
    (∀ i, i < l.length → ∃ s', s.remove i = some s' ∧ R s' (l.take i ++ l.drop (i + 1))) ∧
    (∀ k, ∃ s' l', s.setLength n junk k = some s' ∧ l'.length = k ∧ l'.take l.length = l.take k ∧ R s' l') ∧
    R s.clear [] ∧
    (∀ l', ∃ s', s.set n junk l' = some s' ∧ R s' l') ∧
    (∀ c, l.length ≤ c → ∃ s', s.setCapacity n junk c = some s' ∧ R s' l) ∧
    (∃ s', s.copy n junk = some s' ∧ R s' l) ∧
    (∀ t l', R t l' → ∃ s', s.assign n junk t = some s' ∧ R s' l') ∧
    (R (s.move n junk).1 l ∧ R (s.move n junk).2 []) := by
  have hempty : Rep n (CA.empty n junk) [] := ⟨rfl, by simp [CA.empty], by simp [CA.empty], by simp [CA.empty]⟩
  have hsl : ∀ s l, Rep n s l → ∀ k, ∃ s' l', s.setLength n junk k = some s' ∧ l'.length = k ∧ l'.take l.length = l.take k ∧ Rep n s' l' := by
    intro s l h k
    by_cases hk : l.length ≤ k ∨ k ≤ n
    · obtain ⟨s', e, hr, hc⟩ := setCapacity_rep (junk := junk) h hk
      refine ⟨⟨s'.inlined, s'.mem, k⟩, s'.mem.take k, by rw [CA.setLength, e, Option.map_some], ?_, ?_, ?_, hc, rfl, hr.2.2.2⟩
      · rw [List.length_take]; omega
      · have h3 := hr.2.2.1
        rw [hr.1] at h3
        rw [List.take_take, Nat.min_comm, ← List.take_take, h3]
      · simp only [List.length_take]; omega
    · have hcut : Rep n (⟨s.inlined, s.mem, k⟩ : CA α) (l.take k) := by
        obtain ⟨h1, h2, h3, h4⟩ := h
        refine ⟨by simp only [List.length_take]; omega, by simp only; omega, ?_, h4⟩
        simp only
        rw [← h3, List.take_take, Nat.min_eq_left (by omega)]
      obtain ⟨s', e, hr, hc⟩ := setCapacity_rep (junk := junk) hcut (c := k) (.inl (by rw [List.length_take]; omega))
      have hi : ¬s.inlined = true := by
        intro hi
        obtain ⟨h1, h2, h3, h4⟩ := h
        rw [if_pos hi] at h4
        omega
      have e' : s.setLength n junk k = some s' := by
        rw [CA.setCapacity, if_pos (by omega)] at e
        rw [CA.setLength, CA.setCapacity, if_pos (by omega)]
        simp only [if_neg hi, Option.some.injEq] at e
        simp only [if_neg hi, Option.map_some]
        rw [← e]
      exact ⟨s', l.take k, e', by rw [List.length_take]; omega, by rw [List.take_take, Nat.min_eq_right (by omega)], hr⟩
  have hset : ∀ s l, Rep n s l → ∀ l', ∃ s', ((s.setLength n junk l'.length).bind fun s => (copyAt s.mem 0 l').map fun m => { s with mem := m }) = some s' ∧ Rep n s' l' := by
    intro s l h l'
    obtain ⟨s', l2, e, h1, h2, hr⟩ := hsl s l h l'.length
    obtain ⟨rest, hm, hl⟩ := rep_split hr
    rw [e, Option.bind_some, hm]
    have e2 := copyAt_eq (pre := []) (old := l2) (src := l') (post := rest) h1.symm
    rw [List.nil_append, List.length_nil] at e2
    rw [e2, Option.map_some]
    refine ⟨_, rfl, ?_, ?_, ?_, ?_⟩
    · simp only; omega
    · simp; omega
    · simp only; rw [hl, h1]; simp
    · have := hr.2.2.2
      rw [hm] at this
      simp only [List.nil_append, List.length_append] at this ⊢
      rwa [← h1]
  refine ⟨Rep n, hempty, fun s l h => ?_⟩
  obtain ⟨rest, hm, hl⟩ := rep_split h
  refine ⟨⟨hl, fun i => ?_⟩, fun x => ?_, fun x i hi => ?_, fun i hi => ?_, hsl s l h, ?_, fun l' => hset s l h l', fun c hc => ?_, ?_, fun t l' ht => ?_, ?_⟩
  · rw [CA.get]
    split
    · rw [hm, List.getElem?_append_left (by omega)]
    · rw [List.getElem?_eq_none (by omega)]
  · obtain ⟨s', e, hr, hc⟩ := setCapacity_rep (junk := junk) h (c := s.len + 1) (.inl (by omega))
    obtain ⟨rest', hm', hl'⟩ := rep_split hr
    have hlt : s'.len < s'.mem.length := by omega
    rw [CA.add, e, Option.bind_some, wr_of_lt hlt, Option.map_some, hl']
    refine ⟨_, rfl, by simp, by simp; omega, ?_, by simpa using hr.2.2.2⟩
    cases rest' with
    | nil => rw [hm'] at hlt; simp at hlt; omega
    | cons y rest' =>
      simp only [hm']
      rw [List.set_append_right _ _ (Nat.le_refl _), Nat.sub_self, List.set_cons_zero, show l ++ x :: rest' = (l ++ [x]) ++ rest' by simp, List.take_left' (by simp)]
  · obtain ⟨s', e, hr, hc⟩ := setCapacity_rep (junk := junk) h (c := s.len + 1) (.inl (by omega))
    obtain ⟨rest', hm', hl'⟩ := rep_split hr
    rw [CA.insert, e, Option.bind_some, if_pos (by omega)]
    cases rest' with
    | nil => rw [hm'] at hc; simp at hc; omega
    | cons y rest' =>
      have hd : l.drop i ++ [y] ≠ [] := by simp
      obtain ⟨z, zs, hz⟩ : ∃ z zs, l.drop i ++ [y] = z :: zs := by
        cases hq : l.drop i ++ [y] with
        | nil => exact absurd hq hd
        | cons z zs => exact ⟨z, zs, rfl⟩
      have hzl : zs.length = l.length - i := by
        have := congrArg List.length hz
        simp at this
        omega
      have hmem : s'.mem = (l.take i ++ [z]) ++ zs ++ rest' := by
        rw [hm']
        have : l ++ y :: rest' = l.take i ++ (l.drop i ++ [y]) ++ rest' := by rw [← List.append_assoc, List.take_append_drop]; simp
        rw [this, hz]
        simp
      have hsrc : (s'.mem.drop i).take (s'.len - i) = l.drop i := by
        rw [hm', List.drop_append_of_le_length hi, List.take_append_of_le_length (by rw [List.length_drop]; omega), List.take_of_length_le (by rw [List.length_drop]; omega)]
      have e1 := copyAt_eq (pre := l.take i ++ [z]) (old := zs) (src := l.drop i) (post := rest') (by rw [List.length_drop]; omega)
      rw [← hmem, show (l.take i ++ [z]).length = i + 1 by simp; omega] at e1
      have e2 := copyAt_eq (pre := l.take i) (old := [z]) (src := [x]) (post := l.drop i ++ rest') rfl
      rw [show (l.take i).length = i by rw [List.length_take]; omega, ← List.append_assoc] at e2
      rw [hsrc, e1, Option.bind_some, e2, Option.map_some]
      refine ⟨_, rfl, ?_, ?_, ?_, ?_⟩
      · simp; omega
      · simp; omega
      · simp only
        rw [hl', ← List.append_assoc, List.take_left' (by simp; omega)]
        simp
      · have := hr.2.2.2
        rw [hm'] at this
        have hlen : (l.take i ++ [x] ++ (l.drop i ++ rest')).length = (l ++ y :: rest').length := by simp; omega
        simp only
        rw [hlen]
        exact this
  · rw [CA.remove, if_pos (by omega)]
    have hsrc : (s.mem.drop (i + 1)).take (s.len - i - 1) = l.drop (i + 1) := by
      rw [hm, List.drop_append_of_le_length (by omega), List.take_append_of_le_length (by rw [List.length_drop]; omega), List.take_of_length_le (by rw [List.length_drop]; omega)]
    have hmem : s.mem = l.take i ++ (l.drop i).take (l.length - i - 1) ++ ((l.drop i).drop (l.length - i - 1) ++ rest) := by
      rw [hm, List.append_assoc, ← List.append_assoc (List.take _ (l.drop i)), List.take_append_drop, ← List.append_assoc, List.take_append_drop]
    have e1 := copyAt_eq (pre := l.take i) (old := (l.drop i).take (l.length - i - 1)) (src := l.drop (i + 1)) (post := (l.drop i).drop (l.length - i - 1) ++ rest)
      (by simp; omega)
    rw [← hmem, show (l.take i).length = i by rw [List.length_take]; omega] at e1
    rw [hsrc, e1, Option.map_some]
    refine ⟨_, rfl, ?_, ?_, ?_, ?_⟩
    · simp; omega
    · simp; omega
    · simp only
      rw [hl, List.take_left' (by simp; omega)]
    · have := h.2.2.2
      rw [hm] at this
      have hlen : (l.take i ++ l.drop (i + 1) ++ ((l.drop i).drop (l.length - i - 1) ++ rest)).length = (l ++ rest).length := by simp; omega
      simp only
      rw [hlen]
      exact this
  · exact ⟨rfl, Nat.zero_le _, by simp [CA.clear], h.2.2.2⟩
  · obtain ⟨s', e, hr, _⟩ := setCapacity_rep (junk := junk) h (.inl hc)
    exact ⟨s', e, hr⟩
  · have := hset _ _ hempty l
    rw [CA.copy, CA.assign, h.2.2.1, hl]
    exact this
  · have := hset _ _ h l'
    rw [CA.assign, ht.2.2.1, ht.1]
    exact this
  · refine ⟨h, ?_⟩
    rw [CA.move]
    by_cases hi : s.inlined = true
    · simp only [if_pos hi]
      have := h.2.2.2
      rw [if_pos hi] at this
      exact ⟨rfl, Nat.zero_le _, by simp, by simpa [hi] using this⟩
    · simp only [if_neg hi]
      exact hempty

/-- Two inline elements: a third moves the array to the heap; back to one element it stays there. -/
example : ((CA.empty 2 0).add 2 0 5).bind (fun s => (s.1.add 2 0 6).bind fun s => (s.1.insert 2 0 7 1).bind fun s => (s.remove 0).bind fun s => s.remove 1) =
    some ⟨false, [7, 6, 6, 0, 0], 1⟩ := by decide

/-- `SetCapacity` below the length cuts elements off without changing the length. -/
theorem C73_shrink_counterexample : (((CA.empty 2 0).set 2 0 [1, 2, 3, 4, 5, 6, 7, 8]).bind fun s => s.setCapacity 2 0 3).map (fun s => (s.len, s.get 7)) = some (8, none) := by
  decide

/-- The constructor from a list writes through a pointer that is not there when the list fits inline. -/
theorem C73_list_counterexample : CA.ofList 2 0 [1] = none := by decide

end Verif.Compact
