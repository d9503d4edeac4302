import Verif.Trie.Model
import Verif.Sorted.Lemmas
import Verif.Heap.Props

namespace Verif.Trie

variable {w : Nat} {fold : Nat → Nat}

/-- The index under which `q` occurs, or "not found". -/
def find (w : Nat) (fold : Nat → Nat) (ss : List Word) (q : List Nat) : Nat :=
  ((ss.find? fun s => s.2.map fold == q.map fold).map (·.1)).getD (2 ^ w - 1)

/-- Space taken by the words. -/
def tot (ss : List Word) : Nat := (ss.map fun s => s.2.length + 1).sum

/-- The words without their first letter. -/
def tl (ss : List Word) : List Word := ss.map fun s => (s.1, s.2.tail)

theorem tot_append (a b : List Word) : tot (a ++ b) = tot a + tot b := by simp [tot]

theorem tot_cons (a : Word) (b : List Word) : tot (a :: b) = a.2.length + 1 + tot b := by simp [tot]

theorem tot_tl : ∀ (g : List Word), (∀ s ∈ g, s.2 ≠ []) → tot g = tot (tl g) + g.length
  | [], _ => by simp [tot, tl]
  | s :: g, h => by
    have ih := tot_tl g fun x hx => h x (by simp [hx])
    have h1 := h s (by simp)
    obtain ⟨ix, t⟩ := s
    cases t with
    | nil => simp at h1
    | cons a t =>
      have h2 : tl ((ix, a :: t) :: g) = (ix, t) :: tl g := rfl
      rw [h2, tot_cons, tot_cons, ih]
      simp only [List.length_cons]
      omega

theorem advance_eq : ∀ (g : List Word), (∀ s ∈ g, s.2 ≠ []) → advance g = some (tl g)
  | [], _ => rfl
  | (ix, []) :: g, h => by simpa using h (ix, []) (by simp)
  | (ix, a :: t) :: g, h => by
    rw [advance, advance_eq g fun x hx => h x (by simp [hx])]
    rfl

/-! ## Groups of words by first letter -/

/-- `gs` lists the words by first letter. -/
structure Groups (fold : Nat → Nat) (gs : List (Nat × List Word)) : Prop where
  ne : ∀ g ∈ gs, g.2 ≠ []
  head : ∀ g ∈ gs, ∀ s ∈ g.2, ∃ a t, s.2 = a :: t ∧ fold a = g.1
  sorted : gs.Pairwise fun a b => a.1 < b.1
  pos : ∀ g ∈ gs, 1 ≤ g.1 ∧ g.1 ≤ 127

/-- All words of the groups. -/
def flat (gs : List (Nat × List Word)) : List Word := (gs.map (·.2)).flatten

theorem flat_cons (g : Nat × List Word) (gs) : flat (g :: gs) = g.2 ++ flat gs := by simp [flat]

theorem Groups.tail {g} {gs : List (Nat × List Word)} (h : Groups fold (g :: gs)) : Groups fold gs :=
  ⟨fun x hx => h.ne x (by simp [hx]), fun x hx => h.head x (by simp [hx]), (List.pairwise_cons.1 h.sorted).2,
    fun x hx => h.pos x (by simp [hx])⟩

theorem cmp_cons (a b : Nat) (s t : List Nat) (h : cmpStr fold (a :: s) (b :: t) < 0) :
    fold a < fold b ∨ (fold a = fold b ∧ cmpStr fold s t < 0) := by
  rw [cmpStr] at h
  split at h
  · exact Or.inl ‹_›
  · split at h
    · omega
    · exact Or.inr ⟨by omega, h⟩

theorem groups_exist : ∀ (ss : List Word), (∀ s ∈ ss, s.2 ≠ []) → (∀ s ∈ ss, ∀ c ∈ s.2, 1 ≤ fold c ∧ fold c ≤ 127) →
    ss.Pairwise (fun a b => cmpWord fold a b < 0) → ∃ gs, Groups fold gs ∧ flat gs = ss
  | [], _, _, _ => ⟨[], ⟨by simp, by simp, by simp, by simp⟩, rfl⟩
  | (ix, t) :: ss, h1, h2, h3 => by
    rw [List.pairwise_cons] at h3
    obtain ⟨gs, hg, hf⟩ := groups_exist ss (fun s hs => h1 s (by simp [hs])) (fun s hs => h2 s (by simp [hs])) h3.2
    cases t with
    | nil => simpa using h1 (ix, []) (by simp)
    | cons a t =>
      have ha := h2 (ix, a :: t) (by simp) a (by simp)
      cases gs with
      | nil =>
        refine ⟨[(fold a, [(ix, a :: t)])], ⟨by simp, ?_, by simp, by simpa using ha⟩, ?_⟩
        · intro g hgm s hs
          simp only [List.mem_singleton] at hgm
          subst hgm
          simp only [List.mem_singleton] at hs
          subst hs
          exact ⟨a, t, rfl, rfl⟩
        · rw [← hf]
          rfl
      | cons g gs =>
        have hge := hg.ne g (by simp)
        obtain ⟨b, hb⟩ := List.exists_mem_of_ne_nil _ hge
        obtain ⟨b0, bt, hb1, hb2⟩ := hg.head g (by simp) b hb
        have hbs : b ∈ ss := by rw [← hf, flat_cons]; simp [hb]
        have hlt := h3.1 b hbs
        rw [cmpWord, hb1] at hlt
        have hle : fold a ≤ g.1 := by
          rw [← hb2]
          rcases cmp_cons _ _ _ _ hlt with h | h <;> omega
        by_cases he : fold a = g.1
        · refine ⟨(g.1, (ix, a :: t) :: g.2) :: gs, ⟨?_, ?_, ?_, ?_⟩, ?_⟩
          · intro x hx
            rcases List.mem_cons.1 hx with rfl | hx
            · simp
            · exact hg.tail.ne x hx
          · intro x hx s hs
            rcases List.mem_cons.1 hx with rfl | hx
            · rcases List.mem_cons.1 hs with rfl | hs
              · exact ⟨a, t, rfl, he⟩
              · exact hg.head g (by simp) s hs
            · exact hg.tail.head x hx s hs
          · have := List.pairwise_cons.1 hg.sorted
            exact List.pairwise_cons.2 this
          · intro x hx
            rcases List.mem_cons.1 hx with rfl | hx
            · exact hg.pos g (by simp)
            · exact hg.tail.pos x hx
          · rw [← hf, flat_cons, flat_cons]
            rfl
        · refine ⟨(fold a, [(ix, a :: t)]) :: g :: gs, ⟨?_, ?_, ?_, ?_⟩, ?_⟩
          · intro x hx
            rcases List.mem_cons.1 hx with rfl | hx
            · simp
            · exact hg.ne x hx
          · intro x hx s hs
            rcases List.mem_cons.1 hx with rfl | hx
            · simp only [List.mem_singleton] at hs
              subst hs
              exact ⟨a, t, rfl, rfl⟩
            · exact hg.head x hx s hs
          · refine List.pairwise_cons.2 ⟨?_, hg.sorted⟩
            intro x hx
            rcases List.mem_cons.1 hx with rfl | hx
            · show fold a < x.1; omega
            · have := (List.pairwise_cons.1 hg.sorted).1 x hx
              show fold a < x.1; omega
          · intro x hx
            rcases List.mem_cons.1 hx with rfl | hx
            · exact ha
            · exact hg.pos x hx
          · rw [← hf, flat_cons (fold a, _)]
            rfl

/-! ## Looking up in groups -/

theorem find_append (a b : List Word) (q : List Nat) (h : ∀ s ∈ a, s.2.map fold ≠ q.map fold) :
    find w fold (a ++ b) q = find w fold b q := by
  have : a.find? (fun s => s.2.map fold == q.map fold) = none := by
    rw [List.find?_eq_none]
    intro s hs
    simpa using h s hs
  simp [find, List.find?_append, this]

theorem find_none (a : List Word) (q : List Nat) (h : ∀ s ∈ a, s.2.map fold ≠ q.map fold) :
    find w fold a q = 2 ^ w - 1 := by
  have := find_append (w := w) a [] q h
  rw [List.append_nil] at this
  rw [this]
  rfl

theorem find_append_left (a b : List Word) (q : List Nat) (h : ∀ s ∈ b, s.2.map fold ≠ q.map fold) :
    find w fold (a ++ b) q = find w fold a q := by
  have : b.find? (fun s => s.2.map fold == q.map fold) = none := by
    rw [List.find?_eq_none]
    intro s hs
    simpa using h s hs
  simp [find, List.find?_append, this]

theorem find_tl : ∀ (g : List Word) (a : Nat) (q : List Nat), (∀ s ∈ g, ∃ b t, s.2 = b :: t ∧ fold b = fold a) →
    find w fold g (a :: q) = find w fold (tl g) q
  | [], _, _, _ => rfl
  | (ix, t) :: g, a, q, h => by
    have ih := find_tl g a q fun s hs => h s (by simp [hs])
    obtain ⟨b, t', h1, h2⟩ := h (ix, t) (by simp)
    simp only at h1
    subst h1
    unfold find at *
    have h3 : tl ((ix, b :: t') :: g) = (ix, t') :: tl g := rfl
    rw [h3, List.find?_cons, List.find?_cons]
    by_cases hq : t'.map fold = q.map fold
    · simp [hq, h2]
    · have e1 : (((ix, b :: t') : Word).2.map fold == (a :: q).map fold) = false := by simp [hq]
      have e2 : (((ix, t') : Word).2.map fold == q.map fold) = false := by simp [hq]
      rw [e1, e2]
      exact ih

theorem find_flat_none {gs : List (Nat × List Word)} (hg : Groups fold gs) (a : Nat) (q : List Nat)
    (h : ∀ g ∈ gs, g.1 ≠ fold a) : find w fold (flat gs) (a :: q) = 2 ^ w - 1 := by
  apply find_none
  intro s hs
  simp only [flat, List.mem_flatten, List.mem_map] at hs
  obtain ⟨_, ⟨g, hgm, rfl⟩, hs⟩ := hs
  obtain ⟨b, t, h1, h2⟩ := hg.head g hgm s hs
  rw [h1]
  intro e
  simp only [List.map_cons, List.cons.injEq] at e
  exact h g hgm (by rw [← h2, e.1])

theorem find_flat_some {gs : List (Nat × List Word)} (hg : Groups fold gs) (a : Nat) (q : List Nat) (j : Nat)
    (g : Nat × List Word) (hj : gs[j]? = some g) (h : g.1 = fold a) :
    find w fold (flat gs) (a :: q) = find w fold (tl g.2) q := by
  induction gs generalizing j with
  | nil => simp at hj
  | cons x gs ih =>
    rw [flat_cons]
    cases j with
    | zero =>
      simp only [List.getElem?_cons_zero, Option.some.injEq] at hj
      subst hj
      rw [find_append_left]
      · exact find_tl _ _ _ fun s hs => by
          obtain ⟨b, t, h1, h2⟩ := hg.head x (by simp) s hs
          exact ⟨b, t, h1, by rw [h2, h]⟩
      · intro s hs
        simp only [flat, List.mem_flatten, List.mem_map] at hs
        obtain ⟨_, ⟨g', hgm, rfl⟩, hs⟩ := hs
        obtain ⟨b, t, h1, h2⟩ := hg.tail.head g' hgm s hs
        have := (List.pairwise_cons.1 hg.sorted).1 g' hgm
        rw [h1]
        intro e
        simp only [List.map_cons, List.cons.injEq] at e
        omega
    | succ j =>
      simp only [List.getElem?_cons_succ] at hj
      have hm := List.mem_of_getElem? hj
      have := (List.pairwise_cons.1 hg.sorted).1 g hm
      rw [find_append, ih hg.tail j hj]
      intro s hs
      obtain ⟨b, t, h1, h2⟩ := hg.head x (by simp) s hs
      rw [h1]
      intro e
      simp only [List.map_cons, List.cons.injEq] at e
      omega

end Verif.Trie
