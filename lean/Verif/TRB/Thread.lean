import Verif.TRB.Lemmas

/-! Lemmas about the thread: groups of equal elements, headed by the one that is in the tree. -/

namespace Verif.TRB

variable {α : Type}

/-- Thread entries of one group. -/
def flat1 (g : E α × List (E α)) : List (Entry α) := (g.1, false) :: g.2.map fun d => (d, true)

/-- The thread made of groups. -/
def flat (gs : List (E α × List (E α))) : List (Entry α) := gs.flatMap flat1

theorem flat_append (G H : List (E α × List (E α))) : flat (G ++ H) = flat G ++ flat H := by simp [flat]
theorem flat_cons (g : E α × List (E α)) (H : List (E α × List (E α))) : flat (g :: H) = flat1 g ++ flat H := by simp [flat]
theorem flat_nil : flat ([] : List (E α × List (E α))) = [] := rfl

/-- The identities in a thread. -/
def ids (l : List (Entry α)) : List Nat := l.map fun a => a.1.id

theorem insBefore_eq (i : Nat) (e a : Entry α) (B : List (Entry α)) (ha : a.1.id = i) :
    ∀ A : List (Entry α), i ∉ ids A → insBefore i e (A ++ a :: B) = some (A ++ e :: a :: B) := by
  intro A
  induction A with
  | nil => intro _; simp [insBefore, ha]
  | cons b A ih =>
    intro h
    simp only [ids, List.map_cons, List.mem_cons, not_or] at h
    simp [insBefore, Ne.symm h.1, ih h.2]

theorem insAfter_eq (i : Nat) (e a : Entry α) (B : List (Entry α)) (ha : a.1.id = i) :
    ∀ A : List (Entry α), i ∉ ids A → insAfter i e (A ++ a :: B) = some (A ++ a :: e :: B) := by
  intro A
  induction A with
  | nil => intro _; simp [insAfter, ha]
  | cons b A ih =>
    intro h
    simp only [ids, List.map_cons, List.mem_cons, not_or] at h
    simp [insAfter, Ne.symm h.1, ih h.2]

theorem nextOf_eq (i : Nat) (a : Entry α) (B : List (Entry α)) (ha : a.1.id = i) :
    ∀ A : List (Entry α), i ∉ ids A → nextOf i (A ++ a :: B) = some B.head? := by
  intro A
  induction A with
  | nil => intro _; simp [nextOf, ha]
  | cons b A ih =>
    intro h
    simp only [ids, List.map_cons, List.mem_cons, not_or] at h
    simp [nextOf, Ne.symm h.1, ih h.2]

theorem prevOf_eq (i : Nat) (a : Entry α) (B : List (Entry α)) (ha : a.1.id = i) :
    ∀ (A : List (Entry α)) (q : Option (Entry α)), i ∉ ids A → prevOf i q (A ++ a :: B) = some (A.getLast?.or q) := by
  intro A
  induction A with
  | nil => intro q _; simp [prevOf, ha]
  | cons b A ih =>
    intro q h
    simp only [ids, List.map_cons, List.mem_cons, not_or] at h
    simp only [List.cons_append, prevOf, Ne.symm h.1, if_false]
    rw [ih _ h.2, List.getLast?_cons]
    cases A.getLast? <;> rfl

theorem dupOf_eq (i : Nat) (a : Entry α) (A B : List (Entry α)) (ha : a.1.id = i) (h : i ∉ ids A) :
    dupOf i (A ++ a :: B) = some a.2 := by
  unfold dupOf
  rw [List.find?_append, List.find?_eq_none.2]
  · simp [ha]
  · intro x hx
    simp only [decide_eq_true_eq]
    intro he
    exact h (List.mem_map.2 ⟨x, hx, he⟩)

theorem threadOut_eq (i : Nat) (a : Entry α) (A B : List (Entry α)) (ha : a.1.id = i) (h1 : i ∉ ids A) (h2 : i ∉ ids B) :
    threadOut i (A ++ a :: B) = A ++ B := by
  have h : ∀ l : List (Entry α), i ∉ ids l → threadOut i l = l := by
    intro l hl
    unfold threadOut
    rw [List.filter_eq_self]
    intro x hx
    simp only [ne_eq, decide_not, Bool.not_eq_eq_eq_not, Bool.not_true, decide_eq_false_iff_not]
    intro he
    exact hl (List.mem_map.2 ⟨x, hx, he⟩)
  have ha' : threadOut i (a :: B) = threadOut i B := by
    unfold threadOut
    exact List.filter_cons_of_neg (by simp [ha])
  unfold threadOut at h ha' ⊢
  rw [List.filter_append, ha', h A h1, h B h2]

theorem nextSub_eq : ∀ p : Path α, nextSub p = (after p).head? := by
  intro p
  induction p with
  | nil => rfl
  | cons f p ih => cases f <;> simp [nextSub, after, ih]

/-- What the search loop finds. -/
theorem descend_spec {cmp : α → α → Int} (ho : CmpOrd cmp) (hs : ∀ a b, cmp a b = -1 ∨ cmp a b = 0 ∨ cmp a b = 1) (v : α) :
    ∀ (t : Tree α) (p : Path α), Fits t p → (toList t).Pairwise (fun a b => cmp a.val b.val < 0) →
      (∀ a ∈ before p, cmp a.val v < 0) → (∀ a ∈ after p, cmp v a.val < 0) →
      (∃ q, descend cmp v t p = (q, none) ∧ Fits .leaf q ∧ before q ++ after q = before p ++ toList t ++ after p ∧
        (∀ a ∈ before q, cmp a.val v < 0) ∧ (∀ a ∈ after q, cmp v a.val < 0)) ∨
      (∃ q x, descend cmp v t p = (q, some x) ∧ x ∈ toList t ∧ cmp v x.val = 0) := by
  intro t
  induction t with
  | leaf => intro p hf _ h1 h2; exact Or.inl ⟨p, rfl, hf, by simp [toList], h1, h2⟩
  | node c l x r ihl ihr =>
    intro p hf hp h1 h2
    simp only [toList] at hp
    rw [List.pairwise_append, List.pairwise_cons] at hp
    obtain ⟨pl, ⟨pxr, pr⟩, plr⟩ := hp
    unfold descend
    rcases hs v x.val with h | h | h
    · rw [if_pos h]
      have := ihl (.L c x r :: p) hf.left pl h1 (by
        intro a ha
        simp only [after, List.cons_append, List.mem_cons, List.mem_append] at ha
        rcases ha with rfl | ha | ha
        · omega
        · exact ho.lt_trans (by omega) (pxr a ha)
        · exact h2 a ha)
      rcases this with ⟨q, e1, e2, e3, e4, e5⟩ | ⟨q, y, e1, e2, e3⟩
      · exact Or.inl ⟨q, e1, e2, by rw [e3]; simp [before, after, toList], e4, e5⟩
      · exact Or.inr ⟨q, y, e1, by simp [toList, e2], e3⟩
    · rw [if_neg (by omega), if_neg (by omega)]
      exact Or.inr ⟨p, x, rfl, by simp [toList], h⟩
    · rw [if_neg (by omega), if_pos h]
      have hxv : cmp x.val v < 0 := (ho.sym _ _).2 (by omega)
      have := ihr (.R c l x :: p) hf.right pr (by
        intro a ha
        simp only [before, List.mem_append, List.mem_singleton] at ha
        rcases ha with (ha | ha) | rfl
        · exact h1 a ha
        · exact ho.lt_trans (plr a ha x (by simp)) hxv
        · exact hxv) h2
      rcases this with ⟨q, e1, e2, e3, e4, e5⟩ | ⟨q, y, e1, e2, e3⟩
      · exact Or.inl ⟨q, e1, e2, by rw [e3]; simp [before, after, toList], e4, e5⟩
      · exact Or.inr ⟨q, y, e1, by simp [toList, e2], e3⟩

theorem getNode_descend {cmp : α → α → Int} (v : α) : ∀ (t : Tree α) (p : Path α), getNode cmp v t = (descend cmp v t p).2 := by
  intro t
  induction t with
  | leaf => intro p; rfl
  | node c l x r ihl ihr =>
    intro p
    unfold getNode descend
    split
    · exact ihl _
    · split
      · exact ihr _
      · rfl

/-- The state invariant, with the groups of the thread shown. -/
structure Inv (cmp : α → α → Int) (t : T α) (gs : List (E α × List (E α))) : Prop where
  thread : t.thread = flat gs
  heads : gs.map (·.1) = toList t.tree
  sorted : (gs.map (·.1)).Pairwise fun a b => cmp a.val b.val < 0
  dups : ∀ g ∈ gs, ∀ d ∈ g.2, cmp g.1.val d.val = 0
  nodup : (ids (flat gs)).Nodup
  black : color t.tree = .black
  rb : ∃ h, RB t.tree h

theorem Inv.fits {cmp : α → α → Int} {t : T α} {gs} (h : Inv cmp t gs) : Fits t.tree [] := by
  obtain ⟨n, hn⟩ := h.rb
  exact ⟨n, hn, trivial, fun _ => h.black⟩

/-- Elements of a group list are those of the thread. -/
theorem mem_flat {gs : List (E α × List (E α))} {a : Entry α} (h : a ∈ flat gs) :
    ∃ g ∈ gs, (a.2 = false ∧ a.1 = g.1) ∨ (a.2 = true ∧ a.1 ∈ g.2) := by
  simp only [flat, List.mem_flatMap, flat1, List.mem_cons, List.mem_map] at h
  obtain ⟨g, hg, rfl | ⟨d, hd, rfl⟩⟩ := h
  · exact ⟨g, hg, Or.inl ⟨rfl, rfl⟩⟩
  · exact ⟨g, hg, Or.inr ⟨rfl, hd⟩⟩

section
variable {cmp : α → α → Int} (ho : CmpOrd cmp)
include ho

/-- All elements of groups whose heads are below `v` are below `v`. -/
theorem flat_below {gs : List (E α × List (E α))} {v : α} (hd : ∀ g ∈ gs, ∀ d ∈ g.2, cmp g.1.val d.val = 0)
    (h : ∀ a ∈ gs.map (·.1), cmp a.val v < 0) : ∀ a ∈ flat gs, cmp a.1.val v < 0 := by
  intro a ha
  obtain ⟨g, hg, ⟨_, h2⟩ | ⟨_, h2⟩⟩ := mem_flat ha
  · rw [h2]; exact h _ (List.mem_map.2 ⟨g, hg, rfl⟩)
  · have h3 := hd g hg _ h2
    exact ho.lt_of_le_of_lt (by have := ho.swap_eq.1 h3; omega) (h _ (List.mem_map.2 ⟨g, hg, rfl⟩))

theorem flat_above {gs : List (E α × List (E α))} {v : α} (hd : ∀ g ∈ gs, ∀ d ∈ g.2, cmp g.1.val d.val = 0)
    (h : ∀ a ∈ gs.map (·.1), cmp v a.val < 0) : ∀ a ∈ flat gs, cmp v a.1.val < 0 := by
  intro a ha
  obtain ⟨g, hg, ⟨_, h2⟩ | ⟨_, h2⟩⟩ := mem_flat ha
  · rw [h2]; exact h _ (List.mem_map.2 ⟨g, hg, rfl⟩)
  · have h3 := hd g hg _ h2
    exact ho.lt_of_lt_of_le (h _ (List.mem_map.2 ⟨g, hg, rfl⟩)) (by omega)

end

/-- Splitting a list at an element of the mapped list. -/
theorem split_heads {gs : List (E α × List (E α))} {A B : List (E α)} (h : gs.map (·.1) = A ++ B) :
    ∃ G H, gs = G ++ H ∧ G.map (·.1) = A ∧ H.map (·.1) = B := by
  obtain ⟨G, H, h1, h2, h3⟩ := List.map_eq_append_iff.1 h
  exact ⟨G, H, h1, h2, h3⟩

theorem split_unique {A B A' B' : List (E α)} {x : E α} (h : A ++ x :: B = A' ++ x :: B') (h1 : x ∉ A) (h2 : x ∉ A') :
    A = A' ∧ B = B' := by
  induction A generalizing A' with
  | nil =>
    cases A' with
    | nil => simpa using h
    | cons y A' =>
      simp only [List.nil_append, List.cons_append, List.cons.injEq] at h
      exact absurd (by simp [h.1]) h2
  | cons y A ih =>
    cases A' with
    | nil =>
      simp only [List.nil_append, List.cons_append, List.cons.injEq] at h
      exact absurd (by simp [h.1]) h1
    | cons z A' =>
      simp only [List.cons_append, List.cons.injEq] at h
      obtain ⟨rfl, h⟩ := h
      obtain ⟨rfl, rfl⟩ := ih h (fun hh => h1 (by simp [hh])) (fun hh => h2 (by simp [hh]))
      exact ⟨rfl, rfl⟩

end Verif.TRB
