import Verif.TRB.Thread
import Verif.Common.Run
import Mathlib.Tactic.Ring

/-!
# C23, C77: the threaded red-black tree

The specification is a list: the elements in the order in which iteration (`begin`/`next`) visits them.
-/

namespace Verif.TRB

variable {α : Type}

/-! ## Specification -/

/-- Where a new element goes: before the first greater one; if there is an equal one, right after the first equal one. -/
def specInsert (cmp : α → α → Int) (e : E α) : List (E α) → List (E α)
  | [] => [e]
  | a :: l => if cmp e.val a.val < 0 then e :: a :: l else if cmp e.val a.val = 0 then a :: e :: l else a :: specInsert cmp e l

/-- The calls of a history.  In `insert e`, `e.id` is the address the allocator returned. -/
inductive Op (α : Type) where
  | insert (e : E α)
  | removeNode (i : Nat)
  | removeVal (v : α)
  | get (v : α)
  | clear

/-- What a call returns. -/
inductive Res (α : Type) where
  | unit
  | ok (b : Bool)
  | node (e : Option (E α))
deriving DecidableEq

/-- The meaning of the calls.  Not allowed: a node at an address in use, removing a node that is not in the tree. -/
def spec (cmp : α → α → Int) : Op α → List (E α) → Option (List (E α) × Res α)
  | .insert e, s => if e.id ∈ s.map (·.id) then none else some (specInsert cmp e s, .unit)
  | .removeNode i, s => if i ∈ s.map (·.id) then some (s.filter (fun a => a.id ≠ i), .ok true) else none
  | .removeVal v, s => some (s.eraseP (fun a => cmp v a.val = 0), .ok (s.any fun a => cmp v a.val = 0))
  | .get v, s => some (s, .node (s.find? fun a => cmp v a.val = 0))
  | .clear, _ => some ([], .unit)

/-- The calls on the tree. -/
def exec (cmp : α → α → Int) : Op α → T α → Option (T α × Res α)
  | .insert e, t => (insert cmp e t).map fun t => (t, .unit)
  | .removeNode i, t => (removeNode i t).map fun t => (t, .ok true)
  | .removeVal v, t => (removeVal cmp v t).map fun (t, b) => (t, .ok b)
  | .get v, t => some (t, .node (getNode cmp v t.tree))
  | .clear, _ => some (⟨.leaf, []⟩, .unit)

/-- The elements in iteration order. -/
def elems (t : T α) : List (E α) := t.thread.map (·.1)

/-! ## The single calls -/

theorem elems_eq {cmp : α → α → Int} {t : T α} {gs} (h : Inv cmp t gs) : elems t = (flat gs).map (·.1) := by
  rw [elems, h.thread]

theorem ids_eq (l : List (Entry α)) : ids l = (l.map (·.1)).map (·.id) := by simp [ids]

theorem specInsert_new {cmp : α → α → Int} (ho : CmpOrd cmp) (e : E α) (B : List (E α)) (hB : ∀ a ∈ B, cmp e.val a.val < 0) :
    ∀ A : List (E α), (∀ a ∈ A, cmp a.val e.val < 0) → specInsert cmp e (A ++ B) = A ++ e :: B := by
  intro A
  induction A with
  | nil =>
    intro _
    cases B with
    | nil => rfl
    | cons b B => simp [specInsert, hB b (by simp)]
  | cons a A ih =>
    intro h
    have h1 := h a (by simp)
    have h2 := ho.sym a.val e.val
    simp only [List.cons_append, specInsert]
    rw [if_neg (by omega), if_neg (by omega), ih (fun b hb => h b (by simp [hb]))]

theorem specInsert_dup {cmp : α → α → Int} (ho : CmpOrd cmp) (e x : E α) (B : List (E α)) (hx : cmp e.val x.val = 0) :
    ∀ A : List (E α), (∀ a ∈ A, cmp a.val e.val < 0) → specInsert cmp e (A ++ x :: B) = A ++ x :: e :: B := by
  intro A
  induction A with
  | nil => intro _; simp [specInsert, hx]
  | cons a A ih =>
    intro h
    have h1 := h a (by simp)
    have h2 := ho.sym a.val e.val
    simp only [List.cons_append, specInsert]
    rw [if_neg (by omega), if_neg (by omega), ih (fun b hb => h b (by simp [hb]))]

theorem mem_heads_split {cmp : α → α → Int} {t : T α} {gs} (h : Inv cmp t gs) {x : E α} (hx : x ∈ toList t.tree) :
    ∃ G ds H, gs = G ++ (x, ds) :: H := by
  rw [← h.heads] at hx
  obtain ⟨⟨x', ds⟩, hg, rfl⟩ := List.mem_map.1 hx
  obtain ⟨G, H, rfl⟩ := List.append_of_mem hg
  exact ⟨G, ds, H, rfl⟩

theorem ids_append (A B : List (Entry α)) : ids (A ++ B) = ids A ++ ids B := by simp [ids]

theorem not_mem_left {A B : List (Entry α)} {a : Entry α} (h : (ids (A ++ a :: B)).Nodup) : a.1.id ∉ ids A ∧ a.1.id ∉ ids B := by
  rw [ids_append, List.nodup_append] at h
  obtain ⟨_, h2, h3⟩ := h
  simp only [ids, List.map_cons, List.nodup_cons] at h2
  exact ⟨fun hh => h3 _ hh a.1.id (by simp [ids]) rfl, h2.1⟩

section
variable {cmp : α → α → Int} (ho : CmpOrd cmp) (hs : ∀ a b, cmp a b = -1 ∨ cmp a b = 0 ∨ cmp a b = 1)
include ho hs

/-- The groups around an element with a value equal to `v`. -/
theorem around {t : T α} {G H : List (E α × List (E α))} {x : E α} {ds : List (E α)} {v : α}
    (h : Inv cmp t (G ++ (x, ds) :: H)) (hv : cmp v x.val = 0) :
    (∀ a ∈ flat G, cmp a.1.val v < 0) ∧ (∀ a ∈ flat H, cmp v a.1.val < 0) ∧ ∀ d ∈ ds, cmp v d.val = 0 := by
  have hso := h.sorted
  rw [List.map_append, List.map_cons, List.pairwise_append, List.pairwise_cons] at hso
  obtain ⟨_, ⟨h2, _⟩, h3⟩ := hso
  refine ⟨flat_below ho (fun g hg => h.dups g (by simp [hg])) ?_, flat_above ho (fun g hg => h.dups g (by simp [hg])) ?_, ?_⟩
  · intro a ha
    exact ho.lt_of_lt_of_le (h3 a ha x (by simp)) (by have := ho.swap_eq.1 hv; omega)
  · intro a ha
    exact ho.lt_of_le_of_lt (Int.le_of_eq hv) (h2 a ha)
  · intro d hd
    exact ho.eq_trans hv (h.dups (x, ds) (by simp) d hd)

theorem flat_perm_mid (G H : List (E α × List (E α))) (g : E α × List (E α)) :
    (flat (G ++ g :: H)) = flat G ++ (flat1 g ++ flat H) := by rw [flat_append, flat_cons]

omit ho hs in
theorem heads_ids {gs : List (E α × List (E α))} (h : (ids (flat gs)).Nodup) : ((gs.map (·.1)).map (·.id)).Nodup := by
  refine List.Nodup.sublist ?_ h
  induction gs with
  | nil => simp [ids, flat]
  | cons g gs ih =>
    rw [flat_cons, ids_append]
    have h' : (ids (flat gs)).Nodup := by
      rw [flat_cons, ids_append, List.nodup_append] at h
      exact h.2.1
    simp only [List.map_cons, flat1, ids, List.cons_append]
    refine List.Sublist.cons_cons _ ?_
    exact List.Sublist.trans (ih h') (List.sublist_append_right _ _)

theorem insert_spec {t : T α} {gs} (h : Inv cmp t gs) {e : E α} (he : e.id ∉ (elems t).map (·.id)) :
    ∃ t' gs', insert cmp e t = some t' ∧ Inv cmp t' gs' ∧ elems t' = specInsert cmp e (elems t) := by
  rw [elems_eq h, ← ids_eq] at he
  have hso : (toList t.tree).Pairwise fun a b => cmp a.val b.val < 0 := by rw [← h.heads]; exact h.sorted
  rcases descend_spec ho hs e.val t.tree [] h.fits hso (by simp [before]) (by simp [after]) with
    ⟨q, e1, e2, e3, e4, e5⟩ | ⟨q, x, e1, e2, e3⟩
  · -- a new value
    simp only [before, after, List.nil_append, List.append_nil] at e3
    have hq := h.heads
    rw [← e3] at hq
    obtain ⟨G, H, rfl, hG, hH⟩ := split_heads hq
    have hnd := h.nodup
    have hth : threadIn e t.thread q = some (flat (G ++ (e, []) :: H)) := by
      rw [h.thread]
      rw [flat_append] at hnd ⊢
      rw [flat_append, flat_cons]
      simp only [flat1, List.map_nil, List.cons_append, List.nil_append]
      match q with
      | [] =>
        simp only [before, after, List.map_eq_nil_iff] at hG hH
        subst hG hH
        rfl
      | .L c x r :: p =>
        simp only [after, List.cons_append] at hH
        cases H with
        | nil => simp at hH
        | cons g H =>
          obtain ⟨x', ds⟩ := g
          simp only [List.map_cons, List.cons.injEq] at hH
          obtain ⟨rfl, _⟩ := hH
          rw [flat_cons] at hnd ⊢
          simp only [flat1, List.cons_append] at hnd ⊢
          simp only [threadIn]
          exact insBefore_eq x'.id (e, false) (x', false) _ rfl (flat G) (not_mem_left hnd).1
      | .R c l x :: p =>
        simp only [before] at hG
        obtain ⟨G, G2, rfl, hG1, hG2⟩ := split_heads hG
        simp only [List.map_eq_singleton_iff] at hG2
        obtain ⟨⟨x', ds⟩, rfl, rfl⟩ := hG2
        rw [flat_append, flat_cons, flat_nil] at hnd ⊢
        simp only [flat1, List.append_nil, List.append_assoc, List.cons_append] at hnd ⊢
        simp only [threadIn]
        rw [nextOf_eq x'.id (x', false) _ rfl (flat G) (not_mem_left hnd).1, Option.bind_some]
        cases ds with
        | nil =>
          have hnx : isDup (flat H).head? = false := by
            cases H with
            | nil => rfl
            | cons g H => rfl
          simp only [List.map_nil, List.nil_append, hnx, Bool.false_eq_true, if_false]
          exact insAfter_eq x'.id (e, false) (x', false) _ rfl (flat G) (not_mem_left hnd).1
        | cons d ds =>
          have hnx : isDup (List.map (fun d => (d, true)) (d :: ds) ++ flat H).head? = true := rfl
          rw [if_pos hnx, nextSub_eq]
          have hap : after p = List.map (·.1) H := by rw [hH]; rfl
          rw [hap]
          cases H with
          | nil => simp [flat]
          | cons g H =>
            obtain ⟨y, es⟩ := g
            simp only [List.map_cons, List.head?_cons]
            rw [flat_cons] at hnd ⊢
            simp only [flat1, List.cons_append] at hnd ⊢
            have := insBefore_eq y.id (e, false) (y, false) (List.map (fun d => (d, true)) es ++ flat H) rfl
              (flat G ++ (x', false) :: List.map (fun d => (d, true)) (d :: ds)) (by
                rw [← List.cons_append, ← List.append_assoc] at hnd
                exact (not_mem_left hnd).1)
            simpa [List.append_assoc] using this
    have htr : ∃ tr, fixInsert (.node .red .leaf e .leaf) q = some tr ∧ color tr = .black ∧ (∃ H, RB tr H) ∧
        toList tr = before q ++ toList (.node .red .leaf e .leaf) ++ after q := by
      obtain ⟨n, f1, f2, _⟩ := e2
      have : n = 0 := f1
      subst this
      exact fixInsert_spec q.length q _ 0 (Nat.le_refl _) rfl ⟨rfl, rfl, rfl, rfl⟩ f2
    obtain ⟨tr, g1, g2, g3, g4⟩ := htr
    have hA : ∀ a ∈ (flat G).map (·.1), cmp a.val e.val < 0 := by
      intro a ha
      obtain ⟨b, hb, rfl⟩ := List.mem_map.1 ha
      exact flat_below ho (fun g hg => h.dups g (by simp [hg])) (by rw [hG]; exact e4) b hb
    have hB : ∀ a ∈ (flat H).map (·.1), cmp e.val a.val < 0 := by
      intro a ha
      obtain ⟨b, hb, rfl⟩ := List.mem_map.1 ha
      exact flat_above ho (fun g hg => h.dups g (by simp [hg])) (by rw [hH]; exact e5) b hb
    refine ⟨⟨tr, flat (G ++ (e, []) :: H)⟩, G ++ (e, []) :: H, ?_, ⟨rfl, ?_, ?_, ?_, ?_, g2, g3⟩, ?_⟩
    · simp only [insert, e1, hth, g1, Option.bind_some, Option.map_some]
    · rw [g4]
      simp [hG, hH, toList]
    · have := h.sorted
      rw [List.map_append, List.pairwise_append] at this
      rw [List.map_append, List.map_cons, List.pairwise_append, List.pairwise_cons]
      refine ⟨this.1, ⟨?_, this.2.1⟩, ?_⟩
      · rw [hH]; exact e5
      · intro a ha b hb
        rcases List.mem_cons.1 hb with rfl | hb
        · exact e4 a (by rw [← hG]; exact ha)
        · exact this.2.2 a ha b hb
    · intro g hg d hd
      simp only [List.mem_append, List.mem_cons] at hg
      rcases hg with hg | rfl | hg
      · exact h.dups g (by simp [hg]) d hd
      · simp at hd
      · exact h.dups g (by simp [hg]) d hd
    · rw [flat_append] at hnd he
      rw [flat_append, flat_cons]
      simp only [flat1, List.map_nil, List.cons_append, List.nil_append]
      have hp : (ids (flat G ++ (e, false) :: flat H)).Perm (e.id :: ids (flat G ++ flat H)) := by
        simp only [ids, List.map_append, List.map_cons]
        exact List.perm_middle
      exact hp.nodup_iff.2 (List.nodup_cons.2 ⟨he, hnd⟩)
    · rw [elems_eq h, elems, flat_append G H, List.map_append, specInsert_new ho e _ hB _ hA, flat_append, flat_cons]
      simp [flat1]
  · -- a duplicate
    obtain ⟨G, ds, H, rfl⟩ := mem_heads_split h e2
    obtain ⟨a1, a2, a3⟩ := around ho hs h e3
    have hnd := h.nodup
    rw [flat_append, flat_cons] at hnd he
    simp only [flat1, List.cons_append] at hnd he
    have hth : insAfter x.id (e, true) t.thread = some (flat (G ++ (x, e :: ds) :: H)) := by
      rw [h.thread, flat_append, flat_cons, flat_append, flat_cons]
      simp only [flat1, List.cons_append, List.map_cons]
      exact insAfter_eq x.id (e, true) (x, false) _ rfl (flat G) (not_mem_left hnd).1
    refine ⟨{ t with thread := flat (G ++ (x, e :: ds) :: H) }, G ++ (x, e :: ds) :: H, ?_,
      ⟨rfl, ?_, ?_, ?_, ?_, h.black, h.rb⟩, ?_⟩
    · simp only [insert, e1, hth, Option.map_some]
    · rw [← h.heads]; simp
    · have := h.sorted
      simpa using this
    · intro g hg d hd
      simp only [List.mem_append, List.mem_cons] at hg
      rcases hg with hg | rfl | hg
      · exact h.dups g (by simp [hg]) d hd
      · simp only [List.mem_cons] at hd
        rcases hd with rfl | hd
        · exact ho.swap_eq.1 e3
        · exact h.dups (x, ds) (by simp) d hd
      · exact h.dups g (by simp [hg]) d hd
    · rw [flat_append, flat_cons]
      simp only [flat1, List.cons_append, List.map_cons]
      have hp : (ids (flat G ++ (x, false) :: (e, true) :: (List.map (fun d => (d, true)) ds ++ flat H))).Perm
          (e.id :: ids (flat G ++ (x, false) :: (List.map (fun d => (d, true)) ds ++ flat H))) := by
        have h1 : flat G ++ (x, false) :: (e, true) :: (List.map (fun d => (d, true)) ds ++ flat H) =
          (flat G ++ [(x, false)]) ++ (e, true) :: (List.map (fun d => (d, true)) ds ++ flat H) := by simp
        have h2 : flat G ++ (x, false) :: (List.map (fun d => (d, true)) ds ++ flat H) =
          (flat G ++ [(x, false)]) ++ (List.map (fun d => (d, true)) ds ++ flat H) := by simp
        rw [h1, h2]
        simp only [ids, List.map_append, List.map_cons (l := List.map (fun d => (d, true)) ds ++ flat H)]
        simp only [List.map_cons, List.map_append]
        exact List.perm_middle
      exact hp.nodup_iff.2 (List.nodup_cons.2 ⟨he, hnd⟩)
    · rw [elems_eq h, elems, flat_append, flat_append, flat_cons, flat_cons]
      simp only [flat1, List.map_append, List.map_cons, List.cons_append]
      rw [specInsert_dup ho e x _ e3]
      intro a ha
      obtain ⟨b, hb, rfl⟩ := List.mem_map.1 ha
      exact a1 b hb

omit ho hs in
theorem removeNode_spec {t : T α} {gs} (h : Inv cmp t gs) (ho : CmpOrd cmp) {A B : List (Entry α)} {a : Entry α} (hsp : t.thread = A ++ a :: B) :
    ∃ t' gs', removeNode a.1.id t = some t' ∧ Inv cmp t' gs' ∧ elems t' = (A ++ B).map (·.1) := by
  have hnd := h.nodup
  rw [← h.thread, hsp] at hnd
  obtain ⟨n1, n2⟩ := not_mem_left hnd
  have hnd' : (ids (A ++ B)).Nodup := by
    rw [ids_append] at hnd ⊢
    exact List.Nodup.sublist (List.Sublist.append (List.Sublist.refl _) (List.sublist_cons_self _ _)) hnd
  have hdup : dupOf a.1.id t.thread = some a.2 := by rw [hsp]; exact dupOf_eq _ _ _ _ rfl n1
  have hout : threadOut a.1.id t.thread = A ++ B := by rw [hsp]; exact threadOut_eq _ _ _ _ rfl n1 n2
  have hmem : a ∈ flat gs := by rw [← h.thread, hsp]; simp
  obtain ⟨⟨x, ds⟩, hg, hcase⟩ := mem_flat hmem
  obtain ⟨G, H, rfl⟩ := List.append_of_mem hg
  have hfl := h.thread
  rw [flat_append, flat_cons, hsp] at hfl
  simp only [flat1, List.cons_append] at hfl
  -- the position of the element is unique
  have huniq : ∀ A' B', A ++ a :: B = A' ++ a :: B' → A = A' ∧ B = B' := by
    intro A' B' heq
    have hn := hnd
    rw [heq] at hn
    have n1' := (not_mem_left hn).1
    clear hfl hsp hdup hout hnd' hn n2 hmem hnd
    induction A generalizing A' with
    | nil =>
      cases A' with
      | nil => simpa using heq
      | cons y A' =>
        simp only [List.nil_append, List.cons_append, List.cons.injEq] at heq
        exact absurd (by simp [ids, heq.1]) n1'
    | cons y A ih =>
      cases A' with
      | nil =>
        simp only [List.nil_append, List.cons_append, List.cons.injEq] at heq
        exact absurd (by simp [ids, heq.1]) n1
      | cons z A' =>
        simp only [List.cons_append, List.cons.injEq] at heq
        obtain ⟨rfl, heq⟩ := heq
        simp only [ids, List.map_cons, List.mem_cons, not_or] at n1 n1'
        obtain ⟨rfl, rfl⟩ := ih n1.2 A' heq n1'.2
        exact ⟨rfl, rfl⟩
  rcases hcase with ⟨hc1, hc2⟩ | ⟨hc1, hc2⟩
  · -- in the tree
    have ha : a = (x, false) := by cases a; simp_all
    subst ha
    obtain ⟨rfl, rfl⟩ := huniq _ _ hfl
    have hx : ∃ y ∈ toList t.tree, y.id = x.id := ⟨x, by rw [← h.heads]; simp, rfl⟩
    obtain ⟨c, l, x', r, p, l1, l2, l3, l4⟩ := locate_spec x.id t.tree [] h.fits hx
    have htl : before p ++ toList l ++ x' :: (toList r ++ after p) = List.map (·.1) G ++ x :: List.map (·.1) H := by
      have h1 := toList_zip p (.node c l x' r)
      rw [l4] at h1
      have h2 := h.heads
      simp only [zip] at h1
      rw [h1] at h2
      simp only [List.map_append, List.map_cons, toList] at h2
      rw [h2]
      simp
    have hndh := heads_ids h.nodup
    -- the located element is this one
    have hxx : x' = x := by
      have hm : x' ∈ List.map (·.1) G ++ x :: List.map (·.1) H := by rw [← htl]; simp
      simp only [List.map_append, List.map_cons] at hndh
      rw [List.nodup_append, List.nodup_cons] at hndh
      obtain ⟨_, ⟨m2, _⟩, m3⟩ := hndh
      simp only [List.mem_append, List.mem_cons] at hm
      rcases hm with hm | hm | hm
      · exact absurd l2 (m3 x'.id (List.mem_map.2 ⟨x', hm, rfl⟩) x.id (by simp))
      · exact hm
      · exact absurd (List.mem_map.2 ⟨x', hm, l2⟩) m2
    subst hxx
    have hxG : x' ∉ List.map (·.1) G := by
      intro hm
      simp only [List.map_append, List.map_cons] at hndh
      rw [List.nodup_append] at hndh
      exact hndh.2.2 x'.id (List.mem_map.2 ⟨x', hm, rfl⟩) x'.id (by simp) rfl
    have hxp : x' ∉ before p ++ toList l := by
      intro hm
      have h1 : ((before p ++ toList l ++ x' :: (toList r ++ after p)).map (·.id)).Nodup := by
        rw [htl]; simpa using hndh
      rw [List.map_append, List.nodup_append] at h1
      exact h1.2.2 x'.id (List.mem_map.2 ⟨x', hm, rfl⟩) x'.id (by simp) rfl
    obtain ⟨u1, u2⟩ := split_unique htl hxp hxG
    have hnx : nextOf x'.id t.thread = some (List.map (fun d => (d, true)) ds ++ flat H).head? := by
      rw [hsp]; exact nextOf_eq _ (x', false) _ rfl _ n1
    have hsorted := h.sorted
    cases ds with
    | nil =>
      obtain ⟨tr, r1, r2, r3, r4⟩ := removeTree_spec l3
      refine ⟨⟨tr, flat G ++ flat H⟩, G ++ H, ?_, ⟨by rw [flat_append], ?_, ?_, ?_, ?_, r2, r3⟩, ?_⟩
      · simp only [removeNode, hdup, Option.bind_some, Bool.false_eq_true, if_false, l1, hnx, r1, hout]
        cases H with
        | nil => simp [flat]
        | cons g H => simp [flat, flat1]
      · rw [r4, List.map_append, ← u1, ← u2]; simp
      · simp only [List.map_append, List.map_cons] at hsorted ⊢
        exact List.Pairwise.sublist (List.Sublist.append (List.Sublist.refl _) (List.sublist_cons_self _ _)) hsorted
      · intro g hg; exact h.dups g (by simp at hg ⊢; rcases hg with hg | hg <;> simp [hg])
      · rw [flat_append]; simpa using hnd'
      · simp [elems]
    | cons y ds =>
      have hdy := h.dups (x', y :: ds) (by simp)
      have hzf := (Fits.replace (y := y) l3).zip
      refine ⟨⟨zip (.node c l y r) p, flat (G ++ (y, ds) :: H)⟩, G ++ (y, ds) :: H, ?_,
        ⟨rfl, ?_, ?_, ?_, ?_, hzf.1, hzf.2⟩, ?_⟩
      · simp only [removeNode, hdup, Option.bind_some, Bool.false_eq_true, if_false, l1, hnx, List.map_cons, List.cons_append,
          List.head?_cons, promote, hout]
        congr 2
        rw [flat_append, flat_cons]
        simp only [flat1, List.map_append, List.map_cons, if_true, List.cons_append]
        have hid : ∀ l : List (Entry α), y.id ∉ ids l → l.map (fun a => if a.1.id = y.id then (a.1, false) else a) = l := by
          intro l hl
          conv => rhs; rw [← List.map_id l]
          apply List.map_congr_left
          intro b hb
          rw [if_neg]
          · rfl
          · intro he; exact hl (List.mem_map.2 ⟨b, hb, he⟩)
        have hn2 := hnd'
        simp only [List.map_cons, List.cons_append] at hn2
        obtain ⟨m1, m2⟩ := not_mem_left hn2
        simp only at m1 m2
        have e1 := hid _ m1
        have e2 := hid _ m2
        rw [List.map_append] at e2
        rw [e1, e2]
      · rw [toList_zip]
        simp only [List.map_append, List.map_cons, toList]
        rw [← u1, ← u2]; simp
      · simp only [List.map_append, List.map_cons] at hsorted ⊢
        rw [List.pairwise_append, List.pairwise_cons] at hsorted ⊢
        obtain ⟨s1, ⟨s2, s3⟩, s4⟩ := hsorted
        have hy := hdy y (by simp)
        refine ⟨s1, ⟨?_, s3⟩, ?_⟩
        · intro b hb
          exact ho.lt_of_le_of_lt (Int.le_of_eq (ho.swap_eq.1 hy)) (s2 b hb)
        · intro b hb d hd
          rcases List.mem_cons.1 hd with rfl | hd
          · exact ho.lt_of_lt_of_le (s4 b hb x' (by simp)) (by simp only at hy; omega)
          · exact s4 b hb d (by simp [hd])
      · intro g hg d hd
        simp only [List.mem_append, List.mem_cons] at hg
        rcases hg with hg | rfl | hg
        · exact h.dups g (by simp [hg]) d hd
        · exact ho.eq_trans (ho.swap_eq.1 (hdy y (by simp))) (hdy d (by simp at hd ⊢; exact Or.inr hd))
        · exact h.dups g (by simp [hg]) d hd
      · rw [flat_append, flat_cons]
        have : ids (flat G ++ (flat1 (y, ds) ++ flat H)) = ids (flat G ++ (List.map (fun d => (d, true)) (y :: ds) ++ flat H)) := by
          simp [ids, flat1]
        rw [this]; exact hnd'
      · rw [elems, flat_append, flat_cons]
        simp [flat1]
  · -- a duplicate
    obtain ⟨d, b⟩ := a
    simp only at hc1 hc2
    subst hc1
    obtain ⟨D1, D2, rfl⟩ := List.append_of_mem hc2
    have hfl' : A ++ (d, true) :: B = (flat G ++ (x, false) :: List.map (fun d => (d, true)) D1) ++
        (d, true) :: (List.map (fun d => (d, true)) D2 ++ flat H) := by
      rw [hfl]; simp
    obtain ⟨rfl, rfl⟩ := huniq _ _ hfl'
    have hth : (flat G ++ (x, false) :: List.map (fun d => (d, true)) D1) ++ (List.map (fun d => (d, true)) D2 ++ flat H) =
        flat (G ++ (x, D1 ++ D2) :: H) := by
      rw [flat_append, flat_cons]; simp [flat1]
    refine ⟨{ t with thread := flat (G ++ (x, D1 ++ D2) :: H) }, G ++ (x, D1 ++ D2) :: H, ?_,
      ⟨rfl, ?_, ?_, ?_, ?_, h.black, h.rb⟩, ?_⟩
    · simp only [removeNode, hdup, Option.bind_some, if_true, hout, hth]
    · rw [← h.heads]; simp
    · simpa using h.sorted
    · intro g hg e he
      simp only [List.mem_append, List.mem_cons] at hg
      rcases hg with hg | rfl | hg
      · exact h.dups g (by simp [hg]) e he
      · exact h.dups (x, D1 ++ d :: D2) (by simp) e (by simp at he ⊢; rcases he with he | he <;> simp [he])
      · exact h.dups g (by simp [hg]) e he
    · rw [← hth]; exact hnd'
    · rw [elems, ← hth]

theorem getNode_eq {t : T α} {gs} (h : Inv cmp t gs) (v : α) :
    (getNode cmp v t.tree = none ∧ ∀ a ∈ elems t, cmp v a.val ≠ 0) ∨
    ∃ G x ds H, gs = G ++ (x, ds) :: H ∧ getNode cmp v t.tree = some x ∧ cmp v x.val = 0 ∧
      ∀ a ∈ flat G, cmp v a.1.val ≠ 0 := by
  have hso : (toList t.tree).Pairwise fun a b => cmp a.val b.val < 0 := by rw [← h.heads]; exact h.sorted
  rw [getNode_descend v t.tree []]
  rcases descend_spec ho hs v t.tree [] h.fits hso (by simp [before]) (by simp [after]) with
    ⟨q, e1, e2, e3, e4, e5⟩ | ⟨q, x, e1, e2, e3⟩
  · left
    refine ⟨by rw [e1], ?_⟩
    simp only [before, after, List.nil_append, List.append_nil] at e3
    have hq := h.heads
    rw [← e3] at hq
    obtain ⟨G, H, rfl, hG, hH⟩ := split_heads hq
    rw [elems_eq h, flat_append]
    intro a ha h0
    obtain ⟨b, hb, rfl⟩ := List.mem_map.1 ha
    rcases List.mem_append.1 hb with hb | hb
    · have := flat_below ho (fun g hg => h.dups g (by simp [hg])) (by rw [hG]; exact e4) b hb
      have := ho.swap_eq.1 h0
      omega
    · have := flat_above ho (fun g hg => h.dups g (by simp [hg])) (by rw [hH]; exact e5) b hb
      omega
  · right
    obtain ⟨G, ds, H, rfl⟩ := mem_heads_split h e2
    obtain ⟨a1, a2, a3⟩ := around ho hs h e3
    refine ⟨G, x, ds, H, rfl, by rw [e1], e3, ?_⟩
    intro a ha h0
    have := a1 a ha
    have := ho.swap_eq.1 h0
    omega

theorem exec_sim (o : Op α) (s : List (E α)) (t : T α) (s' : List (E α)) (r : Res α)
    (h : (∃ gs, Inv cmp t gs) ∧ elems t = s) (hsp : spec cmp o s = some (s', r)) :
    ∃ t', exec cmp o t = some (t', r) ∧ ((∃ gs, Inv cmp t' gs) ∧ elems t' = s') := by
  obtain ⟨⟨gs, h⟩, rfl⟩ := h
  cases o with
  | insert e =>
    simp only [spec] at hsp
    split at hsp
    · cases hsp
    · next he =>
      simp only [Option.some.injEq, Prod.mk.injEq] at hsp
      obtain ⟨rfl, rfl⟩ := hsp
      obtain ⟨t', gs', e1, e2, e3⟩ := insert_spec ho hs h he
      exact ⟨t', by simp [exec, e1], ⟨gs', e2⟩, e3⟩
  | removeNode i =>
    simp only [spec] at hsp
    split at hsp
    · next he =>
      simp only [Option.some.injEq, Prod.mk.injEq] at hsp
      obtain ⟨rfl, rfl⟩ := hsp
      obtain ⟨x, hx, rfl⟩ := List.mem_map.1 he
      obtain ⟨a, ha, rfl⟩ := List.mem_map.1 hx
      obtain ⟨A, B, hAB⟩ := List.append_of_mem ha
      obtain ⟨t', gs', e1, e2, e3⟩ := removeNode_spec h ho hAB
      refine ⟨t', by simp [exec, e1], ⟨gs', e2⟩, ?_⟩
      have hnd := h.nodup
      rw [← h.thread, hAB] at hnd
      obtain ⟨n1, n2⟩ := not_mem_left hnd
      have := threadOut_eq a.1.id a A B rfl n1 n2
      rw [e3, elems, hAB, ← this, threadOut, List.filter_map]
      rfl
    · cases hsp
  | removeVal v =>
    simp only [spec, Option.some.injEq, Prod.mk.injEq] at hsp
    obtain ⟨rfl, rfl⟩ := hsp
    rcases getNode_eq ho hs h v with ⟨g1, g2⟩ | ⟨G, x, ds, H, rfl, g1, g2, g3⟩
    · refine ⟨t, ?_, ⟨gs, h⟩, ?_⟩
      · have : (elems t).any (fun a => decide (cmp v a.val = 0)) = false := by
          rw [List.any_eq_false]; intro a ha; simpa using g2 a ha
        simp [exec, removeVal, g1, this]
      · rw [List.eraseP_of_forall_not]
        intro a ha; simpa using g2 a ha
    · have hAB : t.thread = flat G ++ (x, false) :: (List.map (fun d => (d, true)) ds ++ flat H) := by
        rw [h.thread, flat_append, flat_cons]; simp [flat1]
      obtain ⟨t', gs', e1, e2, e3⟩ := removeNode_spec h ho hAB
      have hel : elems t = (flat G).map (·.1) ++ x :: (List.map (fun d => (d, true)) ds ++ flat H).map (·.1) := by
        rw [elems, hAB, List.map_append, List.map_cons]
      refine ⟨t', ?_, ⟨gs', e2⟩, ?_⟩
      · have : (elems t).any (fun a => decide (cmp v a.val = 0)) = true := by
          rw [List.any_eq_true]; exact ⟨x, by rw [hel]; simp, by simpa using g2⟩
        simp only at e1
        simp [exec, removeVal, g1, e1, this]
      · rw [e3, hel, List.eraseP_append_right _ (by
          intro a ha
          obtain ⟨b, hb, rfl⟩ := List.mem_map.1 ha
          simpa using g3 b hb), List.eraseP_cons_of_pos (by simpa using g2)]
        simp
  | get v =>
    simp only [spec, Option.some.injEq, Prod.mk.injEq] at hsp
    obtain ⟨rfl, rfl⟩ := hsp
    refine ⟨t, ?_, ⟨gs, h⟩, rfl⟩
    simp only [exec, Option.some.injEq, Prod.mk.injEq, true_and, Res.node.injEq]
    rcases getNode_eq ho hs h v with ⟨g1, g2⟩ | ⟨G, x, ds, H, rfl, g1, g2, g3⟩
    · rw [g1, List.find?_eq_none.2]
      intro a ha; simpa using g2 a ha
    · rw [g1, elems_eq h, flat_append, flat_cons, List.map_append, List.find?_append, List.find?_eq_none.2]
      · simp [flat1, g2]
      · intro a ha
        obtain ⟨b, hb, rfl⟩ := List.mem_map.1 ha
        simpa using g3 b hb
  | clear =>
    simp only [spec, Option.some.injEq, Prod.mk.injEq] at hsp
    obtain ⟨rfl, rfl⟩ := hsp
    exact ⟨_, rfl, ⟨[], ⟨rfl, rfl, by simp, by simp, by simp [ids, flat], rfl, 0, rfl⟩⟩, rfl⟩

end

/-- The empty tree (`TRBtree.h:419-426`). -/
def empty : T α := ⟨.leaf, []⟩

theorem empty_inv (cmp : α → α → Int) : Inv cmp (empty : T α) [] :=
  ⟨rfl, rfl, by simp, by simp, by simp [ids, flat], rfl, 0, rfl⟩

/-! ## C23 -/

/-- C23: any allowed history of calls on an empty tree runs without following a null pointer, every call returns what the
specification says (`Get` the first equal node, `Remove` whether there was one), and iteration visits the specified list. -/
theorem C23_history {cmp : α → α → Int} (ho : CmpOrd cmp) (hs : ∀ a b, cmp a b = -1 ∨ cmp a b = 0 ∨ cmp a b = 1)
    (os : List (Op α)) {s : List (E α)} {rs : List (Res α)} (h : runAll (spec cmp) os [] = some (s, rs)) :
    ∃ t, runAll (exec cmp) os empty = some (t, rs) ∧ t.thread.map (·.1) = s := by
  obtain ⟨t, h1, h2⟩ := runAll_sim (R := fun s t => (∃ gs, Inv cmp t gs) ∧ elems t = s)
    (exec_sim ho hs) os [] empty s rs ⟨⟨[], empty_inv cmp⟩, rfl⟩ h
  exact ⟨t, h1, h2.2⟩

/-- A tree produced by an allowed history. -/
def Reach (cmp : α → α → Int) (t : T α) : Prop :=
  ∃ os s rs, runAll (spec cmp) os [] = some (s, rs) ∧ runAll (exec cmp) os empty = some (t, rs)

theorem Reach.inv {cmp : α → α → Int} (ho : CmpOrd cmp) (hs : ∀ a b, cmp a b = -1 ∨ cmp a b = 0 ∨ cmp a b = 1)
    {t : T α} (h : Reach cmp t) : ∃ gs, Inv cmp t gs := by
  obtain ⟨os, s, rs, h1, h2⟩ := h
  obtain ⟨t', h3, h4⟩ := runAll_sim (R := fun s t => (∃ gs, Inv cmp t gs) ∧ elems t = s)
    (exec_sim ho hs) os [] empty s rs ⟨⟨[], empty_inv cmp⟩, rfl⟩ h1
  rw [h2] at h3
  simp only [Option.some.injEq, Prod.mk.injEq] at h3
  rw [h3.1]
  exact h4.1

/-- C23: an insertion keeps every element that was there and adds the new one, duplicates included (about the
specification that `C23_history` refers to). -/
theorem C23_insert_retains (cmp : α → α → Int) (e : E α) (s : List (E α)) : (specInsert cmp e s).Perm (e :: s) := by
  induction s with
  | nil => exact List.Perm.refl _
  | cons a l ih =>
    unfold specInsert
    split
    · exact List.Perm.refl _
    · split
      · exact List.Perm.swap _ _ _
      · exact (List.Perm.cons a ih).trans (List.Perm.swap _ _ _)

/-- C23: iteration visits the elements in ascending order. -/
theorem C23_iteration_sorted {cmp : α → α → Int} (ho : CmpOrd cmp)
    (hs : ∀ a b, cmp a b = -1 ∨ cmp a b = 0 ∨ cmp a b = 1) {t : T α} (h : Reach cmp t) :
    (t.thread.map (·.1)).Pairwise fun a b => cmp a.val b.val ≤ 0 := by
  obtain ⟨gs, h⟩ := h.inv ho hs
  rw [h.thread]
  have hd := h.dups
  have hso := h.sorted
  clear h
  induction gs with
  | nil => simp [flat]
  | cons g gs ih =>
    obtain ⟨x, ds⟩ := g
    simp only [List.map_cons, List.pairwise_cons] at hso
    have ih := ih (fun g hg => hd g (by simp [hg])) hso.2
    have hx := hd (x, ds) (by simp)
    simp only at hx
    have habove : ∀ v, cmp v x.val = 0 → ∀ a ∈ flat gs, cmp v a.1.val < 0 := fun v hv =>
      flat_above ho (fun g hg => hd g (by simp [hg])) (fun a ha => ho.lt_of_le_of_lt (by omega) (hso.1 a ha))
    rw [flat_cons, List.map_append, List.pairwise_append]
    refine ⟨?_, ih, ?_⟩
    · simp only [flat1, List.map_cons, List.map_map, Function.comp_def, List.map_id', List.pairwise_cons]
      refine ⟨fun a ha => by have := hx a ha; omega, ?_⟩
      rw [List.pairwise_iff_forall_sublist]
      intro a b hab
      have ha := hx a (hab.subset (by simp))
      have hb := hx b (hab.subset (by simp))
      have := ho.eq_trans (ho.swap_eq.1 ha) hb
      omega
    · intro a ha b hb
      obtain ⟨b', hb', rfl⟩ := List.mem_map.1 hb
      simp only [flat1, List.map_cons, List.map_map, Function.comp_def, List.map_id', List.mem_cons] at ha
      rcases ha with rfl | ha
      · have := habove a.val (ho.refl _) b' hb'; omega
      · have := habove a.val (ho.swap_eq.1 (hx a ha)) b' hb'; omega

/-- C23: the thread without its duplicates is the in-order traversal of the tree proper; a duplicate comes after an equal
element with only equal duplicates in between, so `next`/`prev` agree with the tree. -/
theorem C23_thread_is_inorder {cmp : α → α → Int} (ho : CmpOrd cmp)
    (hs : ∀ a b, cmp a b = -1 ∨ cmp a b = 0 ∨ cmp a b = 1) {t : T α} (h : Reach cmp t) :
    (t.thread.filter (fun a => !a.2)).map (·.1) = toList t.tree ∧
    (∀ A b B, t.thread = A ++ b :: B → b.2 = true →
      ∃ A' a M, A = A' ++ a :: M ∧ a.2 = false ∧ a.1 ∈ toList t.tree ∧ cmp a.1.val b.1.val = 0 ∧
        ∀ m ∈ M, m.2 = true ∧ cmp a.1.val m.1.val = 0) := by
  obtain ⟨gs, h⟩ := h.inv ho hs
  constructor
  · rw [h.thread, ← h.heads]
    clear h
    induction gs with
    | nil => rfl
    | cons g gs ih =>
      rw [flat_cons, List.filter_append, List.map_append, ih, List.map_cons]
      have h1 : List.filter (fun a : Entry α => !a.2) (g.2.map fun d => (d, true)) = [] := by
        rw [List.filter_eq_nil_iff]
        intro a ha
        obtain ⟨d, _, rfl⟩ := List.mem_map.1 ha
        simp
      simp only [flat1]
      rw [List.filter_cons_of_pos (by rfl), h1]
      rfl
  · intro A b B hAB hb
    rw [h.thread] at hAB
    rw [← h.heads]
    have hd := h.dups
    clear h
    induction gs generalizing A with
    | nil => simp [flat] at hAB
    | cons g gs ih =>
      rw [flat_cons] at hAB
      rcases List.append_eq_append_iff.1 hAB with ⟨C, h1, h2⟩ | ⟨C, h1, h2⟩
      · obtain ⟨A', a, M, e1, e2, e3, e4, e5⟩ := ih C h2 (fun g hg => hd g (by simp [hg]))
        exact ⟨flat1 g ++ A', a, M, by rw [h1, e1]; simp, e2, by simp [e3], e4, e5⟩
      · cases C with
        | nil =>
          simp only [List.append_nil, List.nil_append] at h1 h2
          obtain ⟨A', a, M, e1, e2, e3, e4, e5⟩ := ih [] (by simpa using h2.symm) (fun g hg => hd g (by simp [hg]))
          simp at e1
        | cons b' C =>
          simp only [List.cons_append, List.cons.injEq] at h2
          obtain ⟨rfl, h2⟩ := h2
          cases A with
          | nil =>
            simp only [flat1, List.nil_append, List.cons.injEq] at h1
            rw [← h1.1] at hb
            cases hb
          | cons a M =>
            simp only [flat1, List.cons_append, List.cons.injEq] at h1
            obtain ⟨rfl, h1⟩ := h1
            refine ⟨[], (g.1, false), M, rfl, rfl, by simp, ?_, ?_⟩
            · have : b ∈ g.2.map (fun d => (d, true)) := by rw [h1]; simp
              obtain ⟨d, hd', rfl⟩ := List.mem_map.1 this
              exact hd g (by simp) d hd'
            · intro m hm
              have : m ∈ g.2.map (fun d => (d, true)) := by rw [h1]; simp [hm]
              obtain ⟨d, hd', rfl⟩ := List.mem_map.1 this
              exact ⟨rfl, hd g (by simp) d hd'⟩

/-- `s` is a subtree of `t`. -/
inductive Sub : Tree α → Tree α → Prop
  | refl (t) : Sub t t
  | left {s c l x r} : Sub s l → Sub s (.node c l x r)
  | right {s c l x r} : Sub s r → Sub s (.node c l x r)

/-- The number of black nodes on each way from the root to a leaf. -/
def blackCounts : Tree α → List Nat
  | .leaf => [0]
  | .node .red l _ r => blackCounts l ++ blackCounts r
  | .node .black l _ r => (blackCounts l ++ blackCounts r).map (· + 1)

theorem RB.sub {s t : Tree α} (h : Sub s t) : ∀ {n}, RB t n → ∃ m, RB s m := by
  induction h with
  | refl => intro n hn; exact ⟨n, hn⟩
  | @left c l x r _ ih =>
    intro n hn
    cases c with
    | red => exact ih hn.1
    | black => obtain ⟨n', _, h1, _⟩ := hn; exact ih h1
  | @right c l x r _ ih =>
    intro n hn
    cases c with
    | red => exact ih hn.2.1
    | black => obtain ⟨n', _, _, h1⟩ := hn; exact ih h1

theorem RB.counts : ∀ {t : Tree α} {n : Nat}, RB t n → ∀ k ∈ blackCounts t, k = n := by
  intro t
  induction t with
  | leaf => intro n h k hk; simp only [blackCounts, List.mem_singleton] at hk; rw [hk]; exact h.symm
  | node c l x r ihl ihr =>
    intro n h k hk
    cases c with
    | red =>
      simp only [blackCounts, List.mem_append] at hk
      rcases hk with hk | hk
      · exact ihl h.1 k hk
      · exact ihr h.2.1 k hk
    | black =>
      obtain ⟨n', rfl, h1, h2⟩ := h
      simp only [blackCounts, List.mem_map, List.mem_append] at hk
      obtain ⟨a, hk | hk, rfl⟩ := hk
      · rw [ihl h1 a hk]
      · rw [ihr h2 a hk]

/-- C23: the root is black, no red node has a red child, and every way down passes the same number of black nodes. -/
theorem C23_colours {cmp : α → α → Int} (ho : CmpOrd cmp) (hs : ∀ a b, cmp a b = -1 ∨ cmp a b = 0 ∨ cmp a b = 1)
    {t : T α} (h : Reach cmp t) :
    color t.tree = .black ∧
    (∀ l x r, Sub (.node .red l x r) t.tree → color l = .black ∧ color r = .black) ∧
    (∃ n, ∀ k ∈ blackCounts t.tree, k = n) := by
  obtain ⟨gs, h⟩ := h.inv ho hs
  obtain ⟨n, hn⟩ := h.rb
  refine ⟨h.black, ?_, n, hn.counts⟩
  intro l x r hsub
  obtain ⟨m, hm⟩ := RB.sub hsub hn
  exact hm.2.2

/-- Longest way down. -/
def height : Tree α → Nat
  | .leaf => 0
  | .node _ l _ r => 1 + max (height l) (height r)

theorem RB.height : ∀ {t : Tree α} {n : Nat}, RB t n → 2 ^ n ≤ (toList t).length + 1 ∧
    TRB.height t ≤ 2 * n + (if color t = .red then 1 else 0) := by
  intro t
  induction t with
  | leaf => intro n h; have : n = 0 := h; subst this; simp [toList, TRB.height]
  | node c l x r ihl ihr =>
    intro n h
    simp only [toList, List.length_append, List.length_cons, TRB.height, color]
    cases c with
    | red =>
      obtain ⟨h1, h2, h3, h4⟩ := h
      have e1 := ihl h1
      have e2 := ihr h2
      rw [h3] at e1
      rw [h4] at e2
      simp only [reduceCtorEq, if_false, if_true] at e1 e2 ⊢
      omega
    | black =>
      obtain ⟨n', rfl, h1, h2⟩ := h
      have e1 := ihl h1
      have e2 := ihr h2
      simp only [reduceCtorEq, if_false]
      rw [Nat.pow_succ]
      split at e1 <;> split at e2 <;> omega

/-- C23: the depth is logarithmic in the number of nodes in the tree. -/
theorem C23_height {cmp : α → α → Int} (ho : CmpOrd cmp) (hs : ∀ a b, cmp a b = -1 ∨ cmp a b = 0 ∨ cmp a b = 1)
    {t : T α} (h : Reach cmp t) : 2 ^ height t.tree ≤ ((toList t.tree).length + 1) ^ 2 := by
  obtain ⟨gs, h⟩ := h.inv ho hs
  obtain ⟨n, hn⟩ := h.rb
  obtain ⟨h1, h2⟩ := hn.height
  rw [h.black] at h2
  simp only [reduceCtorEq, if_false, Nat.add_zero] at h2
  calc 2 ^ height t.tree ≤ 2 ^ (2 * n) := Nat.pow_le_pow_right (by decide) h2
    _ = (2 ^ n) ^ 2 := by rw [← Nat.pow_mul, Nat.mul_comm]
    _ ≤ ((toList t.tree).length + 1) ^ 2 := Nat.pow_le_pow_left h1 2

/-! ## C77: `GetNear` -/

theorem icmp_sgn (a b : Int) : icmp a b = -1 ∨ icmp a b = 0 ∨ icmp a b = 1 := by
  unfold icmp
  split
  · simp
  · split <;> simp

/-- The closest element at or below `v`. -/
def IsFloor (cmp : α → α → Int) (v : α) (s : List (E α)) (e : E α) : Prop :=
  e ∈ s ∧ cmp e.val v ≤ 0 ∧ ∀ a ∈ s, cmp a.val v ≤ 0 → cmp a.val e.val ≤ 0

/-- The closest element at or above `v`. -/
def IsCeil (cmp : α → α → Int) (v : α) (s : List (E α)) (e : E α) : Prop :=
  e ∈ s ∧ cmp v e.val ≤ 0 ∧ ∀ a ∈ s, cmp v a.val ≤ 0 → cmp e.val a.val ≤ 0

/-- C77: on a tree that is not empty `GetNear(v, true)` returns the closest element at or below `v`, and if all elements
are above `v`, the first one. -/
theorem C77_near_before_partial {cmp : α → α → Int} (ho : CmpOrd cmp)
    (hs : ∀ a b, cmp a b = -1 ∨ cmp a b = 0 ∨ cmp a b = 1) {t : T α} (h : Reach cmp t) (hne : t.thread ≠ []) (v : α) :
    ∃ e, getNear cmp v true t = some (some e) ∧
      (IsFloor cmp v (t.thread.map (·.1)) e ∨
        ((∀ a ∈ t.thread.map (·.1), cmp v a.val < 0) ∧ (t.thread.map (·.1)).head? = some e)) := by
  have hsort := C23_iteration_sorted ho hs h
  obtain ⟨gs, h⟩ := h.inv ho hs
  have hso : (toList t.tree).Pairwise fun a b => cmp a.val b.val < 0 := by rw [← h.heads]; exact h.sorted
  rcases descend_spec ho hs v t.tree [] h.fits hso (by simp [before]) (by simp [after]) with
    ⟨q, e1, e2, e3, e4, e5⟩ | ⟨q, x, e1, e2, e3⟩
  · simp only [before, after, List.nil_append, List.append_nil] at e3
    have hq := h.heads
    rw [← e3] at hq
    obtain ⟨G, H, rfl, hG, hH⟩ := split_heads hq
    have hbelow := flat_below (gs := G) ho (v := v) (fun g hg => h.dups g (by simp [hg])) (by rw [hG]; exact e4)
    have habove := flat_above (gs := H) ho (v := v) (fun g hg => h.dups g (by simp [hg])) (by rw [hH]; exact e5)
    have hnd := h.nodup
    rw [h.thread, flat_append] at hsort ⊢
    rw [flat_append] at hnd
    have hfloor : ∀ e, e ∈ (flat G).map (·.1) → (∀ a ∈ (flat G).map (·.1), cmp a.val e.val ≤ 0) →
        IsFloor cmp v ((flat G ++ flat H).map (·.1)) e := by
      intro e he hmax
      refine ⟨by rw [List.map_append]; exact List.mem_append_left _ he, ?_, ?_⟩
      · obtain ⟨b, hb, rfl⟩ := List.mem_map.1 he
        have := hbelow b hb; omega
      · intro a ha hav
        rw [List.map_append, List.mem_append] at ha
        rcases ha with ha | ha
        · exact hmax a ha
        · obtain ⟨b, hb, rfl⟩ := List.mem_map.1 ha
          have := habove b hb
          have := ho.sym v b.1.val
          omega
    match q with
    | [] =>
      simp only [before, after, List.map_eq_nil_iff] at hG hH
      subst hG hH
      exact absurd h.thread hne
    | .L c x r :: p =>
      simp only [after, List.cons_append] at hH
      cases H with
      | nil => simp at hH
      | cons g H =>
        obtain ⟨x', ds⟩ := g
        simp only [List.map_cons, List.cons.injEq] at hH
        obtain ⟨rfl, _⟩ := hH
        have hpr : prevOf x'.id none t.thread = some (flat G).getLast? := by
          rw [h.thread, flat_append, flat_cons]
          simp only [flat1, List.cons_append]
          rw [prevOf_eq x'.id (x', false) _ rfl (flat G) none (by
            rw [flat_cons] at hnd; simp only [flat1, List.cons_append] at hnd; exact (not_mem_left hnd).1)]
          simp
        simp only [getNear, e1, if_true, hpr, Option.map_some]
        cases hlast : (flat G).getLast? with
        | none =>
          refine ⟨x', rfl, Or.inr ⟨?_, ?_⟩⟩
          · rw [List.getLast?_eq_none_iff] at hlast
            rw [hlast, List.nil_append]
            intro a ha
            obtain ⟨b, hb, rfl⟩ := List.mem_map.1 ha
            exact habove b hb
          · rw [List.getLast?_eq_none_iff] at hlast
            rw [hlast, flat_cons]; rfl
        | some m =>
          obtain ⟨A, hA⟩ := List.getLast?_eq_some_iff.1 hlast
          refine ⟨m.1, rfl, Or.inl (hfloor m.1 (by rw [hA]; simp) ?_)⟩
          intro a ha
          rw [hA, List.map_append, List.mem_append] at ha
          rw [hA, List.append_assoc, List.map_append, List.pairwise_append] at hsort
          rcases ha with ha | ha
          · exact hsort.2.2 a ha m.1 (by simp)
          · simp only [List.map_cons, List.map_nil, List.mem_singleton] at ha
            rw [ha, ho.refl]
    | .R c l x :: p =>
      simp only [before] at hG
      obtain ⟨G, G2, rfl, hG1, hG2⟩ := split_heads hG
      simp only [List.map_eq_singleton_iff] at hG2
      obtain ⟨⟨x', ds⟩, rfl, rfl⟩ := hG2
      simp only [getNear, e1, if_true]
      refine ⟨x', rfl, Or.inl (hfloor x' (by rw [flat_append, flat_cons]; simp [flat1]) ?_)⟩
      intro a ha
      rw [flat_append, flat_cons, flat_nil, List.append_nil, List.map_append, List.mem_append] at ha
      rcases ha with ha | ha
      · rw [flat_append, flat_cons, flat_nil, List.append_nil, List.append_assoc, List.map_append, List.pairwise_append] at hsort
        exact hsort.2.2 a ha x' (by simp [flat1])
      · simp only [flat1, List.map_cons, List.map_map, Function.comp_def, List.map_id', List.mem_cons] at ha
        rcases ha with rfl | ha
        · rw [ho.refl]
        · have := h.dups (x', ds) (by simp) a ha
          have := ho.swap_eq.1 this
          simp only at this
          omega
  · refine ⟨x, by simp [getNear, e1], Or.inl ⟨?_, ?_, ?_⟩⟩
    · obtain ⟨G, ds, H, rfl⟩ := mem_heads_split h e2
      rw [h.thread, flat_append, flat_cons]; simp [flat1]
    · have := ho.swap_eq.1 e3; omega
    · intro a ha hav
      exact ho.trans _ _ _ hav (by omega)

/-- C77: if no two elements are equal, `GetNear(v, false)` on a tree that is not empty returns the closest element at or
above `v`, and if all elements are below `v`, the last one. -/
theorem C77_near_after_partial {cmp : α → α → Int} (ho : CmpOrd cmp)
    (hs : ∀ a b, cmp a b = -1 ∨ cmp a b = 0 ∨ cmp a b = 1) {t : T α} (h : Reach cmp t) (hne : t.thread ≠ [])
    (hstrict : (t.thread.map (·.1)).Pairwise fun a b => cmp a.val b.val ≠ 0) (v : α) :
    ∃ e, getNear cmp v false t = some (some e) ∧
      (IsCeil cmp v (t.thread.map (·.1)) e ∨
        ((∀ a ∈ t.thread.map (·.1), cmp a.val v < 0) ∧ (t.thread.map (·.1)).getLast? = some e)) := by
  have hsort := C23_iteration_sorted ho hs h
  obtain ⟨gs, h⟩ := h.inv ho hs
  have hso : (toList t.tree).Pairwise fun a b => cmp a.val b.val < 0 := by rw [← h.heads]; exact h.sorted
  rcases descend_spec ho hs v t.tree [] h.fits hso (by simp [before]) (by simp [after]) with
    ⟨q, e1, e2, e3, e4, e5⟩ | ⟨q, x, e1, e2, e3⟩
  · simp only [before, after, List.nil_append, List.append_nil] at e3
    have hq := h.heads
    rw [← e3] at hq
    obtain ⟨G, H, rfl, hG, hH⟩ := split_heads hq
    have hbelow := flat_below (gs := G) ho (v := v) (fun g hg => h.dups g (by simp [hg])) (by rw [hG]; exact e4)
    have habove := flat_above (gs := H) ho (v := v) (fun g hg => h.dups g (by simp [hg])) (by rw [hH]; exact e5)
    have hnd := h.nodup
    have hthr := h.thread
    rw [h.thread, flat_append] at hsort hstrict ⊢
    rw [flat_append] at hnd hthr
    -- the first element of the upper half
    have hceil : ∀ y es H', H = (y, es) :: H' → IsCeil cmp v ((flat G ++ flat H).map (·.1)) y := by
      intro y es H' hHe
      have hy : (y, false) ∈ flat H := by rw [hHe, flat_cons]; simp [flat1]
      refine ⟨?_, ?_, ?_⟩
      · rw [List.map_append]; exact List.mem_append_right _ (List.mem_map.2 ⟨_, hy, rfl⟩)
      · have := habove _ hy; simp only at this; omega
      · intro a ha hav
        rw [List.map_append, List.mem_append] at ha
        rcases ha with ha | ha
        · obtain ⟨b, hb, rfl⟩ := List.mem_map.1 ha
          have := hbelow b hb
          have := ho.sym b.1.val v
          omega
        · rw [List.map_append, List.pairwise_append] at hsort
          have h2 := hsort.2.1
          rw [hHe, flat_cons] at ha h2
          simp only [flat1, List.cons_append, List.map_cons, List.pairwise_cons, List.mem_cons] at ha h2
          rcases ha with rfl | ha
          · rw [ho.refl]
          · exact h2.1 a ha
    match q with
    | [] =>
      simp only [before, after, List.map_eq_nil_iff] at hG hH
      subst hG hH
      exact absurd h.thread hne
    | .L c x r :: p =>
      simp only [after, List.cons_append] at hH
      cases H with
      | nil => simp at hH
      | cons g H =>
        obtain ⟨x', ds⟩ := g
        simp only [List.map_cons, List.cons.injEq] at hH
        obtain ⟨rfl, _⟩ := hH
        exact ⟨x', by simp [getNear, e1], Or.inl (hceil _ _ _ rfl)⟩
    | .R c l x :: p =>
      simp only [before] at hG
      obtain ⟨G, G2, rfl, hG1, hG2⟩ := split_heads hG
      simp only [List.map_eq_singleton_iff] at hG2
      obtain ⟨⟨x', ds⟩, rfl, rfl⟩ := hG2
      have hds : ds = [] := by
        cases ds with
        | nil => rfl
        | cons d ds =>
          have h0 := h.dups (x', d :: ds) (by simp) d (by simp)
          rw [List.map_append, List.pairwise_append] at hstrict
          have h2 := hstrict.1
          rw [flat_append, flat_cons, List.map_append, List.pairwise_append] at h2
          have h3 := h2.2.1
          simp only [flat1, List.map_cons, List.cons_append, List.pairwise_cons] at h3
          exact absurd h0 (h3.1 d (by simp))
      subst hds
      rw [flat_append, flat_cons, flat_nil, List.append_nil] at hnd hthr
      simp only [flat1, List.map_nil, List.append_assoc, List.singleton_append] at hnd hthr
      have hnx : nextOf x'.id t.thread = some (flat H).head? := by
        rw [hthr]
        exact nextOf_eq x'.id (x', false) _ rfl (flat G) (not_mem_left hnd).1
      simp only [getNear, e1, Bool.false_eq_true, if_false, hnx, Option.map_some]
      cases H with
      | nil =>
        refine ⟨x', rfl, Or.inr ⟨?_, ?_⟩⟩
        · intro a ha
          rw [flat_nil, List.append_nil] at ha
          obtain ⟨b, hb, rfl⟩ := List.mem_map.1 ha
          exact hbelow b hb
        · rw [flat_nil, flat_append, flat_cons, flat_nil]; simp [flat1]
      | cons g H =>
        obtain ⟨y, es⟩ := g
        exact ⟨y, rfl, Or.inl (hceil _ _ _ rfl)⟩
  · refine ⟨x, by simp [getNear, e1], Or.inl ⟨?_, by omega, ?_⟩⟩
    · obtain ⟨G, ds, H, rfl⟩ := mem_heads_split h e2
      rw [h.thread, flat_append, flat_cons]; simp [flat1]
    · intro a ha hav
      exact ho.trans _ _ _ (by have := ho.swap_eq.1 e3; omega) hav

/-- C77: with a duplicate present, `GetNear(2, false)` returns an element below 2 although 3 is in the tree. -/
theorem C77_near_after_counterexample :
    ∃ t rs, runAll (exec icmp) [.insert ⟨1, 3⟩, .insert ⟨2, 1⟩, .insert ⟨3, 1⟩] empty = some (t, rs) ∧
      t.thread.map (·.1) = [⟨2, 1⟩, ⟨3, 1⟩, ⟨1, 3⟩] ∧ getNear icmp 2 false t = some (some ⟨3, 1⟩) :=
  ⟨_, _, rfl, by decide, by decide⟩

/-- C77: on an empty tree `GetNear` returns the sentinel node. -/
theorem C77_near_empty_counterexample : getNear icmp 2 true (empty : T Int) = some none := by decide

/-! ## Examples -/

/-- A history with rotations, duplicates, promotion of a duplicate and removals that rebalance. -/
example : ∃ t rs, runAll (exec icmp) [.insert ⟨1, 5⟩, .insert ⟨2, 3⟩, .insert ⟨3, 4⟩, .insert ⟨4, 8⟩, .insert ⟨5, 6⟩,
      .insert ⟨6, 7⟩, .insert ⟨7, 2⟩, .insert ⟨8, 4⟩, .insert ⟨9, 4⟩, .removeVal 4, .removeNode 1, .removeVal 9, .get 4,
      .insert ⟨3, 9⟩, .removeVal 2, .removeVal 3] empty = some (t, rs) ∧
    t.thread.map (·.1) = [⟨9, 4⟩, ⟨8, 4⟩, ⟨5, 6⟩, ⟨6, 7⟩, ⟨4, 8⟩, ⟨3, 9⟩] := ⟨_, _, rfl, by decide⟩

/-- The history is allowed, so the hypotheses of the theorems are met. -/
example : ∃ s rs, runAll (spec icmp) [.insert ⟨1, 5⟩, .insert ⟨2, 3⟩, .insert ⟨3, 4⟩, .insert ⟨8, 4⟩, .removeVal 4,
    .removeNode 1, .get 4] [] = some (s, rs) ∧ s = [⟨2, 3⟩, ⟨8, 4⟩] := ⟨_, _, rfl, by decide⟩

example : Reach icmp ⟨.node .black (.node .red .leaf ⟨2, 3⟩ .leaf) ⟨1, 5⟩ .leaf, [(⟨2, 3⟩, false), (⟨1, 5⟩, false)]⟩ :=
  ⟨[.insert ⟨1, 5⟩, .insert ⟨2, 3⟩], _, _, rfl, rfl⟩

end Verif.TRB
