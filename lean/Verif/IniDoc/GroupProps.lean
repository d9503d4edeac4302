import Mathlib.Tactic.ByContra
import Verif.IniDoc.Group

/-!
# Theorems about the node lists of an INI storage
-/

namespace Verif.IniDoc

open Verif.Ini.Spec (fold)

variable {V : Type}

theorem upd_self {A B : Type} [DecidableEq A] (f : A → B) (a : A) (b : B) : upd f a b a = b := by simp [upd]

theorem upd_ne {A B : Type} [DecidableEq A] (f : A → B) {a x : A} (b : B) (h : x ≠ a) : upd f a b x = f x := by simp [upd, h]

/-- The nodes of groups, in order. -/
def flat (gs : List (Nat × List Nat)) : List Nat := gs.flatMap fun x => x.1 :: x.2

/-- The later nodes of a group, from index `i` on, hold these values. -/
def Tail (mem : Nat → Option (Node V)) (k : List Int) : Nat → List Nat → List V → Prop
  | _, [], [] => True
  | i, p :: l, v :: vs => (∃ n, mem p = some n ∧ n.inst = [] ∧ fold n.key = k ∧ n.idx = i ∧ n.val = v) ∧ Tail mem k (i + 1) l vs
  | _, _, _ => False

/-- The nodes of a group hold these values. -/
def Group (mem : Nat → Option (Node V)) (k : List Int) (x : Nat × List Nat) (vs : List V) : Prop :=
  ∃ n ws, mem x.1 = some n ∧ n.inst = x.2 ∧ fold n.key = k ∧ n.idx = 0 ∧ vs = n.val :: ws ∧ Tail mem k 1 x.2 ws

/-- The invariant: `gs` are the groups and `v` gives the values of each name. -/
structure Inv (g : Grp V) (gs : List (Nat × List Nat)) (v : List Int → List V) : Prop where
  order : g.order = flat gs
  nodup : (flat gs).Nodup
  lt : ∀ x ∈ flat gs, x < g.fresh
  free : ∀ x, g.fresh ≤ x → g.mem x = none
  tbl : ∀ k r b, g.table k = some (r, b) → ∃ is, (r, is) ∈ gs ∧ Group g.mem k (r, is) (v k)
  absent : ∀ k, g.table k = none → v k = []
  roots : ∀ x ∈ gs, ∃ k b, g.table k = some (x.1, b)

theorem Tail.congr {mem mem' : Nat → Option (Node V)} {k : List Int} {l : List Nat} : ∀ {i : Nat} {vs : List V}, Tail mem k i l vs → (∀ p ∈ l, mem' p = mem p) → Tail mem' k i l vs := by
  induction l with
  | nil => intro i vs h _; cases vs <;> exact h
  | cons p l ih =>
    intro i vs h hm
    cases vs with
    | nil => exact h
    | cons v vs => exact ⟨by rw [hm p List.mem_cons_self]; exact h.1, ih h.2 fun q hq => hm q (List.mem_cons_of_mem _ hq)⟩

theorem Group.congr {mem mem' : Nat → Option (Node V)} {k : List Int} {x : Nat × List Nat} {vs : List V} (h : Group mem k x vs) (hm : ∀ p ∈ x.1 :: x.2, mem' p = mem p) :
    Group mem' k x vs := by
  obtain ⟨n, ws, h1, h2, h3, h4, h5, h6⟩ := h
  exact ⟨n, ws, by rw [hm _ List.mem_cons_self, h1], h2, h3, h4, h5, h6.congr fun p hp => hm p (List.mem_cons_of_mem _ hp)⟩

theorem Tail.length {mem : Nat → Option (Node V)} {k : List Int} {l : List Nat} : ∀ {i : Nat} {vs : List V}, Tail mem k i l vs → vs.length = l.length := by
  induction l with
  | nil => intro i vs h; cases vs; rfl; exact h.elim
  | cons p l ih =>
    intro i vs h
    cases vs with
    | nil => exact h.elim
    | cons v vs => simp only [List.length_cons]; rw [ih h.2]

theorem Tail.snoc {mem : Nat → Option (Node V)} {k : List Int} {l : List Nat} : ∀ {i : Nat} {vs : List V} {p : Nat} {n : Node V}, Tail mem k i l vs → mem p = some n → n.inst = [] →
    fold n.key = k → n.idx = i + l.length → Tail mem k i (l ++ [p]) (vs ++ [n.val]) := by
  induction l with
  | nil =>
    intro i vs p n h h1 h2 h3 h4
    cases vs with
    | nil => exact ⟨⟨n, h1, h2, h3, h4, rfl⟩, trivial⟩
    | cons => exact h.elim
  | cons q l ih =>
    intro i vs p n h h1 h2 h3 h4
    cases vs with
    | nil => exact h.elim
    | cons v vs => exact ⟨h.1, ih h.2 h1 h2 h3 (by rw [h4]; simp only [List.length_cons]; omega)⟩

theorem Tail.get {mem : Nat → Option (Node V)} {k : List Int} {l : List Nat} : ∀ {i : Nat} {vs : List V}, Tail mem k i l vs → ∀ j p, l[j]? = some p →
    ∃ n, mem p = some n ∧ n.inst = [] ∧ fold n.key = k ∧ n.idx = i + j ∧ vs[j]? = some n.val := by
  induction l with
  | nil => intro i vs _ j p h; simp at h
  | cons q l ih =>
    intro i vs h j p hj
    cases vs with
    | nil => exact h.elim
    | cons v vs =>
      cases j with
      | zero =>
        simp at hj
        subst hj
        obtain ⟨n, h1, h2, h3, h4, h5⟩ := h.1
        exact ⟨n, h1, h2, h3, by omega, by simp [h5]⟩
      | succ j =>
        obtain ⟨n, h1, h2, h3, h4, h5⟩ := ih h.2 j p (by simpa using hj)
        exact ⟨n, h1, h2, h3, by omega, by simpa using h5⟩

theorem Tail.erase {mem mem' : Nat → Option (Node V)} {k : List Int} {l : List Nat} : ∀ {i : Nat} {vs : List V} (j : Nat), Tail mem k i l vs → j < l.length →
    (∀ p ∈ l.take j, mem' p = mem p) → (∀ p ∈ l.drop (j + 1), ∀ n, mem p = some n → mem' p = some { n with idx := n.idx - 1 }) → 0 < i →
    Tail mem' k i (l.eraseIdx j) (vs.eraseIdx j) := by
  have shift : ∀ (l : List Nat) (i : Nat) (vs : List V), Tail mem k (i + 1) l vs → (∀ p ∈ l, ∀ n, mem p = some n → mem' p = some { n with idx := n.idx - 1 }) → Tail mem' k i l vs := by
    intro l
    induction l with
    | nil => intro i vs h _; cases vs; trivial; exact h.elim
    | cons p l ih =>
      intro i vs h hm
      cases vs with
      | nil => exact h.elim
      | cons v vs =>
        obtain ⟨n, h1, h2, h3, h4, h5⟩ := h.1
        exact ⟨⟨_, hm p List.mem_cons_self n h1, h2, h3, by simp [h4], h5⟩, ih (i + 1) vs h.2 fun q hq => hm q (List.mem_cons_of_mem _ hq)⟩
  induction l with
  | nil => intro i vs j _ hj; simp at hj
  | cons q l ih =>
    intro i vs j h hj h1 h2 hi
    cases vs with
    | nil => exact h.elim
    | cons v vs =>
      cases j with
      | zero => exact shift l i vs h.2 (by simpa using h2)
      | succ j =>
        refine ⟨?_, ih j h.2 (by simpa using hj) ?_ ?_ (by omega)⟩
        · rw [h1 q (by simp)]; exact h.1
        · intro p hp; exact h1 p (by simp [hp])
        · intro p hp; exact h2 p (by simpa using hp)

theorem mem_flat {gs : List (Nat × List Nat)} {p : Nat} : p ∈ flat gs ↔ ∃ x ∈ gs, p ∈ x.1 :: x.2 := by
  simp [flat, List.mem_flatMap]

theorem flat_append (a b : List (Nat × List Nat)) : flat (a ++ b) = flat a ++ flat b := by simp [flat]

theorem flat_cons (x : Nat × List Nat) (b : List (Nat × List Nat)) : flat (x :: b) = (x.1 :: x.2) ++ flat b := by simp [flat]

/-- A node belongs to one group only. -/
theorem unique_group {gs : List (Nat × List Nat)} (h : (flat gs).Nodup) {x y : Nat × List Nat} (hx : x ∈ gs) (hy : y ∈ gs) {p : Nat} (hpx : p ∈ x.1 :: x.2) (hpy : p ∈ y.1 :: y.2) : x = y := by
  induction gs with
  | nil => cases hx
  | cons z gs ih =>
    rw [flat_cons, List.nodup_append] at h
    rcases List.mem_cons.1 hx with rfl | hx'
    · rcases List.mem_cons.1 hy with rfl | hy'
      · rfl
      · exact absurd rfl (h.2.2 p hpx p (mem_flat.2 ⟨y, hy', hpy⟩))
    · rcases List.mem_cons.1 hy with rfl | hy'
      · exact absurd rfl (h.2.2 p hpy p (mem_flat.2 ⟨x, hx', hpx⟩))
      · exact ih h.2.1 hx' hy'

theorem Inv.empty : Inv (Grp.empty : Grp V) [] fun _ => [] := by
  refine ⟨rfl, List.nodup_nil, ?_, fun _ _ => rfl, ?_, fun _ _ => rfl, ?_⟩ <;> simp [flat, Grp.empty]

theorem Inv.root_mem {g : Grp V} {gs : List (Nat × List Nat)} {v : List Int → List V} (h : Inv g gs v) {k : List Int} {r : Nat} {b : Bool} (ht : g.table k = some (r, b)) : r ∈ flat gs := by
  obtain ⟨is, hm, _⟩ := h.tbl k r b ht
  exact mem_flat.2 ⟨_, hm, List.mem_cons_self⟩

/-- Different names have different first nodes. -/
theorem Inv.root_inj {g : Grp V} {gs : List (Nat × List Nat)} {v : List Int → List V} (h : Inv g gs v) {k k' : List Int} {r : Nat} {b b' : Bool} (ht : g.table k = some (r, b))
    (ht' : g.table k' = some (r, b')) : k = k' := by
  obtain ⟨is, hm, n, ws, h1, h2, h3, _⟩ := h.tbl k r b ht
  obtain ⟨is', hm', n', ws', h1', h2', h3', _⟩ := h.tbl k' r b' ht'
  simp only at h1 h1'
  rw [h1] at h1'
  cases h1'
  rw [← h3, ← h3']

theorem insAfter_append {p t : Nat} {a b : List Nat} (h : t ∉ a) : insAfter p t (a ++ t :: b) = a ++ t :: p :: b := by
  induction a with
  | nil => simp [insAfter]
  | cons x a ih =>
    rw [List.cons_append, insAfter, if_neg (fun h' : x = t => h (h' ▸ List.mem_cons_self)), ih fun h' => h (List.mem_cons_of_mem _ h'), List.cons_append]

theorem last_split (r : Nat) (is : List Nat) : ∃ c, r :: is = c ++ [is.getLast?.getD r] := by
  rcases List.eq_nil_or_concat is with rfl | ⟨is', x, rfl⟩
  · exact ⟨[], rfl⟩
  · exact ⟨r :: is', by simp⟩

/-- Adding: the value comes last among those of its name. -/
theorem Inv.add {g : Grp V} {gs : List (Nat × List Nat)} {v : List Int → List V} (h : Inv g gs v) (name : List Int) (x : V)
    (hok : ∀ r, g.table (fold name) ≠ some (r, true)) :
    ∃ g' gs', g.add name x = some (g', g.fresh) ∧ Inv g' gs' (upd v (fold name) (v (fold name) ++ [x])) ∧
      g'.mem g.fresh = some ⟨name, x, (v (fold name)).length, []⟩ ∧ (∀ k r, g'.table k = some (r, true) → g.table k = some (r, true)) := by
  have hfresh : g.fresh ∉ flat gs := fun hm => Nat.lt_irrefl _ (h.lt _ hm)
  unfold Grp.add Grp.find
  cases ht : g.table (fold name) with
  | none =>
    have hv := h.absent _ ht
    refine ⟨_, gs ++ [(g.fresh, [])], rfl, ?_, by simp [upd_self, hv], ?_⟩
    · have hflat : flat (gs ++ [(g.fresh, [])]) = flat gs ++ [g.fresh] := by rw [flat_append]; rfl
      refine ⟨by rw [hflat, ← h.order], ?_, ?_, ?_, ?_, ?_, ?_⟩
      · rw [hflat]
        exact List.nodup_append.2 ⟨h.nodup, by simp, by intro a ha b hb; simp at hb; subst hb; exact fun he => hfresh (he ▸ ha)⟩
      · intro p hp
        rw [hflat, List.mem_append] at hp
        rcases hp with hp | hp
        · exact Nat.lt_succ_of_lt (h.lt p hp)
        · simp at hp; subst hp; exact Nat.lt_succ_self _
      · intro p hp
        simp only at hp ⊢
        rw [upd_ne _ _ (by omega)]
        exact h.free p (by omega)
      · intro k r b hk
        by_cases hkn : k = fold name
        · subst hkn
          simp only [upd_self, Option.some.injEq, Prod.mk.injEq] at hk
          obtain ⟨rfl, rfl⟩ := hk
          refine ⟨[], by simp, ⟨name, x, 0, []⟩, [], by simp [upd_self], rfl, rfl, rfl, by simp [upd_self, hv], trivial⟩
        · simp only [upd_ne _ _ hkn] at hk ⊢
          obtain ⟨is, hm, hg⟩ := h.tbl k r b hk
          refine ⟨is, by simp [hm], hg.congr ?_⟩
          intro p hp
          rw [upd_ne]
          intro he
          exact hfresh (he ▸ mem_flat.2 ⟨_, hm, hp⟩)
      · intro k hk
        by_cases hkn : k = fold name
        · subst hkn; simp [upd_self] at hk
        · simp only [upd_ne _ _ hkn] at hk ⊢
          exact h.absent k hk
      · intro y hy
        rcases List.mem_append.1 hy with hy | hy
        · obtain ⟨k, b, hk⟩ := h.roots y hy
          refine ⟨k, b, ?_⟩
          simp only
          rw [upd_ne _ _ (fun he => by rw [he, ht] at hk; cases hk)]
          exact hk
        · simp at hy
          subst hy
          exact ⟨fold name, false, by simp [upd_self]⟩
    · intro k r hk
      by_cases hkn : k = fold name
      · subst hkn; simp [upd_self] at hk
      · simpa [upd_ne _ _ hkn] using hk
  | some rb =>
    obtain ⟨r, b⟩ := rb
    have hb : b = false := by
      cases b
      · rfl
      · exact absurd ht (hok r)
    subst hb
    obtain ⟨is, hm, n, ws, h1, h2, h3, h4, h5, h6⟩ := h.tbl _ r _ ht
    simp only at h1 h2 h6
    obtain ⟨A, B, rfl⟩ := List.append_of_mem hm
    obtain ⟨c, hc⟩ := last_split r is
    have hnd := h.nodup
    rw [flat_append, flat_cons] at hnd
    simp only at hnd
    have hord : g.order = (flat A ++ c) ++ (is.getLast?.getD r) :: flat B := by
      rw [h.order, flat_append, flat_cons]
      simp only
      rw [hc]
      simp
    have htn : is.getLast?.getD r ∉ flat A ++ c := by
      intro hmem
      have hnd' := h.nodup
      rw [← h.order, hord, List.nodup_append] at hnd'
      exact hnd'.2.2 _ hmem _ List.mem_cons_self rfl
    have hrf : r ≠ g.fresh := fun he => hfresh (he ▸ h.root_mem ht)
    simp only [Bool.false_eq_true, if_false, h1, h2]
    have hflat : flat (A ++ (r, is ++ [g.fresh]) :: B) = flat A ++ (r :: is) ++ g.fresh :: flat B := by
      rw [flat_append, flat_cons]; simp
    refine ⟨_, A ++ (r, is ++ [g.fresh]) :: B, rfl, ?_, ?_, fun k r hk => hk⟩
    · refine ⟨?_, ?_, ?_, ?_, ?_, ?_, ?_⟩
      · simp only
        rw [hord, insAfter_append htn, hflat, hc]
        simp
      · rw [hflat]
        have : (flat A ++ (r :: is) ++ g.fresh :: flat B).Perm (g.fresh :: (flat (A ++ (r, is) :: B))) := by
          rw [flat_append, flat_cons]
          simpa [List.append_assoc] using (List.perm_middle (a := g.fresh) (l₁ := flat A ++ (r :: is)) (l₂ := flat B))
        exact this.nodup_iff.2 (List.nodup_cons.2 ⟨hfresh, h.nodup⟩)
      · intro p hp
        rw [hflat] at hp
        have : p = g.fresh ∨ p ∈ flat (A ++ (r, is) :: B) := by
          rw [flat_append, flat_cons]
          simp only [List.mem_append, List.mem_cons] at hp ⊢
          rcases hp with (h | h) | (h | h)
          · exact .inr (.inl h)
          · exact .inr (.inr (.inl h))
          · exact .inl h
          · exact .inr (.inr (.inr h))
        rcases this with rfl | hp
        · exact Nat.lt_succ_self _
        · exact Nat.lt_succ_of_lt (h.lt p hp)
      · intro p hp
        simp only at hp ⊢
        have := h.lt r (h.root_mem ht)
        rw [upd_ne _ _ (by omega), upd_ne _ _ (by omega)]
        exact h.free p (by omega)
      · intro k r' b' hk
        simp only at hk ⊢
        by_cases hkn : k = fold name
        · subst hkn
          rw [ht] at hk
          simp only [Option.some.injEq, Prod.mk.injEq] at hk
          obtain ⟨rfl, rfl⟩ := hk
          refine ⟨is ++ [g.fresh], by simp, { n with inst := is ++ [g.fresh] }, ws ++ [x], ?_, rfl, h3, h4, ?_, ?_⟩
          · simp only
            rw [upd_ne _ _ hrf, upd_self]
          · rw [upd_self, h5]; rfl
          · refine Tail.snoc (n := ⟨name, x, (is ++ [g.fresh]).length, []⟩) (h6.congr ?_) ?_ rfl rfl (by simp; omega)
            · intro p hp
              have hpf : p ∈ flat (A ++ (r, is) :: B) := mem_flat.2 ⟨_, hm, List.mem_cons_of_mem _ hp⟩
              rw [upd_ne _ _ (fun he : p = g.fresh => hfresh (he ▸ hpf)), upd_ne]
              rintro rfl
              have := (List.nodup_append.1 hnd).2.1
              rw [List.cons_append, List.nodup_cons] at this
              exact this.1 (by simp [hp])
            · rw [upd_self]
        · rw [upd_ne _ _ hkn]
          obtain ⟨is', hm', hg⟩ := h.tbl k r' b' hk
          have hrr : (r', is') ≠ (r, is) := by
            intro he
            cases he
            exact hkn (h.root_inj hk ht)
          refine ⟨is', ?_, hg.congr ?_⟩
          · rcases List.mem_append.1 hm' with h' | h'
            · simp [h']
            · rcases List.mem_cons.1 h' with h' | h'
              · exact absurd h' hrr
              · simp [h']
          · intro p hp
            have hpf : p ∈ flat (A ++ (r, is) :: B) := mem_flat.2 ⟨_, hm', hp⟩
            rw [upd_ne _ _ (fun he : p = g.fresh => hfresh (he ▸ hpf)), upd_ne]
            rintro rfl
            exact hrr (unique_group h.nodup hm' hm hp List.mem_cons_self)
      · intro k hk
        simp only at hk ⊢
        rw [upd_ne _ _ (fun he => by rw [he, ht] at hk; cases hk)]
        exact h.absent k hk
      · intro y hy
        have : ∃ y' ∈ A ++ (r, is) :: B, y'.1 = y.1 := by
          rcases List.mem_append.1 hy with h' | h'
          · exact ⟨y, by simp [h'], rfl⟩
          · rcases List.mem_cons.1 h' with h' | h'
            · exact ⟨(r, is), by simp, by rw [h']⟩
            · exact ⟨y, by simp [h'], rfl⟩
        obtain ⟨y', hy', he⟩ := this
        rw [← he]
        exact h.roots y' hy'
    · simp only
      rw [upd_self, h5]
      simp [h6.length]

theorem shiftIdx_spec : ∀ (l : List Nat) (mem : Nat → Option (Node V)), l.Nodup → (∀ p ∈ l, ∃ n, mem p = some n) →
    ∃ mem', shiftIdx mem l = some mem' ∧ (∀ p, p ∉ l → mem' p = mem p) ∧ (∀ p ∈ l, ∀ n, mem p = some n → mem' p = some { n with idx := n.idx - 1 }) := by
  intro l
  induction l with
  | nil => intro mem _ _; exact ⟨mem, rfl, fun _ _ => rfl, by simp⟩
  | cons q l ih =>
    intro mem hnd hm
    obtain ⟨n, hn⟩ := hm q List.mem_cons_self
    rw [List.nodup_cons] at hnd
    obtain ⟨mem', h1, h2, h3⟩ := ih (upd mem q (some { n with idx := n.idx - 1 })) hnd.2 (by
      intro p hp
      rw [upd_ne _ _ (fun he : p = q => hnd.1 (he ▸ hp))]
      exact hm p (List.mem_cons_of_mem _ hp))
    refine ⟨mem', by rw [shiftIdx, hn]; exact h1, ?_, ?_⟩
    · intro p hp
      rw [List.mem_cons] at hp
      rw [h2 p (fun h => hp (.inr h)), upd_ne _ _ (fun h => hp (.inl h))]
    · intro p hp n' hn'
      rcases List.mem_cons.1 hp with rfl | hp
      · rw [hn] at hn'
        cases hn'
        rw [h2 p hnd.1, upd_self]
      · refine h3 p hp n' ?_
        rw [upd_ne _ _ (fun he : p = q => hnd.1 (he ▸ hp)), hn']

theorem nextOf_append {p q : Nat} {a b : List Nat} (h : p ∉ a) : nextOf p (a ++ p :: q :: b) = some q := by
  induction a with
  | nil => simp [nextOf]
  | cons x a ih =>
    rw [List.cons_append, nextOf, if_neg (fun h' : x = p => h (h' ▸ List.mem_cons_self)), ih fun h' => h (List.mem_cons_of_mem _ h')]

/-- Replacing the group of one name by nodes of it keeps the invariant. -/
theorem Inv.replace {g g' : Grp V} {A B : List (Nat × List Nat)} {r : Nat} {is is' : List Nat} {b b' : Bool} {v : List Int → List V} {k : List Int} (h : Inv g (A ++ (r, is) :: B) v)
    (ht : g.table k = some (r, b)) (hsub : is'.Sublist is) (hord : g'.order = flat A ++ (r :: is') ++ flat B) (hf : g'.fresh = g.fresh)
    (htab : g'.table = upd g.table k (some (r, b'))) (hmem : ∀ p, p ∉ r :: is → g'.mem p = g.mem p) {vs : List V} (hg : Group g'.mem k (r, is') vs) :
    Inv g' (A ++ (r, is') :: B) (upd v k vs) := by
  have hm : (r, is) ∈ A ++ (r, is) :: B := by simp
  have hfl : flat (A ++ (r, is') :: B) = flat A ++ (r :: is') ++ flat B := by rw [flat_append, flat_cons]; simp
  have hsubl : (flat (A ++ (r, is') :: B)).Sublist (flat (A ++ (r, is) :: B)) := by
    rw [flat_append, flat_cons, flat_append, flat_cons]
    exact List.Sublist.append (List.Sublist.refl _) (List.Sublist.append (hsub.cons_cons _) (List.Sublist.refl _))
  refine ⟨by rw [hord, hfl], h.nodup.sublist hsubl, fun p hp => by rw [hf]; exact h.lt p (hsubl.subset hp), ?_, ?_, ?_, ?_⟩
  · intro p hp
    rw [hf] at hp
    rw [hmem]
    · exact h.free p hp
    · intro hmem'
      have := h.lt p (mem_flat.2 ⟨_, hm, hmem'⟩)
      omega
  · intro k' r' b'' hk
    rw [htab] at hk
    by_cases hkk : k' = k
    · subst hkk
      rw [upd_self] at hk ⊢
      simp only [Option.some.injEq, Prod.mk.injEq] at hk
      obtain ⟨rfl, rfl⟩ := hk
      exact ⟨is', by simp, hg⟩
    · rw [upd_ne _ _ hkk] at hk ⊢
      obtain ⟨is2, hm2, hg2⟩ := h.tbl k' r' b'' hk
      have hrr : (r', is2) ≠ (r, is) := by
        intro he
        cases he
        exact hkk (h.root_inj hk ht)
      refine ⟨is2, ?_, hg2.congr ?_⟩
      · rcases List.mem_append.1 hm2 with h' | h'
        · simp [h']
        · rcases List.mem_cons.1 h' with h' | h'
          · exact absurd h' hrr
          · simp [h']
      · intro p hp
        apply hmem
        intro hp'
        exact hrr (unique_group h.nodup hm2 hm hp hp')
  · intro k' hk
    rw [htab] at hk
    by_cases hkk : k' = k
    · subst hkk; rw [upd_self] at hk; cases hk
    · rw [upd_ne _ _ hkk] at hk ⊢
      exact h.absent k' hk
  · intro y hy
    have : ∃ y' ∈ A ++ (r, is) :: B, y'.1 = y.1 := by
      rcases List.mem_append.1 hy with h' | h'
      · exact ⟨y, by simp [h'], rfl⟩
      · rcases List.mem_cons.1 h' with h' | h'
        · exact ⟨(r, is), by simp, by rw [h']⟩
        · exact ⟨y, by simp [h'], rfl⟩
    obtain ⟨y', hy', he⟩ := this
    rw [← he]
    obtain ⟨k2, b2, hk2⟩ := h.roots y' hy'
    by_cases hkk : k2 = k
    · subst hkk
      rw [ht] at hk2
      simp only [Option.some.injEq, Prod.mk.injEq] at hk2
      exact ⟨k2, b', by rw [htab, upd_self, hk2.1]⟩
    · exact ⟨k2, b2, by rw [htab, upd_ne _ _ hkk]; exact hk2⟩

theorem erase_mid {a b : List Nat} {p : Nat} (h : p ∉ a) : (a ++ p :: b).erase p = a ++ b := by
  rw [List.erase_append_right _ h, List.erase_cons_head]

theorem upd_same {A B : Type} [DecidableEq A] {f : A → B} {a : A} {b : B} (h : f a = b) : upd f a b = f := by
  funext x
  by_cases hx : x = a
  · subst hx; rw [upd_self, h]
  · rw [upd_ne _ _ hx]

/-- Removing the `i`-th value of a name. -/
theorem Inv.remove {g : Grp V} {gs : List (Nat × List Nat)} {v : List Int → List V} (h : Inv g gs v) (name : List Int) (i : Nat) (hok : ∀ r, g.table (fold name) ≠ some (r, true)) :
    (¬i < (v (fold name)).length → g.remove name i = some none) ∧
    (i < (v (fold name)).length → ∃ g' gs', g.remove name i = some (some g') ∧ Inv g' gs' (upd v (fold name) ((v (fold name)).eraseIdx i)) ∧
      (∀ k r, g'.table k = some (r, true) → g.table k = some (r, true) ∨ (k = fold name ∧ 15 < k.length))) := by
  unfold Grp.remove Grp.find
  cases ht : g.table (fold name) with
  | none => rw [h.absent _ ht]; simp
  | some rb =>
    obtain ⟨r, b⟩ := rb
    have hb : b = false := by
      cases b
      · rfl
      · exact absurd ht (hok r)
    subst hb
    obtain ⟨is, hm, n, ws, h1, h2, h3, h4, h5, h6⟩ := h.tbl _ r _ ht
    simp only at h1 h2 h6
    obtain ⟨A, B, rfl⟩ := List.append_of_mem hm
    have hlen := h6.length
    have hord : g.order = flat A ++ (r :: is ++ flat B) := by rw [h.order, flat_append, flat_cons]
    have hnd := h.nodup
    rw [flat_append, flat_cons, List.nodup_append] at hnd
    simp only at hnd
    have hndr := List.nodup_append.1 hnd.2.1
    have hris := List.nodup_cons.1 hndr.1
    have hrA : r ∉ flat A := fun hmem => hnd.2.2 r hmem r (by simp) rfl
    simp only [Bool.false_eq_true, if_false, h1, h2]
    rw [h5]
    simp only [List.length_cons]
    refine ⟨fun hi => by rw [if_pos (by omega)], fun hi => ?_⟩
    rw [if_neg (by omega)]
    by_cases hc1 : i = 0 ∧ is.length > 0
    · rw [if_pos hc1]
      obtain ⟨rfl, hpos⟩ := hc1
      cases is with
      | nil => simp at hpos
      | cons q is =>
        cases ws with
        | nil => exact h6.elim
        | cons w ws =>
          obtain ⟨⟨m, hm1, hm2, hm3, hm4, hm5⟩, h6'⟩ := h6
          have hnext : nextOf r g.order = some q := by rw [hord]; exact nextOf_append hrA
          rw [hnext]
          simp only [hm1]
          have hq := List.nodup_cons.1 hris.2
          have hrq : r ≠ q := fun he => hris.1 (he ▸ List.mem_cons_self)
          have hris' : r ∉ is := fun he => hris.1 (List.mem_cons_of_mem _ he)
          obtain ⟨mem', hs1, hs2, hs3⟩ := shiftIdx_spec is (upd g.mem r (some ⟨m.key, m.val, 0, is⟩)) hq.2 (by
            intro p hp
            rw [upd_ne _ _ (fun he : p = r => hris' (he ▸ hp))]
            obtain ⟨j, hj⟩ := List.getElem?_of_mem hp
            obtain ⟨n', hn', _⟩ := h6'.get j p hj
            exact ⟨n', hn'⟩)
          rw [show (q :: is).eraseIdx 0 = is from rfl, hs1]
          refine ⟨_, A ++ (r, is) :: B, rfl, ?_, ?_⟩
          · refine h.replace ht (List.sublist_cons_self q is) ?_ (by rfl) (b' := decide (15 < n.key.length)) (by rfl) ?_ ?_
            · simp only
              rw [hord, show flat A ++ (r :: q :: is ++ flat B) = (flat A ++ [r]) ++ q :: (is ++ flat B) by simp, erase_mid]
              · simp
              · intro hmem
                rcases List.mem_append.1 hmem with h' | h'
                · exact hnd.2.2 q h' q (by simp) rfl
                · simp at h'; exact hrq h'.symm
            · intro p hp
              simp only [List.mem_cons, not_or] at hp
              simp only
              rw [upd_ne _ _ hp.2.1, hs2 p hp.2.2, upd_ne _ _ hp.1]
            · refine ⟨⟨m.key, m.val, 0, is⟩, ws, ?_, rfl, hm3, rfl, by simp [hm5], ?_⟩
              · simp only
                rw [upd_ne _ _ hrq, hs2 r hris', upd_self]
              · have := Tail.erase (mem' := upd mem' q none) (l := q :: is) (vs := w :: ws) (i := 1) 0 (mem := g.mem) (k := fold name) ⟨⟨m, hm1, hm2, hm3, hm4, hm5⟩, h6'⟩ (by simp) (by simp) ?_ (by omega)
                · exact this
                · intro p hp n' hn'
                  simp only [Nat.zero_add, List.drop_succ_cons, List.drop_zero] at hp
                  rw [upd_ne _ _ (fun he : p = q => hq.1 (he ▸ hp))]
                  refine hs3 p hp n' ?_
                  rw [upd_ne _ _ (fun he : p = r => hris' (he ▸ hp)), hn']
          · intro k r' hk
            simp only at hk
            by_cases hkn : k = fold name
            · subst hkn
              rw [upd_self] at hk
              simp only [Option.some.injEq, Prod.mk.injEq, decide_eq_true_eq] at hk
              refine .inr ⟨rfl, ?_⟩
              rw [← h3]
              simpa [fold] using hk.2
            · rw [upd_ne _ _ hkn] at hk
              exact .inl hk
    · rw [if_neg hc1]
      by_cases hi0 : i = 0
      · rw [if_pos hi0]
        subst hi0
        have his : is = [] := by
          cases is with
          | nil => rfl
          | cons => simp at hc1
        subst his
        have hws : ws = [] := by cases ws; rfl; exact h6.elim
        subst hws
        have hfl : flat (A ++ B) = flat A ++ flat B := flat_append A B
        have hsubl : (flat (A ++ B)).Sublist (flat (A ++ (r, []) :: B)) := by
          rw [hfl, flat_append, flat_cons]
          exact List.Sublist.append (List.Sublist.refl _) (List.sublist_append_right _ _)
        have hrn : r ∉ flat (A ++ B) := by
          rw [hfl]
          intro hmem
          rcases List.mem_append.1 hmem with h' | h'
          · exact hrA h'
          · exact hndr.2.2 r (by simp) r h' rfl
        refine ⟨_, A ++ B, rfl, ⟨?_, h.nodup.sublist hsubl, fun p hp => h.lt p (hsubl.subset hp), ?_, ?_, ?_, ?_⟩, ?_⟩
        · simp only
          rw [hord, hfl]
          exact erase_mid hrA
        · intro p hp
          simp only at hp ⊢
          by_cases hpr : p = r
          · rw [hpr, upd_self]
          · rw [upd_ne _ _ hpr]; exact h.free p hp
        · intro k r' b' hk
          simp only at hk ⊢
          by_cases hkn : k = fold name
          · subst hkn; rw [upd_self] at hk; cases hk
          · rw [upd_ne _ _ hkn] at hk ⊢
            obtain ⟨is2, hm2, hg2⟩ := h.tbl k r' b' hk
            have hrr : (r', is2) ≠ (r, []) := by
              intro he
              cases he
              exact hkn (h.root_inj hk ht)
            refine ⟨is2, ?_, hg2.congr ?_⟩
            · rcases List.mem_append.1 hm2 with h' | h'
              · simp [h']
              · rcases List.mem_cons.1 h' with h' | h'
                · exact absurd h' hrr
                · simp [h']
            · intro p hp
              rw [upd_ne]
              rintro rfl
              exact hrr (unique_group h.nodup hm2 hm hp (by simp))
        · intro k hk
          simp only at hk ⊢
          by_cases hkn : k = fold name
          · subst hkn; rw [upd_self]; rfl
          · rw [upd_ne _ _ hkn] at hk ⊢
            exact h.absent k hk
        · intro y hy
          have hy' : y ∈ A ++ (r, []) :: B := by
            rcases List.mem_append.1 hy with h' | h' <;> simp [h']
          obtain ⟨k2, b2, hk2⟩ := h.roots y hy'
          refine ⟨k2, b2, ?_⟩
          simp only
          rw [upd_ne]
          · exact hk2
          · rintro rfl
            rw [ht] at hk2
            simp only [Option.some.injEq, Prod.mk.injEq] at hk2
            exact hrn (mem_flat.2 ⟨y, hy, by simp [hk2.1]⟩)
        · intro k r' hk
          simp only at hk
          by_cases hkn : k = fold name
          · subst hkn; rw [upd_self] at hk; cases hk
          · rw [upd_ne _ _ hkn] at hk; exact .inl hk
      · rw [if_neg hi0]
        obtain ⟨j, rfl⟩ : ∃ j, i = j + 1 := ⟨i - 1, by omega⟩
        simp only [Nat.add_sub_cancel]
        have hj : j < is.length := by omega
        rw [List.getElem?_eq_getElem hj]
        simp only
        have hpm : is[j] ∈ is := List.getElem_mem hj
        have hsplit : is = is.take j ++ is[j] :: is.drop (j + 1) := by
          rw [List.getElem_cons_drop, List.take_append_drop]
        have hera : is.eraseIdx j = is.take j ++ is.drop (j + 1) := List.eraseIdx_eq_take_drop_succ ..
        have hdrop : (is.eraseIdx j).drop j = is.drop (j + 1) := by
          rw [hera, List.drop_append, List.drop_of_length_le (by simp; omega), List.length_take, Nat.min_eq_left (by omega)]
          simp
        rw [hdrop]
        have hnd2 : is.Nodup := hris.2
        have hpt : is[j] ∉ is.take j ++ is.drop (j + 1) := by
          rw [hsplit] at hnd2
          have := (List.perm_middle (a := is[j]) (l₁ := is.take j) (l₂ := is.drop (j + 1))).nodup_iff.1 hnd2
          exact (List.nodup_cons.1 this).1
        obtain ⟨mem', hs1, hs2, hs3⟩ := shiftIdx_spec (is.drop (j + 1)) (upd g.mem r (some { n with inst := is.eraseIdx j })) (hnd2.sublist (List.drop_sublist _ _)) (by
          intro p hp
          have hp' := List.mem_of_mem_drop hp
          rw [upd_ne _ _ (fun he : p = r => hris.1 (he ▸ hp'))]
          obtain ⟨j', hj'⟩ := List.getElem?_of_mem hp'
          obtain ⟨n', hn', _⟩ := h6.get j' p hj'
          exact ⟨n', hn'⟩)
        rw [hs1]
        refine ⟨_, A ++ (r, is.eraseIdx j) :: B, rfl, ?_, fun k r' hk => .inl hk⟩
        refine h.replace ht (List.eraseIdx_sublist _ _) ?_ (by rfl) (b' := false) (by exact (upd_same ht).symm) ?_ ?_
        · simp only
          have hfull : flat A ++ (r :: is ++ flat B) = (flat A ++ r :: is.take j) ++ is[j] :: (is.drop (j + 1) ++ flat B) := by
            rw [List.append_assoc, List.cons_append, List.cons_append, ← List.cons_append (a := is[j]), ← List.append_assoc (as := is.take j), ← hsplit]
          rw [hord, hera, hfull, erase_mid]
          · simp
          · intro hmem
            rcases List.mem_append.1 hmem with h' | h'
            · exact hnd.2.2 _ h' _ (by simp [hpm]) rfl
            · rcases List.mem_cons.1 h' with h' | h'
              · exact hris.1 (h' ▸ hpm)
              · exact hpt (by simp only [List.mem_append]; exact .inl h')
        · intro p hp
          simp only [List.mem_cons, not_or] at hp
          simp only
          rw [upd_ne _ _ (fun he : p = is[j] => hp.2 (he ▸ hpm)), hs2 p (fun h' => hp.2 (List.mem_of_mem_drop h')), upd_ne _ _ hp.1]
        · refine ⟨{ n with inst := is.eraseIdx j }, ws.eraseIdx j, ?_, rfl, h3, h4, rfl, ?_⟩
          · simp only
            rw [upd_ne _ _ (fun he : r = is[j] => hris.1 (he ▸ hpm)), hs2 r (fun h' => hris.1 (List.mem_of_mem_drop h')), upd_self]
          · refine h6.erase j hj ?_ ?_ (by omega)
            · intro p hp
              simp only
              have hp' := List.mem_of_mem_take hp
              have hpd : p ∉ is.drop (j + 1) := by
                intro h'
                have hnd3 := hnd2
                rw [hsplit, List.nodup_append] at hnd3
                exact hnd3.2.2 p hp p (List.mem_cons_of_mem _ h') rfl
              rw [upd_ne _ _ (fun he : p = is[j] => hpt (by rw [← he]; simp [hp])), hs2 p hpd, upd_ne _ _ (fun he : p = r => hris.1 (he ▸ hp'))]
            · intro p hp n' hn'
              have hp' := List.mem_of_mem_drop hp
              simp only
              rw [upd_ne _ _ (fun he : p = is[j] => hpt (by rw [← he]; simp [hp]))]
              refine hs3 p hp n' ?_
              rw [upd_ne _ _ (fun he : p = r => hris.1 (he ▸ hp')), hn']

/-- The node of the `i`-th value of a name. -/
theorem Inv.getNode {g : Grp V} {gs : List (Nat × List Nat)} {v : List Int → List V} (h : Inv g gs v) (name : List Int) (i : Nat) (hok : ∀ r, g.table (fold name) ≠ some (r, true)) :
    (¬i < (v (fold name)).length ∧ g.getNode name i = some none) ∨
    (∃ p n, g.getNode name i = some (some p) ∧ g.mem p = some n ∧ (v (fold name))[i]? = some n.val ∧ fold n.key = fold name ∧ n.idx = i) := by
  unfold Grp.getNode Grp.find
  cases ht : g.table (fold name) with
  | none => rw [h.absent _ ht]; simp
  | some rb =>
    obtain ⟨r, b⟩ := rb
    have hb : b = false := by
      cases b
      · rfl
      · exact absurd ht (hok r)
    subst hb
    obtain ⟨is, hm, n, ws, h1, h2, h3, h4, h5, h6⟩ := h.tbl _ r _ ht
    simp only at h1 h2 h6
    have hlen := h6.length
    simp only [Bool.false_eq_true, if_false, h1, h2, h5]
    cases i with
    | zero => exact .inr ⟨r, n, by simp, h1, rfl, h3, h4⟩
    | succ j =>
      by_cases hj : j < is.length
      · right
        obtain ⟨m, hm1, hm2, hm3, hm4, hm5⟩ := h6.get j is[j] (List.getElem?_eq_getElem hj)
        exact ⟨is[j], m, by rw [if_neg (by omega), if_neg (by omega), Nat.add_sub_cancel, List.getElem?_eq_getElem hj], hm1, by simpa using hm5, hm3, by omega⟩
      · left
        exact ⟨by simp only [List.length_cons]; omega, by rw [if_neg (by omega), if_pos (by omega)]⟩

theorem Inv.get {g : Grp V} {gs : List (Nat × List Nat)} {v : List Int → List V} (h : Inv g gs v) (name : List Int) (i : Nat) (hok : ∀ r, g.table (fold name) ≠ some (r, true)) :
    g.get name i = some (v (fold name))[i]? := by
  unfold Grp.get
  rcases h.getNode name i hok with ⟨h1, h2⟩ | ⟨p, n, h1, h2, h3, _⟩
  · rw [h2, List.getElem?_eq_none (by omega)]
  · rw [h1]; simp [h2, h3]

theorem Inv.count {g : Grp V} {gs : List (Nat × List Nat)} {v : List Int → List V} (h : Inv g gs v) (name : List Int) (hok : ∀ r, g.table (fold name) ≠ some (r, true)) :
    g.count name = some (v (fold name)).length := by
  unfold Grp.count Grp.find
  cases ht : g.table (fold name) with
  | none => rw [h.absent _ ht]; rfl
  | some rb =>
    obtain ⟨r, b⟩ := rb
    have hb : b = false := by
      cases b
      · rfl
      · exact absurd ht (hok r)
    subst hb
    obtain ⟨is, hm, n, ws, h1, h2, h3, h4, h5, h6⟩ := h.tbl _ r _ ht
    simp only at h1 h2 h6
    simp [h1, h2, h5, h6.length]

/-- Assigning the `i`-th value of a name. -/
theorem Inv.setVal {g : Grp V} {gs : List (Nat × List Nat)} {v : List Int → List V} (h : Inv g gs v) (name : List Int) (i p : Nat) (x : V) (hok : ∀ r, g.table (fold name) ≠ some (r, true))
    (hp : g.getNode name i = some (some p)) :
    ∃ g', g.setVal p x = some g' ∧ Inv g' gs (upd v (fold name) ((v (fold name)).set i x)) ∧ g'.table = g.table := by
  unfold Grp.getNode Grp.find at hp
  cases ht : g.table (fold name) with
  | none => rw [ht] at hp; simp at hp
  | some rb =>
    obtain ⟨r, b⟩ := rb
    have hb : b = false := by
      cases b
      · rfl
      · exact absurd ht (hok r)
    subst hb
    rw [ht] at hp
    obtain ⟨is, hm, n, ws, h1, h2, h3, h4, h5, h6⟩ := h.tbl _ r _ ht
    simp only at h1 h2 h6
    simp only [Bool.false_eq_true, if_false, h1, h2] at hp
    obtain ⟨A, B, rfl⟩ := List.append_of_mem hm
    have hnd := h.nodup
    rw [flat_append, flat_cons, List.nodup_append] at hnd
    simp only at hnd
    have hris := List.nodup_cons.1 (List.nodup_append.1 hnd.2.1).1
    have hpis : p ∈ r :: is ∧ ∃ m, g.mem p = some m := by
      split at hp
      · cases hp; exact ⟨List.mem_cons_self, n, h1⟩
      · split at hp
        · cases hp
        · simp only [Option.some.injEq] at hp
          obtain ⟨m, hm1, _⟩ := h6.get _ p hp
          exact ⟨List.mem_cons_of_mem _ (List.mem_of_getElem? hp), m, hm1⟩
    obtain ⟨m, hm1⟩ := hpis.2
    refine ⟨{ g with mem := upd g.mem p (some { m with val := x }) }, by simp [Grp.setVal, hm1], ?_, rfl⟩
    refine h.replace (g' := { g with mem := upd g.mem p (some { m with val := x }) }) ht (List.Sublist.refl _) (by simp [h.order, flat_append, flat_cons]) rfl (b' := false) (upd_same ht).symm ?_ ?_
    · intro q hq
      simp only
      rw [upd_ne]
      rintro rfl
      exact hq hpis.1
    · rw [h5]
      have tailset : ∀ (l : List Nat) (a : Nat) (us : List V) (j : Nat), l.Nodup → Tail g.mem (fold name) a l us → l[j]? = some p →
          Tail (upd g.mem p (some { m with val := x })) (fold name) a l (us.set j x) := by
        intro l
        induction l with
        | nil => intro a us j _ _ hj; simp at hj
        | cons q l ih =>
          intro a us j hndl htl hj
          cases us with
          | nil => exact htl.elim
          | cons u us =>
            rw [List.nodup_cons] at hndl
            cases j with
            | zero =>
              simp only [List.getElem?_cons_zero, Option.some.injEq] at hj
              subst hj
              obtain ⟨m', hq1, hq2, hq3, hq4, hq5⟩ := htl.1
              rw [hm1] at hq1
              cases hq1
              refine ⟨⟨_, upd_self _ _ _, hq2, hq3, hq4, rfl⟩, htl.2.congr ?_⟩
              intro y hy
              rw [upd_ne]
              rintro rfl
              exact hndl.1 hy
            | succ j =>
              simp only [List.getElem?_cons_succ] at hj
              refine ⟨?_, ih _ us j hndl.2 htl.2 hj⟩
              rw [upd_ne]
              · exact htl.1
              · rintro rfl
                exact hndl.1 (List.mem_of_getElem? hj)
      by_cases hi : i = 0
      · subst hi
        rw [if_pos rfl] at hp
        cases hp
        rw [h1] at hm1
        cases hm1
        refine ⟨_, ws, upd_self _ _ _, h2, h3, h4, rfl, h6.congr ?_⟩
        intro y hy
        simp only
        rw [upd_ne]
        rintro rfl
        exact hris.1 hy
      · rw [if_neg hi] at hp
        split at hp
        · cases hp
        · simp only [Option.some.injEq] at hp
          obtain ⟨j, rfl⟩ : ∃ j, i = j + 1 := ⟨i - 1, by omega⟩
          simp only [Nat.add_sub_cancel] at hp
          refine ⟨n, ws.set j x, ?_, h2, h3, h4, rfl, tailset is 1 ws j hris.2 h6 hp⟩
          simp only
          rw [upd_ne]
          · exact h1
          · rintro rfl
            exact hris.1 (List.mem_of_getElem? hp)

/-! ## Theorems -/

/-- Names and the values they have, in order. -/
def specStep (v : List Int → List V) : Op V → List Int → List V
  | .add n x => upd v (fold n) (v (fold n) ++ [x])
  | .remove n i => upd v (fold n) ((v (fold n)).eraseIdx i)
  | .set n i x => upd v (fold n) ((v (fold n)).set i x)

/-- The invariant, with no key gone. -/
def Ok (g : Grp V) (v : List Int → List V) : Prop := (∃ gs, Inv g gs v) ∧ ∀ k r, g.table k ≠ some (r, true)

theorem fold_length (n : List Int) : (fold n).length = n.length := by simp [fold]

theorem Ok.step {g : Grp V} {v : List Int → List V} (h : Ok g v) (op : Op V) (hn : op.name.length ≤ 15) : ∃ g', g.step op = some g' ∧ Ok g' (specStep v op) := by
  obtain ⟨⟨gs, h⟩, hok⟩ := h
  cases op with
  | add n x =>
    obtain ⟨g', gs', h1, h2, h3, h4⟩ := h.add n x (hok _)
    exact ⟨g', by simp [Grp.step, h1], ⟨gs', h2⟩, fun k r hk => hok k r (h4 k r hk)⟩
  | remove n i =>
    by_cases hi : i < (v (fold n)).length
    · obtain ⟨g', gs', h1, h2, h3⟩ := (h.remove n i (hok _)).2 hi
      refine ⟨g', by simp [Grp.step, h1], ⟨gs', h2⟩, fun k r hk => ?_⟩
      rcases h3 k r hk with h' | ⟨rfl, h'⟩
      · exact hok k r h'
      · rw [fold_length] at h'
        simp only [Op.name] at hn
        omega
    · refine ⟨g, by simp [Grp.step, (h.remove n i (hok _)).1 hi], ⟨gs, ?_⟩, hok⟩
      rw [specStep, List.eraseIdx_of_length_le (by omega), upd_same rfl]
      exact h
  | set n i x =>
    rcases h.getNode n i (hok _) with ⟨h1, h2⟩ | ⟨p, m, h1, h2, h3, _⟩
    · refine ⟨g, by simp [Grp.step, h2], ⟨gs, ?_⟩, hok⟩
      rw [specStep, List.set_eq_of_length_le (by omega), upd_same rfl]
      exact h
    · obtain ⟨g', hs1, hs2, hs3⟩ := h.setVal n i p x (hok _) h1
      exact ⟨g', by simp [Grp.step, h1, hs1], ⟨gs, hs2⟩, by rw [hs3]; exact hok⟩

theorem Ok.run {g : Grp V} {v : List Int → List V} (h : Ok g v) : ∀ ops : List (Op V), (∀ op ∈ ops, op.name.length ≤ 15) → ∃ g', ops.foldlM Grp.step g = some g' ∧ Ok g' (ops.foldl specStep v) := by
  intro ops
  induction ops generalizing g v with
  | nil => intro _; exact ⟨g, rfl, h⟩
  | cons op ops ih =>
    intro hn
    obtain ⟨g1, h1, h2⟩ := h.step op (hn op List.mem_cons_self)
    obtain ⟨g2, h3, h4⟩ := ih h2 fun o ho => hn o (List.mem_cons_of_mem _ ho)
    exact ⟨g2, by rw [List.foldlM_cons, h1]; exact h3, h4⟩

theorem Tail.nodes {mem : Nat → Option (Node V)} {k : List Int} {l : List Nat} : ∀ {i : Nat} {vs : List V}, Tail mem k i l vs →
    ∃ ns : List (Node V), l.mapM mem = some ns ∧ ns.map (·.val) = vs ∧ (∀ n ∈ ns, fold n.key = k) ∧ ns.map (·.idx) = List.range' i l.length := by
  induction l with
  | nil =>
    intro i vs h
    cases vs with
    | nil => exact ⟨[], rfl, rfl, by simp, rfl⟩
    | cons => exact h.elim
  | cons p l ih =>
    intro i vs h
    cases vs with
    | nil => exact h.elim
    | cons v vs =>
      obtain ⟨n, h1, h2, h3, h4, h5⟩ := h.1
      obtain ⟨ns, h6, h7, h8, h9⟩ := ih h.2
      refine ⟨n :: ns, by simp [h1, h6], by simp [h5, h7], ?_, by simp [h4, h9, List.range'_succ]⟩
      intro m hm
      rcases List.mem_cons.1 hm with rfl | hm
      · exact h3
      · exact h8 m hm

theorem Group.nodes {mem : Nat → Option (Node V)} {k : List Int} {x : Nat × List Nat} {vs : List V} (h : Group mem k x vs) :
    ∃ ns : List (Node V), (x.1 :: x.2).mapM mem = some ns ∧ ns.map (·.val) = vs ∧ (∀ n ∈ ns, fold n.key = k) ∧ ns.map (·.idx) = List.range vs.length := by
  obtain ⟨n, ws, h1, h2, h3, h4, h5, h6⟩ := h
  obtain ⟨ns, h7, h8, h9, h10⟩ := h6.nodes
  refine ⟨n :: ns, by simp [h1, h7], by simp [h5, h8], ?_, ?_⟩
  · intro m hm
    rcases List.mem_cons.1 hm with rfl | hm
    · exact h3
    · exact h9 m hm
  · rw [List.map_cons, h10, h4, h5, List.length_cons, List.range_eq_range', List.range'_succ, h6.length]

open Classical in
/-- The nodes of groups with different names: per name, its values in order. -/
theorem groups_nodes {mem : Nat → Option (Node V)} {v : List Int → List V} : ∀ gs : List (Nat × List Nat), (flat gs).Nodup → (∀ x ∈ gs, ∃ k, Group mem k x (v k)) →
    (∀ x ∈ gs, ∀ y ∈ gs, ∀ k, Group mem k x (v k) → Group mem k y (v k) → x = y) →
    ∃ ns : List (Node V), (flat gs).mapM mem = some ns ∧
      ∀ k, ((ns.filter fun n => fold n.key == k).map fun n => (n.val, n.idx)) = if ∃ x ∈ gs, Group mem k x (v k) then (v k).zip (List.range (v k).length) else [] := by
  classical
  intro gs
  induction gs with
  | nil => intro _ _ _; exact ⟨[], rfl, by simp⟩
  | cons x gs ih =>
    intro hnd hg huniq
    rw [flat_cons, List.nodup_append] at hnd
    obtain ⟨ns, h1, h2⟩ := ih hnd.2.1 (fun y hy => hg y (List.mem_cons_of_mem _ hy)) fun y hy z hz => huniq y (List.mem_cons_of_mem _ hy) z (List.mem_cons_of_mem _ hz)
    obtain ⟨kx, hx⟩ := hg x List.mem_cons_self
    obtain ⟨ms, h3, h4, h5, h6⟩ := hx.nodes
    refine ⟨ms ++ ns, by rw [flat_cons, List.mapM_append, h3, h1]; rfl, ?_⟩
    intro k
    rw [List.filter_append, List.map_append, h2 k]
    by_cases hk : k = kx
    · subst hk
      have hno : ¬∃ y ∈ gs, Group mem k y (v k) := by
        rintro ⟨y, hy, hgy⟩
        have := huniq x List.mem_cons_self y (List.mem_cons_of_mem _ hy) k hx hgy
        subst this
        exact hnd.2.2 x.1 List.mem_cons_self x.1 (mem_flat.2 ⟨x, hy, List.mem_cons_self⟩) rfl
      rw [if_neg hno, if_pos ⟨x, List.mem_cons_self, hx⟩, List.filter_eq_self.2 (fun n hn => by simp [h5 n hn]), List.append_nil, ← h6, ← h4]
      simp [List.zip_map']
    · have hms : ms.filter (fun n => fold n.key == k) = [] := by
        rw [List.filter_eq_nil_iff]
        intro n hn
        rw [h5 n hn]
        simp [Ne.symm hk]
      rw [hms, List.map_nil, List.nil_append]
      by_cases hex : ∃ y ∈ gs, Group mem k y (v k)
      · obtain ⟨y, hy, hgy⟩ := hex
        rw [if_pos ⟨y, hy, hgy⟩, if_pos ⟨y, List.mem_cons_of_mem _ hy, hgy⟩]
      · rw [if_neg hex, if_neg]
        rintro ⟨y, hy, hgy⟩
        rcases List.mem_cons.1 hy with rfl | hy
        · apply hk
          obtain ⟨n, _, a1, _, a2, _⟩ := hgy
          obtain ⟨n', _, b1, _, b2, _⟩ := hx
          rw [a1] at b1
          cases b1
          rw [← a2, ← b2]
        · exact hex ⟨y, hy, hgy⟩

theorem Inv.nodes {g : Grp V} {gs : List (Nat × List Nat)} {v : List Int → List V} (h : Inv g gs v) :
    ∃ ns : List (Node V), g.order.mapM g.mem = some ns ∧ ∀ k, ((ns.filter fun n => fold n.key == k).map fun n => (n.val, n.idx)) = (v k).zip (List.range (v k).length) := by
  classical
  have hroot : ∀ x ∈ gs, ∃ k b, g.table k = some (x.1, b) ∧ Group g.mem k x (v k) := by
    intro x hx
    obtain ⟨k, b, hk⟩ := h.roots x hx
    obtain ⟨is, hm, hg⟩ := h.tbl k x.1 b hk
    have := unique_group h.nodup hx hm List.mem_cons_self List.mem_cons_self
    exact ⟨k, b, hk, by rw [this]; exact hg⟩
  have hkey : ∀ {x k k'}, Group g.mem k x (v k) → Group g.mem k' x (v k') → k = k' := by
    intro x k k' h1 h2
    obtain ⟨n, _, a1, _, a2, _⟩ := h1
    obtain ⟨n', _, b1, _, b2, _⟩ := h2
    rw [a1] at b1
    cases b1
    rw [← a2, ← b2]
  obtain ⟨ns, h1, h2⟩ := groups_nodes (mem := g.mem) (v := v) gs h.nodup (fun x hx => (hroot x hx).imp fun k ⟨_, _, hg⟩ => hg) (by
    intro x hx y hy k hgx hgy
    obtain ⟨kx, bx, htx, hgx'⟩ := hroot x hx
    obtain ⟨ky, by_, hty, hgy'⟩ := hroot y hy
    have e1 := hkey hgx hgx'
    have e2 := hkey hgy hgy'
    subst e1 e2
    rw [htx] at hty
    simp only [Option.some.injEq, Prod.mk.injEq] at hty
    exact unique_group h.nodup hx hy List.mem_cons_self (by rw [hty.1]; exact List.mem_cons_self))
  refine ⟨ns, by rw [h.order]; exact h1, ?_⟩
  intro k
  rw [h2 k]
  split
  · rfl
  · rename_i hno
    cases ht : g.table k with
    | none => rw [h.absent k ht]; rfl
    | some rb =>
      obtain ⟨is, hm, hg⟩ := h.tbl k rb.1 rb.2 ht
      exact absurd ⟨_, hm, hg⟩ hno

/-- **C105**, for names of at most 15 characters: after any history of adding, removing and assigning, starting from nothing, a name and an instance number lead to the value that
the history put there: an added value is the last of its name (ignoring case), and removing one moves the later ones of its name down. The number of values of a name is right; going
through the list meets every value once, those of one name in the order of their instance numbers, and each knows its instance number. Missing: longer names, see the
counterexample. -/
theorem C105_history_partial (ops : List (Op V)) (hn : ∀ op ∈ ops, op.name.length ≤ 15) :
    ∃ g, ops.foldlM Grp.step Grp.empty = some g ∧
      (∀ name i, g.get name i = some (ops.foldl specStep (fun _ => []) (fold name))[i]?) ∧ (∀ name, g.count name = some (ops.foldl specStep (fun _ => []) (fold name)).length) ∧
      ∃ ns : List (Node V), g.order.mapM g.mem = some ns ∧ ∀ k, ((ns.filter fun n => fold n.key == k).map fun n => (n.val, n.idx)) =
        (ops.foldl specStep (fun _ => []) k).zip (List.range (ops.foldl specStep (fun _ => []) k).length) := by
  obtain ⟨g, h1, ⟨gs, h2⟩, h3⟩ := Ok.run (g := (Grp.empty : Grp V)) (v := fun _ => []) ⟨⟨[], Inv.empty⟩, by simp [Grp.empty]⟩ ops hn
  exact ⟨g, h1, fun name i => h2.get name i (h3 _), fun name => h2.count name (h3 _), h2.nodes⟩

/-- A repeated name in different case: the first of three is removed, the last replaced. -/
example : ∃ g : Grp Nat, [Op.add [97] 1, .add [98] 2, .add [65] 3, .add [97] 4, .remove [97] 0, .set [97] 1 5].foldlM Grp.step Grp.empty = some g ∧ g.get [65] 0 = some (some 3) ∧
    g.get [97] 1 = some (some 5) ∧ g.get [97] 2 = some none ∧ g.count [97] = some 2 ∧ g.get [98] 0 = some (some 2) ∧ (g.order.mapM g.mem).map (List.map fun n => n.val) = some [3, 5, 2] := by
  refine ⟨_, rfl, ?_⟩
  decide +kernel

/-- Removing the first of several sections or entries of a name of 16 characters leaves the hash with a pointer to freed characters, which the next look-up of the name reads. -/
theorem C105_long_name_counterexample : ∃ g : Grp Nat, [Op.add (List.replicate 16 97) 1, .add (List.replicate 16 97) 2, .remove (List.replicate 16 97) 0].foldlM Grp.step Grp.empty = some g ∧
    g.get (List.replicate 16 97) 0 = none := by
  refine ⟨_, rfl, ?_⟩
  decide +kernel

end Verif.IniDoc
