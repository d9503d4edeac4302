import Verif.IniDoc.DocView

/-!
# What can be looked up in a storage in memory
-/

namespace Verif.IniDoc

open Verif.Ini.Spec (fold)
open Verif.IniDoc.Spec

variable {V : Type}

/-- The sections and entries in memory are the ones of the view. -/
def MemView (secs : Grp Sec) (w : View) : Prop := ∃ v : List Int → List Sec, Ok secs v ∧ ∀ n, List.Forall₂ (fun g s => Ok g s) (v n) (w n)

theorem Ok.empty : Ok (Grp.empty : Grp V) fun _ => [] := ⟨⟨[], Inv.empty⟩, by simp [Grp.empty]⟩

theorem MemView.empty : MemView Grp.empty fun _ => [] := ⟨fun _ => [], Ok.empty, fun _ => .nil⟩

theorem Ok.find {g : Grp V} {v : List Int → List V} (h : Ok g v) (name : List Int) : (g.find name = some none ∧ v (fold name) = []) ∨ ∃ r, g.find name = some (some r) ∧ v (fold name) ≠ [] := by
  obtain ⟨⟨gs, h⟩, hok⟩ := h
  unfold Grp.find
  cases ht : g.table (fold name) with
  | none => exact .inl ⟨rfl, h.absent _ ht⟩
  | some rb =>
    obtain ⟨r, b⟩ := rb
    obtain ⟨is, _, n, ws, _, _, _, _, h5, _⟩ := h.tbl _ _ _ ht
    cases b with
    | true => exact absurd ht (hok _ _)
    | false => exact .inr ⟨r, rfl, by rw [h5]; simp⟩

/-- The node that was added is found under its name as the last one. -/
theorem Ok.add {g : Grp V} {v : List Int → List V} (h : Ok g v) (name : List Int) (x : V) :
    ∃ g', g.add name x = some (g', g.fresh) ∧ Ok g' (upd v (fold name) (v (fold name) ++ [x])) ∧ g'.getNode name (v (fold name)).length = some (some g.fresh) ∧
      g'.mem g.fresh = some ⟨name, x, (v (fold name)).length, []⟩ := by
  obtain ⟨⟨gs, h⟩, hok⟩ := h
  obtain ⟨g', gs', h1, h2, h3, h4⟩ := h.add name x (hok _)
  refine ⟨g', h1, ⟨⟨gs', h2⟩, fun k r hk => hok k r (h4 k r hk)⟩, ?_, h3⟩
  have h1' := h1
  unfold Grp.add Grp.find at h1'
  cases ht : g.table (fold name) with
  | none =>
    rw [ht] at h1'
    simp only [Option.some.injEq, Prod.mk.injEq, and_true] at h1'
    rw [h.absent _ ht] at h3 ⊢
    unfold Grp.getNode Grp.find
    have : g'.table (fold name) = some (g.fresh, false) := by rw [← h1']; exact upd_self _ _ _
    rw [this]
    simp only [Bool.false_eq_true, if_false]
    rw [h3]
    rfl
  | some rb =>
    obtain ⟨r, b⟩ := rb
    cases b with
    | true => exact absurd ht (hok _ _)
    | false =>
      obtain ⟨is, hm, n, ws, a1, a2, a3, a4, a5, a6⟩ := h.tbl _ _ _ ht
      simp only at a1 a2
      rw [ht] at h1'
      simp only [Bool.false_eq_true, if_false, a1, Option.some.injEq, Prod.mk.injEq, and_true] at h1'
      have hr : r ≠ g.fresh := Nat.ne_of_lt (h.lt r (h.root_mem ht))
      have hmr : g'.mem r = some { n with inst := n.inst ++ [g.fresh] } := by rw [← h1']; simp only; rw [upd_ne _ _ hr, upd_self]
      have htr : g'.table (fold name) = some (r, false) := by rw [← h1']; exact ht
      have hl : (v (fold name)).length = n.inst.length + 1 := by rw [a5, List.length_cons, a6.length, a2]
      unfold Grp.getNode Grp.find
      rw [htr, hl]
      simp only [Bool.false_eq_true, if_false, hmr, Nat.add_eq_zero_iff, Nat.one_ne_zero, and_false, List.length_append, List.length_singleton, gt_iff_lt, Nat.lt_irrefl, Nat.add_sub_cancel]
      simp

theorem setVal_getNode {g g' : Grp V} {p : Nat} {x : V} (h : g.setVal p x = some g') (name : List Int) (i : Nat) : g'.getNode name i = g.getNode name i := by
  unfold Grp.setVal at h
  rw [Option.map_eq_some_iff] at h
  obtain ⟨n, h1, rfl⟩ := h
  unfold Grp.getNode Grp.find
  dsimp only
  cases g.table (fold name) with
  | none => rfl
  | some rb =>
    obtain ⟨r, b⟩ := rb
    cases b with
    | true => rfl
    | false =>
      simp only [Bool.false_eq_true, if_false]
      by_cases hr : r = p
      · subst hr
        rw [upd_self, h1]
      · rw [upd_ne _ _ hr]

theorem Ok.set {g : Grp V} {v : List Int → List V} (h : Ok g v) {name : List Int} {i p : Nat} (hp : g.getNode name i = some (some p)) (x : V) :
    ∃ g', g.setVal p x = some g' ∧ Ok g' (upd v (fold name) ((v (fold name)).set i x)) := by
  obtain ⟨⟨gs, h⟩, hok⟩ := h
  obtain ⟨g', h1, h2, h3⟩ := h.setVal name i p x (hok _) hp
  exact ⟨g', h1, ⟨gs, h2⟩, by rw [h3]; exact hok⟩

theorem Ok.getNode {g : Grp V} {v : List Int → List V} (h : Ok g v) (name : List Int) (i : Nat) : (¬i < (v (fold name)).length ∧ g.getNode name i = some none) ∨
    (∃ p n, g.getNode name i = some (some p) ∧ g.mem p = some n ∧ (v (fold name))[i]? = some n.val ∧ n.idx = i) := by
  obtain ⟨⟨gs, h⟩, hok⟩ := h
  rcases h.getNode name i (hok _) with h | ⟨p, n, a, b, c, _, d⟩
  · exact .inl h
  · exact .inr ⟨p, n, a, b, c, d⟩

theorem Ok.get {g : Grp V} {v : List Int → List V} (h : Ok g v) (name : List Int) (i : Nat) : g.get name i = some (v (fold name))[i]? := by
  obtain ⟨⟨gs, h⟩, hok⟩ := h
  exact h.get name i (hok _)

theorem Ok.remove {g : Grp V} {v : List Int → List V} (h : Ok g v) (name : List Int) (i : Nat) (hn : name.length ≤ 15) : (¬i < (v (fold name)).length → g.remove name i = some none) ∧
    (i < (v (fold name)).length → ∃ g', g.remove name i = some (some g') ∧ Ok g' (upd v (fold name) ((v (fold name)).eraseIdx i))) := by
  obtain ⟨⟨gs, h⟩, hok⟩ := h
  obtain ⟨a, b⟩ := h.remove name i (hok _)
  refine ⟨a, fun hi => ?_⟩
  obtain ⟨g', gs', h1, h2, h3⟩ := b hi
  refine ⟨g', h1, ⟨gs', h2⟩, fun k r hk => ?_⟩
  rcases h3 k r hk with h' | ⟨rfl, h'⟩
  · exact hok k r h'
  · rw [fold_length] at h'
    omega

theorem Forall₂.get {A B : Type} {R : A → B → Prop} {a : List A} {b : List B} (h : List.Forall₂ R a b) (i : Nat) : (a[i]? = none ∧ b[i]? = none) ∨ ∃ x y, a[i]? = some x ∧ b[i]? = some y ∧ R x y := by
  induction h generalizing i with
  | nil => exact .inl ⟨rfl, rfl⟩
  | cons hr _ ih =>
    cases i with
    | zero => exact .inr ⟨_, _, rfl, rfl, hr⟩
    | succ i => simpa using ih i

theorem Forall₂.set {A B : Type} {R : A → B → Prop} {a : List A} {b : List B} (h : List.Forall₂ R a b) (i : Nat) {x : A} {y : B} (hr : R x y) : List.Forall₂ R (a.set i x) (b.set i y) := by
  induction h generalizing i with
  | nil => exact .nil
  | cons h1 h2 ih =>
    cases i with
    | zero => exact .cons hr h2
    | succ i => exact .cons h1 (ih i)

theorem Forall₂.erase {A B : Type} {R : A → B → Prop} {a : List A} {b : List B} (h : List.Forall₂ R a b) (i : Nat) : List.Forall₂ R (a.eraseIdx i) (b.eraseIdx i) := by
  induction h generalizing i with
  | nil => exact .nil
  | cons h1 h2 ih =>
    cases i with
    | zero => exact h2
    | succ i => exact .cons h1 (ih i)

theorem Forall₂.snoc {A B : Type} {R : A → B → Prop} {a : List A} {b : List B} (h : List.Forall₂ R a b) {x : A} {y : B} (hr : R x y) : List.Forall₂ R (a ++ [x]) (b ++ [y]) := by
  induction h with
  | nil => exact .cons hr .nil
  | cons h1 _ ih => exact .cons h1 ih

theorem Forall₂.len {A B : Type} {R : A → B → Prop} {a : List A} {b : List B} (h : List.Forall₂ R a b) : a.length = b.length := by
  induction h with
  | nil => rfl
  | cons _ _ ih => simp [ih]

theorem MemView.upd {v : List Int → List Sec} {w : View} (h : ∀ n, List.Forall₂ (fun g s => Ok g s) (v n) (w n)) {k : List Int} {a : List Sec} {b : List (List Int → List (List Int))} (hk : List.Forall₂ (fun g s => Ok g s) a b) :
    ∀ n, List.Forall₂ (fun g s => Ok g s) (Verif.IniDoc.upd v k a n) (Verif.IniDoc.upd w k b n) := by
  intro n
  by_cases hn : n = k
  · subst hn; rw [upd_self, upd_self]; exact hk
  · rw [upd_ne _ _ hn, upd_ne _ _ hn]; exact h n

theorem MemView.find {secs : Grp Sec} {w : View} (h : MemView secs w) (name : List Int) : (secs.find name = some none ∧ w (fold name) = []) ∨ ∃ r, secs.find name = some (some r) ∧ w (fold name) ≠ [] := by
  obtain ⟨v, h1, h2⟩ := h
  have hl := Forall₂.len (h2 (fold name))
  rcases h1.find name with ⟨a, b⟩ | ⟨r, a, b⟩
  · exact .inl ⟨a, List.eq_nil_of_length_eq_zero (by rw [← hl, b]; rfl)⟩
  · exact .inr ⟨r, a, fun h0 => b (List.eq_nil_of_length_eq_zero (by rw [hl, h0]; rfl))⟩

theorem MemView.add {secs : Grp Sec} {w : View} (h : MemView secs w) (name : List Int) :
    ∃ g', secs.add name Grp.empty = some (g', secs.fresh) ∧ MemView g' (Verif.IniDoc.upd w (fold name) (w (fold name) ++ [fun _ => []])) ∧
      g'.getNode name (w (fold name)).length = some (some secs.fresh) ∧ ∃ n, g'.mem secs.fresh = some n ∧ n.idx = (w (fold name)).length := by
  obtain ⟨v, h1, h2⟩ := h
  have hl := Forall₂.len (h2 (fold name))
  obtain ⟨g', a, b, c, d⟩ := h1.add name (Grp.empty : Sec)
  exact ⟨g', a, ⟨_, b, MemView.upd h2 (Forall₂.snoc (h2 _) Ok.empty)⟩, by rw [← hl]; exact c, _, d, by rw [← hl]⟩

theorem MemView.remove {secs : Grp Sec} {w : View} (h : MemView secs w) (name : List Int) (i : Nat) (hn : name.length ≤ 15) : (¬i < (w (fold name)).length → secs.remove name i = some none) ∧
    (i < (w (fold name)).length → ∃ g', secs.remove name i = some (some g') ∧ MemView g' (Verif.IniDoc.upd w (fold name) ((w (fold name)).eraseIdx i))) := by
  obtain ⟨v, h1, h2⟩ := h
  have hl := Forall₂.len (h2 (fold name))
  obtain ⟨a, b⟩ := h1.remove name i hn
  rw [hl] at a b
  refine ⟨a, fun hi => ?_⟩
  obtain ⟨g', h3, h4⟩ := b hi
  exact ⟨g', h3, _, h4, MemView.upd h2 (Forall₂.erase (h2 _) i)⟩

theorem MemView.getNode {secs : Grp Sec} {w : View} (h : MemView secs w) (name : List Int) (i : Nat) : (¬i < (w (fold name)).length ∧ secs.getNode name i = some none) ∨
    (∃ p n s, secs.getNode name i = some (some p) ∧ secs.mem p = some n ∧ n.idx = i ∧ (w (fold name))[i]? = some s ∧ Ok n.val s ∧
      ∀ g' s', Ok g' s' → ∃ secs', secs.setVal p g' = some secs' ∧ MemView secs' (Verif.IniDoc.upd w (fold name) ((w (fold name)).set i s')) ∧ ∀ name i, secs'.getNode name i = secs.getNode name i) := by
  obtain ⟨v, h1, h2⟩ := h
  have hl := Forall₂.len (h2 (fold name))
  rcases h1.getNode name i with ⟨a, b⟩ | ⟨p, n, a, b, c, d⟩
  · exact .inl ⟨by rw [← hl]; exact a, b⟩
  · rcases Forall₂.get (h2 (fold name)) i with ⟨e, _⟩ | ⟨x, y, e, f, hr⟩
    · rw [e] at c; cases c
    · rw [e] at c
      cases c
      refine .inr ⟨p, n, y, a, b, d, f, hr, ?_⟩
      intro g' s' hok
      obtain ⟨secs', s1, s2⟩ := h1.set a g'
      exact ⟨secs', s1, ⟨_, s2, MemView.upd h2 (Forall₂.set (h2 _) i hok)⟩, fun name i => setVal_getNode s1 name i⟩

/-- The value of an entry, as `GetEntryPtr` of `GetSection` finds it. -/
def lookup (secs : Grp Sec) (name : List Int) (i : Nat) (key : List Int) (j : Nat) : Option (Option (List Int)) :=
  match secs.get name i with
  | none => none
  | some none => some none
  | some (some g) => g.get key j

theorem MemView.lookup {secs : Grp Sec} {w : View} (h : MemView secs w) (name : List Int) (i : Nat) (key : List Int) (j : Nat) :
    lookup secs name i key j = some ((w (fold name))[i]?.bind fun s => (s (fold key))[j]?) := by
  obtain ⟨v, h1, h2⟩ := h
  unfold IniDoc.lookup
  rw [h1.get]
  rcases Forall₂.get (h2 (fold name)) i with ⟨a, b⟩ | ⟨x, y, a, b, hr⟩
  · rw [a, b]; rfl
  · rw [a, b]
    simp only [Option.bind_some]
    exact hr.get key j

/-! ## Loading -/

theorem view_addEnt {d : Doc} {w : List Int} {es : List (List Int × List Int)} (k x : List Int) :
    view (addEnt (d ++ [(w, es)]) (k, x)) = upd (view (d ++ [(w, es)])) (fold w) ((view (d ++ [(w, es)]) (fold w)).set ((view (d ++ [(w, es)]) (fold w)).length - 1)
      (upd (vals es) (fold k) (vals es (fold k) ++ [x]))) := by
  have hv : vals (es ++ [(k, x)]) = upd (vals es) (fold k) (vals es (fold k) ++ [x]) := by
    funext z
    rw [vals_append, vals_single]
    by_cases hx : z = fold k
    · subst hx; rw [upd_self, if_pos rfl]
    · rw [upd_ne _ _ hx, if_neg (Ne.symm hx), List.append_nil]
  funext m
  have ha : addEnt (d ++ [(w, es)]) (k, x) = d ++ [(w, es ++ [(k, x)])] := by simp [addEnt]
  rw [ha, view_append, view_single]
  by_cases hm : m = fold w
  · subst hm
    rw [upd_self, if_pos rfl, view_append, view_single, if_pos rfl, hv]
    simp
  · rw [upd_ne _ _ hm, view_append, view_single, if_neg (Ne.symm hm), if_neg (Ne.symm hm)]

/-- The state while loading: `d` is the document so far. -/
def Loaded (d : Doc) (s : Grp Sec × Option Nat) : Prop :=
  MemView s.1 (view d) ∧ ((d = [] ∧ s.2 = none) ∨ ∃ d' w es p, d = d' ++ [(w, es)] ∧ s.2 = some p ∧ s.1.getNode w ((view d (fold w)).length - 1) = some (some p))

theorem Loaded.sec {d : Doc} {s : Grp Sec × Option Nat} (h : Loaded d s) (n : List Int) : ∃ s', s.1.add n Grp.empty = some s' ∧ Loaded (d ++ [(n, [])]) (s'.1, some s'.2) := by
  obtain ⟨g', a, b, c, _⟩ := h.1.add n
  have hv : view (d ++ [(n, [])]) = upd (view d) (fold n) (view d (fold n) ++ [fun _ => []]) := by
    funext m
    rw [view_append, view_single]
    by_cases hm : m = fold n
    · subst hm; rw [upd_self, if_pos rfl]; rfl
    · rw [upd_ne _ _ hm, if_neg (Ne.symm hm), List.append_nil]
  refine ⟨_, a, ?_, .inr ⟨d, n, [], _, rfl, rfl, ?_⟩⟩
  · rw [hv]; exact b
  · rw [hv, upd_self, List.length_append]
    exact c

theorem Loaded.ent {d : Doc} {w : List Int} {es : List (List Int × List Int)} {g : Grp Sec} {p : Nat} (h : MemView g (view (d ++ [(w, es)]))) (hp : g.getNode w ((view (d ++ [(w, es)]) (fold w)).length - 1) = some (some p))
    (k x : List Int) : ∃ n e q g', g.mem p = some n ∧ n.val.add k x = some (e, q) ∧ g.setVal p e = some g' ∧ Loaded (addEnt (d ++ [(w, es)]) (k, x)) (g', some p) := by
  rcases h.getNode w ((view (d ++ [(w, es)]) (fold w)).length - 1) with ⟨_, b⟩ | ⟨p', n, s, a, b, _, c, e, f⟩
  · rw [b] at hp; cases hp
  · rw [a] at hp
    cases hp
    obtain ⟨e', h1, h2, _, _⟩ := e.add k x
    obtain ⟨g', h3, h4, h5⟩ := f _ _ h2
    refine ⟨n, e', _, g', b, h1, h3, ?_⟩
    have hs : s = vals es := by
      rw [view_append, view_single, if_pos rfl, List.length_append, List.length_singleton, Nat.add_sub_cancel, List.getElem?_append_right (Nat.le_refl _), Nat.sub_self] at c
      simpa using c.symm
    subst hs
    refine ⟨by rw [view_addEnt]; exact h4, .inr ⟨d, w, es ++ [(k, x)], p, by simp [addEnt], rfl, ?_⟩⟩
    rw [h5, ← a]
    congr 1
    rw [view_addEnt, upd_self, List.length_set]

theorem Loaded.step {d : Doc} {s : Grp Sec × Option Nat} (h : Loaded d s) (e : Ev) : ∃ s', loadStep s e = some s' ∧ Loaded (Spec.apply d e) s' := by
  cases e with
  | sec n =>
    obtain ⟨s', a, b⟩ := h.sec n
    exact ⟨_, by rw [loadStep, a]; rfl, b⟩
  | ent k x =>
    obtain ⟨g, cur⟩ := s
    unfold loadStep
    rw [Spec.apply]
    rcases h.2 with ⟨rfl, hc⟩ | ⟨d', w, es, p, rfl, hc, hp⟩
    · simp only at hc
      subst hc
      obtain ⟨s', a, b⟩ := h.sec []
      obtain ⟨g', p⟩ := s'
      simp only at a b
      rw [a]
      rcases b.2 with ⟨b', _⟩ | ⟨d', w, es, p', b1, b2, b3⟩
      · cases b'
      · have : d' = [] ∧ w = [] ∧ es = [] := by
          have := List.append_inj' b1 rfl
          simp at this
          tauto
        obtain ⟨rfl, rfl, rfl⟩ := this
        cases b2
        obtain ⟨n, e, q, g2, c1, c2, c3, c4⟩ := Loaded.ent (d := []) b.1 b3 k x
        simp only at c1 c3
        refine ⟨(g2, some p), by simp only [c1, c2, c3, Option.map_some], ?_⟩
        exact c4
    · simp only at hc
      subst hc
      obtain ⟨n, e, q, g2, c1, c2, c3, c4⟩ := Loaded.ent h.1 hp k x
      simp only at c1 c3
      exact ⟨(g2, some p), by simp only [c1, c2, c3, Option.map_some], c4⟩

theorem load_view (evs : List Ev) : ∃ g, loadEvents evs = some g ∧ MemView g (view (doc evs)) := by
  have : ∀ (evs : List Ev) (d : Doc) (s : Grp Sec × Option Nat), Loaded d s → ∃ s', evs.foldlM loadStep s = some s' ∧ Loaded (evs.foldl Spec.apply d) s' := by
    intro evs
    induction evs with
    | nil => intro d s h; exact ⟨s, rfl, h⟩
    | cons e evs ih =>
      intro d s h
      obtain ⟨s1, a, b⟩ := h.step e
      obtain ⟨s2, c, d⟩ := ih _ _ b
      exact ⟨s2, by rw [List.foldlM_cons, a]; exact c, d⟩
  obtain ⟨s, a, b⟩ := this evs [] (Grp.empty, none) ⟨MemView.empty, .inl ⟨rfl, rfl⟩⟩
  exact ⟨s.1, by rw [loadEvents, a]; rfl, b.1⟩

end Verif.IniDoc
