import Verif.IniDoc.TextOps
import Verif.IniDoc.GroupProps

/-!
# What can be looked up, before and after a change of what the lines say
-/

namespace Verif.IniDoc

open Verif.Ini.Spec (fold)
open Verif.IniDoc.Spec

/-- The entries among what the lines of a section say. -/
def ents (evs : List Ev) : List (List Int × List Int) := evs.filterMap fun
  | .ent k v => some (k, v)
  | .sec _ => none

theorem addEnt_append (d d' : Doc) (e : List Int × List Int) (h : d' ≠ []) : addEnt (d ++ d') e = d ++ addEnt d' e ∧ addEnt d' e ≠ [] := by
  obtain ⟨L, m, rfl⟩ : ∃ L m, d' = L ++ [m] := by
    rcases List.eq_nil_or_concat d' with h' | ⟨L, m, h'⟩
    · exact absurd h' h
    · exact ⟨L, m, by rw [h', List.concat_eq_append]⟩
  simp [addEnt, ← List.append_assoc]

theorem apply_append (d d' : Doc) (e : Ev) (h : d' ≠ []) : Spec.apply (d ++ d') e = d ++ Spec.apply d' e ∧ Spec.apply d' e ≠ [] := by
  cases e with
  | sec n => simp [Spec.apply]
  | ent k v => exact addEnt_append d d' (k, v) h

theorem foldl_apply_append (d : Doc) : ∀ (evs : List Ev) (d' : Doc), d' ≠ [] → evs.foldl Spec.apply (d ++ d') = d ++ evs.foldl Spec.apply d' := by
  intro evs
  induction evs with
  | nil => intro d' _; rfl
  | cons e evs ih =>
    intro d' h
    obtain ⟨h1, h2⟩ := apply_append d d' e h
    rw [List.foldl_cons, List.foldl_cons, h1, ih _ h2]

theorem foldl_apply_next (d : Doc) {c : List Ev} (h : ∀ e ∈ c.head?, ∃ w, e = .sec w) : c.foldl Spec.apply d = d ++ doc c := by
  cases c with
  | nil => simp [doc]
  | cons e c =>
    obtain ⟨w, rfl⟩ := h e rfl
    rw [doc, List.foldl_cons, List.foldl_cons, Spec.apply, Spec.apply, foldl_apply_append d c _ (by simp), List.nil_append]

theorem foldl_apply_ents (w : List Int) : ∀ (b : List Ev) (es : List (List Int × List Int)), (∀ e ∈ b, ∃ k v, e = .ent k v) → b.foldl Spec.apply [(w, es)] = [(w, es ++ ents b)] := by
  intro b
  induction b with
  | nil => intro es _; simp [ents]
  | cons e b ih =>
    intro es h
    obtain ⟨k, v, rfl⟩ := h e List.mem_cons_self
    rw [List.foldl_cons, show Spec.apply [(w, es)] (.ent k v) = [(w, es ++ [(k, v)])] from rfl, ih _ fun e he => h e (List.mem_cons_of_mem _ he)]
    simp [ents]

theorem doc_sec (a : List Ev) (w : List Int) {b c : List Ev} (hb : ∀ e ∈ b, ∃ k v, e = .ent k v) (hc : ∀ e ∈ c.head?, ∃ w, e = .sec w) :
    doc (a ++ .sec w :: (b ++ c)) = doc a ++ [(w, ents b)] ++ doc c := by
  rw [doc, List.foldl_append, List.foldl_cons, Spec.apply, foldl_apply_append _ _ _ (by simp), List.foldl_append, foldl_apply_ents w b [] hb, foldl_apply_next _ hc, List.nil_append, ← doc]
  simp

theorem doc_next (a : List Ev) {c : List Ev} (hc : ∀ e ∈ c.head?, ∃ w, e = .sec w) : doc (a ++ c) = doc a ++ doc c := by
  rw [doc, List.foldl_append, foldl_apply_next _ hc, ← doc]

theorem view_append (d d' : Doc) (n : List Int) : view (d ++ d') n = view d n ++ view d' n := by simp [view]

theorem view_addEnt_length (d : Doc) (e : List Int × List Int) {n : List Int} (hn : n ≠ []) : (view (addEnt d e) n).length = (view d n).length := by
  rcases List.eq_nil_or_concat d with rfl | ⟨L, m, rfl⟩
  · have : fold [] ≠ n := fun h => hn h.symm
    simp [addEnt, view, this]
  · rw [List.concat_eq_append]
    simp only [addEnt, List.getLast?_concat, List.dropLast_concat, view_append, List.length_append]
    congr 1
    simp only [view, List.filter_cons]
    split <;> simp

theorem secCount_view {n : List Int} (hn : n ≠ []) (evs : List Ev) : (view (doc evs) n).length = secCount n evs := by
  induction evs using List.reverseRecOn with
  | nil => rfl
  | append_singleton evs e ih =>
    have hd : doc (evs ++ [e]) = Spec.apply (doc evs) e := by simp [doc]
    rw [hd]
    cases e with
    | sec w =>
      rw [Spec.apply, view_append, List.length_append, ih, secCount, secCount, List.filter_append, List.length_append]
      congr 1
      simp only [view, List.filter_cons]
      split <;> simp
    | ent k v =>
      rw [Spec.apply, view_addEnt_length _ _ hn, ih]
      simp [secCount]

theorem view_single (w : List Int) (es : List (List Int × List Int)) (n : List Int) : view [(w, es)] n = if fold w = n then [vals es] else [] := by
  by_cases h : fold w = n <;> simp [view, h]

theorem SecEv.looked {evs a b c : List Ev} {name w : List Int} {n : Nat} (h : SecEv evs name n a w b c) (hn : fold name ≠ []) :
    ∃ x y : List (List Int → List (List Int)), x.length = n ∧ view (doc evs) (fold name) = x ++ vals (ents b) :: y ∧
      view (doc (a ++ c)) = upd (view (doc evs)) (fold name) (x ++ y) ∧
      ∀ b', (∀ e ∈ b', ∃ k v, e = .ent k v) → view (doc (a ++ .sec w :: (b' ++ c))) = upd (view (doc evs)) (fold name) (x ++ vals (ents b') :: y) := by
  refine ⟨Spec.view (doc a) (fold name), Spec.view (doc c) (fold name), ?_, ?_, ?_, ?_⟩
  · rw [secCount_view hn, h.cnt]
  · rw [h.eq, doc_sec a w h.body h.next, view_append, view_append, view_single, if_pos h.nm]
    simp
  · funext m
    rw [doc_next a h.next, view_append]
    by_cases hm : m = fold name
    · subst hm; rw [upd_self]
    · rw [upd_ne _ _ hm, h.eq, doc_sec a w h.body h.next, view_append, view_append, view_single, if_neg (fun h' : fold w = m => hm (by rw [← h', h.nm]))]
      simp
  · intro b' hb'
    funext m
    rw [doc_sec a w hb' h.next, view_append, view_append, view_single]
    by_cases hm : m = fold name
    · subst hm; rw [upd_self, if_pos h.nm]; simp
    · rw [upd_ne _ _ hm, h.eq, doc_sec a w h.body h.next, view_append, view_append, view_single, if_neg (fun h' : fold w = m => hm (by rw [← h', h.nm])),
        if_neg (fun h' : fold w = m => hm (by rw [← h', h.nm]))]

theorem ents_append (a b : List Ev) : ents (a ++ b) = ents a ++ ents b := by simp [ents]

theorem vals_append (a b : List (List Int × List Int)) (k : List Int) : vals (a ++ b) k = vals a k ++ vals b k := by simp [vals]

theorem keyCount_vals (k : List Int) (evs : List Ev) : (vals (ents evs) k).length = keyCount k evs := by
  induction evs with
  | nil => rfl
  | cons e evs ih =>
    cases e with
    | sec w => simpa [ents, keyCount] using ih
    | ent x v =>
      have : ents (.ent x v :: evs) = (x, v) :: ents evs := rfl
      rw [this]
      simp only [vals, keyCount, List.filter_cons] at ih ⊢
      split <;> simpa using ih

theorem vals_single (k v x : List Int) : vals [(k, v)] x = if fold k = x then [v] else [] := by
  by_cases h : fold k = x <;> simp [vals, h]

/-- The values of a section after an entry is added. -/
theorem vals_add (b : List Ev) (k v : List Int) : vals (ents (b ++ [.ent k v])) = upd (vals (ents b)) (fold k) (vals (ents b) (fold k) ++ [v]) := by
  funext x
  rw [ents_append, vals_append, show ents [Ev.ent k v] = [(k, v)] from rfl, vals_single]
  by_cases hx : x = fold k
  · subst hx; rw [upd_self, if_pos rfl]
  · rw [upd_ne _ _ hx, if_neg (Ne.symm hx), List.append_nil]

/-- The values of a section after an entry is changed or removed. -/
theorem vals_change {b1 b2 : List Ev} {k v0 key : List Int} (hk : fold k = fold key) :
    ∃ x y, x.length = keyCount (fold key) b1 ∧ vals (ents (b1 ++ .ent k v0 :: b2)) (fold key) = x ++ v0 :: y ∧
      (∀ v, vals (ents (b1 ++ .ent k v :: b2)) = upd (vals (ents (b1 ++ .ent k v0 :: b2))) (fold key) (x ++ v :: y)) ∧
      vals (ents (b1 ++ b2)) = upd (vals (ents (b1 ++ .ent k v0 :: b2))) (fold key) (x ++ y) := by
  have hs : ∀ (v z : List Int), vals (ents (b1 ++ .ent k v :: b2)) z = vals (ents b1) z ++ (if fold k = z then [v] else []) ++ vals (ents b2) z := by
    intro v z
    rw [show b1 ++ Ev.ent k v :: b2 = b1 ++ ([Ev.ent k v] ++ b2) from rfl, ents_append, ents_append, vals_append, vals_append, show ents [Ev.ent k v] = [(k, v)] from rfl, vals_single, List.append_assoc]
  refine ⟨vals (ents b1) (fold key), vals (ents b2) (fold key), keyCount_vals _ _, ?_, ?_, ?_⟩
  · rw [hs, if_pos hk]; simp
  · intro v
    funext z
    rw [hs]
    by_cases hz : z = fold key
    · subst hz; rw [upd_self, if_pos hk]; simp
    · rw [upd_ne _ _ hz, hs, if_neg (fun h : fold k = z => hz (by rw [← h, hk])), if_neg (fun h : fold k = z => hz (by rw [← h, hk]))]
  · funext z
    by_cases hz : z = fold key
    · subst hz; rw [upd_self, ents_append, vals_append]
    · rw [upd_ne _ _ hz, hs, if_neg (fun h : fold k = z => hz (by rw [← h, hk])), ents_append, vals_append, List.append_nil]

end Verif.IniDoc
