import Mathlib.Data.List.Sort

/-!
# Choice of a font

Models the choice of a font by `GetFontPath` of `/repo/bss-util/bss_util.cpp` (Windows). The lookup of its path in the registry is not modelled.
-/

namespace Verif.Sys

/-- `BSSFONT`, `bss_util.cpp:376-395`. The name stands for all that is not compared. -/
structure Font where
  italic : Bool
  weight : Int
  name : Nat
deriving Repr, DecidableEq

/-- `BSSFONT::Comp` is negative, `bss_util.cpp:383-387`. -/
def Font.before (l r : Font) : Bool := (!l.italic && r.italic) || (l.italic == r.italic && l.weight < r.weight)

/-- `BSSFONT::Comp` is zero, `bss_util.cpp:383-387`. -/
def Font.same (l r : Font) : Bool := l.italic == r.italic && l.weight == r.weight

/-- `ArraySort::Insert` (modelled in `Verif/Sorted`) for a font that is not in the array: it goes before the first one that is behind it. -/
def insertFont (f : Font) : List Font → List Font
  | [] => [f]
  | g :: l => if f.before g then f :: g :: l else g :: insertFont f l

/-- `EnumFont_GetFontPath`, `bss_util.cpp:398-406`. -/
def enumFont (fonts : List Font) (f : Font) : List Font := if fonts.any f.same then fonts else insertFont f fonts

/-- `weightbiascheck`, `bss_util.cpp:409-426`. -/
def weightbiascheck (weight target cur : Int) : Bool :=
  if weight > 500 then
    if target < 500 && cur ≥ 500 then true
    else if cur < 500 then cur > target
    else (cur - weight).natAbs < (target - weight).natAbs
  else
    if target ≥ 500 && cur < 500 then true
    else if cur ≥ 500 then cur < target
    else (cur - weight).natAbs < (target - weight).natAbs

/-- One step of the loop, `bss_util.cpp:441-452`; the target is the font itself instead of its index. -/
def fontStep (weight : Int) (italic : Bool) (target f : Font) : Font :=
  if f.italic == italic then
    if target.italic != italic || f.weight == weight || (weight == 500 && f.weight == 400 && target.weight != 500) ||
      (weight == 400 && f.weight == 500 && target.weight != 400) || weightbiascheck weight target.weight f.weight
    then f else target
  else target

/-- The choice, `bss_util.cpp:434-453`; `found` are the fonts of the family in the order in which the system enumerates them. -/
def chooseFont (found : List Font) (weight : Int) (italic : Bool) : Option Font :=
  match found.foldl enumFont [] with
  | [] => none
  | f :: l => some (l.foldl (fontStep weight italic) f)

/-! ## Specification -/

/-- How badly a weight suits a request: first the class, then the distance in the class. An exact match is best; then 400 and 500 stand for each other; then, for a request of more than 500, weights of at least 500, nearest first, then the others, heaviest first; for other requests, weights below 500, nearest first, then the others, lightest first. -/
def misfit (w c : Int) : Nat × Nat :=
  if c = w then (0, 0)
  else if (w = 400 ∧ c = 500) ∨ (w = 500 ∧ c = 400) then (1, 0)
  else if w > 500 then if c ≥ 500 then (2, (c - w).natAbs) else (3, (500 - c).natAbs)
  else if c < 500 then (2, (c - w).natAbs) else (3, (c - 500).natAbs)

/-- The first weight suits at least as well as the second. -/
def Suits (w a b : Int) : Prop := (misfit w a).1 < (misfit w b).1 ∨ ((misfit w a).1 = (misfit w b).1 ∧ (misfit w a).2 ≤ (misfit w b).2)

/-! ## Proofs -/

theorem before_iff (l r : Font) : l.before r = true ↔ (l.italic = false ∧ r.italic = true) ∨ (l.italic = r.italic ∧ l.weight < r.weight) := by
  unfold Font.before; simp

theorem same_iff (l r : Font) : l.same r = true ↔ l.italic = r.italic ∧ l.weight = r.weight := by
  unfold Font.same; simp

theorem insert_mem (f : Font) : ∀ l : List Font, ∀ g, g ∈ insertFont f l ↔ g = f ∨ g ∈ l := by
  intro l
  induction l with
  | nil => simp [insertFont]
  | cons a l ih =>
    intro g
    unfold insertFont
    by_cases h : f.before a
    · rw [if_pos h]; simp
    · rw [if_neg h]; simp only [List.mem_cons, ih]; exact or_left_comm

theorem before_trans {a b c : Font} (h1 : a.before b = true) (h2 : b.before c = true) : a.before c = true := by
  rw [before_iff] at *
  rcases h1 with ⟨h1, h1'⟩ | ⟨h1, h1'⟩ <;> rcases h2 with ⟨h2, h2'⟩ | ⟨h2, h2'⟩
  · rw [h1'] at h2; exact absurd h2 (by decide)
  · exact Or.inl ⟨h1, h2 ▸ h1'⟩
  · exact Or.inl ⟨h1.trans h2, h2'⟩
  · exact Or.inr ⟨h1.trans h2, by omega⟩

theorem before_total {a b : Font} (h1 : a.before b = false) (h2 : a.same b = false) : b.before a = true := by
  unfold Font.before Font.same at *
  rcases a with ⟨_ | _, w, n⟩ <;> rcases b with ⟨_ | _, v, m⟩ <;> simp at * <;> omega

theorem insert_sorted (f : Font) : ∀ l : List Font, l.Pairwise (fun a b => a.before b = true) → l.any f.same = false → (insertFont f l).Pairwise (fun a b => a.before b = true) := by
  intro l
  induction l with
  | nil => intro _ _; simp [insertFont]
  | cons a l ih =>
    intro hp hs
    rw [List.any_cons, Bool.or_eq_false_iff] at hs
    rw [List.pairwise_cons] at hp
    unfold insertFont
    by_cases h : f.before a
    · rw [if_pos h, List.pairwise_cons, List.pairwise_cons]
      refine ⟨?_, hp.1, hp.2⟩
      intro b hb
      rcases List.mem_cons.1 hb with rfl | hb
      · exact h
      · exact before_trans h (hp.1 b hb)
    · rw [if_neg h, List.pairwise_cons]
      refine ⟨?_, ih hp.2 hs.2⟩
      intro b hb
      rcases (insert_mem f l b).1 hb with rfl | hb
      · exact before_total (by simpa using h) hs.1
      · exact hp.1 b hb

/-- The array after the enumeration: sorted, only fonts of the family, and for each one that was found one of its kind. -/
theorem enum_all (found : List Font) : ∀ l : List Font, l.Pairwise (fun a b => a.before b = true) → (found.foldl enumFont l).Pairwise (fun a b => a.before b = true) ∧ (∀ g ∈ found.foldl enumFont l, g ∈ l ∨ g ∈ found) ∧ ∀ g, g ∈ l ∨ g ∈ found → ∃ h ∈ found.foldl enumFont l, g.same h = true := by
  induction found with
  | nil =>
    intro l hp
    refine ⟨hp, fun g hg => Or.inl hg, ?_⟩
    intro g hg
    exact ⟨g, by simpa using hg, by rw [same_iff]; exact ⟨rfl, rfl⟩⟩
  | cons f found ih =>
    intro l hp
    rw [List.foldl_cons]
    have hp2 : (enumFont l f).Pairwise (fun a b => a.before b = true) := by
      unfold enumFont
      by_cases h : l.any f.same = true
      · rw [if_pos h]; exact hp
      · rw [if_neg h]; exact insert_sorted f l hp (by simpa using h)
    obtain ⟨h1, h2, h3⟩ := ih _ hp2
    refine ⟨h1, ?_, ?_⟩
    · intro g hg
      rcases h2 g hg with h | h
      · unfold enumFont at h
        by_cases hh : l.any f.same = true
        · rw [if_pos hh] at h; exact Or.inl h
        · rw [if_neg hh, insert_mem] at h
          rcases h with rfl | h
          · exact Or.inr (List.mem_cons_self ..)
          · exact Or.inl h
      · exact Or.inr (List.mem_cons_of_mem _ h)
    · intro g hg
      have sub : ∀ x ∈ l, x ∈ enumFont l f := by
        intro x hx
        unfold enumFont
        by_cases hh : l.any f.same = true
        · rw [if_pos hh]; exact hx
        · rw [if_neg hh, insert_mem]; exact Or.inr hx
      have hf : ∃ x ∈ enumFont l f, f.same x = true := by
        unfold enumFont
        by_cases hh : l.any f.same = true
        · rw [if_pos hh]; exact List.any_eq_true.1 hh
        · rw [if_neg hh]; exact ⟨f, (insert_mem f l f).2 (Or.inl rfl), by rw [same_iff]; exact ⟨rfl, rfl⟩⟩
      rcases hg with hg | hg
      · exact h3 g (Or.inl (sub g hg))
      · rcases List.mem_cons.1 hg with rfl | hg
        · obtain ⟨x, hx, hs⟩ := hf
          obtain ⟨y, hy, hs2⟩ := h3 x (Or.inl hx)
          rw [same_iff] at hs hs2
          exact ⟨y, hy, by rw [same_iff]; exact ⟨hs.1.trans hs2.1, hs.2.trans hs2.2⟩⟩
        · exact h3 g (Or.inr hg)

/-- What holds of the target after a part `seen` of the array. -/
def Best (w : Int) (it : Bool) (seen : List Font) (t : Font) : Prop :=
  t ∈ seen ∧ ((∃ g ∈ seen, g.italic = it) → t.italic = it) ∧ (t.italic = it → ∀ g ∈ seen, g.italic = it → Suits w t.weight g.weight)

theorem suits_refl (w a : Int) : Suits w a a := Or.inr ⟨rfl, Nat.le_refl _⟩

theorem suits_trans {w a b c : Int} (h1 : Suits w a b) (h2 : Suits w b c) : Suits w a c := by
  unfold Suits at *; omega

/-- One comparison, for a heavier font. -/
theorem step_suits (w a b : Int) (h : a < b) (hw : w = 500 → ¬ (400 < b ∧ b < 500)) :
    (if b == w || (w == 500 && b == 400 && a != 500) || (w == 400 && b == 500 && a != 400) || weightbiascheck w a b then Suits w b a else Suits w a b) := by
  by_cases hc : (b == w || (w == 500 && b == 400 && a != 500) || (w == 400 && b == 500 && a != 400) || weightbiascheck w a b) = true
  · rw [if_pos hc]
    unfold weightbiascheck at hc
    unfold Suits misfit
    simp only [Bool.or_eq_true, Bool.and_eq_true, beq_iff_eq, bne_iff_ne, decide_eq_true_eq] at hc
    split at hc <;> split at hc <;> (try split at hc) <;> simp only [decide_eq_true_eq, Bool.and_eq_true, ge_iff_le, not_and] at * <;> split_ifs <;> simp <;> omega
  · rw [if_neg hc]
    unfold weightbiascheck at hc
    unfold Suits misfit
    simp only [Bool.or_eq_true, Bool.and_eq_true, beq_iff_eq, bne_iff_ne, decide_eq_true_eq, not_or] at hc
    split at hc <;> split at hc <;> (try split at hc) <;> simp only [decide_eq_true_eq, Bool.and_eq_true, ge_iff_le, not_and, not_true_eq_false, and_false] at * <;> split_ifs <;> simp <;> omega

theorem step_best (w : Int) (it : Bool) (seen : List Font) (t f : Font) (hb : Best w it seen t) (hs : ∀ g ∈ seen, g.before f = true) (hw : w = 500 → f.italic = it → ¬ (400 < f.weight ∧ f.weight < 500)) : Best w it (seen ++ [f]) (fontStep w it t f) := by
  obtain ⟨hm, h1, h2⟩ := hb
  unfold fontStep
  by_cases hi : f.italic = it
  · rw [if_pos (by simpa using hi)]
    by_cases ht : t.italic = it
    · have hlt : t.weight < f.weight := by
        rcases (before_iff t f).1 (hs t hm) with ⟨p, q⟩ | ⟨-, q⟩
        · rw [hi] at q; rw [ht] at p; rw [p] at q; exact absurd q (by decide)
        · exact q
      have := step_suits w t.weight f.weight hlt (fun h => hw h hi)
      have e : (t.italic != it) = false := by simp [ht]
      rw [e, Bool.false_or]
      by_cases hc : (f.weight == w || (w == 500 && f.weight == 400 && t.weight != 500) || (w == 400 && f.weight == 500 && t.weight != 400) || weightbiascheck w t.weight f.weight) = true
      · rw [if_pos hc] at this ⊢
        refine ⟨by simp, fun _ => hi, fun _ g hg hgi => ?_⟩
        rcases List.mem_append.1 hg with hg | hg
        · exact suits_trans this (h2 ht g hg hgi)
        · rw [List.mem_singleton.1 hg]; exact suits_refl _ _
      · rw [if_neg hc] at this ⊢
        refine ⟨List.mem_append_left _ hm, fun _ => ht, fun _ g hg hgi => ?_⟩
        rcases List.mem_append.1 hg with hg | hg
        · exact h2 ht g hg hgi
        · rw [List.mem_singleton.1 hg]; exact this
    · have e : (t.italic != it) = true := by simpa using ht
      rw [e]
      simp only [Bool.true_or, if_true]
      refine ⟨by simp, fun _ => hi, fun _ g hg hgi => ?_⟩
      rcases List.mem_append.1 hg with hg | hg
      · exact absurd (h1 ⟨g, hg, hgi⟩) ht
      · rw [List.mem_singleton.1 hg]; exact suits_refl _ _
  · rw [if_neg (by simpa using hi)]
    refine ⟨List.mem_append_left _ hm, ?_, ?_⟩
    · rintro ⟨g, hg, hgi⟩
      rcases List.mem_append.1 hg with hg | hg
      · exact h1 ⟨g, hg, hgi⟩
      · rw [List.mem_singleton.1 hg] at hgi; exact absurd hgi hi
    · intro ht g hg hgi
      rcases List.mem_append.1 hg with hg | hg
      · exact h2 ht g hg hgi
      · rw [List.mem_singleton.1 hg] at hgi; exact absurd hgi hi

theorem loop_best (w : Int) (it : Bool) : ∀ (l seen : List Font) (t : Font), Best w it seen t → (seen ++ l).Pairwise (fun a b => a.before b = true) → (w = 500 → ∀ f ∈ l, f.italic = it → ¬ (400 < f.weight ∧ f.weight < 500)) → Best w it (seen ++ l) (l.foldl (fontStep w it) t) := by
  intro l
  induction l with
  | nil => intro seen t h _ _; simpa using h
  | cons f l ih =>
    intro seen t h hp hw
    rw [List.foldl_cons]
    have e : seen ++ f :: l = (seen ++ [f]) ++ l := by simp
    rw [e] at hp ⊢
    refine ih _ _ (step_best w it seen t f h ?_ fun q => hw q f (List.mem_cons_self ..)) hp fun q g hg => hw q g (List.mem_cons_of_mem _ hg)
    intro g hg
    rw [List.append_assoc] at hp
    exact (List.pairwise_append.1 hp).2.2 g hg f (by simp)

/-- **C145** (partial). If a family was found, one of its fonts is chosen, one with the requested slant if there is one, and then none of these suits the request better: an exact match is taken if there is one, then 400 and 500 stand for each other, then the side of 500 and the distance decide. What is missing: the weight if there is no font with the requested slant, and a request of 500 without such a font when there are weights between 400 and 500. -/
theorem C145_choice_partial (found : List Font) (w : Int) (it : Bool) (hw : w = 500 → ∀ f ∈ found, f.italic = it → ¬ (400 < f.weight ∧ f.weight < 500)) :
    (found = [] ∧ chooseFont found w it = none) ∨ ∃ t ∈ found, chooseFont found w it = some t ∧ ((∃ g ∈ found, g.italic = it) → t.italic = it ∧ ∀ g ∈ found, g.italic = it → Suits w t.weight g.weight) := by
  obtain ⟨h1, h2, h3⟩ := enum_all found [] List.Pairwise.nil
  unfold chooseFont
  cases hl : found.foldl enumFont [] with
  | nil =>
    left
    rw [hl] at h3
    cases found with
    | nil => exact ⟨rfl, rfl⟩
    | cons f found =>
      obtain ⟨h, hh, -⟩ := h3 f (Or.inr (List.mem_cons_self ..))
      simp at hh
  | cons f l =>
    right
    dsimp only
    rw [hl] at h1 h2 h3
    have h2' : ∀ g ∈ f :: l, g ∈ found := fun g hg => (h2 g hg).resolve_left (by simp)
    have hb : Best w it [f] f := by
      refine ⟨by simp, ?_, ?_⟩
      · rintro ⟨g, hg, hgi⟩; rw [List.mem_singleton.1 hg] at hgi; exact hgi
      · intro _ g hg _; rw [List.mem_singleton.1 hg]; exact suits_refl _ _
    obtain ⟨b1, b2, b3⟩ := loop_best w it l [f] f hb h1 (fun q g hg => hw q g (h2' g (List.mem_cons_of_mem _ hg)))
    refine ⟨_, h2' _ b1, rfl, ?_⟩
    rintro ⟨g, hg, hgi⟩
    have b4 : (l.foldl (fontStep w it) f).italic = it := by
      obtain ⟨x, hx, hs⟩ := h3 g (Or.inr hg)
      rw [same_iff] at hs
      exact b2 ⟨x, hx, hs.1 ▸ hgi⟩
    refine ⟨b4, ?_⟩
    intro g hg hgi
    obtain ⟨x, hx, hs⟩ := h3 g (Or.inr hg)
    rw [same_iff] at hs
    rw [hs.2]
    exact b3 b4 x hx (hs.1 ▸ hgi)

theorem loop_exact (w : Int) (it : Bool) : ∀ (l : List Font) (t : Font), (t :: l).Pairwise (fun a b => a.before b = true) → (∃ g ∈ t :: l, g.italic = it ∧ g.weight = w) → (l.foldl (fontStep w it) t).italic = it ∧ (l.foldl (fontStep w it) t).weight = w := by
  intro l
  induction l with
  | nil => rintro t - ⟨g, hg, h⟩; rw [List.mem_singleton.1 hg] at h; exact h
  | cons f l ih =>
    rintro t hp ⟨g, hg, h⟩
    rw [List.foldl_cons]
    have hp2 := List.pairwise_cons.1 hp
    have hp3 := List.pairwise_cons.1 hp2.2
    have hpt : (t :: l).Pairwise (fun a b => a.before b = true) := List.pairwise_cons.2 ⟨fun x hx => hp2.1 x (List.mem_cons_of_mem _ hx), hp3.2⟩
    have hor : fontStep w it t f = t ∨ fontStep w it t f = f := by
      unfold fontStep; split
      · split
        · exact Or.inr rfl
        · exact Or.inl rfl
      · exact Or.inl rfl
    rcases List.mem_cons.1 hg with e | hg
    · rw [e] at h
      have : fontStep w it t f = t := by
        unfold fontStep
        by_cases hi : f.italic = it
        · have hb := (before_iff t f).1 (hp2.1 f (List.mem_cons_self ..))
          have hlt : w < f.weight := by
            rcases hb with ⟨p, q⟩ | ⟨-, q⟩
            · rw [hi] at q; rw [h.1, q] at p; exact absurd p (by decide)
            · rw [← h.2]; exact q
          have e1 : (t.italic != it) = false := by simp [h.1]
          have e2 : (f.weight == w) = false := by simp; omega
          have e3 : (w == 500 && f.weight == 400 && t.weight != 500) = false := by rw [h.2]; simp; omega
          have e4 : (w == 400 && f.weight == 500 && t.weight != 400) = false := by rw [h.2]; simp; omega
          have e5 : weightbiascheck w t.weight f.weight = false := by
            rw [h.2]; unfold weightbiascheck; split <;> split <;> (try split) <;> simp at * <;> omega
          rw [e1, e2, e3, e4, e5]; simp
        · rw [if_neg (by simpa using hi)]
      rw [this]
      exact ih t hpt ⟨t, List.mem_cons_self .., h⟩
    · rcases List.mem_cons.1 hg with e | hg
      · rw [e] at h
        have : fontStep w it t f = f := by
          unfold fontStep
          rw [if_pos (by simpa using h.1)]
          simp [h.2]
        rw [this]
        exact ih f hp2.2 ⟨f, List.mem_cons_self .., h⟩
      · rcases hor with e | e <;> rw [e]
        · exact ih t hpt ⟨g, List.mem_cons_of_mem _ hg, h⟩
        · exact ih f hp2.2 ⟨g, List.mem_cons_of_mem _ hg, h⟩

/-- **C145**: a font with exactly the requested slant and weight is chosen if there is one. -/
theorem C145_exact (found : List Font) (w : Int) (it : Bool) (g : Font) (hg : g ∈ found) (h1 : g.italic = it) (h2 : g.weight = w) : ∃ t ∈ found, chooseFont found w it = some t ∧ t.italic = it ∧ t.weight = w := by
  obtain ⟨p1, p2, p3⟩ := enum_all found [] List.Pairwise.nil
  obtain ⟨x, hx, hs⟩ := p3 g (Or.inr hg)
  rw [same_iff] at hs
  unfold chooseFont
  cases hl : found.foldl enumFont [] with
  | nil => rw [hl] at hx; simp at hx
  | cons f l =>
    rw [hl] at p1 p2 hx
    have h := loop_exact w it l f p1 ⟨x, hx, hs.1 ▸ h1, hs.2 ▸ h2⟩
    refine ⟨_, ?_, rfl, h⟩
    have hin : ∀ (l : List Font) (t : Font), l.foldl (fontStep w it) t ∈ t :: l := by
      intro l
      induction l with
      | nil => simp
      | cons a l ih =>
        intro t
        rw [List.foldl_cons]
        have := ih (fontStep w it t a)
        have hor : fontStep w it t a = t ∨ fontStep w it t a = a := by
          unfold fontStep; split
          · split
            · exact Or.inr rfl
            · exact Or.inl rfl
          · exact Or.inl rfl
        rcases hor with e | e <;> rw [e] at this ⊢ <;> simp only [List.mem_cons] at this ⊢
        · rcases this with h | h
          · exact Or.inl h
          · exact Or.inr (Or.inr h)
        · exact Or.inr this
    exact (p2 _ (hin l f)).resolve_left (by simp)

/-- **C145** counterexample: without a font of the requested slant the lightest is chosen, though there is one of exactly the requested weight. -/
theorem C145_slant_counterexample : chooseFont [⟨false, 100, 0⟩, ⟨false, 700, 1⟩] 700 true = some ⟨false, 100, 0⟩ := by decide

/-- **C145** counterexample: a request of 500 should be answered with 400 if there is no 500, but the next weight above 400 replaces it. -/
theorem C145_medium_counterexample : chooseFont [⟨false, 400, 0⟩, ⟨false, 450, 1⟩] 500 false = some ⟨false, 450, 1⟩ ∧ ¬ Suits 500 450 400 := by
  refine ⟨by decide, ?_⟩
  simp [Suits, misfit]

/-- A request for an italic 600 among seven fonts found in no particular order, one of them twice. -/
example : chooseFont [⟨true, 700, 0⟩, ⟨false, 600, 1⟩, ⟨true, 400, 2⟩, ⟨true, 900, 3⟩, ⟨false, 400, 4⟩, ⟨true, 700, 5⟩, ⟨true, 300, 6⟩] 600 true = some ⟨true, 700, 0⟩ := by decide

end Verif.Sys
