import Verif.Alias.Model
import Mathlib.MeasureTheory.Measure.Lebesgue.Basic
import Mathlib.Algebra.BigOperators.Ring.Finset
import Mathlib.Tactic.LinearCombination
import Mathlib.Tactic.FieldSimp

/-!
# C32: the alias method reproduces the distribution
-/

namespace Verif.Alias

open Finset

variable {K : Type} [Field K] [LinearOrder K] [IsStrictOrderedRing K]

/-- The indices not paired yet. -/
def St.rem (s : St K) : List Nat := s.small ++ s.large

/-- What column `c` contributes to the mass of `i`. -/
def contrib (n : Nat) (s : St K) (c i : Nat) : K :=
  if c ∈ s.rem then (if c = i then s.pc c * n else 0)
  else (if c = i then s.prob c else 0) + (if s.al c = some i then 1 - s.prob c else 0)

structure Inv (n : Nat) (p : Nat → K) (s : St K) : Prop where
  nodup : s.rem.Nodup
  lt : ∀ c ∈ s.rem, c < n
  small : ∀ c ∈ s.small, 0 ≤ s.pc c ∧ s.pc c < 1 / n
  large : ∀ c ∈ s.large, 1 / n ≤ s.pc c
  done : ∀ c, c < n → c ∉ s.rem → 0 ≤ s.prob c ∧ s.prob c ≤ 1 ∧ ∃ j, s.al c = some j ∧ j < n
  mass : ∀ i, i < n → ∑ c ∈ range n, contrib n s c i = n * p i
  total : (s.rem.map s.pc).sum = (s.rem.length : K) * (1 / n)

theorem push_rem (avg : K) (i : Nat) (s : St K) : (push avg i s).rem.Perm (i :: s.rem) := by
  unfold push St.rem
  split
  · exact List.perm_middle
  · simp

theorem push_fields (avg : K) (i : Nat) (s : St K) :
    (push avg i s).pc = s.pc ∧ (push avg i s).prob = s.prob ∧ (push avg i s).al = s.al := by
  unfold push; split <;> simp

theorem push_small (avg : K) (i : Nat) (s : St K) {c : Nat} (h : c ∈ (push avg i s).small) : c ∈ s.small ∨ (c = i ∧ s.pc i < avg) := by
  unfold push at h
  split at h
  · exact Or.inl h
  · next hlt =>
    rcases List.mem_cons.1 h with rfl | h
    · exact Or.inr ⟨rfl, by simpa using hlt⟩
    · exact Or.inl h

theorem push_large (avg : K) (i : Nat) (s : St K) {c : Nat} (h : c ∈ (push avg i s).large) : c ∈ s.large ∨ (c = i ∧ avg ≤ s.pc i) := by
  unfold push at h
  split at h
  · next hlt =>
    rcases List.mem_cons.1 h with rfl | h
    · exact Or.inr ⟨rfl, hlt⟩
    · exact Or.inl h
  · exact Or.inl h

theorem sort_spec (avg : K) : ∀ (is : List Nat) (s : St K), (∀ c ∈ s.small, s.pc c < avg) → (∀ c ∈ s.large, avg ≤ s.pc c) →
    (sort avg is s).rem.Perm (is ++ s.rem) ∧ (sort avg is s).pc = s.pc ∧ (sort avg is s).prob = s.prob ∧
      (sort avg is s).al = s.al ∧ (∀ c ∈ (sort avg is s).small, s.pc c < avg) ∧ (∀ c ∈ (sort avg is s).large, avg ≤ s.pc c) := by
  intro is
  induction is with
  | nil => intro s h1 h2; exact ⟨List.Perm.refl _, rfl, rfl, rfl, h1, h2⟩
  | cons i is ih =>
    intro s h1 h2
    obtain ⟨f1, f2, f3⟩ := push_fields avg i s
    obtain ⟨a, b, c, d, e, f⟩ := ih (push avg i s)
      (by
        intro c hc; rw [f1]
        rcases push_small avg i s hc with h | ⟨rfl, h⟩
        · exact h1 c h
        · exact h)
      (by
        intro c hc; rw [f1]
        rcases push_large avg i s hc with h | ⟨rfl, h⟩
        · exact h2 c h
        · exact h)
    rw [f1] at e f
    refine ⟨?_, b.trans f1, c.trans f2, d.trans f3, e, f⟩
    exact a.trans ((List.Perm.append_left is (push_rem avg i s)).trans List.perm_middle)

theorem sum_range_list (n : Nat) (p : Nat → K) : ((List.range n).map p).sum = ∑ c ∈ range n, p c := by
  induction n with
  | zero => simp
  | succ n ih => rw [List.range_succ, List.map_append, List.sum_append, ih, sum_range_succ]; simp

theorem init_inv {n : Nat} (hn : 0 < n) (p : Nat → K) (hp : ∀ i, i < n → 0 ≤ p i) (hs : ∑ i ∈ range n, p i = 1) :
    Inv n p (sort (1 / (n : K)) (List.range n) ⟨[], [], p, fun _ => 0, fun _ => none⟩) := by
  obtain ⟨a, b, c, d, e, f⟩ := sort_spec (1 / (n : K)) (List.range n) ⟨[], [], p, fun _ => 0, fun _ => none⟩ (by simp) (by simp)
  generalize sort (1 / (n : K)) (List.range n) ⟨[], [], p, fun _ => 0, fun _ => none⟩ = s at *
  simp only [St.rem, List.append_nil, List.nil_append] at a
  replace a : s.rem.Perm (List.range n) := a
  have hmem : ∀ c, c ∈ s.rem ↔ c < n := fun c => (a.mem_iff (a := c)).trans List.mem_range
  simp only at b c d e f
  refine ⟨a.nodup_iff.2 List.nodup_range, fun c hc => (hmem c).1 hc, ?_, ?_, ?_, ?_, ?_⟩
  · intro c hc
    rw [b]
    exact ⟨hp c ((hmem c).1 (List.mem_append_left _ hc)), e c hc⟩
  · intro c hc; rw [b]; exact f c hc
  · intro c hc hno; exact absurd ((hmem c).2 hc) hno
  · intro i hi
    have : ∀ c ∈ range n, contrib n s c i = if c = i then p i * n else 0 := by
      intro c hc
      unfold contrib
      rw [if_pos ((hmem c).2 (mem_range.1 hc)), b]
      split
      · next h => subst h; rfl
      · rfl
    rw [sum_congr rfl this, sum_ite_eq' (range n), if_pos (mem_range.2 hi)]
    ring
  · rw [b, (a.map p).sum_eq, a.length_eq, List.length_range, sum_range_list, hs]
    have : (n : K) ≠ 0 := by exact_mod_cast hn.ne'
    field_simp

theorem pair_inv {n : Nat} (hn : 0 < n) {p : Nat → K} {s : St K} (h : Inv n p s) {l g : Nat} {sm lg : List Nat} (hsm : s.small = l :: sm)
    (hlg : s.large = g :: lg) :
    Inv n p (pair n (1 / (n : K)) l g { s with small := sm, large := lg }) ∧
      s.rem.length = (pair n (1 / (n : K)) l g { s with small := sm, large := lg }).rem.length + 1 := by
  have hn0 : (n : K) ≠ 0 := by exact_mod_cast hn.ne'
  have hnp : (0 : K) < n := by exact_mod_cast hn
  have hrem : s.rem.Perm (l :: g :: (sm ++ lg)) := by
    unfold St.rem; rw [hsm, hlg]
    exact (List.perm_middle).cons l
  have hnd := hrem.nodup_iff.1 h.nodup
  rw [List.nodup_cons, List.nodup_cons] at hnd
  obtain ⟨hl, hg, hnd⟩ := hnd
  have hlg' : l ≠ g := fun e => hl (by simp [e])
  have hll : l ∉ sm ++ lg := fun e => hl (List.mem_cons_of_mem _ e)
  have hls := h.small l (by simp [hsm])
  have hgs := h.large g (by simp [hlg])
  let s1 : St K := ⟨sm, lg, upd s.pc g ((s.pc g + s.pc l) - 1 / n), upd s.prob l (s.pc l * (n : K)), upd s.al l (some g)⟩
  have hpair : pair n (1 / (n : K)) l g { s with small := sm, large := lg } = push (1 / (n : K)) g s1 := rfl
  rw [hpair]
  obtain ⟨f1, f2, f3⟩ := push_fields (1 / (n : K)) g s1
  have hp1 := push_rem (1 / (n : K)) g s1
  have hr1 : s1.rem = sm ++ lg := rfl
  rw [hr1] at hp1
  generalize hs' : push (1 / (n : K)) g s1 = s' at *
  have hpcl : ∀ c, c ≠ g → s'.pc c = s.pc c := by intro c hc; rw [f1]; simp [s1, upd, hc]
  have hpcg : s'.pc g = (s.pc g + s.pc l) - 1 / n := by rw [f1]; simp [s1, upd]
  have hmem' : ∀ c, c ∈ s'.rem ↔ c = g ∨ c ∈ sm ++ lg := fun c => (hp1.mem_iff (a := c)).trans List.mem_cons
  have hmem : ∀ c, c ∈ s.rem ↔ c = l ∨ c = g ∨ c ∈ sm ++ lg := fun c =>
    (hrem.mem_iff (a := c)).trans (by rw [List.mem_cons, List.mem_cons])
  have hpg0 : 0 ≤ s'.pc g := by rw [hpcg]; linarith [hgs, hls.1]
  have hgn : g < n := h.lt g ((hmem g).2 (by simp))
  have hln : l < n := h.lt l ((hmem l).2 (by simp))
  refine ⟨⟨?_, ?_, ?_, ?_, ?_, ?_, ?_⟩, ?_⟩
  · exact hp1.nodup_iff.2 (List.nodup_cons.2 ⟨hg, hnd⟩)
  · intro c hc
    apply h.lt c
    rw [hmem]
    rcases (hmem' c).1 hc with h1 | h1
    · exact Or.inr (Or.inl h1)
    · exact Or.inr (Or.inr h1)
  · intro c hc
    rw [← hs'] at hc
    rcases push_small _ _ _ hc with hc | ⟨rfl, hc⟩
    · have hcg : c ≠ g := by rintro rfl; exact hg (List.mem_append_left _ hc)
      rw [hpcl c hcg]
      exact h.small c (by rw [hsm]; exact List.mem_cons_of_mem _ hc)
    · exact ⟨hpg0, by rw [f1]; exact hc⟩
  · intro c hc
    rw [← hs'] at hc
    rcases push_large _ _ _ hc with hc | ⟨rfl, hc⟩
    · have hcg : c ≠ g := by rintro rfl; exact hg (List.mem_append_right _ hc)
      rw [hpcl c hcg]
      exact h.large c (by rw [hlg]; exact List.mem_cons_of_mem _ hc)
    · rw [f1]; exact hc
  · intro c hc hno
    rw [hmem'] at hno
    rw [f2, f3]
    by_cases hcl : c = l
    · subst hcl
      refine ⟨?_, ?_, g, by simp [s1, upd], hgn⟩
      · simp only [s1, upd, if_true]; exact mul_nonneg hls.1 hnp.le
      · simp only [s1, upd, if_true]
        have := mul_le_mul_of_nonneg_right hls.2.le hnp.le
        rwa [one_div, inv_mul_cancel₀ hn0] at this
    · have : c ∉ s.rem := by rw [hmem]; rintro (h1 | h1); exacts [hcl h1, hno h1]
      have := h.done c hc this
      simpa [s1, upd, hcl] using this
  · intro i hi
    rw [← h.mass i hi]
    have key : ∀ c ∈ range n, contrib n s' c i = contrib n s c i +
        ((if c = l then (if g = i then 1 - s.pc l * n else 0) else 0) + (if c = g then -(if g = i then 1 - s.pc l * n else 0) else 0)) := by
      intro c _
      by_cases hcl : c = l
      · subst hcl
        have h1 : c ∉ s'.rem := by rw [hmem']; rintro (h1 | h1); exacts [hlg' h1, hll h1]
        have h2 : c ∈ s.rem := by rw [hmem]; exact Or.inl rfl
        unfold contrib
        rw [if_neg h1, if_pos h2, f2, f3, if_pos rfl, if_neg hlg']
        simp [s1, upd]
      · by_cases hcg : c = g
        · subst hcg
          have h1 : c ∈ s'.rem := by rw [hmem']; exact Or.inl rfl
          have h2 : c ∈ s.rem := by rw [hmem]; exact Or.inr (Or.inl rfl)
          unfold contrib
          rw [if_pos h1, if_pos h2, if_neg hcl, if_pos rfl, hpcg]
          split
          · field_simp; ring
          · simp
        · rw [if_neg hcl, if_neg hcg, add_zero, add_zero]
          have h1 : c ∈ s'.rem ↔ c ∈ s.rem := by rw [hmem', hmem]; simp [hcl, hcg]
          unfold contrib
          rw [hpcl c hcg, f2, f3]
          simp only [h1, s1, upd, hcl, if_false]
    rw [sum_congr rfl key, sum_add_distrib, sum_add_distrib, sum_ite_eq' (range n), sum_ite_eq' (range n),
      if_pos (mem_range.2 hln), if_pos (mem_range.2 hgn)]
    ring
  · have htot := h.total
    rw [(hrem.map s.pc).sum_eq, hrem.length_eq] at htot
    rw [(hp1.map s'.pc).sum_eq, hp1.length_eq]
    have hm : (sm ++ lg).map s'.pc = (sm ++ lg).map s.pc := by
      apply List.map_congr_left
      intro c hc
      apply hpcl
      rintro rfl; exact hg hc
    simp only [List.map_cons, List.sum_cons, List.length_cons] at htot ⊢
    rw [hm, hpcg]
    push_cast at htot ⊢
    linear_combination htot
  · rw [hp1.length_eq, hrem.length_eq]; simp

theorem pairs_spec {n : Nat} (hn : 0 < n) {p : Nat → K} : ∀ (f : Nat) (s : St K), Inv n p s → s.rem.length < f →
    ∃ s', pairs n (1 / (n : K)) f s = some s' ∧ Inv n p s' ∧ (s'.small = [] ∨ s'.large = []) := by
  intro f
  induction f with
  | zero => intro s _ h; omega
  | succ f ih =>
    intro s h hf
    unfold pairs
    cases hsm : s.small with
    | nil => exact ⟨s, rfl, h, Or.inl hsm⟩
    | cons l sm =>
      cases hlg : s.large with
      | nil => exact ⟨s, rfl, h, Or.inr hlg⟩
      | cons g lg =>
        obtain ⟨h1, h2⟩ := pair_inv hn h hsm hlg
        exact ih _ h1 (by omega)

theorem sum_ge_all (a : K) (f : Nat → K) : ∀ l : List Nat, (∀ c ∈ l, a ≤ f c) → (l.length : K) * a ≤ (l.map f).sum ∧
    ((l.map f).sum = l.length * a → ∀ c ∈ l, f c = a) := by
  intro l
  induction l with
  | nil => intro _; simp
  | cons x l ih =>
    intro h
    obtain ⟨h1, h2⟩ := ih (fun c hc => h c (by simp [hc]))
    have hx := h x (by simp)
    simp only [List.map_cons, List.sum_cons, List.length_cons]
    push_cast
    refine ⟨by linarith, ?_⟩
    intro he c hc
    have hfx : f x = a := by linarith
    rcases List.mem_cons.1 hc with rfl | hc
    · exact hfx
    · exact h2 (by linarith) c hc

theorem sum_lt_all (a : K) (f : Nat → K) : ∀ l : List Nat, l ≠ [] → (∀ c ∈ l, f c < a) → (l.map f).sum < (l.length : K) * a := by
  intro l
  induction l with
  | nil => intro h; exact absurd rfl h
  | cons x l ih =>
    intro _ h
    have hx := h x (by simp)
    simp only [List.map_cons, List.sum_cons, List.length_cons]
    push_cast
    cases l with
    | nil => simp; linarith
    | cons y l =>
      have := ih (by simp) (fun c hc => h c (by simp [hc]))
      linarith

/-- When one stack is empty, everything left weighs exactly one column. -/
theorem final {n : Nat} {p : Nat → K} {s : St K} (h : Inv n p s) (he : s.small = [] ∨ s.large = []) :
    ∀ c ∈ s.rem, s.pc c = 1 / n := by
  have ht := h.total
  rcases he with he | he
  · have hr : s.rem = s.large := by simp [St.rem, he]
    rw [hr] at ht ⊢
    exact (sum_ge_all (1 / (n : K)) s.pc s.large h.large).2 ht
  · have hr : s.rem = s.small := by simp [St.rem, he]
    rw [hr] at ht ⊢
    intro c hc
    exfalso
    have := sum_lt_all (1 / (n : K)) s.pc s.small (List.ne_nil_of_mem hc) (fun c hc => (h.small c hc).2)
    rw [ht] at this
    exact lt_irrefl _ this

omit [IsStrictOrderedRing K] in
theorem rest_spec (prob : Nat → K) : ∀ (is : List Nat) (prob : Nat → K) (c : Nat), rest is prob c = if c ∈ is then 1 else prob c := by
  intro is
  induction is with
  | nil => intro prob c; simp [rest]
  | cons i is ih =>
    intro prob c
    have : rest (i :: is) prob = rest is (upd prob i 1) := rfl
    rw [this, ih]
    by_cases h1 : c ∈ is
    · simp [h1]
    · by_cases h2 : c = i <;> simp [h1, h2, upd]

/-- The finished table. -/
theorem build_spec {n : Nat} (hn : 0 < n) (p : Nat → K) (hp : ∀ i, i < n → 0 ≤ p i) (hs : ∑ i ∈ range n, p i = 1) :
    ∃ t, build n p = some t ∧ t.n = n ∧
      (∀ c, c < n → 0 ≤ t.prob c ∧ t.prob c ≤ 1 ∧ (t.prob c < 1 → ∃ j, t.al c = some j ∧ j < n)) ∧
      ∀ i, i < n → ∑ c ∈ range n, ((if c = i then t.prob c else 0) + (if t.al c = some i then 1 - t.prob c else 0)) = n * p i := by
  have hn0 : (n : K) ≠ 0 := by exact_mod_cast hn.ne'
  have h0 := init_inv hn p hp hs
  have hlen : (sort (1 / (n : K)) (List.range n) ⟨[], [], p, fun _ => 0, fun _ => none⟩).rem.length < n + 1 := by
    have := (sort_spec (1 / (n : K)) (List.range n) ⟨[], [], p, fun _ => 0, fun _ => none⟩ (by simp) (by simp)).1.length_eq
    simp [St.rem] at this ⊢
    omega
  obtain ⟨s, e1, e2, e3⟩ := pairs_spec hn (n + 1) _ h0 hlen
  have hfin := final e2 e3
  have hprob : ∀ c, rest s.small (rest s.large s.prob) c = if c ∈ s.rem then 1 else s.prob c := by
    intro c
    rw [rest_spec (fun _ => (0 : K)), rest_spec (fun _ => (0 : K))]
    unfold St.rem
    by_cases h1 : c ∈ s.small <;> by_cases h2 : c ∈ s.large <;> simp [h1, h2]
  refine ⟨⟨n, rest s.small (rest s.large s.prob), s.al⟩, by unfold build; rw [e1]; rfl, rfl, ?_, ?_⟩
  · intro c hc
    simp only
    rw [hprob]
    by_cases hm : c ∈ s.rem
    · rw [if_pos hm]
      exact ⟨zero_le_one, le_refl _, fun h => absurd h (lt_irrefl _)⟩
    · rw [if_neg hm]
      obtain ⟨a, b, c⟩ := e2.done c hc hm
      exact ⟨a, b, fun _ => c⟩
  · intro i hi
    rw [← e2.mass i hi]
    apply sum_congr rfl
    intro c _
    simp only
    rw [hprob]
    unfold contrib
    by_cases hm : c ∈ s.rem
    · rw [if_pos hm, if_pos hm, hfin c hm]
      simp [hn0]
    · rw [if_neg hm, if_neg hm]

/-- **C32**: construction terminates (within `n` pairings) and every draw is an index in range: whichever column is
drawn and whatever number in `[0, 1)`, no unwritten alias is read. Over every ordered field. -/
theorem C32_in_range {n : Nat} (hn : 0 < n) (p : Nat → K) (hp : ∀ i, i < n → 0 ≤ p i) (hs : ∑ i ∈ range n, p i = 1) :
    ∃ t, build n p = some t ∧ ∀ c u, c < n → 0 ≤ u → u < 1 → ∃ i, get t c u = some i ∧ i < n := by
  obtain ⟨t, e1, _, e2, _⟩ := build_spec hn p hp hs
  refine ⟨t, e1, ?_⟩
  intro c u hc _ hu
  unfold get
  split
  · exact ⟨c, rfl, hc⟩
  · next h => exact (e2 c hc).2.2 (lt_trans (not_le.1 h) hu)

/-- **C32**: a column drawn uniformly from `n` and a number drawn uniformly from `[0, 1)` give index `i` with
probability exactly `p i`: the Lebesgue measures of the sets of numbers that lead to `i`, averaged over the columns. -/
theorem C32_distribution {n : Nat} (hn : 0 < n) (p : Nat → ℝ) (hp : ∀ i, i < n → 0 ≤ p i) (hs : ∑ i ∈ range n, p i = 1) :
    ∃ t, build n p = some t ∧ ∀ i, i < n →
      ∑ c ∈ range n, (1 / (n : ℝ)) * (MeasureTheory.volume {u : ℝ | 0 ≤ u ∧ u < 1 ∧ get t c u = some i}).toReal = p i := by
  obtain ⟨t, e1, _, e2, e3⟩ := build_spec hn p hp hs
  refine ⟨t, e1, ?_⟩
  intro i hi
  have hn0 : (n : ℝ) ≠ 0 := by exact_mod_cast hn.ne'
  have hvol : ∀ c ∈ range n, (1 / (n : ℝ)) * (MeasureTheory.volume {u : ℝ | 0 ≤ u ∧ u < 1 ∧ get t c u = some i}).toReal =
      (1 / (n : ℝ)) * ((if c = i then t.prob c else 0) + (if t.al c = some i then 1 - t.prob c else 0)) := by
    intro c hc
    congr 1
    obtain ⟨b1, b2, b3⟩ := e2 c (mem_range.1 hc)
    by_cases hone : t.prob c = 1
    · have hset : {u : ℝ | 0 ≤ u ∧ u < 1 ∧ get t c u = some i} = if c = i then Set.Ico 0 1 else ∅ := by
        ext u
        simp only [Set.mem_setOf_eq, get, hone]
        constructor
        · rintro ⟨h1, h2, h3⟩
          rw [if_pos h2.le] at h3
          cases h3
          simp [h1, h2]
        · intro h
          split at h
          · next hci =>
            subst hci
            exact ⟨h.1, h.2, by rw [if_pos h.2.le]⟩
          · exact absurd h (Set.notMem_empty u)
      rw [hset, hone]
      by_cases hci : c = i <;> simp [hci]
    · have hlt : t.prob c < 1 := lt_of_le_of_ne b2 hone
      obtain ⟨j, j1, _⟩ := b3 hlt
      have hset : {u : ℝ | 0 ≤ u ∧ u < 1 ∧ get t c u = some i} =
          (if c = i then Set.Icc 0 (t.prob c) else ∅) ∪ (if t.al c = some i then Set.Ioo (t.prob c) 1 else ∅) := by
        ext u
        simp only [Set.mem_setOf_eq, get, Set.mem_union]
        constructor
        · rintro ⟨h1, h2, h3⟩
          split at h3
          · next hu => cases h3; left; simp [h1, hu]
          · next hu => right; rw [if_pos h3]; exact ⟨not_le.1 hu, h2⟩
        · rintro (h | h)
          · split at h
            · next hci => subst hci; exact ⟨h.1, lt_of_le_of_lt h.2 hlt, by rw [if_pos h.2]⟩
            · exact absurd h (Set.notMem_empty u)
          · split at h
            · next ha => exact ⟨b1.trans h.1.le, h.2, by rw [if_neg (not_le.2 h.1)]; exact ha⟩
            · exact absurd h (Set.notMem_empty u)
      have hdisj : Disjoint (if c = i then Set.Icc 0 (t.prob c) else ∅) (if t.al c = some i then Set.Ioo (t.prob c) 1 else ∅ : Set ℝ) := by
        rw [Set.disjoint_left]
        intro u h1 h2
        split at h1
        · split at h2
          · exact absurd h1.2 (not_le.2 h2.1)
          · exact absurd h2 (Set.notMem_empty u)
        · exact absurd h1 (Set.notMem_empty u)
      rw [hset, MeasureTheory.measure_union hdisj (by split <;> measurability)]
      rw [ENNReal.toReal_add]
      · congr 1
        · split
          · simp [b1]
          · simp
        · split
          · simp [hlt.le]
          · simp
      · split <;> simp
      · split <;> simp
  rw [sum_congr rfl hvol, ← mul_sum, e3 i hi]
  field_simp

/-! ### Examples: the hypotheses are met -/

/-- Weights 1/2, 1/4, 1/4, 0. -/
def exP : Nat → ℚ
  | 0 => 1 / 2
  | 1 => 1 / 4
  | 2 => 1 / 4
  | _ => 0

example : (∀ i, i < 4 → 0 ≤ exP i) ∧ ∑ i ∈ range 4, exP i = 1 := by decide +kernel
example := C32_in_range (n := 4) (by decide) exP (by decide +kernel) (by decide +kernel)

end Verif.Alias
