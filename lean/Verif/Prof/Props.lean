import Verif.Prof.Tree

/-! # Theorems about the profiler -/

namespace Verif.Prof

/-! ## C138: measurement -/

/-- C138. Of a program whose regions have numbers from a set in which no number is the beginning of another, every path has its own node, which holds the number of its calls, the mean of their times and the mean of the times
that they did not spend in other regions. No place is reached by a null pointer, and at the end the profiler is where it began. Missing for the full claim: numbers that begin like others, `C138_shared_counterexample`. -/
theorem C138_measured_partial {S : Nat → Prop} (hS : PrefixFree S) (h0 : ∀ a, S a → 0 < a) {cs : Calls} {lo hi : Nat} (ha : Among S cs) (ho : Ordered lo hi cs) (hhi : hi < 2 ^ 64) :
    ∃ s, exec cs empty = some s ∧ s.cur = [] ∧ ∀ p : List Nat, (∀ a ∈ p, S a) → (p ≠ [] ∧ callsOf cs p ≠ [] →
      ∃ n, s.node (key p) = some n ∧ n.total = some (callsOf cs p).length ∧ n.avg = mean ((callsOf cs p).map Entry.time) ∧ n.codeavg = mean ((callsOf cs p).map Entry.own)) ∧
      (callsOf cs p = [] → ∀ n, s.node (key p) = some n → n.total = none) := by
  obtain ⟨s', h1, h2, h3, h4, h5, -, -, -, -⟩ := exec_ok cs empty [] lo hi empty_tree rfl rfl (ha.mono h0) ho hhi
  refine ⟨s', h1, h2, fun p hp => ?_⟩
  have hids := entries_among cs [] ha (by simp)
  have hfil : ((entries [] cs).filter fun e => key e.path = key p) = callsOf cs p := by
    refine List.filter_congr fun e he => ?_
    rw [decide_eq_decide]
    exact ⟨fun h => key_inj hS h0 (hids e he) hp h, fun h => by rw [h]⟩
  have hst := h4 (key p)
  rw [empty_stat, hfil, foldl_mean] at hst
  refine ⟨?_, ?_⟩
  · rintro ⟨-, hne⟩
    obtain ⟨e, he⟩ := List.exists_mem_of_ne_nil _ hne
    have he := List.mem_filter.mp he
    obtain ⟨n, hn, ht⟩ := (h5 (key p)).mpr (.inr ⟨e, he.1, by rw [of_decide_eq_true he.2]⟩)
    rw [stat, hn] at hst
    simp only [Prod.mk.injEq] at hst
    obtain ⟨t, ht⟩ := Option.isSome_iff_exists.mp ht
    refine ⟨n, hn, ?_, hst.1, hst.2.1⟩
    rw [ht, ← hst.2.2, ht]
    rfl
  · intro hnil n hn
    cases ht : n.total with
    | none => rfl
    | some t =>
      rcases (h5 (key p)).mp ⟨n, hn, by rw [ht]; rfl⟩ with h | ⟨e, he, hk⟩
      · exact absurd h (empty_term _)
      · have : e ∈ callsOf cs p := List.mem_filter.mpr ⟨he, decide_eq_true (key_inj hS h0 (hids e he) hp hk)⟩
        rw [hnil] at this; cases this

/-- The numbers 1 to 15 are such a set. -/
theorem C138_small : PrefixFree fun a => 0 < a ∧ a < 16 := by
  intro a b ha hb h
  rw [digits_small ha.1 ha.2, digits_small hb.1 hb.2, List.cons_prefix_cons] at h
  exact h.1

theorem digits_inj {a b : Nat} (h : digits a = digits b) : a = b := by
  induction a using Nat.strong_induction_on generalizing b with
  | _ a ih =>
    by_cases ha : 0 < a
    · by_cases hb : 0 < b
      · rw [digits_pos ha, digits_pos hb, List.cons.injEq] at h
        have := ih _ (Nat.div_lt_self ha (by omega)) h.2
        omega
      · rw [show b = 0 by omega, digits_zero] at h
        exact absurd h (digits_ne_nil ha)
    · by_cases hb : 0 < b
      · rw [show a = 0 by omega, digits_zero] at h
        exact absurd h.symm (digits_ne_nil hb)
      · omega

/-- So are all numbers with the same number of digits. -/
theorem C138_same (n : Nat) : PrefixFree fun a => (digits a).length = n := by
  intro a b ha hb h
  exact digits_inj (h.eq_of_length (by rw [ha, hb]))

/-- Region 17 twice, and region 1 in region 1 once: the calls are put into one node. -/
theorem C138_shared_counterexample : ∃ cs, Ordered 0 100 cs ∧ (callsOf cs [17]).length = 2 ∧ key [17] = key [1, 1] ∧ mean ((callsOf cs [17]).map Entry.time) = 1 ∧
    ((exec cs empty).bind fun s => (s.node (key [17])).map fun n => (n.total, n.avg)) = some (some 3, 2) := by
  refine ⟨.cons 17 0 1 .nil (.cons 17 1 2 .nil (.cons 1 10 30 (.cons 1 11 15 .nil .nil) .nil)), by simp [Ordered], ?_, ?_, ?_, ?_⟩ <;> decide +kernel

/-! ## C139: flat output -/

theorem exists_bound (E : List Entry) : ∃ B, ∀ e ∈ E, (key e.path).length ≤ B := by
  induction E with
  | nil => exact ⟨0, fun e he => by cases he⟩
  | cons e E ih =>
    obtain ⟨B, hB⟩ := ih
    refine ⟨max B (key e.path).length, fun x hx => ?_⟩
    rcases List.mem_cons.mp hx with rfl | hx
    · exact Nat.le_max_right _ _
    · exact Nat.le_trans (hB x hx) (Nat.le_max_left _ _)

/-- C139. The flat output has for each region the number of all its calls, in whichever regions they were, and the mean of all their times. Missing for the full claim: numbers that begin like others, and the text, where the
averages are sorted but the names are not, `C139_names_counterexample`. -/
theorem C139_flat_partial {S : Nat → Prop} (hS : PrefixFree S) (h0 : ∀ a, S a → 0 < a ∧ a < 65536) {cs : Calls} {lo hi : Nat} (ha : Among S cs) (ho : Ordered lo hi cs) (hhi : hi < 2 ^ 64) :
    ∃ s F, exec cs empty = some s ∧ ∀ fuel, F ≤ fuel → ∃ avg, flatOut fuel s.node [] 0 0 (fun _ => (0, 0)) = some avg ∧
      ∀ j, avg j = (mean ((callsOfId cs j).map Entry.time), (callsOfId cs j).length) := by
  obtain ⟨s, h1, H⟩ := holds_exec hS (fun a h => (h0 a h).1) (fun a h => (h0 a h).2) ha ho hhi
  obtain ⟨B, hB⟩ := exists_bound (entries [] cs)
  refine ⟨s, B + 2, h1, fun fuel hf => ?_⟩
  obtain ⟨avg, h2, h3⟩ := flatOut_ok H hB fuel [] 0 0 (fun _ => (0, 0)) (.inl ⟨rfl, rfl, rfl⟩) (Nat.zero_le _) (by simpa using hf)
  refine ⟨avg, h2, fun j => ?_⟩
  obtain ⟨g1, g2, g3⟩ := h3 j
  have hW : ∀ f, W (entries [] cs) [] j f = ((callsOfId cs j).map f).sum := by
    intro f
    rw [W, callsOfId, ← sum_filter (fun e => e.path.getLast? = some j)]
    simp
  rw [hW, sum_one] at g1 g3
  rw [hW] at g2
  simp only [Nat.zero_add, zero_mul, zero_add] at g1 g2
  generalize callsOfId cs j = L at *
  refine Prod.ext ?_ g1
  by_cases hL : L.length = 0
  · rw [g3 hL]
    rw [List.eq_nil_of_length_eq_zero hL]
    simp [mean]
  · rw [g1] at g2
    have : ((L.length : Nat) : ℚ) ≠ 0 := by exact_mod_cast hL
    dsimp only
    rw [mean, List.length_map, eq_div_iff this]
    exact g2

/-- Region 1 took 1, region 2 took 10: the output has 10 beside the name of region 1. -/
theorem C139_names_counterexample : ∃ cs, Ordered 0 100 cs ∧ ((exec cs empty).bind fun s => (flatOut 5 s.node [] 0 0 (fun _ => (0, 0))).map fun avg => (avg 1, avg 2, flatWrite 2 avg)) =
    some ((1, 1), (10, 1), [(1, 10, 1), (2, 1, 1)]) := by
  refine ⟨.cons 1 0 1 .nil (.cons 2 10 20 .nil .nil), by simp [Ordered], ?_⟩
  decide +kernel

/-! ## C140: tree output -/

/-- C140. The tree output has one line for each path that was called: with the number of the region, indented once for each region around it, with the mean of the times and the number of the calls, and each line comes after
those of the regions around it and directly among those of its siblings, in the order of the places. Missing for the full claim: numbers that begin like others, and numbers that 16 divides, `C140_indent_counterexample`. -/
theorem C140_tree_partial {S : Nat → Prop} (hS : PrefixFree S) (h0 : ∀ a, S a → 0 < a ∧ a < 65536 ∧ a % 16 ≠ 0) {cs : Calls} {lo hi : Nat} (ha : Among S cs) (ho : Ordered lo hi cs) (hhi : hi < 2 ^ 64) :
    ∃ s F, exec cs empty = some s ∧ ∀ fuel, F ≤ fuel → ∃ L : List (List Nat), treeOut fuel s.node [] 0 (-1) 0 = some (L.map (lineOf cs)) ∧ (∀ p, p ∈ L ↔ callsOf cs p ≠ []) ∧
      L.Pairwise fun p q => key p < key q := by
  obtain ⟨s, h1, H⟩ := holds_exec hS (fun a h => (h0 a h).1) (fun a h => (h0 a h).2.1) ha ho hhi
  obtain ⟨B, hB⟩ := exists_bound (entries [] cs)
  refine ⟨s, B + 2, h1, fun fuel hf => ?_⟩
  obtain ⟨L, h2, h3, h4⟩ := treeOut_ok H (fun a h => (h0 a h).2.2) hB fuel [] 0 (-1) 0 (.inl ⟨rfl, rfl, rfl⟩) ⟨fun _ => rfl, fun e he p a lvl _ g2 g3 g4 => by
    have := congrArg List.length g4
    rw [List.length_append, List.length_take, List.length_nil] at this
    omega⟩ (Nat.zero_le _) (by simpa using hf)
  refine ⟨L, h2, fun p => ?_, h4⟩
  rw [h3 p]
  constructor
  · rintro ⟨e, he, h5, -⟩ h
    have : e ∈ callsOf cs p := List.mem_filter.mpr ⟨he, decide_eq_true h5⟩
    rw [h] at this; cases this
  · intro h
    obtain ⟨e, he⟩ := List.exists_mem_of_ne_nil _ h
    have he := List.mem_filter.mp he
    exact ⟨e, he.1, of_decide_eq_true he.2, List.nil_prefix⟩

/-- Region 16, called once and in no other region, is indented. -/
theorem C140_indent_counterexample : ∃ cs, Ordered 0 100 cs ∧ ((exec cs empty).bind fun s => treeOut 5 s.node [] 0 (-1) 0) = some [⟨1, 16, 3, 1⟩] ∧ lineOf cs [16] = ⟨0, 16, 3, 1⟩ := by
  refine ⟨.cons 16 0 3 .nil .nil, by simp [Ordered], by decide +kernel, by decide +kernel⟩

/-! ## C141: heat output -/

/-- C141. With regions 1 to 15 the heat output has a node for each path that was called, with the mean of its times, and one more, numbered 0, below each path in which other regions were called, with the mean of the times that were
not spent in other regions; it has nothing else. Missing for the full claim: larger numbers, `C141_number_counterexample`. -/
theorem C141_heat_partial {cs : Calls} {lo hi : Nat} (ha : Among (fun a => 0 < a ∧ a < 16) cs) (ho : Ordered lo hi cs) (hhi : hi < 2 ^ 64) :
    ∃ s F, exec cs empty = some s ∧ ∀ fuel, F ≤ fuel → ∃ out, heatOut fuel s.node [] [] 0 0 = some out ∧
      ∀ x, x ∈ out ↔ (∃ p, callsOf cs p ≠ [] ∧ x = (p, mean ((callsOf cs p).map Entry.time))) ∨
        ∃ p q, callsOf cs p ≠ [] ∧ callsOf cs q ≠ [] ∧ p <+: q ∧ p ≠ q ∧ x = (p ++ [0], mean ((callsOf cs p).map Entry.own)) := by
  obtain ⟨s, h1, H⟩ := holds_exec C138_small (fun a h => h.1) (fun a h => by have := h.2; omega) ha ho hhi
  obtain ⟨B, hB⟩ := exists_bound (entries [] cs)
  have hB' : ∀ e ∈ entries [] cs, e.path.length ≤ B := fun e he => by
    have := hB e he
    rwa [key_small (H.ids e he)] at this
  refine ⟨s, B + 2, h1, fun fuel hf => ?_⟩
  obtain ⟨out, h2, h3⟩ := heatOut_ok H (fun a h => h.2) hB' fuel [] [] 0 0 (.inl ⟨rfl, rfl, rfl, rfl⟩) (Nat.zero_le _) (by simpa using hf)
  refine ⟨out, h2, fun x => ?_⟩
  have hcall : ∀ p, callsOf cs p ≠ [] ↔ ∃ e ∈ entries [] cs, e.path = p := by
    intro p
    constructor
    · intro h
      obtain ⟨e, he⟩ := List.exists_mem_of_ne_nil _ h
      have he := List.mem_filter.mp he
      exact ⟨e, he.1, of_decide_eq_true he.2⟩
    · rintro ⟨e, he, h5⟩ h
      have : e ∈ callsOf cs p := List.mem_filter.mpr ⟨he, decide_eq_true h5⟩
      rw [h] at this; cases this
  rw [h3 x, Heat]
  constructor
  · rintro (⟨e, he, -, h⟩ | ⟨e, he, -, ⟨y, hy, g1, g2⟩, h⟩)
    · exact .inl ⟨e.path, (hcall _).mpr ⟨e, he, rfl⟩, h⟩
    · exact .inr ⟨e.path, y.path, (hcall _).mpr ⟨e, he, rfl⟩, (hcall _).mpr ⟨y, hy, rfl⟩, g1, g2, h⟩
  · rintro (⟨p, hp, h⟩ | ⟨p, q, hp, hq, g1, g2, h⟩)
    · obtain ⟨e, he, rfl⟩ := (hcall p).mp hp
      exact .inl ⟨e, he, List.nil_prefix, h⟩
    · obtain ⟨e, he, rfl⟩ := (hcall p).mp hp
      obtain ⟨y, hy, rfl⟩ := (hcall q).mp hq
      exact .inr ⟨e, he, List.nil_prefix, ⟨y, hy, g1, g2⟩, h⟩

/-- Region 33 in region 33 is reported as region 3. -/
theorem C141_number_counterexample : ∃ cs, Ordered 0 100 cs ∧ callsOf cs [33, 33] ≠ [] ∧ ((exec cs empty).bind fun s => heatOut 6 s.node [] [] 0 0) = some [([33], 10), ([33, 3], 2), ([33, 0], 8)] := by
  refine ⟨.cons 33 0 10 (.cons 33 1 3 .nil .nil) .nil, by simp [Ordered], ?_, ?_⟩ <;> decide +kernel

/-! ## Examples -/

/-- Region 1, in which region 2 was called twice, and region 2 on its own. -/
def sample : Calls := .cons 1 0 10 (.cons 2 1 3 .nil (.cons 2 4 8 .nil .nil)) (.cons 2 20 26 .nil .nil)

example : Among (fun a => 0 < a ∧ a < 16) sample ∧ Ordered 0 30 sample ∧ PrefixFree fun a => 0 < a ∧ a < 16 := ⟨by simp [sample, Among], by simp [sample, Ordered], C138_small⟩

example : (callsOf sample [1, 2]).length = 2 ∧ mean ((callsOf sample [1, 2]).map Entry.time) = 3 ∧ mean ((callsOf sample [1]).map Entry.own) = 4 ∧ mean ((callsOfId sample 2).map Entry.time) = 4 := by decide +kernel

example : ((exec sample empty).bind fun s => treeOut 4 s.node [] 0 (-1) 0) = some [⟨0, 1, 10, 1⟩, ⟨1, 2, 3, 2⟩, ⟨0, 2, 6, 1⟩] := by decide +kernel

example : ((exec sample empty).bind fun s => heatOut 4 s.node [] [] 0 0) = some [([1], 10), ([1, 2], 3), ([1, 0], 4), ([2], 6)] := by decide +kernel

end Verif.Prof
