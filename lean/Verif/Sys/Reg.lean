import Mathlib.Data.List.Basic
import Mathlib.Data.List.Induction
import Mathlib.Data.List.Count
import Mathlib.Tactic.Basic

/-!
# Deletion of registry keys

Models `r_delregnode` of `/repo/bss-util/bss_util.cpp` (Windows). A key is the list of the names that lead to it from the root that the caller gives; a registry is the list of its keys. The functions of the system are modelled by what their documentation says: only a key without keys below it can be deleted. Values of keys and errors other than refused access are not modelled.
-/

namespace Verif.Sys

/-- A key, from the root. -/
abbrev RPath := List Nat

/-- What the system refuses: deleting a key, and opening a key for reading. -/
structure Guard where
  locked : RPath → Bool
  hidden : RPath → Bool

/-- `RegDeleteKeyW`, called at `bss_util.cpp:318` and `bss_util.cpp:360`. -/
def regDelete (g : Guard) (keys : List RPath) (p : RPath) : Option (List RPath) :=
  if p ∈ keys ∧ g.locked p = false ∧ ∀ q ∈ keys, q.dropLast = p → q = [] then some (keys.filter (· ≠ p)) else none

/-- `RegEnumKeyExW` with index 0, called at `bss_util.cpp:343` and `bss_util.cpp:354`: the first key directly below. -/
def regEnum (keys : List RPath) (p : RPath) : Option RPath := keys.find? fun q => q ≠ [] ∧ q.dropLast = p

mutual
/-- `r_delregnode`, `bss_util.cpp:309-363`; the result is false for `FALSE`. `none` is a read before the start of an empty name, at `bss_util.cpp:339`, or an exhausted bound on the number of steps. -/
def delNode (g : Guard) : Nat → List RPath → RPath → Option (Bool × List RPath)
  | 0, _, _ => none
  | n + 1, keys, p =>
    match regDelete g keys p with
    | some keys' => some (true, keys')
    | none =>
      if p ∉ keys then some (true, keys)
      else if g.hidden p then some (false, keys)
      else if p = [] then none
      else do
        let keys' ← delLoop g n keys p
        match regDelete g keys' p with
        | some keys'' => some (true, keys'')
        | none => some (false, keys')

/-- The loop, `bss_util.cpp:343-356`. -/
def delLoop (g : Guard) : Nat → List RPath → RPath → Option (List RPath)
  | 0, _, _ => none
  | n + 1, keys, p =>
    match regEnum keys p with
    | none => some keys
    | some q => do
      let (ok, keys') ← delNode g n keys q
      if ok then delLoop g n keys' p else some keys'
end

/-! ## Specification and proofs -/

/-- Each key lies in a key. -/
def Closed (keys : List RPath) : Prop := ∀ q ∈ keys, q ≠ [] → q.dropLast ∈ keys

/-- The number of keys at or below a key. -/
def below (keys : List RPath) (p : RPath) : Nat := keys.countP fun q => p <+: q

/-- What deletion may do: remove keys at or below `p` only. -/
def Within (p : RPath) (keys keys' : List RPath) : Prop := keys'.Sublist keys ∧ ∀ q ∈ keys, ¬ p <+: q → q ∈ keys'

theorem within_refl (p : RPath) (keys : List RPath) : Within p keys keys := ⟨List.Sublist.refl _, fun _ h _ => h⟩

theorem within_trans {p : RPath} {a b c : List RPath} (h1 : Within p a b) (h2 : Within p b c) : Within p a c :=
  ⟨h2.1.trans h1.1, fun q h hn => h2.2 q (h1.2 q h hn) hn⟩

theorem within_up {p q : RPath} {a b : List RPath} (h : p <+: q) (h1 : Within q a b) : Within p a b :=
  ⟨h1.1, fun x hx hn => h1.2 x hx fun hq => hn (h.trans hq)⟩

/-- Below an absent key there is none. -/
theorem closed_absent {keys : List RPath} (hc : Closed keys) {p : RPath} (hp : p ∉ keys) : ∀ q ∈ keys, ¬ p <+: q := by
  rintro q hq ⟨s, rfl⟩
  induction s using List.reverseRecOn with
  | nil => rw [List.append_nil] at hq; exact hp hq
  | append_singleton s x ih =>
    apply ih
    have := hc _ hq (by simp)
    rwa [← List.append_assoc, List.dropLast_concat] at this

/-- A key strictly below `p` lies at or below one directly below `p`. -/
theorem closed_child {keys : List RPath} (hc : Closed keys) {p q : RPath} (hq : q ∈ keys) (h : p <+: q) (hne : q ≠ p) : ∃ x, p ++ [x] ∈ keys ∧ (p ++ [x]) <+: q := by
  obtain ⟨s, rfl⟩ := h
  cases s with
  | nil => simp at hne
  | cons x s =>
    refine ⟨x, ?_, ⟨s, by simp⟩⟩
    by_contra hn
    exact closed_absent hc hn _ hq ⟨s, by simp⟩

theorem regDelete_some {g : Guard} {keys keys' : List RPath} {p : RPath} (hc : Closed keys) (h : regDelete g keys p = some keys') : Within p keys keys' ∧ Closed keys' ∧ ∀ q ∈ keys', ¬ p <+: q := by
  unfold regDelete at h
  split at h
  · rename_i hcond
    obtain ⟨hp, -, hq⟩ := hcond
    have e : keys.filter (· ≠ p) = keys' := Option.some.inj h
    subst e
    refine ⟨⟨List.filter_sublist, fun q h hn => List.mem_filter.2 ⟨h, by simp; rintro rfl; exact hn (List.prefix_refl _)⟩⟩, ?_, ?_⟩
    · intro q hq' hne
      have h1 := List.mem_filter.1 hq'
      refine List.mem_filter.2 ⟨hc q h1.1 hne, ?_⟩
      simp only [ne_eq, decide_not, Bool.not_eq_eq_eq_not, Bool.not_true, decide_eq_false_iff_not]
      intro he
      exact hne (hq q h1.1 he)
    · intro q hq' hpre
      have h1 := List.mem_filter.1 hq'
      have hne : q ≠ p := by simpa using h1.2
      obtain ⟨x, hx, -⟩ := closed_child hc h1.1 hpre hne
      exact absurd (hq _ hx (by simp)) (by simp)
  · cases h

/-- Deletion succeeds if the key is free and has none below it. -/
theorem regDelete_free {g : Guard} {keys : List RPath} {p : RPath} (hp : p ∈ keys) (hl : g.locked p = false) (hn : regEnum keys p = none) : ∃ keys', regDelete g keys p = some keys' := by
  refine ⟨_, if_pos ⟨hp, hl, ?_⟩⟩
  intro q hq he
  by_contra hne
  unfold regEnum at hn
  rw [List.find?_eq_none] at hn
  exact hn q hq (by simp [hne, he])

theorem regEnum_some {keys : List RPath} {p q : RPath} (h : regEnum keys p = some q) : q ∈ keys ∧ ∃ x, q = p ++ [x] := by
  unfold regEnum at h
  have h1 := List.mem_of_find?_eq_some h
  have h2 := List.find?_some h
  simp only [ne_eq, decide_eq_true_eq] at h2
  obtain ⟨hne, he⟩ := h2
  refine ⟨h1, q.getLast hne, ?_⟩
  rw [← he]; exact (List.dropLast_append_getLast hne).symm

/-- None at or below `p` is refused. -/
def Free (g : Guard) (keys : List RPath) (p : RPath) : Prop := ∀ q ∈ keys, p <+: q → g.locked q = false ∧ g.hidden q = false

theorem free_sub {g : Guard} {a b : List RPath} {p : RPath} (h : Free g a p) (hs : ∀ q ∈ b, q ∈ a) : Free g b p := fun q hq => h q (hs q hq)

theorem free_up {g : Guard} {a : List RPath} {p q : RPath} (h : Free g a p) (hs : p <+: q) : Free g a q := fun x hx hp => h x hx (hs.trans hp)

theorem below_up (a : List RPath) {p q : RPath} (hpq : p <+: q) (hne : q ≠ p) (hp : p ∈ a) : below a q < below a p := by
  unfold below
  rw [List.countP_eq_length_filter, List.countP_eq_length_filter]
  have h1 : a.filter (fun x => decide (q <+: x)) = (a.filter (fun x => decide (p <+: x))).filter (fun x => decide (q <+: x)) := by
    rw [List.filter_filter]
    apply List.filter_congr
    intro x _
    by_cases h : q <+: x
    · simp [h, hpq.trans h]
    · simp [h]
  rw [h1, List.length_filter_lt_length_iff_exists]
  refine ⟨p, List.mem_filter.2 ⟨hp, by simp⟩, ?_⟩
  simp only [decide_eq_true_eq]
  intro h
  exact hne (h.eq_of_length_le hpq.length_le)

theorem below_lt {a b : List RPath} {p q : RPath} (hs : b.Sublist a) (hpq : p <+: q) (hq : q ∈ a) (hn : q ∉ b) : below b p < below a p := by
  unfold below
  rw [List.countP_eq_length_filter, List.countP_eq_length_filter]
  have h1 : b.filter (fun x => decide (p <+: x)) = (b.filter (fun x => decide (p <+: x))).filter (fun x => decide (x ≠ q)) := by
    symm; rw [List.filter_eq_self]
    intro x hx
    simp only [ne_eq, decide_eq_true_eq]
    rintro rfl
    exact hn (List.mem_filter.1 hx).1
  have h2 : ((a.filter (fun x => decide (p <+: x))).filter (fun x => decide (x ≠ q))).length < (a.filter (fun x => decide (p <+: x))).length := by
    rw [List.length_filter_lt_length_iff_exists]
    exact ⟨q, List.mem_filter.2 ⟨hq, by simpa using hpq⟩, by simp⟩
  rw [h1]
  exact Nat.lt_of_le_of_lt ((hs.filter _).filter _).length_le h2

/-- What deletion of a key does. -/
def NodeOk (g : Guard) (keys : List RPath) (p : RPath) (r : Option (Bool × List RPath)) : Prop :=
  ∃ ok keys', r = some (ok, keys') ∧ Within p keys keys' ∧ Closed keys' ∧ (ok = true ↔ ∀ q ∈ keys', ¬ p <+: q) ∧ (Free g keys p → ok = true)

/-- What the loop does. -/
def LoopOk (g : Guard) (keys : List RPath) (p : RPath) (r : Option (List RPath)) : Prop :=
  ∃ keys', r = some keys' ∧ Within p keys keys' ∧ Closed keys' ∧ p ∈ keys' ∧ (Free g keys p → regEnum keys' p = none)

theorem node_loop (g : Guard) : ∀ n : Nat,
    (∀ keys p, Closed keys → p ≠ [] → 2 * below keys p + 1 ≤ n → NodeOk g keys p (delNode g n keys p)) ∧
    (∀ keys p, Closed keys → p ≠ [] → p ∈ keys → 2 * below keys p ≤ n → LoopOk g keys p (delLoop g n keys p)) := by
  intro n
  induction n with
  | zero =>
    refine ⟨fun keys p _ _ h => absurd h (by omega), fun keys p hc hne hp h => ?_⟩
    have : 0 < below keys p := List.countP_pos_iff.2 ⟨p, hp, by simp⟩
    omega
  | succ n ih =>
    constructor
    · intro keys p hc hne hn
      unfold delNode
      cases hd : regDelete g keys p with
      | some keys' =>
        obtain ⟨h1, h2, h3⟩ := regDelete_some hc hd
        exact ⟨true, keys', rfl, h1, h2, ⟨fun _ => h3, fun _ => rfl⟩, fun _ => rfl⟩
      | none =>
        dsimp only
        by_cases hp : p ∉ keys
        · rw [if_pos hp]
          exact ⟨true, keys, rfl, within_refl _ _, hc, ⟨fun _ => closed_absent hc hp, fun _ => rfl⟩, fun _ => rfl⟩
        · rw [if_neg hp]
          have hp := not_not.1 hp
          have keep : ∀ keys' : List RPath, p ∈ keys' → (false = true ↔ ∀ q ∈ keys', ¬ p <+: q) := fun keys' h => ⟨fun h => absurd h (by decide), fun hh => absurd (List.prefix_refl p) (hh p h)⟩
          by_cases hh : g.hidden p = true
          · rw [if_pos hh]
            refine ⟨false, keys, rfl, within_refl _ _, hc, keep keys hp, fun hf => ?_⟩
            rw [(hf p hp (List.prefix_refl _)).2] at hh; exact absurd hh (by decide)
          · rw [if_neg hh, if_neg hne]
            obtain ⟨keys', e, h1, h2, h3, h4⟩ := ih.2 keys p hc hne hp (by omega)
            rw [e]
            simp only [Option.bind_eq_bind, Option.bind_some]
            cases hd2 : regDelete g keys' p with
            | some keys'' =>
              obtain ⟨k1, k2, k3⟩ := regDelete_some h2 hd2
              exact ⟨true, keys'', rfl, within_trans h1 k1, k2, ⟨fun _ => k3, fun _ => rfl⟩, fun _ => rfl⟩
            | none =>
              refine ⟨false, keys', rfl, h1, h2, keep keys' h3, fun hf => ?_⟩
              obtain ⟨k, hk⟩ := regDelete_free h3 (hf p hp (List.prefix_refl _)).1 (h4 hf)
              rw [hk] at hd2; cases hd2
    · intro keys p hc hne hp hn
      unfold delLoop
      cases he : regEnum keys p with
      | none => exact ⟨keys, rfl, within_refl _ _, hc, hp, fun _ => he⟩
      | some q =>
        dsimp only
        obtain ⟨hq, x, hx⟩ := regEnum_some he
        have hpq : p <+: q := hx ▸ List.prefix_append _ _
        have hnp : ¬ q <+: p := fun h => by have := h.length_le; rw [hx] at this; simp at this; omega
        have hqp : q ≠ p := fun h => hnp (h ▸ List.prefix_refl _)
        have hlt := below_up keys hpq hqp hp
        obtain ⟨ok, keys', e, h1, h2, h3, h4⟩ := ih.1 keys q hc (by rw [hx]; simp) (by omega)
        rw [e]
        simp only [Option.bind_eq_bind, Option.bind_some]
        have hp' : p ∈ keys' := h1.2 p hp hnp
        by_cases hok : ok = true
        · rw [if_pos hok]
          have hqn : q ∉ keys' := fun h => (h3.1 hok) q h (List.prefix_refl _)
          have hlt2 := below_lt h1.1 hpq hq hqn
          obtain ⟨keys'', e2, k1, k2, k3, k4⟩ := ih.2 keys' p h2 hne hp' (by omega)
          exact ⟨keys'', e2, within_trans (within_up hpq h1) k1, k2, k3, fun hf => k4 (free_sub hf fun y hy => h1.1.subset hy)⟩
        · rw [if_neg hok]
          exact ⟨keys', rfl, within_up hpq h1, h2, hp', fun hf => absurd (h4 (free_up hf hpq)) hok⟩

/-- **C147**: deleting a registry key always ends, removes no key that is not at or below it, and reports success exactly if neither the key nor any key below it is left. -/
theorem C147_delete (g : Guard) (keys : List RPath) (p : RPath) (hc : Closed keys) (hp : p ≠ []) : ∃ n₀, ∀ n ≥ n₀, ∃ ok keys', delNode g n keys p = some (ok, keys') ∧ keys'.Sublist keys ∧ (∀ q ∈ keys, ¬ p <+: q → q ∈ keys') ∧ (ok = true ↔ ∀ q ∈ keys', ¬ p <+: q) ∧ Closed keys' := by
  refine ⟨2 * below keys p + 1, fun n hn => ?_⟩
  obtain ⟨ok, keys', e, h1, h2, h3, -⟩ := (node_loop g n).1 keys p hc hp hn
  exact ⟨ok, keys', e, h1.1, h1.2, h3, h2⟩

/-- **C147**: if the system refuses nothing at or below the key, exactly the key and those below it are removed, and success is reported. -/
theorem C147_delete_all (g : Guard) (keys : List RPath) (p : RPath) (hc : Closed keys) (hp : p ≠ []) (hf : ∀ q ∈ keys, p <+: q → g.locked q = false ∧ g.hidden q = false) : ∃ n₀, ∀ n ≥ n₀, ∃ keys', delNode g n keys p = some (true, keys') ∧ ∀ q, q ∈ keys' ↔ q ∈ keys ∧ ¬ p <+: q := by
  refine ⟨2 * below keys p + 1, fun n hn => ?_⟩
  obtain ⟨ok, keys', e, h1, h2, h3, h4⟩ := (node_loop g n).1 keys p hc hp hn
  have hok := h4 hf
  subst hok
  exact ⟨keys', e, fun q => ⟨fun h => ⟨h1.1.subset h, h3.1 rfl q h⟩, fun h => h1.2 q h.1 h.2⟩⟩

/-- **C147** counterexample: an empty name with keys below it reads the character before its start. -/
theorem C147_empty_counterexample (n : Nat) : delNode ⟨fun _ => false, fun _ => false⟩ (n + 1) [[], [1]] [] = none := by
  unfold delNode
  simp [regDelete]

/-- A tree with a key outside, one refused key and what is left then. -/
example : delNode ⟨fun _ => false, fun _ => false⟩ 20 [[], [1], [1, 2], [1, 2, 3], [1, 4], [5]] [1] = some (true, [[], [5]]) ∧
    delNode ⟨fun p => p == [1, 4], fun _ => false⟩ 20 [[], [1], [1, 2], [1, 2, 3], [1, 4], [5]] [1] = some (false, [[], [1], [1, 4], [5]]) := by decide +kernel

/-- This tree satisfies the hypotheses. -/
example : Closed [[], [1], [1, 2], [1, 2, 3], [1, 4], [5]] := by unfold Closed; decide

end Verif.Sys
