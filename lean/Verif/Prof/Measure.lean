import Verif.Prof.Spec
import Mathlib.Tactic.Ring
import Mathlib.Tactic.FieldSimp
import Mathlib.Tactic.Linarith
import Mathlib.Tactic.Positivity
import Mathlib.Tactic.Push

/-! # What is measured -/

namespace Verif.Prof

/-- Average, average of the code, and number of calls of a place in the trie. -/
def stat (node : List Nat → Option Node) (k : List Nat) : ℚ × ℚ × Nat :=
  match node k with
  | none => (0, 0, 0)
  | some n => (n.avg, n.codeavg, n.total.getD 0)

/-- A place that ends a region. -/
def term (node : List Nat → Option Node) (k : List Nat) : Prop := ∃ n, node k = some n ∧ n.total.isSome

/-- One more call. -/
def addEntry (st : ℚ × ℚ × Nat) (e : Entry) : ℚ × ℚ × Nat := (bssAvg st.1 e.time (st.2.2 + 1), bssAvg st.2.1 e.own (st.2.2 + 1), st.2.2 + 1)

theorem set_self (node : List Nat → Option Node) (k : List Nat) (n : Node) : set node k n k = some n := if_pos rfl

theorem set_ne (node : List Nat → Option Node) {j k : List Nat} (n : Node) (h : j ≠ k) : set node k n j = node j := if_neg h

theorem digits_pos {n : Nat} (h : 0 < n) : digits n = (n % 16) :: digits (n / 16) := by rw [digits, if_pos h]

theorem digits_zero : digits 0 = [] := by rw [digits]; rfl

theorem digits_ne_nil {n : Nat} (h : 0 < n) : digits n ≠ [] := by rw [digits_pos h]; simp

/-- The loop of `StartProfile` ends at the place of the digits; it adds nodes only. -/
theorem descend_ok (id : Nat) : ∀ (node : List Nat → Option Node) (k : List Nat), (node k).isSome → (descend node k id).2 = k ++ digits id ∧
    (∀ j n, node j = some n → (descend node k id).1 j = some n) ∧ (∀ j n, (descend node k id).1 j = some n → node j = some n ∨ n = alloc) ∧
    (∀ ds, ds <+: digits id → ((descend node k id).1 (k ++ ds)).isSome) ∧
    (∀ j, ((descend node k id).1 j).isSome → (node j).isSome ∨ ∃ ds, ds <+: digits id ∧ ds ≠ [] ∧ j = k ++ ds) := by
  induction id using Nat.strong_induction_on with
  | _ id ih =>
    intro node k hk
    rw [descend]
    by_cases h : 0 < id
    · rw [if_pos h, digits_pos h]
      dsimp only
      generalize hn : (if (node (k ++ [id % 16])).isNone = true then set node (k ++ [id % 16]) alloc else node) = node'
      have hext : ∀ j n, node j = some n → node' j = some n := by
        intro j n hj
        rw [← hn]
        split
        · rename_i hnone
          rw [set_ne]
          · exact hj
          · rintro rfl; rw [hj] at hnone; cases hnone
        · exact hj
      have hnew : ∀ j n, node' j = some n → node j = some n ∨ n = alloc := by
        intro j n hj
        rw [← hn] at hj
        split at hj
        · by_cases e : j = k ++ [id % 16]
          · rw [e, set_self] at hj; cases hj; exact .inr rfl
          · rw [set_ne _ _ e] at hj; exact .inl hj
        · exact .inl hj
      have hdom : ∀ j, (node' j).isSome → (node j).isSome ∨ j = k ++ [id % 16] := by
        intro j hj
        rw [← hn] at hj
        split at hj
        · by_cases e : j = k ++ [id % 16]
          · exact .inr e
          · rw [set_ne _ _ e] at hj; exact .inl hj
        · exact .inl hj
      have hk' : (node' (k ++ [id % 16])).isSome := by
        rw [← hn]
        split
        · rw [set_self]; rfl
        · rename_i h; cases e : node (k ++ [id % 16]) with
          | none => rw [e] at h; exact absurd rfl h
          | some n => rfl
      obtain ⟨h1, h2, h3, h4, h5⟩ := ih (id / 16) (Nat.div_lt_self h (by omega)) node' (k ++ [id % 16]) hk'
      refine ⟨by rw [h1]; simp, fun j n hj => h2 j n (hext j n hj), ?_, ?_, ?_⟩
      · intro j n hj
        rcases h3 j n hj with h | h
        · exact hnew j n h
        · exact .inr h
      · intro ds hds
        cases ds with
        | nil =>
          obtain ⟨n, hn⟩ := Option.isSome_iff_exists.mp hk
          rw [List.append_nil, h2 k n (hext k n hn)]; rfl
        | cons d ds =>
          obtain ⟨e, hds'⟩ := List.cons_prefix_cons.mp hds
          subst e
          have := h4 ds hds'
          rwa [List.append_assoc] at this
      · intro j hj
        rcases h5 j hj with h | ⟨ds, h6, h7, h8⟩
        · rcases hdom j h with h | h
          · exact .inl h
          · exact .inr ⟨[id % 16], by simp [List.cons_prefix_cons], by simp, h⟩
        · exact .inr ⟨(id % 16) :: ds, List.cons_prefix_cons.mpr ⟨rfl, h6⟩, by simp, by rw [h8]; simp⟩
    · rw [if_neg h]
      have : id = 0 := by omega
      subst this
      rw [digits_zero]
      refine ⟨by simp, fun _ _ h => h, fun _ _ h => .inl h, ?_, fun _ h => .inl h⟩
      intro ds hds
      have : ds = [] := List.prefix_nil.mp hds
      subst this
      simpa using hk

/-- The nodes form a tree with sixteen children each, and nothing is measured at a node that does not end a region. -/
structure Tree (node : List Nat → Option Node) : Prop where
  root : (node []).isSome
  closed : ∀ k d, (node (k ++ [d])).isSome → (node k).isSome ∧ d < 16
  zero : ∀ k n, node k = some n → n.total = none → n.avg = 0 ∧ n.codeavg = 0

theorem prefix_snoc {ds : List Nat} {d : Nat} {l : List Nat} (h : ds ++ [d] <+: l) : ds <+: l ∧ d ∈ l := by
  obtain ⟨t, rfl⟩ := h
  exact ⟨⟨[d] ++ t, by simp⟩, by simp⟩

theorem digits_lt (n : Nat) : ∀ d ∈ digits n, d < 16 := by
  induction n using Nat.strong_induction_on with
  | _ n ih =>
    rcases Nat.eq_zero_or_pos n with h | h
    · subst h; rw [digits_zero]; simp
    · rw [digits_pos h]
      intro d hd
      rcases List.mem_cons.mp hd with rfl | hd
      · exact Nat.mod_lt _ (by omega)
      · exact ih (n / 16) (Nat.div_lt_self h (by omega)) d hd

theorem Tree.descend {node : List Nat → Option Node} (ht : Tree node) {k : List Nat} (hk : (node k).isSome) (id : Nat) : Tree (descend node k id).1 := by
  obtain ⟨h1, h2, h3, h4, h5⟩ := descend_ok id node k hk
  refine ⟨?_, ?_, ?_⟩
  · obtain ⟨n, hn⟩ := Option.isSome_iff_exists.mp ht.root
    rw [h2 [] n hn]; rfl
  · intro j d hj
    have mono : ∀ j, (node j).isSome → ((Prof.descend node k id).1 j).isSome := fun j h => by
      obtain ⟨n, hn⟩ := Option.isSome_iff_exists.mp h
      rw [h2 j n hn]; rfl
    rcases h5 _ hj with h | ⟨ds, hds, hne, e⟩
    · exact ⟨mono _ (ht.closed j d h).1, (ht.closed j d h).2⟩
    · rcases List.eq_nil_or_concat ds with rfl | ⟨ds', d', rfl⟩
      · exact absurd rfl hne
      · rw [List.concat_eq_append, ← List.append_assoc] at e
        obtain ⟨rfl, e2⟩ := List.append_inj' e (by simp)
        have : d = d' := by simpa using e2
        subst this
        rw [List.concat_eq_append] at hds
        obtain ⟨h6, h7⟩ := prefix_snoc hds
        exact ⟨h4 ds' h6, digits_lt id d h7⟩
  · intro j n hj hn
    rcases h3 j n hj with h | h
    · exact ht.zero j n h hn
    · subst h; exact ⟨rfl, rfl⟩

theorem Tree.set {node : List Nat → Option Node} (ht : Tree node) {k : List Nat} (hk : (node k).isSome) (n : Node) (hn : n.total = none → n.avg = 0 ∧ n.codeavg = 0) : Tree (set node k n) := by
  have dom : ∀ j, (Prof.set node k n j).isSome = (node j).isSome := by
    intro j
    by_cases e : j = k
    · subst e; rw [set_self, hk]; rfl
    · rw [set_ne _ _ e]
  refine ⟨by rw [dom]; exact ht.root, fun j d h => by rw [dom] at h ⊢; exact ht.closed j d h, ?_⟩
  intro j m hj hm
  by_cases e : j = k
  · subst e; rw [set_self] at hj; cases hj; exact hn hm
  · rw [set_ne _ _ e] at hj; exact ht.zero j m hj hm

theorem spent_le {lo hi : Nat} {cs : Calls} (h : Ordered lo hi cs) : lo + spent cs ≤ hi := by
  induction cs generalizing lo with
  | nil => exact h
  | cons id b e inner rest _ ih =>
    obtain ⟨h1, h2, -, h4⟩ := h
    have := ih h4
    rw [spent]
    omega

theorem key_append (p q : List Nat) : key (p ++ q) = key p ++ key q := List.flatMap_append

theorem key_single (a : Nat) : key [a] = digits a := by simp [key]

/-- What a program does to the trie. -/
theorem exec_ok (cs : Calls) : ∀ (s : St) (p : List Nat) (lo hi : Nat), Tree s.node → s.cur = key p → (s.node s.cur).isSome → Among (0 < ·) cs → Ordered lo hi cs → hi < 2 ^ 64 →
    ∃ s', exec cs s = some s' ∧ s'.cur = s.cur ∧ Tree s'.node ∧ (∀ k, stat s'.node k = ((entries p cs).filter (fun e => key e.path = k)).foldl addEntry (stat s.node k)) ∧
      (∀ k, term s'.node k ↔ term s.node k ∨ ∃ e ∈ entries p cs, key e.path = k) ∧ (∀ k, (s.node k).isSome → (s'.node k).isSome) ∧
      (∀ n, s.node s.cur = some n → ∃ n', s'.node s.cur = some n' ∧ (n.inner < 2 ^ 64 → n'.inner = (n.inner + spent cs) % 2 ^ 64) ∧ n'.total = n.total) ∧
      (∀ k, (s'.node k).isSome → (s.node k).isSome ∨ ∃ e ∈ entries p cs, k <+: key e.path) ∧ (∀ k, ¬key p <+: k → s'.node k = s.node k) := by
  induction cs with
  | nil =>
    intro s p lo hi ht hc hs _ _ _
    refine ⟨s, rfl, rfl, ht, fun k => rfl, fun k => ?_, fun _ h => h, fun n hn => ⟨n, hn, fun h => by rw [spent, Nat.add_zero, Nat.mod_eq_of_lt h], rfl⟩, fun k h => .inl h, fun _ _ => rfl⟩
    constructor
    · exact .inl
    · rintro (h | ⟨e, he, -⟩)
      · exact h
      · cases he
  | cons id b e inner rest ih1 ih2 =>
    intro s p lo hi ht hc hs ha ho hhi
    obtain ⟨hid, ha1, ha2⟩ := ha
    obtain ⟨ho1, ho2, ho3, ho4⟩ := ho
    have hrest := spent_le ho4
    have hin := spent_le ho3
    obtain ⟨d1, d2, d3, d4, d5⟩ := descend_ok id s.node s.cur hs
    have htd := ht.descend hs id
    generalize hD : descend s.node s.cur id = D at *
    obtain ⟨node1, k1⟩ := D
    dsimp only at d1 d2 d3 d4 d5 htd
    have hk1 : k1 = key (p ++ [id]) := by rw [d1, hc, key_append, key_single]
    have hsome : (node1 k1).isSome := by rw [d1]; exact d4 _ (List.prefix_refl _)
    obtain ⟨n1, hn1⟩ := Option.isSome_iff_exists.mp hsome
    obtain ⟨s1, hs1⟩ : ∃ s1, s1 = (⟨set node1 k1 { n1 with total := some (n1.total.getD 0), inner := 0 }, k1⟩ : St) := ⟨_, rfl⟩
    have hstart : start s id = some s1 := by
      rw [start, hD]; simp only [hn1, Option.map_some, hs1]
    have s1k : s1.node k1 = some { n1 with total := some (n1.total.getD 0), inner := 0 } := by rw [hs1]; exact set_self _ _ _
    have s1n : ∀ k, k ≠ k1 → s1.node k = node1 k := fun k hk => by rw [hs1]; exact set_ne _ _ hk
    have s1c : s1.cur = k1 := by rw [hs1]
    have s1t : Tree s1.node := by rw [hs1]; exact htd.set hsome _ (by simp)
    obtain ⟨s2, e2, c2, t2, st2, tm2, m2, i2, b2, u2⟩ := ih1 s1 (p ++ [id]) b e s1t (by rw [s1c, hk1]) (by rw [s1c, s1k]; rfl) ha1 ho3 (by omega)
    rw [s1c] at i2 c2
    obtain ⟨n2, hn2, hin2, htot2⟩ := i2 _ s1k
    have hin2 : n2.inner = spent inner := by rw [hin2 (by simp)]; simp only [Nat.zero_add]; exact Nat.mod_eq_of_lt (by omega)
    have htot2 : n2.total = some (n1.total.getD 0) := htot2
    have hlt : s.cur.length < k1.length := by
      rw [d1, List.length_append]
      have := List.length_pos_iff.mpr (digits_ne_nil hid)
      omega
    have hlen : s.cur ≠ k1 := by
      intro h
      rw [h] at hlt
      exact Nat.lt_irrefl _ hlt
    -- the node of the surrounding region
    obtain ⟨n0, hn0⟩ := Option.isSome_iff_exists.mp hs
    have h20 : s2.node s.cur = some n0 := by
      rw [u2 _ (fun h => by have := h.length_le; rw [← hk1] at this; omega), s1n _ hlen]
      exact d2 _ _ hn0
    have htime : (e + 2 ^ 64 - b) % 2 ^ 64 = e - b := by
      have : e + 2 ^ 64 - b = (e - b) + 2 ^ 64 := by omega
      rw [this, Nat.add_mod_right, Nat.mod_eq_of_lt (by omega)]
    have h7 : (e - b + 2 ^ 64 - n2.inner) % 2 ^ 64 = (e - b) - spent inner := by
      rw [hin2]
      have : e - b + 2 ^ 64 - spent inner = (e - b - spent inner) + 2 ^ 64 := by omega
      rw [this, Nat.add_mod_right, Nat.mod_eq_of_lt (by omega)]
    obtain ⟨m3, hm3⟩ : ∃ m3, m3 = ({ n2 with total := some (n1.total.getD 0 + 1), avg := bssAvg n2.avg (e - b : Nat) (n1.total.getD 0 + 1), codeavg := bssAvg n2.codeavg ((e - b) - spent inner : Nat) (n1.total.getD 0 + 1) } : Node) := ⟨_, rfl⟩
    obtain ⟨s3, hs3⟩ : ∃ s3, s3 = (⟨set (set s2.node k1 m3) s.cur { n0 with inner := (n0.inner + (e - b)) % 2 ^ 64 }, s.cur⟩ : St) := ⟨_, rfl⟩
    have hstop : stop s2 b e s.cur = some s3 := by
      rw [stop, c2, hn2, Option.bind_some, htot2, Option.bind_some]
      dsimp only
      rw [set_ne _ _ hlen, h20, Option.map_some, htime, h7, hs3, hm3]
    have s3k : s3.node k1 = some m3 := by rw [hs3]; show set _ _ _ _ = _; rw [set_ne _ _ (Ne.symm hlen), set_self]
    have s3c : s3.node s.cur = some { n0 with inner := (n0.inner + (e - b)) % 2 ^ 64 } := by rw [hs3]; exact set_self _ _ _
    have s3n : ∀ k, k ≠ k1 → k ≠ s.cur → s3.node k = s2.node k := fun k h1 h2 => by rw [hs3]; show set _ _ _ _ = _; rw [set_ne _ _ h2, set_ne _ _ h1]
    have s3cur : s3.cur = s.cur := by rw [hs3]
    have s3t : Tree s3.node := by
      rw [hs3]
      refine Tree.set (Tree.set t2 (by rw [hn2]; rfl) m3 (by rw [hm3]; simp)) (by rw [set_ne _ _ hlen, h20]; rfl) _ ?_
      intro h
      exact ht.zero _ n0 hn0 h
    obtain ⟨s4, e4, c4, t4, st4, tm4, m4, i4, b4, u4⟩ := ih2 s3 p e hi s3t (by rw [s3cur, hc]) (by rw [s3cur, s3c]; rfl) ha2 ho4 hhi
    rw [s3cur] at c4 i4
    -- facts about the first part
    have stat1 : ∀ k, stat s1.node k = stat s.node k := by
      intro k
      by_cases hk : k = k1
      · subst hk
        rw [stat, s1k, stat]
        rcases hs : s.node k with _ | n
        · have : n1 = alloc := by
            rcases d3 _ _ hn1 with h | h
            · rw [hs] at h; cases h
            · exact h
          rw [this]; rfl
        · have := d2 _ _ hs
          rw [hn1] at this
          have e : n1 = n := Option.some.inj this
          rw [e]
          cases h : n.total <;> simp [h]
      · rw [stat, s1n k hk, stat]
        rcases hs : s.node k with _ | n
        · rcases hn : node1 k with _ | m
          · rfl
          · rcases d3 _ _ hn with h | h
            · rw [hs] at h; cases h
            · rw [h]; rfl
        · rw [d2 _ _ hs]
    have stat3 : ∀ k, stat s3.node k = if k = k1 then addEntry (stat s2.node k) ⟨p ++ [id], e - b, (e - b) - spent inner⟩ else stat s2.node k := by
      intro k
      by_cases hk : k = k1
      · subst hk
        rw [if_pos rfl, stat, s3k, stat, hn2, hm3]
        simp [addEntry, htot2]
      · rw [if_neg hk]
        by_cases hk2 : k = s.cur
        · subst hk2
          rw [stat, s3c, stat, h20]
        · rw [stat, s3n k hk hk2, stat]
    have term1 : ∀ k, term s1.node k ↔ term s.node k ∨ k = k1 := by
      intro k
      by_cases hk : k = k1
      · subst hk
        exact ⟨fun _ => .inr rfl, fun _ => ⟨_, s1k, rfl⟩⟩
      · constructor
        · rintro ⟨n, hn, htn⟩
          rw [s1n k hk] at hn
          rcases d3 _ _ hn with h | h
          · exact .inl ⟨n, h, htn⟩
          · rw [h] at htn; cases htn
        · rintro (⟨n, hn, htn⟩ | h)
          · exact ⟨n, by rw [s1n k hk]; exact d2 _ _ hn, htn⟩
          · exact absurd h hk
    have term3 : ∀ k, term s3.node k ↔ term s2.node k := by
      intro k
      by_cases hk : k = k1
      · subst hk
        exact ⟨fun _ => ⟨n2, hn2, by rw [htot2]; rfl⟩, fun _ => ⟨m3, s3k, by rw [hm3]; rfl⟩⟩
      · by_cases hk2 : k = s.cur
        · subst hk2
          constructor
          · rintro ⟨n, hn, htn⟩; rw [s3c] at hn; cases hn; exact ⟨n0, h20, htn⟩
          · rintro ⟨n, hn, htn⟩; rw [h20] at hn; cases hn; exact ⟨_, s3c, htn⟩
        · simp only [term, s3n k hk hk2]
    have dom3 : ∀ k, (s3.node k).isSome = (s2.node k).isSome := by
      intro k
      by_cases hk : k = k1
      · subst hk; rw [s3k, hn2]; rfl
      · by_cases hk2 : k = s.cur
        · subst hk2; rw [s3c, h20]; rfl
        · rw [s3n k hk hk2]
    have dom1 : ∀ k, (s1.node k).isSome = (node1 k).isSome := by
      intro k
      by_cases hk : k = k1
      · subst hk; rw [s1k, hn1]; rfl
      · rw [s1n k hk]
    refine ⟨s4, ?_, c4, t4, ?_, ?_, ?_, ?_, ?_, ?_⟩
    · rw [exec, hstart, Option.bind_some, e2, Option.bind_some, hstop, Option.bind_some, e4]
    · intro k
      rw [st4 k, stat3 k, st2 k, stat1 k, entries, List.filter_append, List.filter_cons, List.foldl_append]
      by_cases hk : k = k1
      · subst hk
        rw [if_pos rfl, if_pos (by simp [hk1]), List.foldl_cons]
      · rw [if_neg hk, if_neg (by simp only [decide_eq_true_eq]; rw [← hk1]; exact fun h => hk h.symm)]
    · intro k
      rw [tm4 k, term3 k, tm2 k, term1 k, entries]
      simp only [List.mem_append, List.mem_cons]
      constructor
      · rintro (((h | h) | ⟨x, hx, h⟩) | ⟨x, hx, h⟩)
        · exact .inl h
        · exact .inr ⟨_, .inr (.inl rfl), by rw [h, hk1]⟩
        · exact .inr ⟨x, .inl hx, h⟩
        · exact .inr ⟨x, .inr (.inr hx), h⟩
      · rintro (h | ⟨x, hx | hx | hx, h⟩)
        · exact .inl (.inl (.inl h))
        · exact .inl (.inr ⟨x, hx, h⟩)
        · subst hx; exact .inl (.inl (.inr (by rw [← h, hk1])))
        · exact .inr ⟨x, hx, h⟩
    · intro k hk
      obtain ⟨n, hn⟩ := Option.isSome_iff_exists.mp hk
      exact m4 k (by rw [dom3]; exact m2 k (by rw [dom1, d2 _ _ hn]; rfl))
    · intro n hn
      rw [hn0] at hn; cases hn
      obtain ⟨n', h1, h2, h3⟩ := i4 _ s3c
      refine ⟨n', h1, fun h => ?_, h3⟩
      rw [h2 (Nat.mod_lt _ (by omega)), spent]
      dsimp only
      rw [Nat.mod_add_mod]
      congr 1
      omega
    · intro k hk
      rw [entries]
      rcases b4 k hk with h | ⟨x, hx, h⟩
      · rw [dom3] at h
        rcases b2 k h with h | ⟨x, hx, h⟩
        · rw [dom1] at h
          rcases d5 k h with h | ⟨ds, h1, h2, h3⟩
          · exact .inl h
          · refine .inr ⟨⟨p ++ [id], e - b, (e - b) - spent inner⟩, by simp, ?_⟩
            show k <+: key (p ++ [id])
            rw [h3, key_append, key_single, hc]
            exact (List.prefix_append_right_inj _).mpr h1
        · exact .inr ⟨x, by simp [hx], h⟩
      · exact .inr ⟨x, by simp [hx], h⟩
    · intro k hk
      have hk' : ¬key (p ++ [id]) <+: k := fun h => hk (List.IsPrefix.trans (by rw [key_append]; exact List.prefix_append _ _) h)
      have h1 : k ≠ k1 := fun h => hk' (by rw [← hk1, h])
      have h2 : k ≠ s.cur := fun h => hk (by rw [← hc, h])
      rw [u4 k hk, s3n k h1 h2, u2 k hk', s1n k h1]
      cases hs : s.node k with
      | some n => exact d2 _ _ hs
      | none =>
        cases hn : node1 k with
        | none => rfl
        | some n =>
          rcases d5 k (by rw [hn]; rfl) with h | ⟨ds, _, _, h3⟩
          · rw [hs] at h; cases h
          · exact absurd ⟨ds, by rw [h3, hc]⟩ hk

theorem foldl_addEntry (l : List Entry) : ∀ (a b : ℚ) (n : Nat), let r := l.foldl addEntry (a, b, n)
    r.2.2 = n + l.length ∧ r.1 * (r.2.2 : ℚ) = a * n + ((l.map Entry.time).sum : Nat) ∧ r.2.1 * (r.2.2 : ℚ) = b * n + ((l.map Entry.own).sum : Nat) := by
  induction l with
  | nil => intro a b n; simp
  | cons e l ih =>
    intro a b n
    obtain ⟨h1, h2, h3⟩ := ih (bssAvg a e.time (n + 1)) (bssAvg b e.own (n + 1)) (n + 1)
    have hn : ((n : ℚ) + 1) ≠ 0 := by positivity
    refine ⟨?_, ?_, ?_⟩
    · simp only [List.foldl_cons, addEntry, List.length_cons]; rw [h1]; omega
    · simp only [List.foldl_cons, addEntry, List.map_cons, List.sum_cons]
      rw [h2, bssAvg]; push_cast; field_simp; ring
    · simp only [List.foldl_cons, addEntry, List.map_cons, List.sum_cons]
      rw [h3, bssAvg]; push_cast; field_simp; ring

theorem foldl_mean (l : List Entry) : l.foldl addEntry (0, 0, 0) = (mean (l.map Entry.time), mean (l.map Entry.own), l.length) := by
  cases l with
  | nil => simp [mean]
  | cons e l =>
    obtain ⟨h1, h2, h3⟩ := foldl_addEntry (e :: l) 0 0 0
    generalize (e :: l).foldl addEntry (0, 0, 0) = r at *
    obtain ⟨r1, r2, r3⟩ := r
    simp only [Nat.zero_add] at h1
    subst h1
    have hn : (((e :: l).length : Nat) : ℚ) ≠ 0 := by simp only [List.length_cons]; push_cast; positivity
    simp only [zero_mul, zero_add] at h2 h3
    rw [mean, mean, List.length_map, List.length_map, ← h2, ← h3, mul_div_cancel_right₀ _ hn, mul_div_cancel_right₀ _ hn]

/-- Places of paths are in the order of the paths. -/
theorem key_prefix {S : Nat → Prop} (hS : PrefixFree S) (h0 : ∀ a, S a → 0 < a) : ∀ x y : List Nat, (∀ a ∈ x, S a) → (∀ a ∈ y, S a) → key x <+: key y → x <+: y
  | [], y, _, _, _ => List.nil_prefix
  | a :: x, [], hx, _, h => by
    have hp := h0 a (hx a (by simp))
    rw [key, key, List.flatMap_cons, digits_pos hp] at h
    simp at h
  | a :: x, b :: y, hx, hy, h => by
    rw [key, key, List.flatMap_cons, List.flatMap_cons] at h
    have h1 : digits a <+: digits b ++ y.flatMap digits := (List.prefix_append _ _).trans h
    have h2 : digits b <+: digits b ++ y.flatMap digits := List.prefix_append _ _
    have e : a = b := by
      rcases List.prefix_or_prefix_of_prefix h1 h2 with h' | h'
      · exact hS a b (hx a (by simp)) (hy b (by simp)) h'
      · exact (hS b a (hy b (by simp)) (hx a (by simp)) h').symm
    subst e
    exact List.cons_prefix_cons.mpr ⟨rfl, key_prefix hS h0 x y (fun c hc => hx c (by simp [hc])) (fun c hc => hy c (by simp [hc])) ((List.prefix_append_right_inj _).mp h)⟩

theorem key_inj {S : Nat → Prop} (hS : PrefixFree S) (h0 : ∀ a, S a → 0 < a) {x y : List Nat} (hx : ∀ a ∈ x, S a) (hy : ∀ a ∈ y, S a) (h : key x = key y) : x = y :=
  (key_prefix hS h0 x y hx hy (h ▸ List.prefix_refl _)).eq_of_length_le (key_prefix hS h0 y x hy hx (h ▸ List.prefix_refl _)).length_le

theorem entries_among {S : Nat → Prop} (cs : Calls) : ∀ p, Among S cs → (∀ a ∈ p, S a) → ∀ e ∈ entries p cs, ∀ a ∈ e.path, S a := by
  induction cs with
  | nil => intro p _ _ e he; cases he
  | cons id b e inner rest ih1 ih2 =>
    intro p ⟨h1, h2, h3⟩ hp x hx
    have hp' : ∀ a ∈ p ++ [id], S a := by
      intro a ha
      rcases List.mem_append.mp ha with h | h
      · exact hp a h
      · rw [List.mem_singleton.mp h]; exact h1
    rw [entries, List.mem_append, List.mem_cons] at hx
    rcases hx with h | h | h
    · exact ih1 _ h2 hp' x h
    · subst h; exact hp'
    · exact ih2 p h3 hp x h

theorem Among.mono {S T : Nat → Prop} (h : ∀ a, S a → T a) : ∀ {cs : Calls}, Among S cs → Among T cs
  | .nil, _ => trivial
  | .cons _ _ _ _ _, ⟨h1, h2, h3⟩ => ⟨h _ h1, h2.mono h, h3.mono h⟩

theorem empty_tree : Tree empty.node := by
  refine ⟨rfl, ?_, ?_⟩
  · intro k d h
    simp [empty] at h
  · intro k n hn _
    simp only [empty] at hn
    split at hn
    · cases hn; exact ⟨rfl, rfl⟩
    · cases hn

theorem empty_stat (k : List Nat) : stat empty.node k = (0, 0, 0) := by
  unfold stat empty
  dsimp only
  by_cases h : k = []
  · rw [if_pos h]; rfl
  · rw [if_neg h]

theorem empty_term (k : List Nat) : ¬term empty.node k := by
  rintro ⟨n, hn, h⟩
  simp only [empty] at hn
  split at hn
  · cases hn; cases h
  · cases hn

end Verif.Prof
