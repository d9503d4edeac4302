import Verif.Prof.Measure
import Mathlib.Tactic.IntervalCases

/-! # The flat output -/

namespace Verif.Prof

/-- `c` calls that took `t` together are added to an average. -/
def Adds (a b : ℚ × Nat) (c t : Nat) : Prop := b.2 = a.2 + c ∧ b.1 * b.2 = a.1 * a.2 + t ∧ (c = 0 → b = a)

theorem Adds.refl (a : ℚ × Nat) : Adds a a 0 0 := ⟨rfl, by simp, fun _ => rfl⟩

theorem Adds.trans {a b c : ℚ × Nat} {m n t u : Nat} (h : Adds a b m t) (g : Adds b c n u) : Adds a c (m + n) (t + u) := by
  refine ⟨by rw [g.1, h.1]; omega, by rw [g.2.1, h.2.1]; push_cast; ring, fun e => ?_⟩
  rw [g.2.2 (by omega), h.2.2 (by omega)]

/-- The sum of `f` over the calls in or below a place that are calls of `j`. -/
def W (E : List Entry) (k : List Nat) (j : Nat) (f : Entry → Nat) : Nat := (E.map fun e => if k <+: key e.path ∧ e.path.getLast? = some j then f e else 0).sum

/-- The same at the place. -/
def V (E : List Entry) (k : List Nat) (j : Nat) (f : Entry → Nat) : Nat := (E.map fun e => if key e.path = k ∧ e.path.getLast? = some j then f e else 0).sum

theorem sum_range16 (d x : Nat) (h : d < 16) : ((List.range 16).map fun i => if i = d then x else 0).sum = x := by
  interval_cases d <;> simp [List.range, List.range.loop]

theorem key_lt (p : List Nat) : ∀ d ∈ key p, d < 16 := by
  intro d hd
  obtain ⟨a, _, h⟩ := List.mem_flatMap.mp hd
  exact digits_lt a d h

theorem sum_map_add {α : Type} (l : List α) (f g : α → Nat) : (l.map fun i => f i + g i).sum = (l.map f).sum + (l.map g).sum := by
  induction l with
  | nil => rfl
  | cons a l ih => simp only [List.map_cons, List.sum_cons, ih]; omega

theorem sum_zero {α : Type} (l : List α) : (l.map fun _ => 0).sum = 0 := by
  induction l with
  | nil => rfl
  | cons a l ih => simp [ih]

theorem W_split (E : List Entry) (k : List Nat) (j : Nat) (f : Entry → Nat) : W E k j f = V E k j f + ((List.range 16).map fun i => W E (k ++ [i]) j f).sum := by
  induction E with
  | nil => simp [W, V]
  | cons e E ih =>
    have hW : ∀ k, W (e :: E) k j f = (if k <+: key e.path ∧ e.path.getLast? = some j then f e else 0) + W E k j f := fun k => by simp [W]
    have hV : V (e :: E) k j f = (if key e.path = k ∧ e.path.getLast? = some j then f e else 0) + V E k j f := by simp [V]
    simp only [hW]
    rw [hV, ih, sum_map_add]
    have : (if k <+: key e.path ∧ e.path.getLast? = some j then f e else 0) = (if key e.path = k ∧ e.path.getLast? = some j then f e else 0) +
        ((List.range 16).map fun i => if k ++ [i] <+: key e.path ∧ e.path.getLast? = some j then f e else 0).sum := by
      by_cases hl : e.path.getLast? = some j
      · simp only [hl, and_true]
        by_cases hp : k <+: key e.path
        · rw [if_pos hp]
          obtain ⟨r, hr⟩ := hp
          rw [← hr]
          cases r with
          | nil =>
            rw [List.append_nil, if_pos rfl]
            have : ∀ i, ¬k ++ [i] <+: k := fun i h => by have := h.length_le; simp at this
            simp only [this, if_false]
            rw [sum_zero, Nat.add_zero]
          | cons d r =>
            have hd : d < 16 := key_lt e.path d (by rw [← hr]; simp)
            rw [if_neg (by simp)]
            have : ∀ i, (k ++ [i] <+: k ++ d :: r) ↔ i = d := fun i => by
              rw [List.prefix_append_right_inj, List.cons_prefix_cons]
              simp
            simp only [this]
            rw [sum_range16 d _ hd, Nat.zero_add]
        · rw [if_neg hp, if_neg (fun h : key e.path = k => hp (h ▸ List.prefix_refl _))]
          have : ∀ i, ¬k ++ [i] <+: key e.path := fun i h => hp ((List.prefix_append _ _).trans h)
          simp only [this, if_false]
          rw [sum_zero]
      · simp only [hl, and_false, if_false]
        rw [sum_zero]
    omega

/-! ## Digits -/

theorem lt_digits (n : Nat) : n < 16 ^ (digits n).length := by
  induction n using Nat.strong_induction_on with
  | _ n ih =>
    by_cases h : 0 < n
    · rw [digits_pos h, List.length_cons, Nat.pow_succ]
      have := ih _ (Nat.div_lt_self h (show 1 < 16 by decide))
      omega
    · have : n = 0 := by omega
      subst this
      exact Nat.pow_pos (by omega)

theorem digits_get (n : Nat) : ∀ l, l < (digits n).length → (digits n)[l]? = some (n / 16 ^ l % 16) := by
  induction n using Nat.strong_induction_on with
  | _ n ih =>
    intro l hl
    by_cases h : 0 < n
    · rw [digits_pos h] at hl ⊢
      cases l with
      | zero => simp
      | succ l =>
        rw [List.getElem?_cons_succ, ih _ (Nat.div_lt_self h (by omega)) l (by simpa using hl), Nat.div_div_eq_div_mul, Nat.pow_succ, Nat.mul_comm 16]
    · have : n = 0 := by omega
      subst this
      rw [digits_zero] at hl
      exact absurd hl (by simp)

theorem id_step (a l : Nat) (ha : a < 65536) : (a % 16 ^ l ||| ((a / 16 ^ l % 16) <<< (4 * l))) % 65536 = a % 16 ^ (l + 1) := by
  have e : (16 : Nat) ^ l = 2 ^ (4 * l) := by rw [Nat.pow_mul]
  have h1 : a % 16 ^ l < 2 ^ (4 * l) := by rw [← e]; exact Nat.mod_lt _ (Nat.pow_pos (by omega))
  rw [Nat.or_comm, ← Nat.shiftLeft_add_eq_or_of_lt h1, Nat.shiftLeft_eq, ← e]
  have : a % 16 ^ (l + 1) = a / 16 ^ l % 16 * 16 ^ l + a % 16 ^ l := by
    rw [Nat.pow_succ, Nat.mod_mul]
    rw [Nat.mul_comm (16 ^ l)]; omega
  rw [← this]
  exact Nat.mod_eq_of_lt (Nat.lt_of_le_of_lt (Nat.mod_le _ _) ha)

/-! ## The walk -/

/-- What the trie holds for a list of calls. -/
structure Holds (S : Nat → Prop) (E : List Entry) (node : List Nat → Option Node) : Prop where
  free : PrefixFree S
  pos : ∀ a, S a → 0 < a
  small : ∀ a, S a → a < 65536
  ids : ∀ e ∈ E, ∀ a ∈ e.path, S a
  down : ∀ e ∈ E, ∀ q, q ≠ [] → q <+: e.path → ∃ x ∈ E, x.path = q
  term : ∀ k, term node k ↔ ∃ e ∈ E, key e.path = k
  dom : ∀ k, (node k).isSome ↔ k = [] ∨ ∃ e ∈ E, k <+: key e.path
  ne : ∀ e ∈ E, e.path ≠ []
  stat : ∀ k, stat node k = (E.filter (fun e => key e.path = k)).foldl addEntry (0, 0, 0)

/-- What is known about the number of a place: it is made of the lowest digits of the last region of each path through the place. -/
def Known (E : List Entry) (k : List Nat) (id lvl : Nat) : Prop :=
  (k = [] ∧ id = 0 ∧ lvl = 0) ∨ ∀ e ∈ E, k <+: key e.path → ∃ p a, p ++ [a] <+: e.path ∧ 1 ≤ lvl ∧ lvl ≤ (digits a).length ∧ k = key p ++ (digits a).take lvl ∧ id = a % 16 ^ lvl

theorem key_nil : key [] = [] := rfl

theorem key_cons (a : Nat) (p : List Nat) : key (a :: p) = digits a ++ key p := rfl

variable {S : Nat → Prop} {E : List Entry} {node : List Nat → Option Node}

theorem key_eq_nil (h0 : ∀ a, S a → 0 < a) {p : List Nat} (hp : ∀ a ∈ p, S a) (h : key p = []) : p = [] := by
  cases p with
  | nil => rfl
  | cons a p =>
    rw [key_cons, List.append_eq_nil_iff] at h
    exact absurd h.1 (digits_ne_nil (h0 a (hp a (by simp))))

/-- What is passed on to the children. -/
theorem passed (H : Holds S E node) {k : List Nat} {id lvl : Nat} (hk : Known E k id lvl) {n : Node} (hn : node k = some n) (i : Nat) :
    ∀ e ∈ E, k ++ [i] <+: key e.path → ∃ p a, p ++ [a] <+: e.path ∧ (if n.total.isSome then (0, 0) else (id, lvl)).2 < (digits a).length ∧
      k = key p ++ (digits a).take (if n.total.isSome then (0, 0) else (id, lvl)).2 ∧ (if n.total.isSome then (0, 0) else (id, lvl)).1 = a % 16 ^ (if n.total.isSome then (0, 0) else (id, lvl)).2 := by
  intro e he hpre
  have hpre' : k <+: key e.path := (List.prefix_append _ _).trans hpre
  -- a new number begins at the place of a whole path
  have fresh : ∀ q, q <+: e.path → k = key q → ∃ p a, p ++ [a] <+: e.path ∧ 0 < (digits a).length ∧ k = key p ++ (digits a).take 0 ∧ 0 = a % 16 ^ 0 := by
    rintro q ⟨r, hr⟩ hkq
    cases r with
    | nil =>
      rw [List.append_nil] at hr
      rw [hkq, hr] at hpre
      have := hpre.length_le
      simp at this
    | cons a r =>
      refine ⟨q, a, ⟨r, by rw [← hr]; simp⟩, List.length_pos_iff.mpr (digits_ne_nil (H.pos a (H.ids e he a (by rw [← hr]; simp)))), by simpa using hkq, ?_⟩
      rw [Nat.pow_zero, Nat.mod_one]
  by_cases ht : n.total.isSome
  · simp only [ht, if_true]
    obtain ⟨x, hx, hxk⟩ := (H.term k).mp ⟨n, hn, ht⟩
    exact fresh x.path (key_prefix H.free H.pos _ _ (H.ids x hx) (H.ids e he) (hxk ▸ hpre')) hxk.symm
  · simp only [ht]
    rcases hk with ⟨rfl, rfl, rfl⟩ | hk
    · exact fresh [] List.nil_prefix rfl
    · obtain ⟨p, a, h1, h2, h3, h4, h5⟩ := hk e he hpre'
      refine ⟨p, a, h1, Nat.lt_of_le_of_ne h3 fun h => ht ?_, h4, h5⟩
      obtain ⟨x, hx, hxp⟩ := H.down e he (p ++ [a]) (by simp) h1
      have : k = key x.path := by
        rw [h4, show lvl = (digits a).length from h, List.take_length, hxp, key_append, key_single]
      obtain ⟨m, hm, hmt⟩ := (H.term k).mpr ⟨x, hx, this.symm⟩
      rw [hn] at hm; cases hm; exact hmt

theorem known_child (H : Holds S E node) {k : List Nat} {id lvl : Nat} (i : Nat)
    (h : ∀ e ∈ E, k ++ [i] <+: key e.path → ∃ p a, p ++ [a] <+: e.path ∧ lvl < (digits a).length ∧ k = key p ++ (digits a).take lvl ∧ id = a % 16 ^ lvl) :
    Known E (k ++ [i]) ((id ||| (i <<< (4 * lvl))) % 65536) (lvl + 1) := by
  right
  intro e he hpre
  obtain ⟨p, a, ⟨r, hr⟩, h2, h3, h4⟩ := h e he hpre
  have hget := digits_get a lvl h2
  have htake : (digits a).take (lvl + 1) = (digits a).take lvl ++ [a / 16 ^ lvl % 16] := by
    rw [List.take_succ, hget]; rfl
  have hi : i = a / 16 ^ lvl % 16 := by
    rw [← hr, key_append, key_append, key_single, h3, List.append_assoc, List.append_assoc, List.prefix_append_right_inj] at hpre
    have h5 : (digits a).take (lvl + 1) <+: digits a ++ key r := (List.take_prefix _ _).trans (List.prefix_append _ _)
    have h6 := List.prefix_of_prefix_length_le h5 hpre (by simp; omega)
    rw [htake] at h6
    have := h6.eq_of_length (by simp)
    simpa using (List.append_inj' this rfl).2.symm
  refine ⟨p, a, ⟨r, hr⟩, by omega, h2, ?_, ?_⟩
  · rw [htake, h3, ← hi]; simp
  · rw [h4, hi]
    exact id_step a lvl (H.small a (H.ids e he a (by rw [← hr]; simp)))

/-- The number of a place where a region ends is the number of the region. -/
theorem known_last (H : Holds S E node) {k : List Nat} {id lvl : Nat} (hk : Known E k id lvl) {e : Entry} (he : e ∈ E) (h : key e.path = k) : e.path.getLast? = some id := by
  rcases hk with ⟨rfl, -, -⟩ | hk
  · exact absurd (key_eq_nil H.pos (H.ids e he) h) (H.ne e he)
  · obtain ⟨p, a, ⟨r, hr⟩, h2, h3, h4, h5⟩ := hk e he (h ▸ List.prefix_refl _)
    rw [← h, ← hr, key_append, key_append, key_single, List.append_assoc, List.append_cancel_left_eq] at h4
    have hl := congrArg List.length h4
    rw [List.length_append, List.length_take] at hl
    have hr0 : r = [] := key_eq_nil H.pos (fun b hb => H.ids e he b (by rw [← hr]; simp [hb])) (List.eq_nil_of_length_eq_zero (by omega))
    have : lvl = (digits a).length := by omega
    rw [← hr, hr0, h5, this, Nat.mod_eq_of_lt (lt_digits a)]
    simp

theorem W_none (j : Nat) (f : Entry → Nat) {k : List Nat} (h : ∀ e ∈ E, ¬k <+: key e.path) : W E k j f = 0 := by
  rw [W]
  have : (E.map fun e => if k <+: key e.path ∧ e.path.getLast? = some j then f e else 0) = E.map fun _ => 0 :=
    List.map_congr_left fun e he => if_neg fun hh => h e he hh.1
  rw [this, sum_zero]

theorem sum_filter (p : Entry → Prop) [DecidablePred p] (f : Entry → Nat) (E : List Entry) : (E.map fun e => if p e then f e else 0).sum = ((E.filter fun e => p e).map f).sum := by
  induction E with
  | nil => rfl
  | cons e E ih =>
    by_cases h : p e
    · simp [h, ih]
    · simp [h, ih]

theorem sum_one {α : Type} (l : List α) : (l.map fun _ => 1).sum = l.length := by
  induction l with
  | nil => rfl
  | cons a l ih => simp only [List.map_cons, List.sum_cons, ih, List.length_cons]; omega

theorem flatAdd_adds (H : Holds S E node) {k : List Nat} {id lvl : Nat} (hk : Known E k id lvl) {n : Node} (hn : node k = some n) (avg : Flat) (j : Nat) :
    Adds (avg j) (flatAdd avg id n j) (V E k j fun _ => 1) (V E k j Entry.time) := by
  have hV : ∀ f, V E k j f = if j = id then ((E.filter fun e => key e.path = k).map f).sum else 0 := by
    intro f
    rw [V]
    by_cases hj : j = id
    · rw [if_pos hj, ← sum_filter (fun e => key e.path = k)]
      congr 1
      refine List.map_congr_left fun e he => ?_
      by_cases h : key e.path = k
      · rw [if_pos h, if_pos ⟨h, by rw [known_last H hk he h, hj]⟩]
      · rw [if_neg h, if_neg fun hh => h hh.1]
    · rw [if_neg hj]
      refine Eq.trans (congrArg List.sum (List.map_congr_left (g := fun _ => 0) fun e he => if_neg fun hh => hj ?_)) (sum_zero E)
      have := hh.2
      rw [known_last H hk he hh.1] at this
      exact (Option.some.inj this).symm
  rw [hV, hV, sum_one]
  have hst := H.stat k
  obtain ⟨g1, g2, -⟩ := foldl_addEntry (E.filter fun e => key e.path = k) 0 0 0
  rw [← hst, Verif.Prof.stat, hn] at g1 g2
  simp only [Nat.zero_add, zero_mul, zero_add] at g1 g2
  generalize (E.filter fun e => key e.path = k) = F at *
  unfold flatAdd
  cases ht : n.total with
  | none =>
    rw [ht] at g1 g2
    have : F = [] := List.eq_nil_of_length_eq_zero g1.symm
    subst this
    simp only [List.length_nil, List.map_nil, List.sum_nil, ite_self]
    exact Adds.refl _
  | some t =>
    rw [ht] at g1 g2
    simp only [Option.getD_some] at g1 g2
    subst g1
    dsimp only
    by_cases hpos : 0 < F.length
    · rw [if_pos hpos]
      by_cases hj : j = id
      · rw [if_pos hj, if_pos hj, if_pos hj]
        refine ⟨rfl, ?_, fun h => by omega⟩
        dsimp only
        rw [← g2]
        have : (((avg j).2 + F.length : Nat) : ℚ) ≠ 0 := by
          have : (avg j).2 + F.length ≠ 0 := by omega
          exact_mod_cast this
        field_simp
      · rw [if_neg hj, if_neg hj, if_neg hj]
        exact Adds.refl _
    · have : F = [] := List.eq_nil_of_length_eq_zero (by omega)
      subst this
      simp only [List.length_nil, List.map_nil, List.sum_nil, ite_self, Nat.lt_irrefl, if_false]
      exact Adds.refl _

theorem foldlM_adds {g : Flat → Nat → Option Flat} {c t : Nat → Nat → Nat} : ∀ (l : List Nat) (avg : Flat),
    (∀ i ∈ l, ∀ avg, ∃ avg', g avg i = some avg' ∧ ∀ j, Adds (avg j) (avg' j) (c i j) (t i j)) →
    ∃ avg', l.foldlM g avg = some avg' ∧ ∀ j, Adds (avg j) (avg' j) ((l.map fun i => c i j).sum) ((l.map fun i => t i j).sum)
  | [], avg, _ => ⟨avg, rfl, fun j => Adds.refl _⟩
  | i :: l, avg, h => by
    obtain ⟨a1, h1, h2⟩ := h i (by simp) avg
    obtain ⟨a2, h3, h4⟩ := foldlM_adds l a1 fun i hi => h i (by simp [hi])
    refine ⟨a2, ?_, fun j => ?_⟩
    · rw [List.foldlM_cons, h1]; exact h3
    · rw [List.map_cons, List.map_cons, List.sum_cons, List.sum_cons]
      exact (h2 j).trans (h4 j)

theorem flatOut_ok (H : Holds S E node) {B : Nat} (hB : ∀ e ∈ E, (key e.path).length ≤ B) : ∀ (fuel : Nat) (k : List Nat) (id lvl : Nat) (avg : Flat),
    Known E k id lvl → k.length ≤ B + 1 → B + 2 ≤ fuel + k.length →
    ∃ avg', flatOut fuel node k id lvl avg = some avg' ∧ ∀ j, Adds (avg j) (avg' j) (W E k j fun _ => 1) (W E k j Entry.time)
  | 0, k, _, _, _, _, h1, h2 => by omega
  | fuel + 1, k, id, lvl, avg, hk, h1, h2 => by
    rw [flatOut]
    cases hn : node k with
    | none =>
      have hno : ∀ e ∈ E, ¬k <+: key e.path := fun e he hp => by
        have := (H.dom k).mpr (.inr ⟨e, he, hp⟩)
        rw [hn] at this; cases this
      refine ⟨avg, rfl, fun j => ?_⟩
      rw [W_none j _ hno, W_none j _ hno]
      exact Adds.refl _
    | some n =>
      have hlen : k.length ≤ B := by
        rcases (H.dom k).mp (by rw [hn]; rfl) with h | ⟨e, he, hp⟩
        · rw [h]; exact Nat.zero_le _
        · exact Nat.le_trans hp.length_le (hB e he)
      have hp := passed H hk hn
      dsimp only
      generalize (if n.total.isSome = true then ((0 : Nat), (0 : Nat)) else (id, lvl)) = q at *
      obtain ⟨id', lvl'⟩ := q
      dsimp only at hp ⊢
      obtain ⟨avg', h3, h4⟩ := foldlM_adds (g := fun avg i => flatOut fuel node (k ++ [i]) ((id' ||| (i <<< (4 * lvl'))) % 65536) (lvl' + 1) avg)
        (c := fun i j => W E (k ++ [i]) j fun _ => 1) (t := fun i j => W E (k ++ [i]) j Entry.time) (List.range 16) (flatAdd avg id n)
        (fun i _ avg => flatOut_ok H hB fuel (k ++ [i]) _ _ avg (known_child H i (hp i)) (by simp; omega) (by simp; omega))
      refine ⟨avg', h3, fun j => ?_⟩
      rw [W_split, W_split]
      exact (flatAdd_adds H hk hn avg j).trans (h4 j)

/-! ## A program -/

theorem entries_down (cs : Calls) : ∀ p, ∀ e ∈ entries p cs, p <+: e.path ∧ p ≠ e.path ∧ ∀ q, p <+: q → p ≠ q → q <+: e.path → ∃ x ∈ entries p cs, x.path = q := by
  induction cs with
  | nil => intro p e he; cases he
  | cons id b e inner rest ih1 ih2 =>
    intro p x hx
    have hsn : ∀ q, p ++ [id] <+: q → p <+: q := fun q h => (List.prefix_append _ _).trans h
    simp only [entries, List.mem_append, List.mem_cons] at hx ⊢
    rcases hx with h | h | h
    · obtain ⟨h1, h2, h3⟩ := ih1 _ x h
      refine ⟨hsn _ h1, fun e => ?_, fun q hq hne hqx => ?_⟩
      · rw [← e] at h1; have := h1.length_le; simp at this
      · have hle : (p ++ [id]).length ≤ q.length := by
          have := hq.length_le
          rcases Nat.lt_or_ge p.length q.length with h | h
          · simp; omega
          · exact absurd (hq.eq_of_length_le h) hne
        have hpq := List.prefix_of_prefix_length_le h1 hqx hle
        by_cases e : p ++ [id] = q
        · exact ⟨_, .inr (.inl rfl), e⟩
        · obtain ⟨y, hy, hyq⟩ := h3 q hpq e hqx
          exact ⟨y, .inl hy, hyq⟩
    · subst h
      refine ⟨List.prefix_append _ _, by simp, fun q hq hne hqx => ?_⟩
      refine ⟨_, .inr (.inl rfl), ?_⟩
      refine (hqx.eq_of_length_le ?_).symm
      have := hq.length_le
      rcases Nat.lt_or_ge p.length q.length with h | h
      · simp; omega
      · exact absurd (hq.eq_of_length_le h) hne
    · obtain ⟨h1, h2, h3⟩ := ih2 p x h
      refine ⟨h1, h2, fun q a b c => ?_⟩
      obtain ⟨y, hy, hyq⟩ := h3 q a b c
      exact ⟨y, .inr (.inr hy), hyq⟩

theorem Tree.prefix {node : List Nat → Option Node} (h : Tree node) {k : List Nat} (r : List Nat) (hk : (node (k ++ r)).isSome) : (node k).isSome := by
  induction r generalizing k with
  | nil => simpa using hk
  | cons d r ih =>
    have := ih (k := k ++ [d]) (by simpa using hk)
    exact (h.closed k d this).1

/-- The trie after a program. -/
theorem holds_exec (hS : PrefixFree S) (h0 : ∀ a, S a → 0 < a) (hs : ∀ a, S a → a < 65536) {cs : Calls} {lo hi : Nat} (ha : Among S cs) (ho : Ordered lo hi cs) (hhi : hi < 2 ^ 64) :
    ∃ s', exec cs empty = some s' ∧ Holds S (entries [] cs) s'.node := by
  obtain ⟨s', h1, h2, h3, h4, h5, h6, h7, h8, -⟩ := exec_ok cs empty [] lo hi empty_tree rfl rfl (ha.mono h0) ho hhi
  have hterm : ∀ k, Verif.Prof.term s'.node k ↔ ∃ e ∈ entries [] cs, key e.path = k := by
    intro k
    rw [h5 k]
    exact ⟨fun h => h.resolve_left (empty_term k), .inr⟩
  refine ⟨s', h1, hS, h0, hs, entries_among cs [] ha (by simp), ?_, hterm, ?_, ?_, ?_⟩
  · intro e he q hq hqe
    exact (entries_down cs [] e he).2.2 q List.nil_prefix hq.symm hqe
  · intro k
    constructor
    · intro h
      rcases h8 k h with h | h
      · left
        simp only [empty] at h
        split at h
        · assumption
        · cases h
      · exact .inr h
    · rintro (h | ⟨e, he, r, hr⟩)
      · rw [h]; exact h3.root
      · obtain ⟨n, hn, -⟩ := (hterm _).mpr ⟨e, he, rfl⟩
        exact h3.prefix r (by rw [hr, hn]; rfl)
  · exact fun e he h => (entries_down cs [] e he).2.1 h.symm
  · intro k
    rw [h4 k, empty_stat]

/-! ## The tree -/

theorem mapM_some {α β : Type} {g : α → Option β} {h : α → β} : ∀ (l : List α), (∀ i ∈ l, g i = some (h i)) → l.mapM g = some (l.map h)
  | [], _ => rfl
  | i :: l, hg => by
    rw [List.mapM_cons, hg i (by simp), mapM_some l fun i hi => hg i (by simp [hi])]
    rfl

/-- A place in front of another. -/
def Before (x y : List Nat) : Prop := x < y

theorem lt_of_prefix {x y : List Nat} (h : x <+: y) (hne : x ≠ y) : x < y := by
  obtain ⟨r, rfl⟩ := h
  induction x with
  | nil => cases r with
    | nil => exact absurd rfl hne
    | cons a r => exact List.nil_lt_cons _ _
  | cons a x ih => exact List.cons_lt_cons_self.mpr (ih fun e => hne (by rw [List.cons_append, ← e]))

theorem lt_of_digit {k x y : List Nat} {i j : Nat} (h : i < j) (hx : k ++ [i] <+: x) (hy : k ++ [j] <+: y) : x < y := by
  obtain ⟨r, rfl⟩ := hx
  obtain ⟨t, rfl⟩ := hy
  induction k with
  | nil => exact List.cons_lt_cons_iff.mpr (.inl h)
  | cons a k ih => exact List.cons_lt_cons_self.mpr ih

end Verif.Prof
