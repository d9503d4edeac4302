import Verif.Random.Props

/-!
# `XorshiftEngine` as a random number engine, and `XorshiftRand`

`include/bss-util/XorshiftEngine.h:82-138`, for `T = uint64_t`. The state is the array `_state` of 17 words; the generator is the model of C62. What
`std::random_device` gives (`seed()`) is not modelled.
-/

namespace Verif.Random

/-- The loop of `seed(uint64_t s[16])`, `XorshiftEngine.h:93-94`, with `n` rounds left. -/
def seedLoop (s : List W) : Nat → List W → Option (List W)
  | 0, x => some x
  | n + 1, x => (rd s (16 - (n + 1))).bind fun v => (wr x (16 - (n + 1)) v).bind fun x => seedLoop s n x

/-- `seed(uint64_t s[16])` and the constructor from an array, `:91-96`, `:86`; `x` is what `_state` was. -/
def seedArr (s x : List W) : Option (List W) := (seedLoop s 16 x).bind fun x => wr x 16 0#64

/-- The loop of `discard`, `:99-100`; `n` is how often the `int` can still be increased, `none` is its overflow. -/
def discardLoop (z : Nat) : Nat → List W → Option (List W)
  | 0, _ => none
  | n + 1, x => if 2 ^ 31 - (n + 1) < z then (xorshift1024star x).bind fun r => discardLoop z n r.2 else some x

/-- `discard`, `:97-101`; `z` is an `unsigned long long`. -/
def discard (z : Nat) (x : List W) : Option (List W) := discardLoop z (2 ^ 31) x

/-- The loop of `operator==`, `:107-112`, with `n` rounds left. -/
def eqLoop (x y : List W) : Nat → Option Bool
  | 0 => some true
  | n + 1 => (rd x (17 - (n + 1))).bind fun a => (rd y (17 - (n + 1))).bind fun b => if a ≠ b then some false else eqLoop x y n

/-- `operator==`, `:107-113`. -/
def equals (x y : List W) : Option Bool := eqLoop x y 17

/-- What `n` calls of `operator()`, `:106`, return. -/
def outs : Nat → List W → Option (List W)
  | 0, _ => some []
  | n + 1, x => (xorshift1024star x).bind fun r => (outs n r.2).map fun l => r.1 :: l

/-- `XorshiftRand(seed)`, `:124-129`, on its static state: the result and the new state. -/
def xorshiftRand (seed : W) (state : List W) : Option (W × List W) :=
  xorshift1024star (if seed ≠ 0#64 then seed1024 seed else state)

/-- The results of calls of `XorshiftRand` with these arguments. -/
def xorshiftRands : List W → List W → Option (List W)
  | [], _ => some []
  | s :: ss, x => (xorshiftRand s x).bind fun r => (xorshiftRands ss r.2).map fun l => r.1 :: l

/-! ## Seeding with an array -/

theorem seedLoop_spec (s : List W) (hs : s.length = 16) : ∀ (n : Nat) (x : List W), n ≤ 16 → x.length = 17 →
    (∀ i, i < 16 - n → x[i]? = s[i]?) → ∃ y, seedLoop s n x = some y ∧ y.length = 17 ∧ ∀ i, i < 16 → y[i]? = s[i]? := by
  intro n
  induction n with
  | zero => intro x _ hl h; exact ⟨x, rfl, hl, fun i hi => h i (by omega)⟩
  | succ n ih =>
    intro x hn hl h
    have hi : 16 - (n + 1) < s.length := by omega
    rw [seedLoop, rd_of_lt hi, Option.bind_some, wr_of_lt (by omega), Option.bind_some]
    refine ih _ (by omega) (by simp [hl]) fun i hi' => ?_
    by_cases he : i = 16 - (n + 1)
    · subst he
      rw [List.getElem?_set_self (by omega), List.getElem?_eq_getElem hi]
    · rw [List.getElem?_set_ne (Ne.symm he)]
      exact h i (by omega)

/-- Seeding with an array gives the same engine whatever its state was before. -/
theorem seedArr_eq {s x : List W} (hs : s.length = 16) (hx : x.length = 17) : seedArr s x = some (s ++ [0#64]) := by
  obtain ⟨y, hy, hl, h⟩ := seedLoop_spec s hs 16 x (le_refl _) hx (by intro i hi; omega)
  rw [seedArr, hy, Option.bind_some, wr_of_lt (by omega)]
  congr 1
  refine List.ext_getElem? fun i => ?_
  by_cases h16 : i = 16
  · subst h16
    rw [List.getElem?_set_self (by omega), List.getElem?_append_right (by omega), hs]
    rfl
  · rw [List.getElem?_set_ne (Ne.symm h16)]
    by_cases hi : i < 16
    · rw [h i hi, List.getElem?_append_left (by omega)]
    · rw [List.getElem?_eq_none (by omega), List.getElem?_eq_none (by simp; omega)]

theorem seeded_valid {s : List W} (hs : s.length = 16) : Valid (s ++ [0#64]) := by
  refine ⟨by simp [hs], 0, by decide, ?_⟩
  rw [List.getElem?_append_right (by omega), hs]
  rfl

/-! ## Comparing -/

theorem eqLoop_spec {x y : List W} (hx : x.length = 17) (hy : y.length = 17) : ∀ n, n ≤ 17 →
    ∃ b, eqLoop x y n = some b ∧ (b = true ↔ ∀ i, 17 - n ≤ i → i < 17 → x[i]? = y[i]?) := by
  intro n
  induction n with
  | zero => intro _; exact ⟨true, rfl, by simp; intro i h1 h2; omega⟩
  | succ n ih =>
    intro hn
    obtain ⟨b, hb, h⟩ := ih (by omega)
    have h1 : 17 - (n + 1) < x.length := by omega
    have h2 : 17 - (n + 1) < y.length := by omega
    rw [eqLoop, rd_of_lt h1, Option.bind_some, rd_of_lt h2, Option.bind_some]
    by_cases he : x[17 - (n + 1)] = y[17 - (n + 1)]
    · rw [if_neg (by simpa using he)]
      refine ⟨b, hb, h.trans ⟨fun hh i h3 h4 => ?_, fun hh i h3 h4 => hh i (by omega) h4⟩⟩
      by_cases hi : i = 17 - (n + 1)
      · subst hi
        rw [List.getElem?_eq_getElem h1, List.getElem?_eq_getElem h2, he]
      · exact hh i (by omega) h4
    · rw [if_pos he]
      refine ⟨false, rfl, ?_⟩
      simp only [Bool.false_eq_true, false_iff]
      intro hh
      have := hh (17 - (n + 1)) (le_refl _) (by omega)
      rw [List.getElem?_eq_getElem h1, List.getElem?_eq_getElem h2] at this
      exact he (Option.some.inj this)

theorem equals_spec {x y : List W} (hx : x.length = 17) (hy : y.length = 17) : equals x y = some (decide (x = y)) := by
  obtain ⟨b, hb, h⟩ := eqLoop_spec hx hy 17 (le_refl _)
  rw [equals, hb]
  congr 1
  have : (b = true) ↔ x = y := by
    rw [h]
    refine ⟨fun hh => List.ext_getElem? fun i => ?_, fun hh i _ _ => by rw [hh]⟩
    by_cases hi : i < 17
    · exact hh i (by omega) hi
    · rw [List.getElem?_eq_none (by omega), List.getElem?_eq_none (by omega)]
  by_cases he : x = y
  · simp [he, this.2 he]
  · cases b
    · simp [he]
    · exact absurd (this.1 rfl) he

/-! ## Draws determine the state -/

/-- Engines with the index `p`. -/
def At (x : List W) (p : Nat) : Prop := x.length = 17 ∧ p < 16 ∧ x[16]? = some (BitVec.ofNat 64 p)

theorem At.valid {x : List W} {p : Nat} (h : At x p) : Valid x := ⟨h.1, p, h.2.1, h.2.2⟩

/-- A draw from an engine with the index `p`. -/
theorem at_step {x : List W} {p : Nat} (h : At x p) : ∃ a b w, x[p]? = some a ∧ x[(p + 1) % 16]? = some b ∧ w = g a ^^^ f b ∧
    ∃ x', xorshift1024star x = some (w * 1181783497276652981#64, x') ∧ At x' ((p + 1) % 16) ∧ x'[(p + 1) % 16]? = some w ∧
      ∀ i, i < 16 → i ≠ (p + 1) % 16 → x'[i]? = x[i]? := by
  obtain ⟨hl, hp, h16⟩ := h
  have hq : (p + 1) % 16 < 16 := Nat.mod_lt _ (by decide)
  have ha : x[p]? = some x[p] := List.getElem?_eq_getElem (by omega)
  have hb : x[(p + 1) % 16]? = some x[(p + 1) % 16] := List.getElem?_eq_getElem (by omega)
  refine ⟨_, _, _, ha, hb, rfl, _, step_eq hl hp h16 ha hb, ⟨by simp [hl], hq, ?_⟩, ?_, ?_⟩
  · rw [List.getElem?_set_ne (by omega), List.getElem?_set_self (by omega)]
  · rw [List.getElem?_set_self (by simp [hl]; omega)]
  · intro i hi hne
    rw [List.getElem?_set_ne (Ne.symm hne), List.getElem?_set_ne (by omega)]

theorem mul_inj {v w : W} (h : v * 1181783497276652981#64 = w * 1181783497276652981#64) : v = w := by
  have hinv : 1181783497276652981#64 * 13515856136758413469#64 = 1#64 := by decide +kernel
  have := congrArg (· * 13515856136758413469#64) h
  simpa only [BitVec.mul_assoc, hinv, BitVec.mul_one] using this

theorem agree : ∀ (n p : Nat) (x y : List W), At x p → At y p → outs n x = outs n y →
    ∃ x' y', draw n x = some x' ∧ draw n y = some y' ∧ At x' ((p + n) % 16) ∧ At y' ((p + n) % 16) ∧
      ∀ i, i < 16 → (x[i]? = y[i]? ∨ ∃ j, 1 ≤ j ∧ j ≤ n ∧ i = (p + j) % 16) → x'[i]? = y'[i]? := by
  intro n
  induction n with
  | zero =>
    intro p x y hx hy _
    have hp := hx.2.1
    refine ⟨x, y, rfl, rfl, ?_, ?_, ?_⟩
    · rw [Nat.add_zero, Nat.mod_eq_of_lt hp]; exact hx
    · rw [Nat.add_zero, Nat.mod_eq_of_lt hp]; exact hy
    · rintro i _ (h | ⟨j, h1, h2, _⟩)
      · exact h
      · omega
  | succ n ih =>
    intro p x y hx hy ho
    obtain ⟨a, b, w, _, _, _, x1, hs, hx1, hw, hk⟩ := at_step hx
    obtain ⟨a', b', w', _, _, _, y1, hs', hy1, hw', hk'⟩ := at_step hy
    have hvx := C62_xorshift1024.2
    rw [outs, outs, hs, hs', Option.bind_some, Option.bind_some] at ho
    dsimp only at ho
    have hsome : ∀ (m : Nat) (z : List W), Valid z → ∃ l, outs m z = some l := by
      intro m
      induction m with
      | zero => intro z _; exact ⟨[], rfl⟩
      | succ m ihm =>
        intro z hz
        obtain ⟨r, hr, hv, _⟩ := step_valid hz
        obtain ⟨l, hl⟩ := ihm r.2 hv
        exact ⟨r.1 :: l, by rw [outs, hr, Option.bind_some, hl]; rfl⟩
    obtain ⟨l, hl⟩ := hsome n x1 hx1.valid
    obtain ⟨l', hl'⟩ := hsome n y1 hy1.valid
    rw [hl, hl', Option.map_some, Option.map_some] at ho
    obtain ⟨h1, h2⟩ := List.cons.inj (Option.some.inj ho)
    have hww := mul_inj h1
    obtain ⟨x', y', hd, hd', hax, hay, h⟩ := ih ((p + 1) % 16) x1 y1 hx1 hy1 (by rw [hl, hl', h2])
    have hm : ((p + 1) % 16 + n) % 16 = (p + (n + 1)) % 16 := by omega
    rw [hm] at hax hay
    refine ⟨x', y', by rw [draw, hs]; exact hd, by rw [draw, hs']; exact hd', hax, hay, fun i hi hor => h i hi ?_⟩
    by_cases hq : i = (p + 1) % 16
    · left
      rw [hq, hw, hw', hww]
    · rcases hor with he | ⟨j, hj1, hj2, hj3⟩
      · left
        rw [hk i hi hq, hk' i hi hq, he]
      · right
        have : j ≠ 1 := by rintro rfl; exact hq hj3
        exact ⟨j - 1, by omega, by omega, by omega⟩

theorem draw_injective : ∀ (n : Nat) (x y z : List W), Valid x → Valid y → draw n x = some z → draw n y = some z → x = y := by
  intro n
  induction n with
  | zero => intro x y z _ _ h1 h2; cases h1; cases h2; rfl
  | succ n ih =>
    intro x y z hx hy h1 h2
    obtain ⟨r, hr, hv, _⟩ := step_valid hx
    obtain ⟨s, hs, hv', _⟩ := step_valid hy
    rw [draw, hr] at h1
    rw [draw, hs] at h2
    exact step_injective hx hy hr hs (ih r.2 s.2 z hv hv' h1 h2)

theorem outs_determine {x y : List W} {p : Nat} (hx : At x p) (hy : At y p) (h : outs 16 x = outs 16 y) : x = y := by
  obtain ⟨x', y', hd, hd', hax, hay, hh⟩ := agree 16 p x y hx hy h
  have hp := hx.2.1
  have : x' = y' := by
    refine List.ext_getElem? fun i => ?_
    by_cases hi : i < 16
    · refine hh i hi (Or.inr ?_)
      by_cases hip : p < i
      · exact ⟨i - p, by omega, by omega, by omega⟩
      · exact ⟨i + 16 - p, by omega, by omega, by omega⟩
    · by_cases h16 : i = 16
      · rw [h16, hax.2.2, hay.2.2]
      · have h1 := hax.1
        have h2 := hay.1
        rw [List.getElem?_eq_none (by omega), List.getElem?_eq_none (by omega)]
  subst this
  exact draw_injective 16 x y x' hx.valid hy.valid hd hd'

theorem draw_at : ∀ (n p : Nat) (x : List W), At x p → ∃ y, draw n x = some y ∧ At y ((p + n) % 16) := by
  intro n
  induction n with
  | zero => intro p x h; exact ⟨x, rfl, by rw [Nat.add_zero, Nat.mod_eq_of_lt h.2.1]; exact h⟩
  | succ n ih =>
    intro p x h
    obtain ⟨_, _, _, _, _, _, x1, hs, hx1, _⟩ := at_step h
    obtain ⟨y, hy, hat⟩ := ih _ x1 hx1
    exact ⟨y, by rw [draw, hs]; exact hy, by rw [show (p + (n + 1)) % 16 = ((p + 1) % 16 + n) % 16 by omega]; exact hat⟩

/-! ## The theorems -/

/-- Engines as users get them: seeded with 16 words, then `k` draws. -/
def Reach (k : Nat) (x : List W) : Prop := ∃ s : List W, s.length = 16 ∧ draw k (s ++ [0#64]) = some x

theorem reach_at {k : Nat} {x : List W} (h : Reach k x) : At x (k % 16) := by
  obtain ⟨s, hs, hd⟩ := h
  have h0 : At (s ++ [0#64]) 0 := by
    obtain ⟨hl, _⟩ := seeded_valid hs
    refine ⟨hl, by decide, ?_⟩
    rw [List.getElem?_append_right (by omega), hs]
    rfl
  obtain ⟨y, hy, hat⟩ := draw_at k 0 _ h0
  rw [hd] at hy
  cases hy
  simpa using hat

theorem seed_reach (v : W) : Reach 0 (seed1024 v) := ⟨_, draws64_length 16 _, rfl⟩

/-- Seeding with an array does not depend on the state before, and engines seeded with different arrays do not have the same 16 first draws. The same is
true of engines that are seeded with different numbers. -/
theorem C206_seed : (∀ s x : List W, s.length = 16 → x.length = 17 → ∃ e, seedArr s x = some e ∧ Reach 0 e ∧ e.take 16 = s) ∧
    (∀ s t x y e e' : List W, s.length = 16 → t.length = 16 → x.length = 17 → y.length = 17 → seedArr s x = some e → seedArr t y = some e' →
      outs 16 e = outs 16 e' → s = t) ∧
    ∀ v w : W, outs 16 (seed1024 v) = outs 16 (seed1024 w) → v = w := by
  refine ⟨fun s x hs hx => ⟨_, seedArr_eq hs hx, ⟨s, hs, rfl⟩, by rw [← hs]; simp⟩, ?_, fun v w h => ?_⟩
  · intro s t x y e e' hs ht hx hy h1 h2 ho
    rw [seedArr_eq hs hx] at h1
    rw [seedArr_eq ht hy] at h2
    cases h1
    cases h2
    have := outs_determine (reach_at (k := 0) ⟨s, hs, rfl⟩) (reach_at (k := 0) ⟨t, ht, rfl⟩) ho
    exact List.append_cancel_right this
  · have := outs_determine (reach_at (seed_reach v)) (reach_at (seed_reach w)) h
    have h0 := congrArg (fun l : List W => l[0]?) this
    have h1 : (xorshift64star (xorshift64star v).2).1 = (xorshift64star (xorshift64star w).2).1 := Option.some.inj h0
    exact state64_injective (C62_xorshift64.2.1 h1)

/-- Two engines that were seeded and have made the same number of draws (or numbers that differ by a multiple of 16) are equal exactly if they return the
same numbers from now on; 16 draws decide it. -/
theorem C206_equal_partial {j k : Nat} {x y : List W} (hx : Reach j x) (hy : Reach k y) (hjk : j % 16 = k % 16) :
    ∃ b, equals x y = some b ∧ (b = true ↔ ∀ n, outs n x = outs n y) ∧ (b = true ↔ outs 16 x = outs 16 y) := by
  have h1 := reach_at hx
  have h2 := reach_at hy
  rw [← hjk] at h2
  refine ⟨_, equals_spec h1.1 h2.1, ?_, ?_⟩ <;> rw [decide_eq_true_eq]
  · exact ⟨fun h n => by rw [h], fun h => outs_determine h1 h2 (h 16)⟩
  · exact ⟨fun h => by rw [h], outs_determine h1 h2⟩

/-- One state is the other one turned. -/
def Turned (x : List W) (p : Nat) (y : List W) (q : Nat) : Prop := ∀ i, x[(p + i) % 16]? = y[(q + i) % 16]?

theorem turned_outs : ∀ (n p q : Nat) (x y : List W), At x p → At y q → Turned x p y q → outs n x = outs n y := by
  intro n
  induction n with
  | zero => intros; rfl
  | succ n ih =>
    intro p q x y hx hy ht
    have hp := hx.2.1
    have hq := hy.2.1
    obtain ⟨a, b, w, ha, hb, hw, x1, hs, hx1, hv, hk⟩ := at_step hx
    obtain ⟨a', b', w', ha', hb', hw', y1, hs', hy1, hv', hk'⟩ := at_step hy
    have e0 := ht 0
    have e1 := ht 1
    rw [Nat.add_zero, Nat.add_zero, Nat.mod_eq_of_lt hp, Nat.mod_eq_of_lt hq, ha, ha'] at e0
    rw [hb, hb'] at e1
    cases e0
    cases e1
    have hww : w = w' := hw.trans hw'.symm
    subst hww
    have : outs n x1 = outs n y1 := by
      refine ih _ _ x1 y1 hx1 hy1 fun i => ?_
      rw [show ((p + 1) % 16 + i) % 16 = (p + (i + 1)) % 16 by omega, show ((q + 1) % 16 + i) % 16 = (q + (i + 1)) % 16 by omega]
      by_cases h : i % 16 = 0
      · rw [show (p + (i + 1)) % 16 = (p + 1) % 16 by omega, show (q + (i + 1)) % 16 = (q + 1) % 16 by omega, hv, hv']
      · rw [hk _ (by omega) (by omega), hk' _ (by omega) (by omega)]
        exact ht (i + 1)
    rw [outs, outs, hs, hs', Option.bind_some, Option.bind_some]
    dsimp only
    rw [this]

/-- In general equality is too fine: for every engine that has made a number of draws that is no multiple of 16, there is an array such that the engine
seeded with it returns the same numbers forever, but is not equal. -/
theorem C206_equal_counterexample {k : Nat} {x : List W} (hx : Reach k x) (hk : k % 16 ≠ 0) (z : List W) (hz : z.length = 17) :
    ∃ s e, s.length = 16 ∧ seedArr s z = some e ∧ (∀ n, outs n e = outs n x) ∧ equals e x = some false := by
  have hat := reach_at hx
  have hl := hat.1
  let s : List W := (List.range 16).map fun i => x.getD ((k + i) % 16) 0#64
  have hs : s.length = 16 := by simp [s]
  refine ⟨s, _, hs, seedArr_eq hs hz, fun n => ?_, ?_⟩
  · have h0 : At (s ++ [0#64]) 0 := reach_at (k := 0) ⟨s, hs, rfl⟩
    refine turned_outs n 0 (k % 16) _ _ h0 hat fun i => ?_
    have hi : i % 16 < 16 := Nat.mod_lt _ (by decide)
    rw [List.getElem?_append_left (by omega), Nat.zero_add, List.getElem?_map, List.getElem?_range hi, Option.map_some,
      show (k % 16 + i) % 16 = (k + i % 16) % 16 by omega, List.getD_eq_getElem?_getD,
      List.getElem?_eq_getElem (show (k + i % 16) % 16 < x.length by omega)]
    rfl
  · rw [equals_spec (by simp [hs]) hl]
    congr 1
    rw [decide_eq_false_iff_not]
    intro he
    have := hat.2.2
    rw [← he, List.getElem?_append_right (by omega), hs] at this
    have h0 : BitVec.ofNat 64 0 = BitVec.ofNat 64 (k % 16) := Option.some.inj this
    exact hk (small_inj (by decide) hat.2.1 h0).symm

theorem discardLoop_spec (z : Nat) : ∀ (n : Nat) (x : List W), Valid x → n ≤ 2 ^ 31 →
    (z < 2 ^ 31 → 0 < n → 2 ^ 31 - n ≤ z → discardLoop z n x = draw (z - (2 ^ 31 - n)) x) ∧ (2 ^ 31 ≤ z → discardLoop z n x = none) := by
  intro n
  induction n with
  | zero => intro x _ _; exact ⟨fun _ h _ => by omega, fun _ => rfl⟩
  | succ n ih =>
    intro x hx hn
    obtain ⟨r, hr, hv, _⟩ := step_valid hx
    obtain ⟨h1, h2⟩ := ih r.2 hv (by omega)
    constructor
    · intro hz _ hle
      rw [discardLoop]
      by_cases hc : 2 ^ 31 - (n + 1) < z
      · rw [if_pos hc, hr, Option.bind_some, h1 hz (by omega) (by omega), show z - (2 ^ 31 - (n + 1)) = (z - (2 ^ 31 - n)) + 1 by omega, draw, hr,
          Option.bind_some]
      · rw [if_neg hc, show z - (2 ^ 31 - (n + 1)) = 0 by omega, draw]
    · intro hz
      rw [discardLoop, if_pos (by omega), hr, Option.bind_some]
      exact h2 hz

theorem outs_draw : ∀ (z n : Nat) (x y : List W) (l : List W), draw z x = some y → outs (z + n) x = some l → outs n y = some (l.drop z) := by
  intro z
  induction z with
  | zero => intro n x y l h1 h2; cases h1; rw [Nat.zero_add] at h2; rw [h2]; rfl
  | succ z ih =>
    intro n x y l h1 h2
    rw [show z + 1 + n = (z + n) + 1 by omega, outs] at h2
    rw [draw] at h1
    obtain ⟨r, hr, h1⟩ := Option.bind_eq_some_iff.1 h1
    rw [hr, Option.bind_some] at h2
    obtain ⟨l', hl', rfl⟩ := Option.map_eq_some_iff.1 h2
    exact ih n r.2 y l' h1 hl'

theorem outs_some : ∀ (m : Nat) (z : List W), Valid z → ∃ l, outs m z = some l ∧ l.length = m := by
  intro m
  induction m with
  | zero => intro z _; exact ⟨[], rfl, rfl⟩
  | succ m ihm =>
    intro z hz
    obtain ⟨r, hr, hv, _⟩ := step_valid hz
    obtain ⟨l, hl, hm⟩ := ihm r.2 hv
    exact ⟨r.1 :: l, by rw [outs, hr, Option.bind_some, hl]; rfl, by simp [hm]⟩

/-- `discard(z)` leaves out exactly the next `z` numbers, for `z` below `2^31`. -/
theorem C206_discard_partial {k z : Nat} {x : List W} (hx : Reach k x) (hz : z < 2 ^ 31) (n : Nat) :
    ∃ y l, discard z x = some y ∧ Reach (k + z) y ∧ outs (z + n) x = some l ∧ l.length = z + n ∧ outs n y = some (l.drop z) := by
  have hv := (reach_at hx).valid
  have hd : discard z x = draw z x := by
    have := (discardLoop_spec z (2 ^ 31) x hv (le_refl _)).1 hz (by decide) (by omega)
    rwa [Nat.sub_self, Nat.sub_zero] at this
  obtain ⟨y, hy, _⟩ := C62_xorshift1024.2 z x hv
  obtain ⟨l, hl, hlen⟩ := outs_some (z + n) x hv
  refine ⟨y, l, hd.trans hy, ?_, hl, hlen, outs_draw z n x y l hy hl⟩
  obtain ⟨s, hs, hks⟩ := hx
  refine ⟨s, hs, ?_⟩
  have add : ∀ (i j : Nat) (a b c : List W), draw i a = some b → draw j b = some c → draw (i + j) a = some c := by
    intro i
    induction i with
    | zero => intro j a b c h1 h2; cases h1; rwa [Nat.zero_add]
    | succ i ih =>
      intro j a b c h1 h2
      obtain ⟨r, hr, h1⟩ := Option.bind_eq_some_iff.1 h1
      rw [show i + 1 + j = (i + j) + 1 by omega, draw, hr]
      exact ih j r.2 b c h1 h2
  exact add k z _ x y hks hy

/-- The counter of `discard` is an `int`: from `2^31` on it overflows. -/
theorem C206_discard_counterexample {k z : Nat} {x : List W} (hx : Reach k x) (hz : 2 ^ 31 ≤ z) : discard z x = none :=
  (discardLoop_spec z (2 ^ 31) x (reach_at hx).valid (le_refl _)).2 hz

/-! ### `XorshiftRand` -/

theorem rands_valid : ∀ (ss : List W) (x : List W), Valid x → ∃ l, xorshiftRands ss x = some l ∧ l.length = ss.length := by
  intro ss
  induction ss with
  | nil => intro x _; exact ⟨[], rfl, rfl⟩
  | cons s ss ih =>
    intro x hx
    have hv : Valid (if s ≠ 0#64 then seed1024 s else x) := by
      split
      · exact (C62_seed s).1
      · exact hx
    obtain ⟨r, hr, hv', _⟩ := step_valid hv
    obtain ⟨l, hl, hlen⟩ := ih r.2 hv'
    exact ⟨r.1 :: l, by rw [xorshiftRands, xorshiftRand, hr, Option.bind_some, hl]; rfl, by simp [hlen]⟩

theorem rands_zero : ∀ (n : Nat) (x : List W), xorshiftRands (List.replicate n 0#64) x = outs n x := by
  intro n
  induction n with
  | zero => intro x; rfl
  | succ n ih =>
    intro x
    rw [List.replicate_succ, xorshiftRands, xorshiftRand, if_neg (by simp), outs]
    congr 1
    funext r
    rw [ih]

theorem rands_seed (v : W) (hv : v ≠ 0#64) (n : Nat) (x : List W) :
    xorshiftRands (v :: List.replicate n 0#64) x = outs (n + 1) (seed1024 v) := by
  rw [xorshiftRands, xorshiftRand, if_pos hv, outs]
  congr 1
  funext r
  rw [rands_zero]

theorem rands_append : ∀ (ss ts : List W) (x l : List W), xorshiftRands (ss ++ ts) x = some l →
    ∃ y, xorshiftRands ts y = some (l.drop ss.length) := by
  intro ss
  induction ss with
  | nil => intro ts x l h; exact ⟨x, h⟩
  | cons s ss ih =>
    intro ts x l h
    rw [List.cons_append, xorshiftRands] at h
    obtain ⟨r, _, h⟩ := Option.bind_eq_some_iff.1 h
    obtain ⟨l', hl', rfl⟩ := Option.map_eq_some_iff.1 h
    exact ih ts r.2 l' hl'

/-- Whatever calls of `XorshiftRand` came before: a call with a seed that is not zero and the calls without a seed after it return what an engine with that
seed returns. -/
theorem C206_rand (before : List W) (v : W) (hv : v ≠ 0#64) (n : Nat) :
    ∃ l, xorshiftRands (before ++ v :: List.replicate n 0#64) (List.replicate 17 0#64) = some l ∧ l.length = before.length + (n + 1) ∧
      outs (n + 1) (seed1024 v) = some (l.drop before.length) := by
  obtain ⟨l, hl, hlen⟩ := rands_valid (before ++ v :: List.replicate n 0#64) (List.replicate 17 0#64) ⟨by decide, 0, by decide, by decide⟩
  obtain ⟨y, hy⟩ := rands_append _ _ _ _ hl
  rw [rands_seed v hv] at hy
  exact ⟨l, hl, by simpa using hlen, hy⟩

/-- The same is not true of calls before the first seed: they return only zeros. -/
theorem C206_rand_counterexample (n : Nat) : xorshiftRands (List.replicate n 0#64) (List.replicate 17 0#64) = some (List.replicate n 0#64) := by
  have key : ∀ (n p : Nat) (x : List W), At x p → (∀ i, i < 16 → x[i]? = some 0#64) → outs n x = some (List.replicate n 0#64) := by
    intro n
    induction n with
    | zero => intros; rfl
    | succ n ih =>
      intro p x hx h
      obtain ⟨a, b, w, ha, hb, hw, x1, hs, hx1, hv, hk⟩ := at_step hx
      rw [h p hx.2.1] at ha
      rw [h _ (Nat.mod_lt _ (by decide))] at hb
      cases ha
      cases hb
      have hw0 : w = 0#64 := hw.trans (by decide)
      subst hw0
      rw [outs, hs, Option.bind_some, ih _ x1 hx1 fun i hi => ?_]
      · rfl
      · by_cases hq : i = (p + 1) % 16
        · rw [hq, hv]
        · rw [hk i hi hq]; exact h i hi
  rw [rands_zero]
  exact key n 0 _ ⟨by decide, by decide, by decide⟩ (by decide)

/-- The hypotheses can be met. -/
example : Reach 0 (seed1024 5#64) := seed_reach 5#64
example : ∃ x, Reach 3 x ∧ 3 % 16 ≠ 0 := by
  obtain ⟨y, hy, _⟩ := C62_xorshift1024.2 3 _ (C62_seed 5#64).1
  exact ⟨y, ⟨_, draws64_length 16 _, hy⟩, by decide⟩
example : outs 2 (seed1024 5#64) ≠ outs 2 (seed1024 6#64) := by decide +kernel

end Verif.Random
