import Mathlib.Analysis.SpecialFunctions.Log.Basic
import Mathlib.Analysis.SpecialFunctions.Pow.Real
import Mathlib.Analysis.Complex.ExponentialBounds

/-!
# `NormalZig` (C195)

The ziggurat generator of normally distributed numbers, `/repo/include/bss-util/algo.h:149-214`, in exact arithmetic over the real numbers. The random
numbers are arbitrary. `none` is undefined behaviour: an access outside the tables.
-/

namespace Verif.Random.Zig

open Real

/-! ## Code -/

/-- The template argument `ZIGNOR_C` (equal to the argument `iC`), and the arguments `dV` and `dR`. -/
structure Cfg where
  C : ℕ
  V : ℝ
  R : ℝ

/-- `ZIGNOR_R`, `algo.h:149`. -/
noncomputable def zignorR : ℝ := 3.442619855899

/-- `exp(-0.5 * (x * x))`, `algo.h:160, 168`. -/
noncomputable def gauss (x : ℝ) : ℝ := exp (-0.5 * (x * x))

/-- `s_adZigX[1 + n]` as computed by the loop, `algo.h:162-169`. -/
noncomputable def zigIter (V R : ℝ) : ℕ → ℝ
  | 0 => R
  | n + 1 => √(-2 * log (V / zigIter V R n + gauss (zigIter V R n)))

/-- `s_adZigX`, `algo.h:160-169`. -/
noncomputable def zigX (c : Cfg) (i : ℕ) : ℝ :=
  if i = 0 then c.V / gauss c.R else if i = c.C then 0 else zigIter c.V c.R (i - 1)

/-- `s_adZigR`, `algo.h:171-172`. -/
noncomputable def zigR (c : Cfg) (i : ℕ) : ℝ := zigX c (i + 1) / zigX c i

/-- What a round of the loop of `Get` does: return a number, go to the tail, or try again. -/
inductive Out
  | ret (x : ℝ)
  | tail (neg : Bool)
  | again

/-- A round of `Get`, `algo.h:193-206`: `r` and `w` are numbers drawn from [0, 1), `i` one from 0 to 127. -/
noncomputable def round (c : Cfg) (r : ℝ) (i : ℕ) (w : ℝ) : Option Out :=
  let u := 2 * r - 1
  if i < c.C then
    if |u| < zigR c i then some (.ret (u * zigX c i))
    else if i = 0 then some (.tail (decide (u < 0)))
    else
      let x := u * zigX c i
      let f0 := exp (-0.5 * (zigX c i * zigX c i - x * x))
      let f1 := exp (-0.5 * (zigX c (i + 1) * zigX c (i + 1) - x * x))
      if f1 + w * (f0 - f1) < 1 then some (.ret x) else some .again
  else none

/-- A round of `DRanNormalTail(dMin, iNegative)`, `algo.h:181-185`. -/
noncomputable def tailRound (dMin : ℝ) (neg : Bool) (a b : ℝ) : Option ℝ :=
  let x := log a / dMin
  let y := log b
  if -2 * y < x * x then none else some (if neg then x - dMin else dMin - x)

/-- `DRanNormalTail(dMin, iNegative)`, `algo.h:175-186`, with the pairs of random numbers; `none` if they are used up. -/
noncomputable def tail (dMin : ℝ) (neg : Bool) : List (ℝ × ℝ) → Option ℝ
  | [] => none
  | (a, b) :: l => match tailRound dMin neg a b with
    | some x => some x
    | none => tail dMin neg l

/-- `Get`, `algo.h:189-208`, with the random numbers of the rounds, and those for the tail; `none` if they are used up or for undefined behaviour. -/
noncomputable def get (c : Cfg) : List (ℝ × ℕ × ℝ) → List (ℝ × ℝ) → Option ℝ
  | [], _ => none
  | (r, i, w) :: l, t => match round c r i w with
    | none => none
    | some (.ret x) => some x
    | some (.tail neg) => tail zignorR neg t
    | some .again => get c l t

/-! ## Specification -/

/-- The bell curve. -/
noncomputable def bell (x : ℝ) : ℝ := exp (-(x ^ 2) / 2)

/-- The table can be computed: the arguments of the logarithms are below 1. -/
def Good (c : Cfg) : Prop :=
  0 < c.V ∧ 0 < c.R ∧ 1 < c.C ∧ ∀ n, n + 2 < c.C → c.V / zigIter c.V c.R n + bell (zigIter c.V c.R n) < 1

/-! ## Proofs -/

theorem gauss_eq (x : ℝ) : gauss x = bell x := by
  unfold gauss bell
  congr 1
  ring

theorem bell_lt {x y : ℝ} : bell x < bell y ↔ y ^ 2 < x ^ 2 := by
  unfold bell
  rw [exp_lt_exp]
  constructor <;> intro h <;> linarith

theorem bell_pos (x : ℝ) : 0 < bell x := exp_pos _

theorem iter_spec {c : Cfg} (h : Good c) : ∀ n, n + 1 < c.C → 0 < zigIter c.V c.R n ∧
    (n + 2 < c.C → bell (zigIter c.V c.R (n + 1)) = c.V / zigIter c.V c.R n + bell (zigIter c.V c.R n))
  | 0, _ => by
    refine ⟨h.2.1, fun hn => ?_⟩
    exact iter_step (V := c.V) (x := zigIter c.V c.R 0) (div_pos h.1 h.2.1) (h.2.2.2 0 hn) |>.2
  | n + 1, hn => by
    have hp := (iter_spec h n (by omega)).1
    have h1 := iter_step (V := c.V) (x := zigIter c.V c.R n) (div_pos h.1 hp) (h.2.2.2 n (by omega))
    refine ⟨h1.1, fun hn2 => ?_⟩
    exact iter_step (V := c.V) (x := zigIter c.V c.R (n + 1)) (div_pos h.1 h1.1) (h.2.2.2 (n + 1) hn2) |>.2
where
  iter_step {V x : ℝ} (hv : 0 < V / x) (h : V / x + bell x < 1) :
      0 < √(-2 * log (V / x + gauss x)) ∧ bell (√(-2 * log (V / x + gauss x))) = V / x + bell x := by
    rw [gauss_eq]
    have hpos : 0 < V / x + bell x := add_pos hv (bell_pos x)
    have hlog : log (V / x + bell x) < 0 := log_neg hpos h
    refine ⟨Real.sqrt_pos.2 (by linarith), ?_⟩
    unfold bell at hlog hpos ⊢
    rw [Real.sq_sqrt (by linarith)]
    rw [show -(-2 * log (V / x + exp (-(x ^ 2) / 2))) / 2 = log (V / x + exp (-(x ^ 2) / 2)) by ring, exp_log hpos]

/-- **C195**: the table: the strips below the bell curve all have the area `dV` (with the possible exception of the last one), and they get narrower. -/
theorem C195_areas {c : Cfg} (h : Good c) :
    zigX c 0 * bell (zigX c 1) = c.V ∧
    (∀ i, 0 < i → i + 1 < c.C → zigX c i * (bell (zigX c (i + 1)) - bell (zigX c i)) = c.V) ∧
    ∀ i, 0 < i → i < c.C → 0 ≤ zigX c (i + 1) ∧ zigX c (i + 1) < zigX c i := by
  have hC := h.2.2.1
  have x1 : zigX c 1 = c.R := by unfold zigX; rw [if_neg (by omega), if_neg (by omega)]; rfl
  have xi : ∀ i, 0 < i → i < c.C → zigX c i = zigIter c.V c.R (i - 1) := by
    intro i hi hc
    unfold zigX
    rw [if_neg (by omega), if_neg (by omega)]
  refine ⟨?_, ?_, ?_⟩
  · rw [x1]
    unfold zigX
    rw [if_pos rfl, gauss_eq, div_mul_cancel₀ _ (bell_pos _).ne']
  · intro i hi hc
    obtain ⟨n, rfl⟩ : ∃ n, i = n + 1 := ⟨i - 1, by omega⟩
    rw [xi _ hi (by omega), xi _ (by omega) hc]
    simp only [Nat.add_sub_cancel]
    obtain ⟨hp, he⟩ := iter_spec h n (by omega)
    rw [he (by omega), add_sub_cancel_right, mul_div_cancel₀ _ hp.ne']
  · intro i hi hc
    obtain ⟨n, rfl⟩ : ∃ n, i = n + 1 := ⟨i - 1, by omega⟩
    obtain ⟨hp, he⟩ := iter_spec h n (by omega)
    by_cases hl : n + 2 = c.C
    · have : zigX c (n + 1 + 1) = 0 := by
        unfold zigX
        rw [if_neg (by omega), if_pos (by omega)]
      rw [this, xi _ hi hc]
      exact ⟨le_rfl, hp⟩
    · rw [xi _ hi hc, xi _ (by omega) (by omega)]
      simp only [Nat.add_sub_cancel]
      have hq := (iter_spec h (n + 1) (by omega)).1
      refine ⟨hq.le, ?_⟩
      have : bell (zigIter c.V c.R n) < bell (zigIter c.V c.R (n + 1)) := by
        rw [he (by omega)]
        linarith [div_pos h.1 hp]
      exact lt_of_pow_lt_pow_left₀ 2 hp.le (bell_lt.1 this)

/-- A table of three strips. -/
theorem good_example : Good ⟨3, 1 / 10, 1⟩ := by
  refine ⟨by norm_num, by norm_num, by norm_num, fun n hn => ?_⟩
  have hn0 : n = 0 := by dsimp only at hn; omega
  subst hn0
  show 1 / 10 / 1 + bell 1 < 1
  have h1 : bell 1 < 0.9 := by
    unfold bell
    have h2 : exp (-(1 ^ 2) / 2 : ℝ) ^ 2 = exp (-1) := by
      rw [← exp_nat_mul]; norm_num
    have h3 := exp_neg_one_lt_d9
    by_contra hle
    push Not at hle
    nlinarith
  norm_num at h1 ⊢
  linarith

/-- **C195**: in every strip but the lowest a round is exact: the random point of the strip is taken if and only if it is below the bell curve. -/
theorem C195_strip {c : Cfg} (h : Good c) {i : ℕ} (hi : 0 < i) (hc : i < c.C) {r w : ℝ} (hw : 0 ≤ w) :
    let x := (2 * r - 1) * zigX c i
    let y := bell (zigX c (i + 1)) + w * (bell (zigX c i) - bell (zigX c (i + 1)))
    (y < bell x → round c r i w = some (.ret x)) ∧ (bell x ≤ y → round c r i w = some .again) := by
  dsimp only
  obtain ⟨hn, hl⟩ := (C195_areas h).2.2 i hi hc
  have hX : 0 < zigX c i := lt_of_le_of_lt hn hl
  unfold round
  dsimp only
  rw [if_pos hc]
  obtain ⟨u, hu⟩ : ∃ u, u = 2 * r - 1 := ⟨_, rfl⟩
  rw [← hu]
  have hbb : bell (zigX c i) < bell (zigX c (i + 1)) := bell_lt.2 (pow_lt_pow_left₀ hl hn (by norm_num))
  have hquot : ∀ z, exp (-0.5 * (z * z - u * zigX c i * (u * zigX c i))) = bell z / bell (u * zigX c i) := by
    intro z
    unfold bell
    rw [← exp_sub]
    congr 1
    ring
  have hb := bell_pos (u * zigX c i)
  have hcond : bell (zigX c (i + 1)) / bell (u * zigX c i) +
      w * (bell (zigX c i) / bell (u * zigX c i) - bell (zigX c (i + 1)) / bell (u * zigX c i)) < 1 ↔
      bell (zigX c (i + 1)) + w * (bell (zigX c i) - bell (zigX c (i + 1))) < bell (u * zigX c i) := by
    rw [← sub_div, mul_div_assoc', ← add_div, div_lt_one hb]
  by_cases hf : |u| < zigR c i
  · rw [if_pos hf]
    refine ⟨fun _ => rfl, fun hle => ?_⟩
    exfalso
    unfold zigR at hf
    rw [lt_div_iff₀ hX] at hf
    have h1 : bell (zigX c (i + 1)) < bell (u * zigX c i) := by
      rw [bell_lt]
      have : |u * zigX c i| < zigX c (i + 1) := by rwa [abs_mul, abs_of_pos hX]
      rw [← sq_abs (u * zigX c i)]
      exact pow_lt_pow_left₀ this (abs_nonneg _) (by norm_num)
    have h2 := mul_nonneg hw (sub_pos.2 hbb).le
    linarith
  · rw [if_neg hf, if_neg (by omega), hquot, hquot]
    constructor
    · intro hlt
      rw [if_pos (hcond.2 hlt)]
    · intro hle
      rw [if_neg (fun hh => absurd (hcond.1 hh) (not_lt.2 hle))]

example : (0 : ℕ) < 1 ∧ 1 < (⟨3, 1 / 10, 1⟩ : Cfg).C ∧ (0 : ℝ) ≤ 1 / 2 := by norm_num

/-- **C195**: the lowest strip: numbers below `dR` are taken, the others go to the tail, with their sign. -/
theorem C195_base {c : Cfg} (hV : 0 < c.V) (hC : 1 < c.C) {r w : ℝ} :
    let x := (2 * r - 1) * zigX c 0
    (|x| < c.R → round c r 0 w = some (.ret x)) ∧ (c.R ≤ |x| → round c r 0 w = some (.tail (decide (x < 0)))) := by
  dsimp only
  have x1 : zigX c 1 = c.R := by unfold zigX; rw [if_neg (by omega), if_neg (by omega)]; rfl
  have hX : 0 < zigX c 0 := by
    unfold zigX
    rw [if_pos rfl]
    exact div_pos hV (exp_pos _)
  unfold round
  dsimp only
  rw [if_pos (by omega)]
  have hf : |2 * r - 1| < zigR c 0 ↔ |(2 * r - 1) * zigX c 0| < c.R := by
    unfold zigR
    rw [lt_div_iff₀ hX, abs_mul, abs_of_pos hX, zero_add, x1]
  constructor
  · intro hlt
    rw [if_pos (hf.2 hlt)]
  · intro hle
    rw [if_neg (fun hh => absurd (hf.1 hh) (not_lt.2 hle)), if_pos rfl]
    congr 2
    rw [decide_eq_decide, mul_neg_iff]
    constructor
    · intro hu; exact Or.inr ⟨hu, hX⟩
    · rintro (⟨_, hx⟩ | ⟨hu, _⟩)
      · linarith
      · exact hu

/-- **C195**: a round of the tail is exact rejection from an exponential distribution: with `t = -log a / R` (exponentially distributed with the rate R) the
number R + t, with the sign, is taken if and only if `b` times the exponential envelope through the point (R, bell R) is not above the bell curve. -/
theorem C195_tail {R : ℝ} (hR : 0 < R) (neg : Bool) {a b : ℝ} (hb : 0 < b) :
    let t := -log a / R
    (b * (bell R * exp (-(R * t))) ≤ bell (R + t) → tailRound R neg a b = some (if neg then -(R + t) else R + t)) ∧
    (bell (R + t) < b * (bell R * exp (-(R * t))) → tailRound R neg a b = none) := by
  dsimp only
  obtain ⟨t, ht⟩ : ∃ t, t = -log a / R := ⟨_, rfl⟩
  rw [← ht]
  have hx : log a / R = -t := by rw [ht, neg_div, neg_neg]
  have hcond : b * (bell R * exp (-(R * t))) ≤ bell (R + t) ↔ ¬ -2 * log b < -t * -t := by
    unfold bell
    rw [← exp_add, ← log_le_log_iff (by positivity) (exp_pos _), log_mul hb.ne' (exp_pos _).ne', log_exp, log_exp]
    constructor
    · intro h1 h2; nlinarith
    · intro h1; push Not at h1; nlinarith
  unfold tailRound
  dsimp only
  rw [hx]
  constructor
  · intro h1
    rw [if_neg (hcond.1 h1)]
    cases neg <;> simp <;> ring
  · intro h1
    rw [if_pos]
    by_contra h2
    exact absurd (hcond.2 h2) (not_le.2 h1)

example : (0 : ℝ) < zignorR ∧ (0 : ℝ) < 1 / 2 := by norm_num [zignorR]

theorem tail_neg (dMin : ℝ) (neg : Bool) : ∀ l, tail dMin (!neg) l = (tail dMin neg l).map (- ·)
  | [] => rfl
  | (a, b) :: l => by
    simp only [tail, tailRound]
    by_cases h : -2 * log b < log a / dMin * (log a / dMin)
    · rw [if_pos h, if_pos h]
      exact tail_neg dMin neg l
    · rw [if_neg h, if_neg h]
      cases neg <;> simp

/-- **C195**: the generator is symmetric: with the mirrored random numbers it gives the negative result. -/
theorem C195_symmetric {c : Cfg} (h : Good c) (t : List (ℝ × ℝ)) :
    ∀ l : List (ℝ × ℕ × ℝ), get c (l.map fun p => (1 - p.1, p.2)) t = (get c l t).map (- ·)
  | [] => rfl
  | (r, i, w) :: l => by
    have ih := C195_symmetric h t l
    simp only [List.map_cons, get]
    have hu : 2 * (1 - r) - 1 = -(2 * r - 1) := by ring
    have hr : round c (1 - r) i w = (round c r i w).map fun
        | .ret x => .ret (-x)
        | .tail neg => .tail (!neg)
        | .again => .again := by
      unfold round
      dsimp only
      rw [hu]
      generalize hv : 2 * r - 1 = u
      rw [abs_neg]
      by_cases hc : i < c.C
      · rw [if_pos hc, if_pos hc]
        by_cases h1 : |u| < zigR c i
        · rw [if_pos h1, if_pos h1]
          simp
        · rw [if_neg h1, if_neg h1]
          by_cases h2 : i = 0
          · subst h2
            rw [if_pos rfl, if_pos rfl]
            have hpos : 0 < zigR c 0 := by
              have hC := h.2.2.1
              unfold zigR zigX
              rw [if_neg (by omega), if_neg (by omega), if_pos rfl]
              exact div_pos h.2.1 (div_pos h.1 (exp_pos _))
            have hne : u ≠ 0 := by
              rintro rfl
              rw [abs_zero] at h1
              exact h1 hpos
            simp only [Option.map_some, Option.some.injEq, Out.tail.injEq]
            rcases lt_or_gt_of_ne hne with h3 | h3
            · simp [h3, h3.le]
            · simp [h3, h3.le]
          · rw [if_neg h2, if_neg h2]
            have e1 : -u * zigX c i = -(u * zigX c i) := neg_mul _ _
            have e2 : -u * zigX c i * (-u * zigX c i) = u * zigX c i * (u * zigX c i) := by rw [e1, neg_mul_neg]
            rw [e2, e1]
            split <;> rfl
      · rw [if_neg hc, if_neg hc]
        rfl
    rw [hr]
    rcases round c r i w with _ | (x | neg | _)
    · rfl
    · rfl
    · exact tail_neg _ neg t
    · exact ih

/-- The number of the strip is drawn from 0 to 127 for every size of the table: with a table of 64 strips the access is outside of it. -/
theorem C195_size_counterexample (V R r w : ℝ) : ∃ i ≤ 0x7F, round ⟨64, V, R⟩ r i w = none :=
  ⟨100, by norm_num, by unfold round; simp⟩

/-- The tail always begins at `ZIGNOR_R`: with a table for a larger `dR` numbers below that are drawn from the tail. -/
theorem C195_start_counterexample {c : Cfg} (hV : 0 < c.V) (hC : 1 < c.C) (hR : zignorR < c.R) {r w : ℝ}
    (hr : c.R ≤ (2 * r - 1) * zigX c 0) : ∃ x, get c [(r, 0, w)] [(1, 1)] = some x ∧ |x| < c.R := by
  have hz : 0 < zignorR := by norm_num [zignorR]
  have := (C195_base hV hC (r := r) (w := w)).2 (le_trans hr (le_abs_self _))
  have hd : ¬ (2 * r - 1) * zigX c 0 < 0 := by linarith
  refine ⟨zignorR, ?_, by rwa [abs_of_pos hz]⟩
  simp only [get, this, tail, tailRound, log_one]
  simp [hd]

/-- A table of 128 strips for 4, and a number of the lowest strip beyond 4. -/
example : ∃ (c : Cfg) (r : ℝ), 0 < c.V ∧ c.C = 128 ∧ zignorR < c.R ∧ r < 1 ∧ c.R ≤ (2 * r - 1) * zigX c 0 := by
  have hg : gauss 4 ≠ 0 := (exp_pos _).ne'
  refine ⟨⟨128, 8 * gauss 4, 4⟩, 7 / 8, mul_pos (by norm_num) (exp_pos _), rfl, by norm_num [zignorR], by norm_num, ?_⟩
  unfold zigX
  rw [if_pos rfl]
  dsimp only
  rw [mul_div_cancel_right₀ _ hg]
  norm_num

end Verif.Random.Zig
