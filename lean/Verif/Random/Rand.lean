import Mathlib.Data.Nat.Log
import Mathlib.Tactic.Ring
import Mathlib.Tactic.Linarith
import Mathlib.Algebra.Order.Ring.Nat
import Verif.Random.Props

/-!
# `bssrand`, `bssRandInt` and `bssRandReal` (C199)

Random numbers of a range, `/repo/include/bss-util/algo.h:104-128`. The arithmetic on `double` is rounded to nearest, ties to even. A non-negative `double` is given
by a natural number and a power of two by which it is divided; no exponent is bounded, so results below the smallest normal number are outside of the model.
`std::generate_canonical` is that of libstdc++.
-/

namespace Verif.Random

/-! ## Code -/

/-- The nearest number of 53 bits, of two equally near the even one: the result of each operation on `double`. -/
def rne (n : ℕ) : ℕ :=
  let s := Nat.log 2 n - 52
  let q := n / 2 ^ s
  let r := n % 2 ^ s
  if 2 * r < 2 ^ s then q * 2 ^ s
  else if 2 ^ s < 2 * r then (q + 1) * 2 ^ s
  else if q % 2 = 0 then q * 2 ^ s else (q + 1) * 2 ^ s

/-- `bssGenCanonical<double>`, `algo.h:105-109`, times `2^64`: the draw `x` of the engine is converted and divided by `2^64`, and a one is replaced by the number before it. -/
def canonical (x : ℕ) : ℕ :=
  if 2 ^ 64 ≤ rne x then 2 ^ 64 - 2 ^ 11 else rne x

/-- `static_cast<T>(bssGenCanonical<double, ENGINE>(e)*static_cast<double>(max - min))`, `algo.h:121`, for an integer type and a difference that is not negative. -/
def part (x d : ℕ) : ℕ := rne (canonical x * rne d) / 2 ^ 64

/-- `bssrand` for an unsigned type, `algo.h:119-122`, if `min` is not above `max`. -/
def randNat (x min max : ℕ) : ℕ := min + part x (max - min)

/-- `bssRandInt`, `algo.h:119-122, 124`; `none` is a difference that overflows. A negative difference is multiplied, rounded and truncated as its absolute value is. -/
def randInt (x : ℕ) (min max : ℤ) : Option ℤ :=
  let d := max - min
  if d < -2 ^ 63 ∨ 2 ^ 63 ≤ d then none
  else if 0 ≤ d then some (min + part x d.toNat)
  else some (min - part x (-d).toNat)

/-- `bssRandReal`, `algo.h:119-123`, for `0 ≤ min ≤ max`: the arguments are `a / 2^s` and `b / 2^s`, the result is divided by `2^(s + 64)`. -/
def randReal (x a b : ℕ) : ℕ := rne (a * 2 ^ 64 + rne (canonical x * rne (b - a)))

/-- The draws of `Shuffle`, `algo.h:131-136`, `bssrand<CT, ENGINE>(0, i, e)` for `i` from `n` down to one; `xs` are the draws of the engine. -/
def shuffleDraws : ℕ → List ℕ → List ℕ
  | 0, _ => []
  | _ + 1, [] => []
  | i + 1, x :: xs => randNat x 0 (i + 1) :: shuffleDraws i xs

/-! ## Specification -/

/-- The `double`s: at most 53 bits and a power of two. -/
def IsDouble (n : ℕ) : Prop := ∃ m t, m ≤ 2 ^ 53 ∧ n = m * 2 ^ t

/-- The draws of a 64-bit engine. -/
def IsDraw (x : ℕ) : Prop := x < 2 ^ 64

/-! ## Rounding -/

theorem rne_cases (n : ℕ) (h : 2 ^ 52 ≤ n) : ∃ s q r, n = q * 2 ^ s + r ∧ r < 2 ^ s ∧ 2 ^ 52 ≤ q ∧ q < 2 ^ 53 ∧
    (rne n = q * 2 ^ s ∧ 2 * r ≤ 2 ^ s ∨ rne n = (q + 1) * 2 ^ s ∧ 2 ^ s ≤ 2 * r) := by
  have hn : n ≠ 0 := by rintro rfl; norm_num at h
  have hl : 52 ≤ Nat.log 2 n := Nat.le_log_of_pow_le (by norm_num) h
  obtain ⟨s, hs⟩ : ∃ s, Nat.log 2 n = s + 52 := ⟨Nat.log 2 n - 52, by omega⟩
  have h1 : 2 ^ (s + 52) ≤ n := hs ▸ Nat.pow_log_le_self 2 hn
  have h2 : n < 2 ^ (s + 52 + 1) := by
    have := Nat.lt_pow_succ_log_self (b := 2) (by norm_num) n
    rwa [hs] at this
  have hp : 0 < 2 ^ s := Nat.pow_pos (by norm_num)
  refine ⟨s, n / 2 ^ s, n % 2 ^ s, (Nat.div_add_mod' n _).symm, Nat.mod_lt _ hp, ?_, ?_, ?_⟩
  · rw [Nat.le_div_iff_mul_le hp, ← pow_add, Nat.add_comm]; exact h1
  · rw [Nat.div_lt_iff_lt_mul hp, ← pow_add, show 53 + s = s + 52 + 1 by omega]; exact h2
  · have : Nat.log 2 n - 52 = s := by omega
    simp only [rne, this]
    split
    · left; exact ⟨rfl, by omega⟩
    · split
      · right; exact ⟨rfl, by omega⟩
      · split
        · left; exact ⟨rfl, by omega⟩
        · right; exact ⟨rfl, by omega⟩

theorem rne_small (n : ℕ) (h : n < 2 ^ 53) : rne n = n := by
  have : Nat.log 2 n - 52 = 0 := by
    have : Nat.log 2 n < 53 := Nat.log_lt_of_lt_pow' (by norm_num) h
    omega
  simp [rne, this, Nat.mod_one]

theorem rne_le (n m t : ℕ) (hm : m ≤ 2 ^ 53) (h : n ≤ m * 2 ^ t) : rne n ≤ m * 2 ^ t := by
  by_cases hn : n < 2 ^ 53
  · rw [rne_small n hn]; exact h
  obtain ⟨s, q, r, h1, h2, h3, h4, h5⟩ := rne_cases n (by omega)
  rcases h5 with ⟨h5, h6⟩ | ⟨h5, h6⟩
  · rw [h5]; omega
  rw [h5]
  have hr : 0 < r := by
    have : 0 < 2 ^ s := Nat.pow_pos (by norm_num)
    omega
  by_cases hts : s ≤ t
  · obtain ⟨c, rfl⟩ := Nat.exists_eq_add_of_le hts
    rw [pow_add, show m * (2 ^ s * 2 ^ c) = (m * 2 ^ c) * 2 ^ s by ring] at h ⊢
    refine Nat.mul_le_mul_right _ ?_
    by_contra hc
    have : m * 2 ^ c * 2 ^ s ≤ q * 2 ^ s := Nat.mul_le_mul_right _ (by omega)
    omega
  · exfalso
    obtain ⟨c, rfl⟩ := Nat.exists_eq_add_of_le (show t + 1 ≤ s by omega)
    have a1 : m * 2 ^ t ≤ 2 ^ 53 * 2 ^ t := Nat.mul_le_mul_right _ hm
    have a2 : 2 ^ 52 * 2 ^ (t + 1 + c) ≤ q * 2 ^ (t + 1 + c) := Nat.mul_le_mul_right _ h3
    have a3 : 2 ^ (t + 1) ≤ 2 ^ (t + 1 + c) := Nat.pow_le_pow_right (by norm_num) (by omega)
    have a4 : 2 ^ (t + 1) = 2 * 2 ^ t := by ring
    omega

theorem le_rne (n m t : ℕ) (hm : m ≤ 2 ^ 53) (h : m * 2 ^ t ≤ n) : m * 2 ^ t ≤ rne n := by
  by_cases hn : n < 2 ^ 53
  · rw [rne_small n hn]; exact h
  obtain ⟨s, q, r, h1, h2, h3, h4, h5⟩ := rne_cases n (by omega)
  have hq : q * 2 ^ s ≤ rne n := by
    rcases h5 with ⟨h5, _⟩ | ⟨h5, _⟩ <;> rw [h5]
    exact Nat.mul_le_mul_right _ (by omega)
  refine le_trans ?_ hq
  by_cases hts : s ≤ t
  · obtain ⟨c, rfl⟩ := Nat.exists_eq_add_of_le hts
    rw [pow_add, show m * (2 ^ s * 2 ^ c) = (m * 2 ^ c) * 2 ^ s by ring] at h ⊢
    refine Nat.mul_le_mul_right _ ?_
    by_contra hc
    have : (q + 1) * 2 ^ s ≤ m * 2 ^ c * 2 ^ s := Nat.mul_le_mul_right _ (by omega)
    have : (q + 1) * 2 ^ s = q * 2 ^ s + 2 ^ s := by ring
    omega
  · obtain ⟨c, rfl⟩ := Nat.exists_eq_add_of_le (show t + 1 ≤ s by omega)
    have a1 : m * 2 ^ t ≤ 2 ^ 53 * 2 ^ t := Nat.mul_le_mul_right _ hm
    have a2 : 2 ^ 52 * 2 ^ (t + 1 + c) ≤ q * 2 ^ (t + 1 + c) := Nat.mul_le_mul_right _ h3
    have a3 : 2 ^ (t + 1) ≤ 2 ^ (t + 1 + c) := Nat.pow_le_pow_right (by norm_num) (by omega)
    have a4 : 2 ^ (t + 1) = 2 * 2 ^ t := by ring
    omega

theorem rne_double {n : ℕ} (h : IsDouble n) : rne n = n := by
  obtain ⟨m, t, hm, rfl⟩ := h
  exact Nat.le_antisymm (rne_le _ _ _ hm (Nat.le_refl _)) (le_rne _ _ _ hm (Nat.le_refl _))

theorem rne_isDouble (n : ℕ) : IsDouble (rne n) := by
  by_cases hn : n < 2 ^ 53
  · rw [rne_small n hn]; exact ⟨n, 0, by omega, by simp⟩
  · obtain ⟨s, q, r, _, _, _, h4, h5⟩ := rne_cases n (by omega)
    rcases h5 with ⟨h5, _⟩ | ⟨h5, _⟩
    · exact ⟨q, s, by omega, h5⟩
    · exact ⟨q + 1, s, by omega, h5⟩

theorem rne_mono {n k : ℕ} (h : n ≤ k) : rne n ≤ rne k := by
  obtain ⟨m, t, hm, he⟩ := rne_isDouble k
  by_cases hk : n ≤ rne k
  · rw [he] at hk ⊢; exact rne_le _ _ _ hm hk
  · obtain ⟨m', t', hm', he'⟩ := rne_isDouble n
    -- `rne k < n ≤ k`: both round to the same neighbours
    by_contra hc
    rw [not_le] at hc hk
    by_cases hn : n < 2 ^ 53
    · have := le_rne k n 0 (by omega) (by simpa using h)
      simp at this; omega
    · obtain ⟨s, q, r, h1, h2, h3, h4, h5⟩ := rne_cases n (by omega)
      obtain ⟨s', q', r', g1, g2, g3, g4, g5⟩ := rne_cases k (by omega)
      rcases h5 with ⟨h5, h6⟩ | ⟨h5, h6⟩
      · have := le_rne k q s (by omega) (by omega)
        omega
      · -- `k < (q+1) 2^s`, or it would round to at least that
        by_cases hkq : (q + 1) * 2 ^ s ≤ k
        · have := le_rne k (q + 1) s (by omega) hkq
          omega
        · have e : (q + 1) * 2 ^ s = q * 2 ^ s + 2 ^ s := by ring
          have hss : s' = s := by
            have b1 : 2 ^ 52 * 2 ^ s ≤ q * 2 ^ s := Nat.mul_le_mul_right _ h3
            have b2 : (q + 1) * 2 ^ s ≤ 2 ^ 53 * 2 ^ s := Nat.mul_le_mul_right _ (by omega)
            have b3 : 2 ^ 52 * 2 ^ s' ≤ q' * 2 ^ s' := Nat.mul_le_mul_right _ g3
            have b4 : (q' + 1) * 2 ^ s' ≤ 2 ^ 53 * 2 ^ s' := Nat.mul_le_mul_right _ (by omega)
            have e' : (q' + 1) * 2 ^ s' = q' * 2 ^ s' + 2 ^ s' := by ring
            rw [← pow_add] at b1 b2 b3 b4
            have c1 : 2 ^ (52 + s) < 2 ^ (53 + s') := by omega
            have c2 : 2 ^ (52 + s') < 2 ^ (53 + s) := by omega
            have d1 := (Nat.pow_lt_pow_iff_right (by norm_num : 1 < 2)).1 c1
            have d2 := (Nat.pow_lt_pow_iff_right (by norm_num : 1 < 2)).1 c2
            omega
          subst hss
          have hqq : q' = q := by
            have e' : (q' + 1) * 2 ^ s' = q' * 2 ^ s' + 2 ^ s' := by ring
            apply Nat.le_antisymm
            · by_contra hc
              have : (q + 1) * 2 ^ s' ≤ q' * 2 ^ s' := Nat.mul_le_mul_right _ (by omega)
              omega
            · by_contra hc
              have : (q' + 1) * 2 ^ s' ≤ q * 2 ^ s' := Nat.mul_le_mul_right _ (by omega)
              omega
          subst hqq
          rcases g5 with ⟨g5, g6⟩ | ⟨g5, g6⟩
          · have : n = k := by omega
            subst this; omega
          · omega

/-- A product with a number below one is rounded to a number below the other factor. -/
theorem rne_down (n m t : ℕ) (h1 : 2 ^ 52 < m) (h2 : m ≤ 2 ^ 53) (h : n * 2 ^ 53 ≤ m * 2 ^ t * (2 ^ 53 - 1)) : rne n ≤ (m - 1) * 2 ^ t := by
  by_cases hn : n ≤ (m - 1) * 2 ^ t
  · exact rne_le _ _ _ (by omega) hn
  rw [not_le] at hn
  have hp : 0 < 2 ^ t := Nat.pow_pos (by norm_num)
  obtain ⟨a, rfl⟩ : ∃ a, m = a + 1 := ⟨m - 1, by omega⟩
  simp only [Nat.add_sub_cancel] at hn ⊢
  have e : (a + 1) * 2 ^ t = a * 2 ^ t + 2 ^ t := by ring
  have e2 : (a + 1) * 2 ^ t * (2 ^ 53 - 1) + (a + 1) * 2 ^ t = (a + 1) * 2 ^ t * 2 ^ 53 := by
    rw [show (2 ^ 53 : ℕ) = (2 ^ 53 - 1) + 1 by norm_num]; simp only [Nat.add_sub_cancel]; ring
  have ha : 2 ^ 52 * 2 ^ t ≤ a * 2 ^ t := Nat.mul_le_mul_right _ (by omega)
  have hlt : 2 * (n - a * 2 ^ t) < 2 ^ t := by
    have : (2 * (n - a * 2 ^ t)) + 2 * ((a + 1) * 2 ^ t - n) = 2 * 2 ^ t := by omega
    omega
  have hl : Nat.log 2 n = t + 52 := by
    rw [Nat.log_eq_iff (Or.inr ⟨by norm_num, by omega⟩), Nat.add_comm t 52, pow_add, show 52 + t + 1 = 53 + t by omega, pow_add]
    refine ⟨by omega, ?_⟩
    have : (a + 1) * 2 ^ t ≤ 2 ^ 53 * 2 ^ t := Nat.mul_le_mul_right _ h2
    omega
  have hq : n / 2 ^ t = a := by
    rw [Nat.div_eq_iff hp]; omega
  have hr : n % 2 ^ t = n - a * 2 ^ t := by
    have := Nat.div_add_mod' n (2 ^ t); rw [hq] at this; omega
  simp only [rne, hl, Nat.add_sub_cancel, hq, hr, if_pos hlt]
  exact Nat.le_refl _

theorem canonical_le' (x : ℕ) : canonical x ≤ 2 ^ 64 - 2 ^ 11 := by
    simp only [canonical]
    split
    · omega
    · rename_i hc
      obtain ⟨m, t, hm, he⟩ := rne_isDouble x
      rw [he] at hc ⊢
      rw [not_le] at hc
      by_cases ht : t ≤ 11
      · by_cases ht' : t = 11
        · subst ht'; omega
        · have : 2 ^ t ≤ 2 ^ 10 := Nat.pow_le_pow_right (by norm_num) (by omega)
          have := Nat.mul_le_mul hm this
          omega
      · obtain ⟨c, rfl⟩ := Nat.exists_eq_add_of_le (show 11 ≤ t by omega)
        rw [pow_add] at hc ⊢
        have e : m * (2 ^ 11 * 2 ^ c) = (m * 2 ^ c) * 2 ^ 11 := by ring
        rw [e] at hc ⊢
        omega

theorem canonical_le (x : ℕ) : canonical x * 2 ^ 53 ≤ 2 ^ 64 * (2 ^ 53 - 1) := by
  have := canonical_le' x
  omega

theorem canonical_mono {x y : ℕ} (h : x ≤ y) : canonical x ≤ canonical y := by
  by_cases hy : 2 ^ 64 ≤ rne y
  · rw [show canonical y = 2 ^ 64 - 2 ^ 11 by rw [canonical, if_pos hy]]
    exact canonical_le' x
  · have := rne_mono h
    rw [canonical, canonical, if_neg hy, if_neg (by omega)]
    exact this

theorem canonical_multiple (x : ℕ) (h : 2 ^ 63 ≤ canonical x) : ∃ k, canonical x = k * 2 ^ 11 := by
  by_cases hx : 2 ^ 64 ≤ rne x
  · exact ⟨2 ^ 53 - 1, by rw [canonical, if_pos hx]; norm_num⟩
  · rw [canonical, if_neg hx] at h ⊢
    obtain ⟨m, t, hm, he⟩ := rne_isDouble x
    rw [he] at h ⊢
    by_cases ht : 11 ≤ t
    · obtain ⟨c, rfl⟩ := Nat.exists_eq_add_of_le ht
      exact ⟨m * 2 ^ c, by rw [pow_add]; ring⟩
    · have : 2 ^ t ≤ 2 ^ 10 := Nat.pow_le_pow_right (by norm_num) (by omega)
      have := Nat.mul_le_mul hm this
      exact ⟨2 ^ 52, by omega⟩

/-- The product is below the difference, although the difference is rounded. -/
theorem prod_lt (x d : ℕ) (h : IsDraw x) (hd : 0 < d) : rne (canonical x * rne d) < d * 2 ^ 64 := by
  have hc := canonical_le x
  by_cases hs : d < 2 ^ 53
  · rw [rne_small d hs]
    -- scale `d` to 53 bits
    obtain ⟨c, hc1, hc2⟩ : ∃ c, 2 ^ 52 < d * 2 ^ c ∧ d * 2 ^ c ≤ 2 ^ 53 ∧ c ≤ 53 := by
      have hl1 := Nat.pow_log_le_self 2 (show d ≠ 0 by omega)
      have hl2 := Nat.lt_pow_succ_log_self (b := 2) (by norm_num) d
      have hl : Nat.log 2 d < 53 := Nat.log_lt_of_lt_pow' (by norm_num) hs
      by_cases hpow : d = 2 ^ Nat.log 2 d
      · refine ⟨53 - Nat.log 2 d, ?_, ?_, by omega⟩ <;> rw [hpow, Nat.log_pow (by norm_num), ← pow_add,
          show Nat.log 2 d + (53 - Nat.log 2 d) = 53 by omega]
        norm_num
      · refine ⟨52 - Nat.log 2 d, ?_, ?_, by omega⟩
        · have : (2 ^ Nat.log 2 d) * 2 ^ (52 - Nat.log 2 d) < d * 2 ^ (52 - Nat.log 2 d) :=
            Nat.mul_lt_mul_of_pos_right (by omega) (Nat.pow_pos (by norm_num))
          rwa [← pow_add, show Nat.log 2 d + (52 - Nat.log 2 d) = 52 by omega] at this
        · have : d * 2 ^ (52 - Nat.log 2 d) ≤ (2 ^ (Nat.log 2 d + 1)) * 2 ^ (52 - Nat.log 2 d) :=
            Nat.mul_le_mul_right _ (by omega)
          rwa [← pow_add, show Nat.log 2 d + 1 + (52 - Nat.log 2 d) = 53 by omega] at this
    have e : d * 2 ^ c * 2 ^ (64 - c) = d * 2 ^ 64 := by
      rw [Nat.mul_assoc, ← pow_add, show c + (64 - c) = 64 by omega]
    have := rne_down (canonical x * d) (d * 2 ^ c) (64 - c) hc1 hc2.1 (by
      rw [e]
      calc canonical x * d * 2 ^ 53 = d * (canonical x * 2 ^ 53) := by ring
        _ ≤ d * (2 ^ 64 * (2 ^ 53 - 1)) := Nat.mul_le_mul_left _ hc
        _ = _ := by ring)
    rw [← e]
    refine lt_of_le_of_lt this (Nat.mul_lt_mul_of_pos_right (by omega) (Nat.pow_pos (by norm_num)))
  · obtain ⟨s, q, r, h1, h2, h3, h4, h5⟩ := rne_cases d (by omega)
    have key : ∀ m, 2 ^ 52 < m → m ≤ 2 ^ 53 → rne (canonical x * (m * 2 ^ s)) ≤ (m - 1) * 2 ^ (s + 64) := by
      intro m hm1 hm2
      refine rne_down _ m (s + 64) hm1 hm2 ?_
      calc canonical x * (m * 2 ^ s) * 2 ^ 53 = (m * 2 ^ s) * (canonical x * 2 ^ 53) := by ring
        _ ≤ (m * 2 ^ s) * (2 ^ 64 * (2 ^ 53 - 1)) := Nat.mul_le_mul_left _ hc
        _ = _ := by rw [pow_add]; ring
    have hp : 0 < 2 ^ s := Nat.pow_pos (by norm_num)
    rcases h5 with ⟨h5, h6⟩ | ⟨h5, h6⟩
    · rw [h5]
      by_cases hq : q = 2 ^ 52
      · -- a power of two
        have := rne_down (canonical x * (q * 2 ^ s)) (2 ^ 53) (s + 63) (by norm_num) (Nat.le_refl _) (by
          calc canonical x * (q * 2 ^ s) * 2 ^ 53 = (q * 2 ^ s) * (canonical x * 2 ^ 53) := by ring
            _ ≤ (q * 2 ^ s) * (2 ^ 64 * (2 ^ 53 - 1)) := Nat.mul_le_mul_left _ hc
            _ = _ := by rw [hq, pow_add]; ring)
        refine lt_of_le_of_lt this ?_
        have e1 : (2 ^ 53 - 1) * 2 ^ (s + 63) < 2 ^ 53 * 2 ^ (s + 63) := Nat.mul_lt_mul_of_pos_right (by norm_num) (Nat.pow_pos (by norm_num))
        have e2 : 2 ^ 53 * 2 ^ (s + 63) = q * 2 ^ s * 2 ^ 64 := by rw [hq, pow_add]; ring
        have e3 : q * 2 ^ s * 2 ^ 64 ≤ d * 2 ^ 64 := Nat.mul_le_mul_right _ (by omega)
        omega
      · refine lt_of_le_of_lt (key q (by omega) (by omega)) ?_
        have e1 : (q - 1) * 2 ^ (s + 64) < q * 2 ^ (s + 64) := Nat.mul_lt_mul_of_pos_right (by omega) (Nat.pow_pos (by norm_num))
        have e2 : q * 2 ^ (s + 64) = q * 2 ^ s * 2 ^ 64 := by rw [pow_add]; ring
        have e3 : q * 2 ^ s * 2 ^ 64 ≤ d * 2 ^ 64 := Nat.mul_le_mul_right _ (by omega)
        omega
    · rw [h5]
      refine lt_of_le_of_lt (key (q + 1) (by omega) (by omega)) ?_
      rw [Nat.add_sub_cancel, pow_add, ← Nat.mul_assoc]
      exact Nat.mul_lt_mul_of_pos_right (by omega) (Nat.pow_pos (by norm_num))

theorem part_lt (x d : ℕ) (h : IsDraw x) (hd : 0 < d) : part x d < d := by
  rw [part, Nat.div_lt_iff_lt_mul (by norm_num)]
  exact prod_lt x d h hd

theorem part_reaches (d j : ℕ) (hj : j < d) (hd : d ≤ 2 ^ 52) : ∃ x, IsDraw x ∧ part x d = j := by
  obtain ⟨k, hk1, hk2⟩ : ∃ k, j * 2 ^ 53 ≤ k * d ∧ k * d < j * 2 ^ 53 + d := by
    refine ⟨(j * 2 ^ 53 + d - 1) / d, ?_, ?_⟩
    · have := Nat.div_add_mod' (j * 2 ^ 53 + d - 1) d
      have := Nat.mod_lt (j * 2 ^ 53 + d - 1) (show 0 < d by omega)
      omega
    · have := Nat.div_mul_le_self (j * 2 ^ 53 + d - 1) d
      omega
  have hk : k < 2 ^ 53 := by
    by_contra hc
    have a1 : 2 ^ 53 * d ≤ k * d := Nat.mul_le_mul_right _ (by omega)
    have a2 : (j + 1) * 2 ^ 53 ≤ d * 2 ^ 53 := Nat.mul_le_mul_right _ hj
    omega
  have hcan : canonical (k * 2 ^ 11) = k * 2 ^ 11 := by
    have : rne (k * 2 ^ 11) = k * 2 ^ 11 := rne_double ⟨k, 11, by omega, rfl⟩
    rw [canonical, this, if_neg (by omega)]
  refine ⟨k * 2 ^ 11, by simp only [IsDraw]; omega, ?_⟩
  rw [part, hcan, rne_small d (by omega)]
  have e : k * 2 ^ 11 * d = k * d * 2 ^ 11 := by ring
  rw [e]
  have lo := le_rne (k * d * 2 ^ 11) j 64 (by omega) (by
    calc j * 2 ^ 64 = (j * 2 ^ 53) * 2 ^ 11 := by ring
      _ ≤ _ := Nat.mul_le_mul_right _ hk1)
  have hi := rne_le (k * d * 2 ^ 11) (2 * j + 1) 63 (by omega) (by
    calc k * d * 2 ^ 11 ≤ (j * 2 ^ 53 + 2 ^ 52) * 2 ^ 11 := Nat.mul_le_mul_right _ (by omega)
      _ = _ := by ring)
  refine Nat.div_eq_of_lt_le lo (lt_of_le_of_lt hi ?_)
  rw [show (j + 1) * 2 ^ 64 = (2 * j + 1) * 2 ^ 63 + 2 ^ 63 by ring]
  exact Nat.lt_add_of_pos_right (by norm_num)

theorem part_mono (x y d : ℕ) (h : x ≤ y) : part x d ≤ part y d :=
  Nat.div_le_div_right (rne_mono (Nat.mul_le_mul_right _ (canonical_mono h)))

/-! ## C199 -/

/-- **C199**: an unsigned random number is in the range, whatever is drawn and however large the range is. -/
theorem C199_unsigned (x min max : ℕ) (h : IsDraw x) (hm : min < max) :
    min ≤ randNat x min max ∧ randNat x min max < max := by
  have := part_lt x (max - min) h (by omega)
  simp only [randNat]; omega

/-- **C199**: every number of a range of up to `2^52` numbers is given for some draw. -/
theorem C199_reached (min max v : ℕ) (h1 : min ≤ v) (h2 : v < max) (hd : max - min ≤ 2 ^ 52) : ∃ x, IsDraw x ∧ randNat x min max = v := by
  obtain ⟨x, hx, he⟩ := part_reaches (max - min) (v - min) (by omega) hd
  exact ⟨x, hx, by simp only [randNat, he]; omega⟩

/-- **C199**: `bssRandInt` is defined exactly if the difference of the bounds is an `int64_t`; then it is in the range, which for bounds in the wrong order is
from `max`, without it, up to `min`. -/
theorem C199_int (x : ℕ) (min max : ℤ) (h : IsDraw x) :
    (randInt x min max ≠ none ↔ -2 ^ 63 ≤ max - min ∧ max - min < 2 ^ 63) ∧
    ∀ v, randInt x min max = some v → (min < max → min ≤ v ∧ v < max) ∧ (max < min → max < v ∧ v ≤ min) ∧ (min = max → v = min) := by
  by_cases hu : max - min < -2 ^ 63 ∨ 2 ^ 63 ≤ max - min
  · simp only [randInt, if_pos hu]
    refine ⟨⟨fun h => absurd rfl h, fun h => by omega⟩, fun v hv => by simp at hv⟩
  · simp only [randInt, if_neg hu]
    by_cases h0 : 0 ≤ max - min
    · rw [if_pos h0]
      refine ⟨⟨fun _ => by omega, fun _ => by simp⟩, fun v hv => ?_⟩
      simp only [Option.some.injEq] at hv
      subst hv
      refine ⟨fun hlt => ?_, fun hlt => by omega, fun he => ?_⟩
      · have := part_lt x (max - min).toNat h (by omega)
        omega
      · have : (max - min).toNat = 0 := by omega
        rw [this]
        simp [part, rne_small]
    · rw [if_neg h0]
      refine ⟨⟨fun _ => by omega, fun _ => by simp⟩, fun v hv => ?_⟩
      simp only [Option.some.injEq] at hv
      subst hv
      have := part_lt x (-(max - min)).toNat h (by omega)
      refine ⟨fun hlt => by omega, fun hlt => by omega, fun he => by omega⟩

/-- **C199**: a random `double` is not below `min` and not above `max`. -/
theorem C199_real_partial (x a b : ℕ) (h : IsDraw x) (ha : IsDouble a) (hb : IsDouble b) (hab : a < b) :
    a * 2 ^ 64 ≤ randReal x a b ∧ randReal x a b ≤ b * 2 ^ 64 := by
  have hp := prod_lt x (b - a) h (by omega)
  obtain ⟨m, t, hm, rfl⟩ := ha
  obtain ⟨n, u, hn, rfl⟩ := hb
  have e1 : m * 2 ^ t * 2 ^ 64 = m * 2 ^ (t + 64) := by rw [pow_add]; ring
  have e2 : n * 2 ^ u * 2 ^ 64 = n * 2 ^ (u + 64) := by rw [pow_add]; ring
  rw [Nat.sub_mul] at hp
  refine ⟨?_, ?_⟩
  · rw [e1]; exact le_rne _ _ _ hm (by omega)
  · rw [e2]; exact rne_le _ _ _ hn (by omega)

/-- The range of `bssRandReal` does not exclude `max`: `bssRandReal(1, 2)` may be 2. -/
theorem C199_real_counterexample : IsDraw (2 ^ 64 - 1) ∧ randReal (2 ^ 64 - 1) 1 2 = 2 * 2 ^ 64 := by
  refine ⟨by norm_num [IsDraw], by decide +kernel⟩

/-- In a range of `2^53 - 2^26 - 2^22` numbers there is one that is given for no draw. -/
theorem C199_reached_counterexample : ∀ x, randNat x 0 (2 ^ 53 - 2 ^ 26 - 2 ^ 22) ≠ 2 ^ 52 := by
  intro x h
  simp only [randNat, part, Nat.zero_add, Nat.sub_zero] at h
  have lo : rne ((2 ^ 52 + 2 ^ 25 + 2 ^ 21) * 2 ^ 11 * rne (2 ^ 53 - 2 ^ 26 - 2 ^ 22)) / 2 ^ 64 = 2 ^ 52 - 1 := by decide +kernel
  have hi : rne ((2 ^ 52 + 2 ^ 25 + 2 ^ 21 + 1) * 2 ^ 11 * rne (2 ^ 53 - 2 ^ 26 - 2 ^ 22)) / 2 ^ 64 = 2 ^ 52 + 1 := by decide +kernel
  by_cases hc : canonical x ≤ (2 ^ 52 + 2 ^ 25 + 2 ^ 21) * 2 ^ 11
  · have := Nat.div_le_div_right (c := 2 ^ 64) (rne_mono (Nat.mul_le_mul_right (rne (2 ^ 53 - 2 ^ 26 - 2 ^ 22)) hc))
    rw [h, lo] at this
    norm_num at this
  · rw [not_le] at hc
    obtain ⟨k, hk⟩ := canonical_multiple x (by omega)
    have hc : (2 ^ 52 + 2 ^ 25 + 2 ^ 21 + 1) * 2 ^ 11 ≤ canonical x := by rw [hk] at hc ⊢; omega
    have := Nat.div_le_div_right (c := 2 ^ 64) (rne_mono (Nat.mul_le_mul_right (rne (2 ^ 53 - 2 ^ 26 - 2 ^ 22)) hc))
    rw [h, hi] at this
    norm_num at this

/-- **C199**: a larger draw gives no smaller number. -/
theorem C199_monotone (x y min max : ℕ) (h : x ≤ y) : randNat x min max ≤ randNat y min max :=
  Nat.add_le_add_left (part_mono x y _ h) _

theorem shuffleDraws_inRange : ∀ n xs, n ≤ xs.length → (∀ x ∈ xs, IsDraw x) → InRange n (shuffleDraws n xs)
  | 0, _, _, _ => rfl
  | n + 1, [], h, _ => by simp at h
  | n + 1, x :: xs, h, hx => by
    have := C199_unsigned x 0 (n + 1) (hx x (by simp)) (by omega)
    exact ⟨_, _, rfl, by omega, shuffleDraws_inRange n xs (by simpa using h) fun y hy => hx y (by simp [hy])⟩

theorem shuffleDraws_surj : ∀ n ds, n ≤ 2 ^ 52 → InRange n ds → ∃ xs, n ≤ xs.length ∧ (∀ x ∈ xs, IsDraw x) ∧ shuffleDraws n xs = ds
  | 0, ds, _, h => ⟨[], by simp, by simp, h.symm⟩
  | n + 1, ds, hn, h => by
    obtain ⟨d, r, rfl, hd, hr⟩ := h
    obtain ⟨x, hx, he⟩ := C199_reached 0 (n + 1) d (by omega) (by omega) (by omega)
    obtain ⟨xs, h1, h2, h3⟩ := shuffleDraws_surj n r (by omega) hr
    exact ⟨x :: xs, by simpa using h1, by simpa using ⟨hx, h2⟩, by rw [shuffleDraws, he, h3]⟩

/-- **C199**: `Shuffle` with the draws of a 64-bit engine gives a permutation of the array, whatever is drawn; up to `2^52` elements it gives every permutation for some draws. -/
theorem C199_shuffle {α : Type _} (p : List α) :
    (∀ xs, p.length ≤ xs.length → (∀ x ∈ xs, IsDraw x) → ∃ q, shuffle p (shuffleDraws p.length xs) = some q ∧ q.Perm p) ∧
    (p.length ≤ 2 ^ 52 → ∀ q, q.Perm p → ∃ xs, p.length ≤ xs.length ∧ (∀ x ∈ xs, IsDraw x) ∧ shuffle p (shuffleDraws p.length xs) = some q) := by
  refine ⟨fun xs hl hx => C63_permutation p _ (shuffleDraws_inRange _ _ hl hx), fun hp q hq => ?_⟩
  obtain ⟨ds, hd, he⟩ := (C63_exactly_once p q hq).1
  obtain ⟨xs, h1, h2, h3⟩ := shuffleDraws_surj _ ds hp hd
  exact ⟨xs, h1, h2, h3 ▸ he⟩

/-- The largest draw for ranges of 10, of nearly `2^64` numbers, and for a range whose difference is rounded up. -/
example : IsDraw (2 ^ 64 - 1) ∧ randNat (2 ^ 64 - 1) 5 15 = 14 ∧ randNat (2 ^ 64 - 1) 0 (2 ^ 64 - 1) = 2 ^ 64 - 2 ^ 11 ∧
    randNat (2 ^ 64 - 1) 0 (2 ^ 54 + 3) = 2 ^ 54 := by
  refine ⟨by norm_num [IsDraw], by decide +kernel, by decide +kernel, by decide +kernel⟩

example : randInt (2 ^ 63) (-10) 10 = some 0 ∧ randInt (2 ^ 63) 10 (-11) = some 0 ∧ randInt 0 (-2 ^ 63) (2 ^ 63 - 1) = none := by
  refine ⟨by decide +kernel, by decide +kernel, by decide +kernel⟩

example : shuffle [10, 20, 30] (shuffleDraws 3 [0, 2 ^ 63, 77]) = some [30, 20, 10] := by decide +kernel

end Verif.Random
