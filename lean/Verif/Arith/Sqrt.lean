import Mathlib.Tactic.Ring

/-!
# `IntFastSqrt` (C53), `bss_util.h:636-658`
-/

namespace Verif.Arith

/-- The `int` expression `2 << i` (`bss_util.h:649`) converted to an unsigned `w`-bit type.  `2 << 30` becomes
`INT_MIN` (sign-extended when `w > 32`); larger shifts are not representable and undefined (`none`). -/
def twoShl (w i : Nat) : Option Nat :=
  if i < 30 then some (2 ^ (i + 1))
  else if i = 30 then some (if w ≤ 32 then 2 ^ 31 else 2 ^ w - 2 ^ 31)
  else none

/-- Loop of `IntFastSqrt`, `bss_util.h:642-651`, for an unsigned `w`-bit type, with `i` iterations left. -/
def sqrtLoop (w : Nat) : Nat → Nat → Nat → Option Nat
  | 0, _, root => some (root >>> 1)
  | i + 1, n, root => do
    let t := ((root + 2 ^ i) * 2 ^ i) % 2 ^ w
    if t ≤ n then do
      let s ← twoShl w i
      sqrtLoop w i (n - t) (root ||| s)
    else sqrtLoop w i n root

/-- `IntFastSqrt<T>(n)`, `bss_util.h:655-658`: `bits` is half the width. -/
def intFastSqrt (w n : Nat) : Option Nat := sqrtLoop w (w / 2) n 0

theorem sqrtLoop_spec (b n0 : Nat) (hsafe : n0 < 2 ^ 60) : ∀ (i q : Nat), i ≤ b →
    (2 ^ i * q) * (2 ^ i * q) ≤ n0 → n0 < (2 ^ i * q + 2 ^ i) * (2 ^ i * q + 2 ^ i) →
    2 ^ i * q + 2 ^ i ≤ 2 ^ b →
    ∃ r, sqrtLoop (2 * b) i (n0 - (2 ^ i * q) * (2 ^ i * q)) (2 * (2 ^ i * q)) = some r ∧ r * r ≤ n0 ∧
      n0 < (r + 1) * (r + 1) := by
  intro i
  induction i with
  | zero =>
    intro q _ h1 h2 _
    refine ⟨q, ?_, by simpa using h1, by simpa using h2⟩
    simp only [sqrtLoop, Nat.pow_zero, Nat.one_mul, Nat.shiftRight_one]
    congr 1; omega
  | succ i ih =>
    intro q hb h1 h2 h3
    have hp : 2 ^ (i + 1) = 2 * 2 ^ i := by rw [Nat.pow_succ, Nat.mul_comm]
    generalize hs : 2 ^ (i + 1) * q = s at *
    have hsi : s = 2 ^ i * (2 * q) := by rw [← hs, hp]; ring
    generalize hPi : 2 ^ i = P at *
    have hPpos : 0 < P := by rw [← hPi]; exact Nat.two_pow_pos i
    -- the trial value
    have hT : (2 * s + P) * P = (s + P) * (s + P) - s * s := by
      have : (s + P) * (s + P) = (2 * s + P) * P + s * s := by ring
      omega
    have hle : s * s ≤ (s + P) * (s + P) := Nat.mul_le_mul (by omega) (by omega)
    have hfit : (2 * s + P) * P < 2 ^ (2 * b) := by
      have e1 : 2 ^ (2 * b) = 2 ^ b * 2 ^ b := by rw [← Nat.pow_add]; congr 1; omega
      rw [e1]
      have e2 : (s + P) * (s + P) < 2 ^ b * 2 ^ b := by
        have : s + P < 2 ^ b := by omega
        exact Nat.mul_lt_mul'' this this
      omega
    have hpre : ∀ (n' : Nat), (2 * s + P) * P ≤ n0 - s * s ↔ (s + P) * (s + P) ≤ n0 := by
      intro _; rw [hT]; omega
    simp only [sqrtLoop, hPi, Nat.mod_eq_of_lt hfit]
    by_cases hc : (2 * s + P) * P ≤ n0 - s * s
    · rw [if_pos hc]
      have hc' := (hpre 0).1 hc
      have hi30 : i < 30 := by
        apply Decidable.byContradiction
        intro hge
        have hPP : 2 ^ 30 ≤ P := by rw [← hPi]; exact Nat.pow_le_pow_right (by omega) (by omega)
        have : 2 ^ 30 * 2 ^ 30 ≤ (s + P) * (s + P) := Nat.mul_le_mul (by omega) (by omega)
        have e : (2 : Nat) ^ 30 * 2 ^ 30 = 2 ^ 60 := by norm_num
        omega
      have hor : (2 * s) ||| 2 ^ (i + 1) = 2 * (s + P) := by
        have e1 : 2 * s = 2 ^ (i + 2) * q := by rw [← hs, Nat.pow_succ 2 (i + 1)]; ring
        rw [e1, ← Nat.two_pow_add_eq_or_of_lt]
        · rw [← e1, hp]; ring
        · exact Nat.pow_lt_pow_right (by omega) (by omega)
      simp only [twoShl, if_pos hi30, Option.bind_eq_bind, Option.bind_some, hor]
      have hsP : s + P = P * (2 * q + 1) := by rw [hsi]; ring
      have hsub : n0 - s * s - (2 * s + P) * P = n0 - (s + P) * (s + P) := by rw [hT]; omega
      rw [hsub, hsP]
      apply ih (2 * q + 1) (by omega)
      · rw [← hsP]; exact hc'
      · rw [← hsP]
        have : s + P + P = s + 2 ^ (i + 1) := by rw [hp]; omega
        rw [this]; exact h2
      · rw [← hsP]
        rw [hp] at h3; omega
    · rw [if_neg hc]
      have hc' : n0 < (s + P) * (s + P) := Nat.lt_of_not_le (fun h => hc ((hpre 0).2 h))
      have := ih (2 * q) (by omega)
      rw [← hsi] at this
      exact this h1 hc' (by omega)

/-- C53 for every unsigned type of at most 60 bits, in particular 8, 16 and 32 bits (`w = 2·b`): the exact
integer square root, for every argument of the type.  For a wider type it holds for arguments below
`2^60`. -/
theorem C53_sqrt_partial (b n : Nat) (hn : n < 2 ^ (2 * b)) (hsafe : n < 2 ^ 60) :
    ∃ r, intFastSqrt (2 * b) n = some r ∧ r * r ≤ n ∧ n < (r + 1) * (r + 1) := by
  have h := sqrtLoop_spec b n hsafe b 0 (Nat.le_refl _) (by simp) (by
    simp; rw [← Nat.pow_add]
    have : b + b = 2 * b := by omega
    rw [this]; exact hn) (by simp)
  unfold intFastSqrt
  rw [Nat.mul_div_cancel_left _ (by omega)]
  simpa using h

/-- C53 for 8, 16 and 32 bit types, every argument. -/
theorem C53_sqrt_8_16_32 (w n : Nat) (hw : w = 8 ∨ w = 16 ∨ w = 32) (hn : n < 2 ^ w) :
    ∃ r, intFastSqrt w n = some r ∧ r * r ≤ n ∧ n < (r + 1) * (r + 1) := by
  rcases hw with rfl | rfl | rfl
  · exact C53_sqrt_partial 4 n hn (by omega)
  · exact C53_sqrt_partial 8 n hn (by omega)
  · exact C53_sqrt_partial 16 n hn (by omega)

/-- C53 fails for 64-bit types: the square root of `2^60` comes out wrong, because `2 << 30` is a negative
`int`, and from `2^62` on `2 << 31` is undefined. -/
theorem C53_sqrt_64_counterexample :
    (intFastSqrt 64 (2 ^ 60) ≠ some (2 ^ 30)) ∧ intFastSqrt 64 (2 ^ 62) = none := by
  decide +kernel

example : (2 ^ 32 - 1 : Nat) < 2 ^ 32 ∧ intFastSqrt 32 (2 ^ 32 - 1) = some 65535 := by decide +kernel

end Verif.Arith
