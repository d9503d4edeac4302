/-!
# Comparison of floating point numbers by units in the last place (C84)

`fCompare` of `/repo/include/bss-util/bss_util.h:535-559`. The unions reinterpret a `float` (`double`) as its bit pattern, here a natural number below `2^w`, `w = 32` (64). Integers
wrap around as on every two's complement machine; the overflows, which the language leaves undefined, are the subject of `C84_overflow_counterexample`.
-/

namespace Verif.Arith

/-- The value of a pattern as a signed integer. -/
def signed (w x : Nat) : Int := if x < 2 ^ (w - 1) then x else (x : Int) - 2 ^ w

/-- The pattern of an integer. -/
def pattern (w : Nat) (x : Int) : Nat := (x % 2 ^ w).toNat

/-- `fCompare`, `bss_util.h:535-546` (`w = 32`), `:548-559` (`w = 64`); `ok` tells whether a sum is used (always, if overflow wraps around). -/
def fCompareG (w : Nat) (ok : Int → Bool) (a b : Nat) (maxDiff : Int) : Option Bool :=
  let x := (a ^^^ b) >>> (w - 1)
  let test : Int := -(x : Int)
  let s := signed w a + test
  if !ok s then none
  else
    let t := (pattern w s) ^^^ (pattern w test &&& (2 ^ (w - 1) - 1))
    let d := signed w t - signed w b
    if !ok d then none
    else
      let diff := signed w (pattern w d)
      if !ok (maxDiff + diff) then none
      else if !ok (maxDiff - diff) then none
      else
        let v1 := pattern w (maxDiff + diff)
        let v2 := pattern w (maxDiff - diff)
        some (decide (0 ≤ signed w (v1 ||| v2)))

/-- With integers that wrap around. -/
def fCompare (w a b : Nat) (maxDiff : Int) : Option Bool := fCompareG w (fun _ => true) a b maxDiff

/-- As the language defines it: `none` for a signed overflow. -/
def fCompareStrict (w a b : Nat) (maxDiff : Int) : Option Bool := fCompareG w (fun x => decide (-2 ^ (w - 1) ≤ x ∧ x < 2 ^ (w - 1))) a b maxDiff

/-! ## Specification -/

/-- The place of a number in the order of the floating point numbers: 0 for both zeros, ±1 for the smallest numbers, and so on. The highest bit is the sign, the others the magnitude,
which grows with the pattern. -/
def place (w x : Nat) : Int := if x < 2 ^ (w - 1) then x else -((x : Int) - 2 ^ (w - 1))

/-! ## Proofs -/

theorem two_pow_split {w : Nat} (hw : 1 ≤ w) : (2 : Nat) ^ w = 2 * 2 ^ (w - 1) := by
  obtain ⟨k, rfl⟩ : ∃ k, w = k + 1 := ⟨w - 1, by omega⟩
  rw [Nat.pow_succ, Nat.add_sub_cancel]; omega

theorem shift_top {w x : Nat} (hw : 1 ≤ w) (hx : x < 2 ^ w) : x >>> (w - 1) = if x < 2 ^ (w - 1) then 0 else 1 := by
  rw [Nat.shiftRight_eq_div_pow]
  have h2 := two_pow_split hw
  have hp : 0 < 2 ^ (w - 1) := Nat.two_pow_pos _
  split
  · rename_i h
    exact Nat.div_eq_of_lt h
  · rename_i h
    have : x / 2 ^ (w - 1) < 2 := Nat.div_lt_of_lt_mul (by omega)
    have : 1 ≤ x / 2 ^ (w - 1) := (Nat.le_div_iff_mul_le hp).2 (by omega)
    omega

/-- The highest bit of an exclusive or. -/
theorem top_xor {w a b : Nat} (hw : 1 ≤ w) (ha : a < 2 ^ w) (hb : b < 2 ^ w) :
    (a ^^^ b) >>> (w - 1) = if (a < 2 ^ (w - 1)) = (b < 2 ^ (w - 1)) then 0 else 1 := by
  rw [Nat.shiftRight_xor_distrib, shift_top hw ha, shift_top hw hb]
  by_cases h1 : a < 2 ^ (w - 1) <;> by_cases h2 : b < 2 ^ (w - 1) <;> simp [h1, h2]

theorem xor_low {k y : Nat} : y ^^^ (2 ^ k - 1) = 2 ^ k * (y / 2 ^ k) + (2 ^ k - (y % 2 ^ k + 1)) := by
  have hp : 0 < 2 ^ k := Nat.two_pow_pos k
  have hlt : 2 ^ k - (y % 2 ^ k + 1) < 2 ^ k := by omega
  apply Nat.eq_of_testBit_eq
  intro i
  rw [Nat.testBit_xor, Nat.testBit_two_pow_sub_one, Nat.testBit_two_pow_mul_add _ hlt, Nat.testBit_two_pow_sub_succ (Nat.mod_lt _ hp)]
  by_cases h : i < k
  · simp [h, Nat.testBit_mod_two_pow]
  · simp only [h, decide_false, Bool.xor_false, if_false]
    rw [Nat.testBit_div_two_pow]
    congr 1; omega

theorem or_top {w a b : Nat} (hw : 1 ≤ w) (ha : a < 2 ^ w) (hb : b < 2 ^ w) : 0 ≤ signed w (a ||| b) ↔ 0 ≤ signed w a ∧ 0 ≤ signed w b := by
  have hab : a ||| b < 2 ^ w := Nat.or_lt_two_pow ha hb
  have h2 := two_pow_split hw
  have key : ∀ x, x < 2 ^ w → (0 ≤ signed w x ↔ x < 2 ^ (w - 1)) := by
    intro x hx
    rw [signed]
    split
    · rename_i h
      exact ⟨fun _ => h, fun _ => Int.natCast_nonneg x⟩
    · rename_i h
      have : ((2 ^ w : Nat) : Int) = (2 : Int) ^ w := by push_cast; rfl
      constructor
      · intro h'; omega
      · intro h'; exact absurd h' h
  rw [key _ hab, key _ ha, key _ hb]
  constructor
  · intro h
    exact ⟨Nat.lt_of_le_of_lt Nat.left_le_or h, Nat.lt_of_le_of_lt Nat.right_le_or h⟩
  · intro ⟨h, h'⟩
    exact Nat.or_lt_two_pow h h'

theorem pattern_lt (w : Nat) (x : Int) : pattern w x < 2 ^ w := by
  rw [pattern]
  have h0 : (0 : Int) < 2 ^ w := Int.pow_pos (by decide)
  have h1 := Int.emod_nonneg x (Int.ne_of_gt h0)
  have h2 := Int.emod_lt_of_pos x h0
  have : ((2 ^ w : Nat) : Int) = (2 : Int) ^ w := by push_cast; rfl
  omega

/-- Going to patterns and back keeps what fits, and otherwise changes by a multiple of the modulus. -/
theorem signed_pattern {w : Nat} (hw : 1 ≤ w) (x : Int) : ∃ k : Int, signed w (pattern w x) = x + k * 2 ^ w ∧ -2 ^ (w - 1) ≤ signed w (pattern w x) ∧ signed w (pattern w x) < 2 ^ (w - 1) := by
  have h2 := two_pow_split hw
  have hlt := pattern_lt w x
  have c1 : ((2 ^ w : Nat) : Int) = (2 : Int) ^ w := by push_cast; rfl
  have c2 : ((2 ^ (w - 1) : Nat) : Int) = (2 : Int) ^ (w - 1) := by push_cast; rfl
  have h0 : (0 : Int) < 2 ^ w := Int.pow_pos (by decide)
  have hp : ((pattern w x : Nat) : Int) = x % 2 ^ w := by
    rw [pattern, Int.toNat_of_nonneg (Int.emod_nonneg x (Int.ne_of_gt h0))]
  have hd := Int.mul_ediv_add_emod x (2 ^ w)
  rw [signed]
  split
  · refine ⟨-(x / 2 ^ w), ?_, by omega, by omega⟩
    rw [hp, Int.neg_mul, Int.mul_comm]; omega
  · refine ⟨-(x / 2 ^ w) - 1, ?_, by omega, by omega⟩
    rw [hp, Int.sub_mul, Int.neg_mul, Int.mul_comm]; omega

theorem signed_pattern_of_fits {w : Nat} (hw : 1 ≤ w) {x : Int} (h1 : -2 ^ (w - 1) ≤ x) (h2 : x < 2 ^ (w - 1)) : signed w (pattern w x) = x := by
  obtain ⟨k, e, l, u⟩ := signed_pattern hw x
  have c1 : (2 : Int) ^ w = 2 * 2 ^ (w - 1) := by
    have := two_pow_split hw
    exact_mod_cast this
  have hp : (0 : Int) < 2 ^ (w - 1) := Int.pow_pos (by decide)
  rw [c1] at e
  generalize (2 : Int) ^ (w - 1) = H at *
  have hk : k = 0 := by
    rcases Int.lt_trichotomy k 0 with h | h | h
    · have : k * (2 * H) ≤ -1 * (2 * H) := Int.mul_le_mul_of_nonneg_right (by omega) (by omega)
      omega
    · exact h
    · have : 1 * (2 * H) ≤ k * (2 * H) := Int.mul_le_mul_of_nonneg_right (by omega) (by omega)
      omega
  subst hk
  omega

theorem pattern_signed {w x : Nat} (hw : 1 ≤ w) (hx : x < 2 ^ w) : pattern w (signed w x) = x := by
  have c1 : ((2 ^ w : Nat) : Int) = (2 : Int) ^ w := by push_cast; rfl
  rw [pattern, signed]
  split
  · rw [← c1, Int.emod_eq_of_lt (by omega) (by omega), Int.toNat_natCast]
  · rw [← c1, Int.sub_emod_right, Int.emod_eq_of_lt (by omega) (by omega), Int.toNat_natCast]

/-- Up to sign and the modulus, `diff` is the difference of the places. -/
theorem diff_place {w a b : Nat} (hw : 1 ≤ w) (ha : a < 2 ^ w) (hb : b < 2 ^ w) :
    ∃ k : Int, signed w ((pattern w (signed w a + -(((a ^^^ b) >>> (w - 1) : Nat) : Int))) ^^^ (pattern w (-(((a ^^^ b) >>> (w - 1) : Nat) : Int)) &&& (2 ^ (w - 1) - 1))) - signed w b =
        (place w a - place w b) + k * 2 ^ w ∨
      signed w ((pattern w (signed w a + -(((a ^^^ b) >>> (w - 1) : Nat) : Int))) ^^^ (pattern w (-(((a ^^^ b) >>> (w - 1) : Nat) : Int)) &&& (2 ^ (w - 1) - 1))) - signed w b =
        -(place w a - place w b) + k * 2 ^ w := by
  have h2 := two_pow_split hw
  have hp : 0 < 2 ^ (w - 1) := Nat.two_pow_pos _
  have c1 : ((2 ^ w : Nat) : Int) = (2 : Int) ^ w := by push_cast; rfl
  have c2 : ((2 ^ (w - 1) : Nat) : Int) = (2 : Int) ^ (w - 1) := by push_cast; rfl
  rw [top_xor hw ha hb]
  have hneg : pattern w (-1) = 2 ^ w - 1 := by
    rw [pattern, ← c1]
    have : (-1 : Int) % ((2 ^ w : Nat) : Int) = ((2 ^ w - 1 : Nat) : Int) := by
      rw [← Int.add_emod_right, Int.emod_eq_of_lt (by omega) (by omega)]
      omega
    rw [this, Int.toNat_natCast]
  have hand : (2 ^ w - 1) &&& (2 ^ (w - 1) - 1) = 2 ^ (w - 1) - 1 := by
    rw [Nat.and_two_pow_sub_one_eq_mod, h2, show 2 * 2 ^ (w - 1) - 1 = 2 ^ (w - 1) - 1 + 2 ^ (w - 1) * 1 by omega, Nat.add_mul_mod_self_left, Nat.mod_eq_of_lt (by omega)]
  by_cases h1 : a < 2 ^ (w - 1) <;> by_cases h3 : b < 2 ^ (w - 1)
  · refine ⟨0, .inl ?_⟩
    simp only [h1, h3, if_true]
    have hz : pattern w (-((0 : Nat) : Int)) = 0 := by simp [pattern]
    rw [hz, Nat.zero_and, Nat.xor_zero, Int.natCast_zero, Int.neg_zero, Int.add_zero, pattern_signed hw ha]
    simp only [signed, place, h1, h3, if_true]
    omega
  · simp only [h1, h3, if_false, eq_iff_iff, true_iff]
    rw [show (-((1 : Nat) : Int)) = -1 from rfl, hneg, hand, xor_low]
    rcases Nat.eq_zero_or_pos a with h0 | h0
    · subst h0
      have e1 : signed w 0 + -1 = -1 := by simp [signed, hp]
      rw [e1, hneg, h2, show 2 * 2 ^ (w - 1) - 1 = 2 ^ (w - 1) - 1 + 2 ^ (w - 1) * 1 by omega, Nat.add_mul_mod_self_left, Nat.mod_eq_of_lt (by omega), Nat.add_mul_div_left _ _ hp,
        Nat.div_eq_of_lt (by omega)]
      refine ⟨0, .inr ?_⟩
      have e2 : 2 ^ (w - 1) * (0 + 1) + (2 ^ (w - 1) - (2 ^ (w - 1) - 1 + 1)) = 2 ^ (w - 1) := by omega
      rw [e2]
      simp only [signed, place, h3, if_false, Nat.lt_irrefl, hp, if_true]
      omega
    · have e1 : pattern w (signed w a + -1) = a - 1 := by
        rw [pattern, signed, if_pos h1, ← c1, Int.emod_eq_of_lt (by omega) (by omega)]
        omega
      rw [e1, Nat.div_eq_of_lt (by omega), Nat.mod_eq_of_lt (by omega)]
      refine ⟨1, .inr ?_⟩
      have e2 : 2 ^ (w - 1) * 0 + (2 ^ (w - 1) - (a - 1 + 1)) = 2 ^ (w - 1) - a := by omega
      rw [e2]
      have h4 : 2 ^ (w - 1) - a < 2 ^ (w - 1) := by omega
      simp only [signed, place, h1, h3, h4, if_false, if_true]
      omega
  · simp only [h1, h3, if_false, eq_iff_iff, iff_true]
    rw [show (-((1 : Nat) : Int)) = -1 from rfl, hneg, hand, xor_low]
    by_cases h0 : a = 2 ^ (w - 1)
    · have e1 : pattern w (signed w a + -1) = 2 ^ (w - 1) - 1 := by
        rw [pattern, signed, if_neg h1, ← c1, ← Int.add_emod_right, Int.emod_eq_of_lt (by omega) (by omega)]
        omega
      rw [e1, Nat.div_eq_of_lt (by omega), Nat.mod_eq_of_lt (by omega)]
      refine ⟨0, .inl ?_⟩
      have e2 : 2 ^ (w - 1) * 0 + (2 ^ (w - 1) - (2 ^ (w - 1) - 1 + 1)) = 0 := by omega
      rw [e2]
      simp only [signed, place, h1, h3, hp, if_false, if_true]
      omega
    · have e1 : pattern w (signed w a + -1) = a - 1 := by
        rw [pattern, signed, if_neg h1, ← c1, ← Int.add_emod_right, Int.emod_eq_of_lt (by omega) (by omega)]
        omega
      have e3 : a - 1 = a - 1 - 2 ^ (w - 1) + 2 ^ (w - 1) * 1 := by omega
      rw [e1, e3, Nat.add_mul_mod_self_left, Nat.mod_eq_of_lt (by omega), Nat.add_mul_div_left _ _ hp, Nat.div_eq_of_lt (by omega)]
      refine ⟨0, .inl ?_⟩
      have e2 : 2 ^ (w - 1) * (0 + 1) + (2 ^ (w - 1) - (a - 1 - 2 ^ (w - 1) + 1)) = 3 * 2 ^ (w - 1) - a := by omega
      rw [e2]
      have h4 : ¬3 * 2 ^ (w - 1) - a < 2 ^ (w - 1) := by omega
      simp only [signed, place, h1, h3, h4, if_false, if_true]
      omega
  · refine ⟨0, .inr ?_⟩
    simp only [h1, h3, if_false, if_true]
    have hz : pattern w (-((0 : Nat) : Int)) = 0 := by simp [pattern]
    rw [hz, Nat.zero_and, Nat.xor_zero, Int.natCast_zero, Int.neg_zero, Int.add_zero, pattern_signed hw ha]
    simp only [signed, place, h1, h3, if_false]
    omega

theorem fCompare_iff {w a b : Nat} (hw : 1 ≤ w) (ha : a < 2 ^ w) (hb : b < 2 ^ w) {maxDiff : Int} (h0 : 0 ≤ maxDiff) (hm : 2 * maxDiff < 2 ^ (w - 1))
    (hd : place w a - place w b + maxDiff < 2 ^ w ∧ -(place w a - place w b) + maxDiff < 2 ^ w) :
    fCompare w a b maxDiff = some (decide (place w a - place w b ≤ maxDiff ∧ -(place w a - place w b) ≤ maxDiff)) := by
  have c1 : (2 : Int) ^ w = 2 * 2 ^ (w - 1) := by
    have := two_pow_split hw
    exact_mod_cast this
  have hH : (0 : Int) < 2 ^ (w - 1) := Int.pow_pos (by decide)
  obtain ⟨k, hk⟩ := diff_place hw ha hb
  simp only [fCompare, fCompareG, Bool.not_true, Bool.false_eq_true, if_false]
  generalize signed w ((pattern w (signed w a + -(((a ^^^ b) >>> (w - 1) : Nat) : Int))) ^^^ (pattern w (-(((a ^^^ b) >>> (w - 1) : Nat) : Int)) &&& (2 ^ (w - 1) - 1))) - signed w b = d at *
  generalize place w a - place w b = P at *
  congr 1
  rw [decide_eq_decide, or_top hw (pattern_lt _ _) (pattern_lt _ _)]
  obtain ⟨k1, e1, l1, u1⟩ := signed_pattern hw d
  generalize signed w (pattern w d) = diff at *
  obtain ⟨k2, e2, l2, u2⟩ := signed_pattern hw (maxDiff + diff)
  obtain ⟨k3, e3, l3, u3⟩ := signed_pattern hw (maxDiff - diff)
  generalize signed w (pattern w (maxDiff + diff)) = v1 at *
  generalize signed w (pattern w (maxDiff - diff)) = v2 at *
  rw [c1] at *
  generalize (2 : Int) ^ (w - 1) = H at *
  -- multiples of `2H` between small bounds
  have mul : ∀ (k x : Int), k * (2 * H) = x → (x < 2 * H ∨ 1 ≤ k) ∧ (-2 * H < x ∨ k ≤ -1) ∧ (2 * H ≤ x ∨ k ≤ 0) ∧ (x ≤ -2 * H ∨ 0 ≤ k) ∧ (k = 0 → x = 0) ∧ (k = 1 → x = 2 * H) ∧ (k = -1 → x = -2 * H) ∧ (4 * H ≤ x ∨ k ≤ 1) ∧ (x ≤ -4 * H ∨ -1 ≤ k) := by
    intro k x e
    refine ⟨?_, ?_, ?_, ?_, ?_, ?_, ?_, ?_, ?_⟩
    · by_cases h : 1 ≤ k
      · exact .inr h
      · have : k * (2 * H) ≤ 0 * (2 * H) := Int.mul_le_mul_of_nonneg_right (by omega) (by omega)
        exact .inl (by omega)
    · by_cases h : k ≤ -1
      · exact .inr h
      · have : 0 * (2 * H) ≤ k * (2 * H) := Int.mul_le_mul_of_nonneg_right (by omega) (by omega)
        exact .inl (by omega)
    · by_cases h : k ≤ 0
      · exact .inr h
      · have : 1 * (2 * H) ≤ k * (2 * H) := Int.mul_le_mul_of_nonneg_right (by omega) (by omega)
        exact .inl (by omega)
    · by_cases h : 0 ≤ k
      · exact .inr h
      · have : k * (2 * H) ≤ -1 * (2 * H) := Int.mul_le_mul_of_nonneg_right (by omega) (by omega)
        exact .inl (by omega)
    · rintro rfl; omega
    · rintro rfl; omega
    · rintro rfl; omega
    · by_cases h : k ≤ 1
      · exact .inr h
      · have : 2 * (2 * H) ≤ k * (2 * H) := Int.mul_le_mul_of_nonneg_right (by omega) (by omega)
        exact .inl (by omega)
    · by_cases h : -1 ≤ k
      · exact .inr h
      · have : k * (2 * H) ≤ -2 * (2 * H) := Int.mul_le_mul_of_nonneg_right (by omega) (by omega)
        exact .inl (by omega)
  have m2 := mul k2 _ rfl
  have m3 := mul k3 _ rfl
  -- `diff` is the distance up to sign, or far away
  have hdiff : (-maxDiff ≤ diff ∧ diff ≤ maxDiff) ↔ (P ≤ maxDiff ∧ -P ≤ maxDiff) := by
    rcases hk with hk | hk
    · have m := mul (k + k1) _ rfl
      rw [Int.add_mul] at m
      have e : diff = P + (k * (2 * H) + k1 * (2 * H)) := by omega
      generalize k * (2 * H) + k1 * (2 * H) = z at *
      generalize k + k1 = kk at *
      omega
    · have m := mul (k + k1) _ rfl
      rw [Int.add_mul] at m
      have e : diff = -P + (k * (2 * H) + k1 * (2 * H)) := by omega
      generalize k * (2 * H) + k1 * (2 * H) = z at *
      generalize k + k1 = kk at *
      omega
  rw [← hdiff]
  generalize k2 * (2 * H) = z2 at *
  generalize k3 * (2 * H) = z3 at *
  clear mul hk e1
  omega

/-- **C84**: for numbers that are not NaN and tolerances below `2^24`, `fCompare` on `float`s tells whether the numbers are at most `maxDiff` places apart in the order of all
floating point numbers. (Missing: it relies on signed integers that wrap around.) -/
theorem C84_float_partial {a b : Nat} (ha : a < 2 ^ 32) (hb : b < 2 ^ 32) (na : a % 2 ^ 31 ≤ 0x7f800000) (nb : b % 2 ^ 31 ≤ 0x7f800000) {maxDiff : Int} (h0 : 0 ≤ maxDiff)
    (hm : maxDiff < 2 ^ 24) : fCompare 32 a b maxDiff = some (decide ((place 32 a - place 32 b).natAbs ≤ maxDiff)) := by
  rw [fCompare_iff (by decide) ha hb h0 (by omega) ?_]
  · congr 1
    rw [decide_eq_decide]
    omega
  · simp only [place]
    split <;> split <;> omega

/-- **C84**: the same for `double`s and tolerances below `2^53`. -/
theorem C84_double_partial {a b : Nat} (ha : a < 2 ^ 64) (hb : b < 2 ^ 64) (na : a % 2 ^ 63 ≤ 0x7ff0000000000000) (nb : b % 2 ^ 63 ≤ 0x7ff0000000000000) {maxDiff : Int}
    (h0 : 0 ≤ maxDiff) (hm : maxDiff < 2 ^ 53) : fCompare 64 a b maxDiff = some (decide ((place 64 a - place 64 b).natAbs ≤ maxDiff)) := by
  rw [fCompare_iff (by decide) ha hb h0 (by omega) ?_]
  · congr 1
    rw [decide_eq_decide]
    omega
  · simp only [place]
    split <;> split <;> omega

/-- 1.0f and the next number; 1.0f and -1.0f. -/
example : fCompare 32 0x3f800000 0x3f800001 1 = some true ∧ fCompare 32 0x3f800000 0xbf800000 1 = some false := by decide +kernel

/-- The value of a pattern of magnitude `p` with `k` bits of mantissa, in units of the smallest positive number. -/
def magnitude (k p : Nat) : Nat := if p / 2 ^ k = 0 then p % 2 ^ k else (2 ^ k + p % 2 ^ k) * 2 ^ (p / 2 ^ k - 1)

/-- The value of a pattern. -/
def value (w k x : Nat) : Int := if x < 2 ^ (w - 1) then (magnitude k x : Int) else -(magnitude k (x - 2 ^ (w - 1)) : Int)

theorem magnitude_succ (k p : Nat) : magnitude k p < magnitude k (p + 1) := by
  have hp : 0 < 2 ^ k := Nat.two_pow_pos k
  have hd := Nat.div_add_mod p (2 ^ k)
  have hr := Nat.mod_lt p hp
  generalize hq : p / 2 ^ k = q at hd
  generalize hm : p % 2 ^ k = m at hd hr
  by_cases h : m + 1 < 2 ^ k
  · have e1 : (p + 1) / 2 ^ k = q := by
      rw [← hd, Nat.add_assoc, Nat.mul_add_div hp, Nat.div_eq_of_lt h, Nat.add_zero]
    have e2 : (p + 1) % 2 ^ k = m + 1 := by
      rw [← hd, Nat.add_assoc, Nat.mul_add_mod, Nat.mod_eq_of_lt h]
    rw [magnitude, magnitude, e1, e2, hq, hm]
    split
    · omega
    · exact Nat.mul_lt_mul_of_pos_right (by omega) (Nat.two_pow_pos _)
  · have e0 : p + 1 = 2 ^ k * (q + 1) := by rw [Nat.mul_add]; omega
    have e1 : (p + 1) / 2 ^ k = q + 1 := by rw [e0, Nat.mul_div_cancel_left _ hp]
    have e2 : (p + 1) % 2 ^ k = 0 := by rw [e0, Nat.mul_mod_right]
    rw [magnitude, magnitude, e1, e2, hq, hm, if_neg (Nat.succ_ne_zero q), Nat.add_sub_cancel, Nat.add_zero]
    split
    · rename_i h0
      subst h0
      omega
    · rename_i h0
      obtain ⟨e, rfl⟩ : ∃ e, q = e + 1 := ⟨q - 1, by omega⟩
      rw [Nat.add_sub_cancel, Nat.pow_succ, ← Nat.mul_assoc, Nat.mul_right_comm]
      exact Nat.mul_lt_mul_of_pos_right (by omega) (Nat.two_pow_pos _)

theorem magnitude_lt {k p q : Nat} (h : p < q) : magnitude k p < magnitude k q := by
  induction q with
  | zero => omega
  | succ q ih =>
    have := magnitude_succ k q
    rcases Nat.lt_or_ge p q with h' | h'
    · exact Nat.lt_trans (ih h') this
    · have : p = q := by omega
      rw [this]; exact magnitude_succ k q

theorem magnitude_zero (k : Nat) : magnitude k 0 = 0 := by simp [magnitude]

/-- **C84**: the place of a pattern (the quantity that `fCompare` compares) follows the order of the numbers: the place is greater exactly if the number is. So the difference of the places
is the number of steps from one number to the next between them. -/
theorem C84_place (w k : Nat) {a b : Nat} : place w a < place w b ↔ value w k a < value w k b := by
  have mono : ∀ {p q : Nat}, magnitude k p < magnitude k q ↔ p < q := fun {p q} =>
    ⟨fun h => Decidable.byContradiction fun hn => by
      rcases Nat.lt_or_ge q p with h' | h'
      · have := magnitude_lt (k := k) h'; omega
      · have : p = q := by omega
        subst this; omega, magnitude_lt⟩
  have pos : ∀ {p : Nat}, 0 < magnitude k p ↔ 0 < p := fun {p} => by
    have := mono (p := 0) (q := p); rwa [magnitude_zero] at this
  have c2 : ((2 ^ (w - 1) : Nat) : Int) = (2 : Int) ^ (w - 1) := by push_cast; rfl
  simp only [place, value]
  by_cases h1 : a < 2 ^ (w - 1) <;> by_cases h2 : b < 2 ^ (w - 1)
  · simp only [h1, h2, if_true]
    have := mono (p := a) (q := b)
    omega
  · simp only [h1, h2, if_true, if_false]
    omega
  · simp only [h1, h2, if_true, if_false]
    have p1 := pos (p := a - 2 ^ (w - 1))
    have p2 := pos (p := b)
    omega
  · simp only [h1, h2, if_false]
    have := mono (p := b - 2 ^ (w - 1)) (q := a - 2 ^ (w - 1))
    omega

/-- **C84**: by the rules of the language the comparison of the smallest positive `float` with the smallest negative one, or of -0.0f with 0.0f, is an overflow. -/
theorem C84_overflow_counterexample : fCompareStrict 32 0x00000001 0x80000001 2 = none ∧ fCompareStrict 32 0x80000000 0 1 = none := by decide +kernel

/-- **C84**: with a large tolerance opposite numbers compare as equal: plus and minus infinity at `2^24`. -/
theorem C84_tolerance_counterexample : fCompare 32 0x7f800000 0xff800000 (2 ^ 24) = some true := by decide +kernel

end Verif.Arith
