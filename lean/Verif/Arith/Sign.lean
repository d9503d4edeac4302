import Verif.Arith.FCompare

/-!
# Signs (C166), `fSmall` and `fCompareSmall` (C167) and `fWideCompare` (C168), `/repo/include/bss-util/bss_util.h:377-406` and `522-591`

Floating point numbers are their bit patterns, as in `FCompare.lean`: `w` bits, of which `k` are the mantissa. `value` is the number in units of the smallest positive one; for this order infinity is the number
that would follow the greatest one.
-/

namespace Verif.Arith

/-! ## Signs -/

/-- `tsign`, `bss_util.h:378-384`, for a signed type of `w` bits; the shift copies the sign. -/
def tsign {w : Nat} (n : BitVec w) : BitVec w := 1#w ||| n.sshiftRight (w - 1)

/-- `tsignzero`, `bss_util.h:387-391`. -/
def tsignzero (n : Int) : Int := (if n > 0 then 1 else 0) - (if n < 0 then 1 else 0)

/-- The pattern of 1.0, `bss_util.h:397` and `404`. -/
def onePattern (w : Nat) : Nat := if w = 32 then 0x3f800000 else 0x3FF0000000000000

/-- `fsign`, `bss_util.h:394-406`. -/
def fsign (w x : Nat) : Nat := (x &&& (1 <<< (w - 1))) ||| onePattern w

/-- C166: the sign of an integer is -1 if it is negative and 1 otherwise. -/
theorem C166_tsign {w : Nat} (hw : 2 ≤ w) (n : BitVec w) : (tsign n).toInt = if n.toInt < 0 then -1 else 1 := by
  have hs : n.sshiftRight (w - 1) = if n.toInt < 0 then BitVec.allOnes w else 0#w := by
    apply BitVec.eq_of_toInt_eq
    rw [BitVec.toInt_sshiftRight, Int.shiftRight_eq_div_pow]
    have h1 := BitVec.le_toInt n
    have h2 := BitVec.toInt_lt (x := n)
    have hp : (0 : Int) < 2 ^ (w - 1) := Int.pow_pos (by decide)
    split
    · rw [BitVec.toInt_allOnes, if_pos (by omega)]
      push_cast
      have : n.toInt / 2 ^ (w - 1) = -1 := by
        rw [Int.ediv_eq_iff_of_pos hp] 
        omega
      exact this
    · rw [BitVec.toInt_zero]
      push_cast
      exact Int.ediv_eq_zero_of_lt (by omega) h2
  unfold tsign
  rw [hs]
  split
  · rw [BitVec.or_allOnes, BitVec.toInt_allOnes, if_pos (by omega)]
  · rw [BitVec.or_zero, BitVec.toInt_one (by omega)]

/-- C166: with 0 as a third case. -/
theorem C166_tsignzero (n : Int) : tsignzero n = n.sign := by
  unfold tsignzero
  rcases Int.lt_trichotomy n 0 with h | h | h
  · rw [Int.sign_eq_neg_one_of_neg h, if_neg (by omega), if_pos h]; rfl
  · subst h; rfl
  · rw [Int.sign_eq_one_of_pos h, if_pos h, if_neg (by omega)]; rfl

theorem fsign_eq {w : Nat} (hw : w = 32 ∨ w = 64) {x : Nat} (hx : x < 2 ^ w) : fsign w x = if x < 2 ^ (w - 1) then onePattern w else 2 ^ (w - 1) + onePattern w := by
  have hbit : x &&& (1 <<< (w - 1)) = if x < 2 ^ (w - 1) then 0 else 2 ^ (w - 1) := by
    apply Nat.eq_of_testBit_eq
    intro i
    rw [Nat.testBit_and, Nat.one_shiftLeft, Nat.testBit_two_pow]
    by_cases hi : w - 1 = i
    · subst hi
      have : x.testBit (w - 1) = !decide (x < 2 ^ (w - 1)) := by
        rw [Nat.testBit_eq_decide_div_mod_eq]
        have e : 2 ^ w = 2 * 2 ^ (w - 1) := by rw [← Nat.pow_succ']; congr 1; omega
        by_cases h : x < 2 ^ (w - 1)
        · rw [Nat.div_eq_of_lt h]; simp [h]
        · have : x / 2 ^ (w - 1) = 1 := by
            rw [Nat.div_eq_iff (Nat.two_pow_pos _)]
            omega
          simp [this, h]
      rw [this]
      by_cases h : x < 2 ^ (w - 1)
      · simp [h]
      · simp [h, Nat.testBit_two_pow_self]
    · simp only [hi, decide_false, Bool.and_false]
      split
      · simp
      · rw [Nat.testBit_two_pow, decide_eq_false hi]
  unfold fsign
  rw [hbit]
  rcases hw with rfl | rfl
  · split
    · rfl
    · decide
  · split
    · rfl
    · decide

/-- The numbers 1 and -1 in the units of `value`: `2^149` and `2^1074` times the smallest. -/
def one (w : Nat) : Int := if w = 32 then 2 ^ 149 else 2 ^ 1074

/-- C166: the sign of a floating point number is 1.0 or -1.0; it is that of the number, and for zeros and NaN that of the sign bit. -/
theorem C166_fsign {w k : Nat} (hw : (w = 32 ∧ k = 23) ∨ (w = 64 ∧ k = 52)) {x : Nat} (hx : x < 2 ^ w) :
    (value w k (fsign w x) = one w ∧ x < 2 ^ (w - 1) ∨ value w k (fsign w x) = -one w ∧ 2 ^ (w - 1) ≤ x) ∧ (value w k x ≠ 0 → value w k (fsign w x) = (value w k x).sign * one w) := by
  have h1 : ∀ w k : Nat, ((w = 32 ∧ k = 23) ∨ (w = 64 ∧ k = 52)) → value w k (onePattern w) = one w ∧ value w k (2 ^ (w - 1) + onePattern w) = -one w := by
    rintro w k (⟨rfl, rfl⟩ | ⟨rfl, rfl⟩) <;> decide +kernel
  obtain ⟨e1, e2⟩ := h1 w k hw
  have e := fsign_eq (w := w) (by rcases hw with h | h <;> omega) hx
  have hv : x < 2 ^ (w - 1) → value w k (fsign w x) = one w := by intro h; rw [e, if_pos h, e1]
  have hv' : ¬ x < 2 ^ (w - 1) → value w k (fsign w x) = -one w := by intro h; rw [e, if_neg h, e2]
  refine ⟨?_, ?_⟩
  · by_cases h : x < 2 ^ (w - 1)
    · left; exact ⟨hv h, h⟩
    · right; exact ⟨hv' h, by omega⟩
  · intro h0
    by_cases h : x < 2 ^ (w - 1)
    · rw [hv h]
      have : 0 < value w k x := by
        unfold value at h0 ⊢
        rw [if_pos h] at h0 ⊢
        omega
      rw [Int.sign_eq_one_of_pos this, Int.one_mul]
    · rw [hv' h]
      have : value w k x < 0 := by
        unfold value at h0 ⊢
        rw [if_neg h] at h0 ⊢
        omega
      rw [Int.sign_eq_neg_one_of_neg this]
      omega

example : (tsign (-7 : BitVec 8)).toInt = -1 ∧ (tsign (0 : BitVec 8)).toInt = 1 ∧ fsign 32 0xc0490fdb = 0xbf800000 := by decide

/-! ## Small numbers -/

/-- `fSmall`, `bss_util.h:562-577`. -/
def fSmall (w x eps : Nat) : Bool := decide (x &&& (2 ^ (w - 1) - 1) ≤ eps)

/-- `x == 0.0`: both zeros. -/
def isZero (w x : Nat) : Bool := x == 0 || x == 2 ^ (w - 1)

/-- `fCompareSmall`, `bss_util.h:579-591`. -/
def fCompareSmall (w a b : Nat) (maxDiff : Int) (eps : Nat) : Option Bool :=
  if isZero w a then some (fSmall w b eps)
  else if isZero w b then some (fSmall w a eps)
  else fCompare w a b maxDiff

/-- The pattern of infinity. -/
def infPattern (w : Nat) : Nat := if w = 32 then 0x7f800000 else 0x7ff0000000000000

theorem magnitude_le {k p q : Nat} : magnitude k p ≤ magnitude k q ↔ p ≤ q := by
  constructor
  · intro h
    rcases Nat.lt_or_ge q p with h' | h'
    · have := magnitude_lt (k := k) h'; omega
    · exact h'
  · intro h
    rcases Nat.lt_or_ge p q with h' | h'
    · exact Nat.le_of_lt (magnitude_lt h')
    · rw [show p = q by omega]
      exact Nat.le_refl _

theorem natAbs_value {w k x : Nat} (hx : x < 2 ^ w) (hw : 1 ≤ w) : (value w k x).natAbs = magnitude k (x % 2 ^ (w - 1)) := by
  have e : 2 ^ w = 2 * 2 ^ (w - 1) := by rw [← Nat.pow_succ']; congr 1; omega
  unfold value
  split
  · next h => rw [Nat.mod_eq_of_lt h]; rfl
  · next h =>
    rw [Int.natAbs_neg]
    have : x % 2 ^ (w - 1) = x - 2 ^ (w - 1) := by
      rw [Nat.mod_eq_sub_mod (by omega), Nat.mod_eq_of_lt (by omega)]
    rw [this]; rfl

/-- C167: a number is small exactly if its absolute value is at most `eps`, for every `eps` that is not negative and not NaN; NaN is not small. -/
theorem C167_small {w : Nat} (hw : w = 32 ∨ w = 64) (k : Nat) {x eps : Nat} (hx : x < 2 ^ w) (he : eps ≤ infPattern w) :
    fSmall w x eps = decide ((value w k x).natAbs ≤ value w k eps) ∧ (infPattern w < x % 2 ^ (w - 1) → fSmall w x eps = false) := by
  have he' : eps < 2 ^ (w - 1) := by
    rcases hw with rfl | rfl <;> simp only [infPattern] at he <;> simp only [Nat.reduceSub, Nat.reducePow, Nat.reduceEqDiff, if_true, if_false] at he ⊢ <;> omega
  unfold fSmall
  rw [Nat.and_two_pow_sub_one_eq_mod]
  refine ⟨?_, fun h => decide_eq_false (by omega)⟩
  rw [decide_eq_decide, natAbs_value hx (by omega)]
  have : value w k eps = (magnitude k eps : Int) := by unfold value; rw [if_pos he']
  rw [this]
  have := magnitude_le (k := k) (p := x % 2 ^ (w - 1)) (q := eps)
  omega

/-- C167 fails for a negative `eps`: every number is small. -/
theorem C167_negative_false {w : Nat} {x eps : Nat} (he : 2 ^ (w - 1) ≤ eps) : fSmall w x eps = true := by
  unfold fSmall
  rw [Nat.and_two_pow_sub_one_eq_mod, decide_eq_true_iff]
  have := Nat.mod_lt x (Nat.two_pow_pos (w - 1))
  omega

/-- C167: the comparison of `float`s with 0 tells whether the other one is small; otherwise it is that of C84 (and relies on integers that wrap around). -/
theorem C167_compare_float_partial {a b : Nat} (ha : a < 2 ^ 32) (hb : b < 2 ^ 32) (na : a % 2 ^ 31 ≤ 0x7f800000) (nb : b % 2 ^ 31 ≤ 0x7f800000) {maxDiff : Int} (h0 : 0 ≤ maxDiff) (hm : maxDiff < 2 ^ 24) {eps : Nat} (he : eps ≤ infPattern 32) :
    fCompareSmall 32 a b maxDiff eps = some (decide (
      if value 32 23 a = 0 then (value 32 23 b).natAbs ≤ value 32 23 eps
      else if value 32 23 b = 0 then (value 32 23 a).natAbs ≤ value 32 23 eps
      else (place 32 a - place 32 b).natAbs ≤ maxDiff)) := by
  have zero : ∀ x, x < 2 ^ 32 → (isZero 32 x = true ↔ value 32 23 x = 0) := by
    intro x hx
    have h1 := natAbs_value (w := 32) (k := 23) hx (by decide)
    have h2 := magnitude_le (k := 23) (p := x % 2 ^ 31) (q := 0)
    rw [magnitude_zero] at h2
    have h3 : isZero 32 x = true ↔ x % 2 ^ 31 = 0 := by
      simp only [isZero, Bool.or_eq_true, beq_iff_eq]
      omega
    rw [h3]
    simp only [Nat.reduceSub] at h1
    omega
  have sa := (C167_small (Or.inl rfl) 23 ha he).1
  have sb := (C167_small (Or.inl rfl) 23 hb he).1
  unfold fCompareSmall
  by_cases za : isZero 32 a = true
  · rw [if_pos za, sb]
    simp only [(zero a ha).1 za, if_true]
  · have za' : value 32 23 a ≠ 0 := fun h => za ((zero a ha).2 h)
    rw [if_neg za]
    simp only [if_neg za']
    by_cases zb : isZero 32 b = true
    · rw [if_pos zb, sa]
      simp only [(zero b hb).1 zb, if_true]
    · have zb' : value 32 23 b ≠ 0 := fun h => zb ((zero b hb).2 h)
      rw [if_neg zb]
      simp only [if_neg zb']
      exact C84_float_partial ha hb na nb h0 hm

/-- C167: the comparison of `double`s with 0 tells whether the other one is small; otherwise it is that of C84 (and relies on integers that wrap around). -/
theorem C167_compare_double_partial {a b : Nat} (ha : a < 2 ^ 64) (hb : b < 2 ^ 64) (na : a % 2 ^ 63 ≤ 0x7ff0000000000000) (nb : b % 2 ^ 63 ≤ 0x7ff0000000000000) {maxDiff : Int} (h0 : 0 ≤ maxDiff) (hm : maxDiff < 2 ^ 53) {eps : Nat} (he : eps ≤ infPattern 64) :
    fCompareSmall 64 a b maxDiff eps = some (decide (
      if value 64 52 a = 0 then (value 64 52 b).natAbs ≤ value 64 52 eps
      else if value 64 52 b = 0 then (value 64 52 a).natAbs ≤ value 64 52 eps
      else (place 64 a - place 64 b).natAbs ≤ maxDiff)) := by
  have zero : ∀ x, x < 2 ^ 64 → (isZero 64 x = true ↔ value 64 52 x = 0) := by
    intro x hx
    have h1 := natAbs_value (w := 64) (k := 52) hx (by decide)
    have h2 := magnitude_le (k := 52) (p := x % 2 ^ 63) (q := 0)
    rw [magnitude_zero] at h2
    have h3 : isZero 64 x = true ↔ x % 2 ^ 63 = 0 := by
      simp only [isZero, Bool.or_eq_true, beq_iff_eq]
      omega
    rw [h3]
    simp only [Nat.reduceSub] at h1
    omega
  have sa := (C167_small (Or.inr rfl) 52 ha he).1
  have sb := (C167_small (Or.inr rfl) 52 hb he).1
  unfold fCompareSmall
  by_cases za : isZero 64 a = true
  · rw [if_pos za, sb]
    simp only [(zero a ha).1 za, if_true]
  · have za' : value 64 52 a ≠ 0 := fun h => za ((zero a ha).2 h)
    rw [if_neg za]
    simp only [if_neg za']
    by_cases zb : isZero 64 b = true
    · rw [if_pos zb, sa]
      simp only [(zero b hb).1 zb, if_true]
    · have zb' : value 64 52 b ≠ 0 := fun h => zb ((zero b hb).2 h)
      rw [if_neg zb]
      simp only [if_neg zb']
      exact C84_double_partial ha hb na nb h0 hm

example : fCompareSmall 32 0x80000000 0x33000000 1 0x34000000 = some true ∧ fSmall 32 0xff800000 0x7f800000 = true ∧ fSmall 32 0x7fc00000 0x7f800000 = false := by decide +kernel

/-! ## The wide comparison -/

/-- `fWideCompare`, `bss_util.h:524-532`. -/
def fWideCompare (l r : Nat) : Bool :=
  let dif := ((((0x7F800000 &&& l : Nat) : Int) - (0x7F800000 &&& r : Nat)).natAbs >>> 23) % 256
  if dif > 1 then false
  else if dif = 0 then (0x007FFF80 &&& l) == (0x007FFF80 &&& r)
  else ((((0x007FFF80 &&& l : Nat) : Int) - (0x007FFF80 &&& r : Nat)).natAbs : Int) - 0x007FFF80 == 0

/-- The exponent, and the 16 highest bits of the mantissa. -/
def expo (x : Nat) : Nat := x / 2 ^ 23 % 256
def high (x : Nat) : Nat := x / 2 ^ 7 % 2 ^ 16

theorem mask_expo (x : Nat) : 0x7F800000 &&& x = expo x * 2 ^ 23 := by
  apply Nat.eq_of_testBit_eq
  intro i
  have e : (0x7F800000 : Nat) = (2 ^ 8 - 1) * 2 ^ 23 := by decide
  rw [e, Nat.testBit_and, Nat.testBit_mul_two_pow, Nat.testBit_two_pow_sub_one]
  unfold expo
  rw [Nat.testBit_mul_two_pow]
  by_cases hi : 23 ≤ i
  · rw [show 256 = 2 ^ 8 by decide, Nat.testBit_mod_two_pow, Nat.testBit_div_two_pow, Nat.sub_add_cancel hi]
    simp [hi]
  · simp [hi]

theorem mask_high (x : Nat) : 0x007FFF80 &&& x = high x * 2 ^ 7 := by
  apply Nat.eq_of_testBit_eq
  intro i
  have e : (0x007FFF80 : Nat) = (2 ^ 16 - 1) * 2 ^ 7 := by decide
  rw [e, Nat.testBit_and, Nat.testBit_mul_two_pow, Nat.testBit_two_pow_sub_one]
  unfold high
  rw [Nat.testBit_mul_two_pow]
  by_cases hi : 7 ≤ i
  · rw [Nat.testBit_mod_two_pow, Nat.testBit_div_two_pow, Nat.sub_add_cancel hi]
    simp [hi]
  · simp [hi]

theorem wide_eq (l r : Nat) : fWideCompare l r = true ↔
    (expo l = expo r ∧ high l = high r) ∨ ((expo l = expo r + 1 ∨ expo r = expo l + 1) ∧ (high l = 0 ∧ high r = 2 ^ 16 - 1 ∨ high r = 0 ∧ high l = 2 ^ 16 - 1)) := by
  have b1 : expo l < 256 := Nat.mod_lt _ (by decide)
  have b2 : expo r < 256 := Nat.mod_lt _ (by decide)
  have c1 : high l < 2 ^ 16 := Nat.mod_lt _ (by decide)
  have c2 : high r < 2 ^ 16 := Nat.mod_lt _ (by decide)
  unfold fWideCompare
  simp only [mask_expo, mask_high]
  generalize expo l = a at *
  generalize expo r = b at *
  generalize high l = c at *
  generalize high r = d at *
  have e : ((((a * 2 ^ 23 : Nat) : Int) - (b * 2 ^ 23 : Nat)).natAbs >>> 23) % 256 = ((a : Int) - b).natAbs := by
    rw [Nat.shiftRight_eq_div_pow]
    omega
  rw [e]
  by_cases h1 : ((a : Int) - b).natAbs > 1
  · rw [if_pos h1]
    constructor
    · intro h; cases h
    · omega
  · rw [if_neg h1]
    by_cases h2 : ((a : Int) - b).natAbs = 0
    · rw [if_pos h2, beq_iff_eq]; omega
    · rw [if_neg h2, beq_iff_eq]; omega

/-- C168: of numbers with the same sign and exponent those compare as equal whose mantissas agree in the 16 highest bits: then, unless they are denormal, they differ by less than their 2^-16th part. Numbers whose exponents differ by
more than 1 are different. The comparison is reflexive and symmetric. -/
theorem C168_wide_partial {l r : Nat} (hl : l < 2 ^ 31) (hr : r < 2 ^ 31) :
    (expo l = expo r → (fWideCompare l r = true ↔ high l = high r)) ∧
    (expo l = expo r → 0 < expo l → fWideCompare l r = true → ((value 32 23 l - value 32 23 r).natAbs : Int) * 2 ^ 16 < value 32 23 l) ∧
    (1 < ((expo l : Int) - expo r).natAbs → fWideCompare l r = false) ∧ fWideCompare l l = true ∧ fWideCompare l r = fWideCompare r l := by
  refine ⟨?_, ?_, ?_, ?_, ?_⟩
  · intro h
    rw [wide_eq]
    omega
  · intro he hpos h
    have hh : high l = high r := by rw [wide_eq] at h; omega
    have e1 : l / 2 ^ 23 = expo l := by unfold expo; omega
    have e2 : r / 2 ^ 23 = expo l := by rw [he]; unfold expo; omega
    have vl : value 32 23 l = ((2 ^ 23 + l % 2 ^ 23) * 2 ^ (expo l - 1) : Nat) := by
      unfold value magnitude
      rw [if_pos hl, e1, if_neg (by omega)]
    have vr : value 32 23 r = ((2 ^ 23 + r % 2 ^ 23) * 2 ^ (expo l - 1) : Nat) := by
      unfold value magnitude
      rw [if_pos hr, e2, if_neg (by omega)]
    rw [vl, vr]
    have hp : (0 : Int) < ((2 ^ (expo l - 1) : Nat) : Int) := by have := Nat.two_pow_pos (expo l - 1); omega
    generalize 2 ^ (expo l - 1) = P at *
    have d : l % 2 ^ 23 < r % 2 ^ 23 + 128 ∧ r % 2 ^ 23 < l % 2 ^ 23 + 128 := by
      unfold high at hh
      omega
    generalize l % 2 ^ 23 = x at *
    generalize r % 2 ^ 23 = y at *
    have e : (((2 ^ 23 + x) * P : Nat) : Int) - ((2 ^ 23 + y) * P : Nat) = ((x : Int) - y) * P := by rw [Int.natCast_mul, Int.natCast_mul, ← Int.sub_mul]; congr 1; omega
    rw [e, Int.natAbs_mul, Int.natCast_mul, Int.natCast_mul]
    rw [Int.mul_right_comm]
    rw [show ((P : Int).natAbs : Int) = P by omega] 
    apply Int.mul_lt_mul_of_pos_right _ hp
    omega
  · intro h
    rw [Bool.eq_false_iff]
    intro h2
    rw [wide_eq] at h2
    omega
  · rw [wide_eq]; left; exact ⟨rfl, rfl⟩
  · rw [Bool.eq_iff_iff, wide_eq, wide_eq]
    omega

/-- C168 fails: the sign is not compared at all, so that every number is equal to its opposite. -/
theorem C168_sign_false {x : Nat} (hx : x < 2 ^ 31) : fWideCompare x (x + 2 ^ 31) = true := by
  rw [wide_eq]
  left
  constructor
  · unfold expo; omega
  · unfold high; omega

/-- C168 fails: 1.0 and 3.99999976 are equal; it is not tested which of the two has the greater exponent. -/
theorem C168_exponent_counterexample : fWideCompare 0x3f800000 0x407fffff = true ∧ value 32 23 0x407fffff > 3 * value 32 23 0x3f800000 := by decide +kernel

example : fWideCompare 0x3f800000 0x3f80007f = true ∧ fWideCompare 0x3f800000 0x3f800080 = false ∧ expo 0x3f800000 = 127 := by decide +kernel

end Verif.Arith
