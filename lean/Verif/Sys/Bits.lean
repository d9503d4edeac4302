import Mathlib.Tactic.IntervalCases

/-!
# Limits of integers and masks of bits

Models `BitLimit`, `GetBitMask`, `bssSetBit` and `bssGetBit` of `/repo/include/bss-util/bss_util.h` and the macros of `/repo/include/bss-util/defines.h` that they use. `int` has 32 bits and wraps around; a shift by at least the width of the type shifted is undefined behaviour (`none`).
-/

namespace Verif.Sys

/-- `T_CHARGETMSB`, `defines.h:53`. -/
def charGetMsb (i : Nat) : Nat :=
  let a := i ||| i >>> 1
  let b := a ||| a >>> 2
  let c := b ||| b >>> 4
  c - c >>> 1

/-- `BitLimit::BYTES`, `bss_util.h:74`. -/
def limitBytes (bits : Nat) : Nat := (charGetMsb bits >>> 3) <<< (if bits % 8 > 0 then 1 else 0) + (if bits < 8 then 1 else 0)

/-- The width of `BitLimit::SIGNED`, `bss_util.h:75-83`, without 128-bit integers; `none` is `void`, with which the template does not compile. -/
def limitWidth (bits : Nat) : Option Nat :=
  let b := limitBytes bits
  if b = 1 then some 8 else if b = 2 then some 16 else if b = 4 then some 32 else if b = 8 then some 64 else none

/-- The number that the lowest `w` bits of `n` stand for in two's complement. -/
def asSigned (w n : Nat) : Int := if n % 2 ^ w < 2 ^ (w - 1) then (n % 2 ^ w : Nat) else (n % 2 ^ w : Nat) - 2 ^ w

/-- `UNSIGNED_MAX`, `bss_util.h:87`; calculated in a type of at least `w` bits and converted. -/
def unsignedMax (w bits : Nat) : Nat := ((2 <<< (bits - 1)) % 2 ^ (max w 32) + 2 ^ (max w 32) - 1) % 2 ^ w

/-- `SIGNED_MIN`, `bss_util.h:89-90`. -/
def signedMin (w bits : Nat) : Int := asSigned w (((2 ^ w - 1) <<< (bits - 1)) % 2 ^ w)

/-- `SIGNED_MAX`, `bss_util.h:88` and `bss_util.h:91`: all bits of the raw minimum inverted, within those of the unsigned maximum. -/
def signedMax (w bits : Nat) : Int := asSigned w ((2 ^ w - 1 - (1 <<< (bits - 1)) % 2 ^ w) &&& unsignedMax w bits)

/-- `T_GETBIT`, `defines.h:46`, by `GetBitMask`, `bss_util.h:104`; the conversion of the index to the type is left out. -/
def bitMask (w : Nat) (bit : Nat) : BitVec w := 1#w <<< (bit % w)

/-- A left shift of an `int`. -/
def shlInt (v : BitVec 32) (s : Nat) : Option (BitVec 32) := if s < 32 then some (v <<< s) else none

/-- A right shift of an `int`. -/
def shrInt (v : BitVec 32) (s : Nat) : Option (BitVec 32) := if s < 32 then some (v.sshiftRight s) else none

/-- `T_GETBITRANGE`, `defines.h:49`, by `GetBitMask`, `bss_util.h:106`, with `SAFESHIFT`, `defines.h:45`. The remainder is that of an unsigned number because of `sizeof`. -/
def rangeMask (w : Nat) (low high : Int) : Option (BitVec w) := do
  if high < low then none
  let t ← shlInt 2#32 (high - low).toNat
  let m := t - 1#32
  let a ← if low > 0 then shlInt m low.toNat else shrInt m (-low).toNat
  let b ← shlInt m (low % w).toNat
  return (a ||| b).signExtend w

/-- `bssSetBit`, `bss_util.h:108`. -/
def setBit {w : Nat} (word bit : BitVec w) (v : Bool) : BitVec w := (word &&& ~~~bit) ||| (-(if v then 1#w else 0#w) &&& bit)

/-- `bssGetBit`, `bss_util.h:111`, for a type of at most 64 bits. A type shorter than `int` is converted to it, a longer one is not. -/
def getBit {w : Nat} (p : List (BitVec w)) (index : Nat) : Option Bool := do
  let x ← p[index / w]?
  let m ← shlInt 1#32 (index % w)
  return (x.signExtend (max w 32) &&& m.signExtend (max w 32)) != 0#(max w 32)

/-! ## C148: limits -/

/-- The number of bits of the smallest integer type with that many bits. -/
def leastWidth (bits : Nat) : Nat := if bits ≤ 8 then 8 else if bits ≤ 16 then 16 else if bits ≤ 32 then 32 else 64

/-- **C148**: the highest bit of a number of eight bits. -/
theorem C148_msb (i : Nat) (h0 : 0 < i) (h : i < 256) : charGetMsb i = 2 ^ Nat.log2 i := by
  have : ∀ i : Fin 256, 0 < i.val → charGetMsb i.val = 2 ^ Nat.log2 i.val := by decide +kernel
  exact this ⟨i, h⟩ h0

/-- **C148** (partial: not for 24, 40, 48 and 56 bits). The type is the smallest with enough bits, and the limits are those of integers with exactly as many bits as requested. -/
theorem C148_limits_partial (bits : Nat) (h0 : 0 < bits) (h : bits ≤ 64) (hb : bits ≠ 24 ∧ bits ≠ 40 ∧ bits ≠ 48 ∧ bits ≠ 56) :
    ∃ w, limitWidth bits = some w ∧ w = leastWidth bits ∧ unsignedMax w bits = 2 ^ bits - 1 ∧ signedMin w bits = -2 ^ (bits - 1) ∧ signedMax w bits = 2 ^ (bits - 1) - 1 := by
  refine ⟨leastWidth bits, ?_, rfl, ?_⟩
  · interval_cases bits <;> first | rfl | omega
  · interval_cases bits <;> first | decide +kernel | omega

/-- **C148** counterexample: for 24, 40, 48 and 56 bits the type is too short. -/
theorem C148_bytes_counterexample : limitWidth 24 = some 16 ∧ limitWidth 40 = some 32 ∧ limitWidth 48 = some 32 ∧ limitWidth 56 = some 32 := by decide

/-- **C148** counterexample: so the limits for 24 bits are wrong. -/
theorem C148_limits_counterexample : unsignedMax 16 24 ≠ 2 ^ 24 - 1 := by decide

/-- The limits of 19 bits. -/
example : limitWidth 19 = some 32 ∧ signedMin 32 19 = -262144 ∧ signedMax 32 19 = 262143 := by decide +kernel

/-! ## C149: masks -/

/-- **C149**: a mask of one bit has exactly this bit, counted from the lowest and around. -/
theorem C149_bit (w bit i : Nat) (hi : i < w) : (bitMask w bit).getLsbD i = decide (i = bit % w) := by
  unfold bitMask
  rw [BitVec.getLsbD_shiftLeft]
  have hlt : bit % w < w := Nat.mod_lt _ (by omega)
  by_cases h : i = bit % w
  · subst h; simp [BitVec.getLsbD_one]; omega
  · by_cases h2 : i < bit % w
    · simp [h2, h]
    · have : i - bit % w ≠ 0 := by omega
      simp [h, h2, BitVec.getLsbD_one]; omega

theorem ones (k i : Nat) (hk : k < 32) (hi : i < 32) : ((2#32 <<< k) - 1#32).getLsbD i = decide (i ≤ k) := by
  have : ∀ k i : Fin 32, ((2#32 <<< k.val) - 1#32).getLsbD i.val = decide (i.val ≤ k.val) := by decide +kernel
  exact this ⟨k, hk⟩ ⟨i, hi⟩

theorem ones_msb (k : Nat) (hk : k < 32) : ((2#32 <<< k) - 1#32).msb = decide (k = 31) := by
  rw [BitVec.msb_eq_getLsbD_last, ones k _ hk (by omega)]
  by_cases h : k = 31
  · simp [h]
  · have : ¬ (32 - 1 ≤ k) := by omega
    simp [h]; omega

/-- **C149** (partial: types of at most 32 bits). The mask of a range has exactly the bits of the range; bits below 0 are counted from the highest. -/
theorem C149_range_partial (w : Nat) (hw : w = 8 ∨ w = 16 ∨ w = 32) (low high : Int) (hl : -w < low) (hlh : low ≤ high) (hh : high < w) (hn : high - low < w) :
    ∃ m, rangeMask w low high = some m ∧ ∀ i : Nat, i < w → (m.getLsbD i = true ↔ ∃ j : Int, low ≤ j ∧ j ≤ high ∧ j % w = i) := by
  have hw32 : w ≤ 32 := by omega
  have hw0 : 0 < w := by omega
  obtain ⟨k, hk⟩ : ∃ k : Nat, (k : Int) = high - low := ⟨(high - low).toNat, by omega⟩
  have ek : (high - low).toNat = k := by omega
  have hk32 : k < 32 := by omega
  obtain ⟨s, hs⟩ : ∃ s : Nat, (s : Int) = low % w := ⟨(low % w).toNat, by have := Int.emod_nonneg low (b := (w : Int)) (by omega); omega⟩
  have es : (low % (w : Int)).toNat = s := by omega
  have hsv : (0 ≤ low ∧ (s : Int) = low) ∨ (low < 0 ∧ (s : Int) = w + low) := by
    rcases Int.lt_or_le low 0 with h | h
    · right; refine ⟨h, ?_⟩
      rw [hs, ← Int.add_emod_left]; exact Int.emod_eq_of_lt (by omega) (by omega)
    · left; exact ⟨h, by rw [hs]; exact Int.emod_eq_of_lt h (by omega)⟩
  have hs32 : s < 32 := by omega
  have spec : ∀ i : Nat, i < w → ((∃ j : Int, low ≤ j ∧ j ≤ high ∧ j % w = i) ↔ (low ≤ i ∧ (i : Int) ≤ high) ∨ (low ≤ (i : Int) - w ∧ (i : Int) - w ≤ high)) := by
    intro i hi
    constructor
    · rintro ⟨j, h1, h2, h3⟩
      rcases Int.lt_or_le j 0 with h | h
      · right
        have : (j + w) % (w : Int) = j + w := Int.emod_eq_of_lt (by omega) (by omega)
        rw [Int.add_emod_right] at this
        omega
      · left
        have : j % (w : Int) = j := Int.emod_eq_of_lt h (by omega)
        omega
    · rintro (⟨h1, h2⟩ | ⟨h1, h2⟩)
      · exact ⟨i, h1, h2, Int.emod_eq_of_lt (by omega) (by omega)⟩
      · refine ⟨(i : Int) - w, h1, h2, ?_⟩
        rw [Int.sub_emod_right]; exact Int.emod_eq_of_lt (by omega) (by omega)
  have hb : ∀ i : Nat, i < w → ((((2#32 <<< k) - 1#32) <<< s).getLsbD i = true ↔ s ≤ i ∧ i - s ≤ k) := by
    intro i hi
    rw [BitVec.getLsbD_shiftLeft]
    by_cases h : i < s
    · simp [h]
      try omega
    · rw [ones k _ hk32 (by omega)]; simp [h]
      try omega
  unfold rangeMask
  rw [if_neg (by omega), ek, es]
  by_cases hpos : low > 0
  · obtain ⟨l, hl'⟩ : ∃ l : Nat, (l : Int) = low := ⟨low.toNat, by omega⟩
    have el : low.toNat = s := by omega
    simp only [shlInt, if_pos hk32, if_pos hs32, if_pos hpos, el, Option.bind_eq_bind, Option.bind_some, pure]
    refine ⟨_, rfl, fun i hi => ?_⟩
    rw [spec i hi, BitVec.getLsbD_signExtend, if_pos (by omega), BitVec.or_self]
    have := hb i hi
    simp only [hi, decide_true, Bool.true_and]
    rw [this]
    omega
  · obtain ⟨l, hl'⟩ : ∃ l : Nat, (l : Int) = -low := ⟨(-low).toNat, by omega⟩
    have el : (-low).toNat = l := by omega
    simp only [shlInt, shrInt, if_pos hk32, if_pos hs32, if_neg hpos, el, if_pos (show l < 32 by omega), Option.bind_eq_bind, Option.bind_some, pure]
    refine ⟨_, rfl, fun i hi => ?_⟩
    rw [spec i hi, BitVec.getLsbD_signExtend, if_pos (by omega), BitVec.getLsbD_or]
    simp only [hi, decide_true, Bool.true_and, Bool.or_eq_true]
    rw [hb i hi, BitVec.getLsbD_sshiftRight]
    by_cases h : l + i < 32
    · rw [if_pos h, ones k _ hk32 h]
      simp; omega
    · rw [if_neg h, ones_msb k hk32]
      simp; omega

/-- **C149** counterexample: for 64 bits, a range from bit 40 on shifts an `int` by 40. -/
theorem C149_range_shift_counterexample : rangeMask 64 40 45 = none := by decide

/-- **C149** counterexample: for 64 bits, the range from 0 to 31 gives all bits. -/
theorem C149_range_extend_counterexample : rangeMask 64 0 31 = some (BitVec.allOnes 64) := by decide

/-- **C149**: setting bits gives the mask's bits the value and leaves the others. -/
theorem C149_set {w : Nat} (word bit : BitVec w) (v : Bool) (i : Nat) (hi : i < w) : (setBit word bit v).getLsbD i = if bit.getLsbD i then v else word.getLsbD i := by
  unfold setBit
  cases v
  · simp [hi]
    cases bit[i] <;> cases word[i] <;> rfl
  · have e : (-1#w : BitVec w) = BitVec.allOnes w := by
      rw [BitVec.neg_one_eq_allOnes]
    simp only [if_true, e]
    simp [hi]
    cases bit[i] <;> cases word[i] <;> rfl

/-- **C149** (partial: elements of at most 32 bits). Bit `index` of an array is bit `index % w` of element `index / w`. -/
theorem C149_get_partial {w : Nat} (hw : 0 < w) (hw32 : w ≤ 32) (p : List (BitVec w)) (index : Nat) (h : index / w < p.length) : getBit p index = some ((p[index / w]).getLsbD (index % w)) := by
  have hlt : index % w < w := Nat.mod_lt _ hw
  unfold getBit
  rw [List.getElem?_eq_getElem h]
  simp only [shlInt, if_pos (show index % w < 32 by omega), Option.bind_eq_bind, Option.bind_some, pure]
  generalize p[index / w] = x
  generalize index % w = k at *
  congr 1
  rw [Bool.eq_iff_iff, bne_iff_ne, ne_eq]
  constructor
  · intro hne
    by_contra hc
    apply hne
    apply BitVec.eq_of_getLsbD_eq
    intro i hi
    rw [BitVec.getLsbD_and, BitVec.getLsbD_zero]
    by_cases hik : i = k
    · subst hik
      rw [BitVec.getLsbD_signExtend, if_pos hlt]
      simp only [Bool.not_eq_true] at hc
      simp [hc]
    · rw [BitVec.getLsbD_signExtend (x := 1#32 <<< k), if_pos (by omega), BitVec.getLsbD_shiftLeft, BitVec.getLsbD_one]
      by_cases h2 : i < k
      · simp [h2]
      · have : i - k ≠ 0 := by omega
        simp [this]
  · intro hx he
    have := congrArg (fun v : BitVec (max w 32) => v.getLsbD k) he
    simp only [BitVec.getLsbD_and, BitVec.getLsbD_zero] at this
    rw [BitVec.getLsbD_signExtend, if_pos hlt, BitVec.getLsbD_signExtend (x := 1#32 <<< k), if_pos (by omega), BitVec.getLsbD_shiftLeft, BitVec.getLsbD_one, hx] at this
    have h1 : k < max w 32 := by omega
    have h2 : k < 32 := by omega
    simp [h1, h2] at this

/-- **C149** counterexample: bit 40 of elements of 64 bits shifts an `int` by 40. -/
theorem C149_get_counterexample : getBit [0#64] 40 = none := by decide

/-- **C149** counterexample: bit 31 of an element of 64 bits is read as any of the bits from 31 on. -/
theorem C149_get_extend_counterexample : getBit [(1#64 <<< 50)] 31 = some true := by decide

/-- A range of 16 bits that goes around. -/
example : rangeMask 16 (-3) 2 = some 0xe007#16 := by decide

/-- Bit 19 of an array of bytes. -/
example : getBit [0#8, 0#8, 8#8] 19 = some true := by decide

end Verif.Sys
