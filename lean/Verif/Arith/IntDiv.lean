/-!
# Floor division, modulus, safe shift, growth and alignment functions (C52, C56)

Models of `bss_util.h:155-185`, `bss_util.h:369-375`, `defines.h:55,57`, `Alloc.h:31`.
Machine integers are `BitVec w`.
-/

namespace Verif.Arith

/-- `IntDiv<T,T>`, `bss_util.h:156-163`, for a signed `w`-bit `T` (C++ `/` and `%` truncate).  The
`assert(div > 0)` is compiled out in release builds and is not modelled. -/
def intDiv {w : Nat} (i div : BitVec w) : BitVec w :=
  i.sdiv div - (if i.slt 0 && (i.srem div != 0) then 1 else 0)

/-- `bssMod<T>`, `bss_util.h:178-185`, for a signed `w`-bit `T`: `x %= m; x + ((-(T)(x < 0)) & m)`. -/
def bssMod {w : Nat} (x m : BitVec w) : BitVec w :=
  let x := x.srem m
  x + ((-(if x.slt 0 then 1 else 0)) &&& m)

/-- `T_FBNEXT(x)`, `defines.h:57`, on mathematical integers. -/
def fbnextN (x : Nat) : Nat := x + 1 + x / 2 + x / 8 - x / 128

/-- `fbnext<T>`, `bss_util.h:370-375`, for an unsigned `w`-bit `T`. -/
def fbnext {w : Nat} (x : BitVec w) : BitVec w := x + 1#w + (x >>> 1) + (x >>> 3) - (x >>> 7)

/-- `AlignSize`, `Alloc.h:31`. -/
def alignSize (sz align : Nat) : Nat := (sz / align + (if sz % align ≠ 0 then 1 else 0)) * align

/-- `T_NEXTMULTIPLE(x,t)`, `defines.h:55`. -/
def nextMultiple {w : Nat} (x t : BitVec w) : BitVec w := (x + t) &&& ~~~t

/-! ## C52 -/

theorem width_of_toInt_pos {w : Nat} {x : BitVec w} (h : 0 < x.toInt) : 1 < w := by
  have := @BitVec.toInt_lt w x
  rcases w with _ | _ | w
  · simp at this; omega
  · simp at this; omega
  · omega

theorem bmod_in_range {w : Nat} {n : Int} (hw : 0 < w) (h1 : -2 ^ (w - 1) ≤ n) (h2 : n < 2 ^ (w - 1)) :
    n.bmod (2 ^ w) = n := by
  obtain ⟨v, rfl⟩ : ∃ v, w = v + 1 := ⟨w - 1, by omega⟩
  simp only [Nat.add_sub_cancel] at h1 h2
  apply Int.bmod_eq_of_le_mul_two <;> (simp only [Nat.pow_succ]; push_cast; omega)

/-- C52: for every dividend and every positive divisor of the type, `IntDiv` is the floor of the quotient
(`/` on `Int` is floor division for a positive divisor). -/
theorem C52_intDiv_floor {w : Nat} (i div : BitVec w) (hd : 0 < div.toInt) :
    (intDiv i div).toInt = i.toInt / div.toInt ∧
    (intDiv i div).toInt * div.toInt ≤ i.toInt ∧ i.toInt < ((intDiv i div).toInt + 1) * div.toInt := by
  have hw := width_of_toInt_pos hd
  have key : (intDiv i div).toInt = i.toInt / div.toInt := by
    have hne : i ≠ BitVec.intMin w ∨ div ≠ -1#w := by
      right; rintro rfl
      rw [BitVec.neg_one_eq_allOnes] at hd
      simp at hd; omega
    have hq := BitVec.toInt_sdiv_of_ne_or_ne i div hne
    have hb1 := @BitVec.neg_two_pow_le_toInt_ediv w i div
    have hb2 : i.toInt / div.toInt < 2 ^ (w - 1) := by
      have h1 := @BitVec.toInt_lt w i
      have h2 : i.toInt / div.toInt ≤ max i.toInt 0 := by
        apply Int.le_of_lt_add_one
        apply Int.ediv_lt_of_lt_mul hd
        by_cases h0 : 0 ≤ i.toInt
        · rw [Int.max_eq_left h0]
          calc i.toInt < (i.toInt + 1) * 1 := by omega
            _ ≤ (i.toInt + 1) * div.toInt := Int.mul_le_mul_of_nonneg_left (by omega) (by omega)
        · rw [Int.max_eq_right (by omega)]; omega
      have h3 : (0 : Int) < 2 ^ (w - 1) := Int.pow_pos (by omega)
      omega
    have hc : (i.slt 0 && (i.srem div != 0)) = true ↔ ¬ (0 ≤ i.toInt ∨ div.toInt ∣ i.toInt) := by
      rw [Bool.and_eq_true, BitVec.slt_iff_toInt_lt, bne_iff_ne, Ne, ← BitVec.toInt_inj, BitVec.toInt_srem,
        Int.dvd_iff_tmod_eq_zero]
      have h0 : (0 : BitVec w).toInt = 0 := BitVec.toInt_zero
      rw [h0]; omega
    unfold intDiv
    rw [BitVec.toInt_sub, hq, Int.tdiv_eq_ediv, Int.sign_eq_one_of_pos hd]
    by_cases h : 0 ≤ i.toInt ∨ div.toInt ∣ i.toInt
    · rw [if_pos h, if_neg (fun e => hc.1 e h)]
      have h0 : (0 : BitVec w).toInt = 0 := BitVec.toInt_zero
      rw [h0, Int.add_zero, Int.sub_zero]
      exact bmod_in_range (by omega) hb1 hb2
    · rw [if_neg h, if_pos (hc.2 h)]
      have h1 : (1 : BitVec w).toInt = 1 := BitVec.toInt_one hw
      rw [h1, Int.add_sub_cancel]
      exact bmod_in_range (by omega) hb1 hb2
  refine ⟨key, ?_, ?_⟩
  · rw [key]; exact Int.ediv_mul_le _ (by omega)
  · rw [key]; exact Int.lt_ediv_add_one_mul_self _ hd

/-- C52: the divisor must be positive, as the comment above `IntDiv` says: `IntDiv(-7,-2)` is 2, not 3. -/
theorem C52_negative_divisor_counterexample :
    (intDiv (-7 : BitVec 32) (-2)).toInt = 2 ∧ Int.fdiv (-7) (-2) = 3 := by decide +kernel

/-- C52: for every `x` and every positive modulus, `bssMod` is the representative of `x` in `[0, m)`. -/
theorem C52_mod {w : Nat} (x m : BitVec w) (hm : 0 < m.toInt) :
    (bssMod x m).toInt = x.toInt % m.toInt ∧ 0 ≤ (bssMod x m).toInt ∧ (bssMod x m).toInt < m.toInt := by
  have hw := width_of_toInt_pos hm
  have key : (bssMod x m).toInt = x.toInt % m.toInt := by
    have h0 : (0 : BitVec w).toInt = 0 := BitVec.toInt_zero
    have hlt := @BitVec.toInt_lt w m
    have hr1 := Int.emod_nonneg x.toInt (show m.toInt ≠ 0 by omega)
    have hr2 := Int.emod_lt_of_pos x.toInt hm
    have hb : (x.toInt % m.toInt).bmod (2 ^ w) = x.toInt % m.toInt := by
      apply bmod_in_range (by omega) _ (by omega)
      have h3 : (0 : Int) < 2 ^ (w - 1) := Int.pow_pos (by omega)
      omega
    unfold bssMod
    simp only
    have hs : (x.srem m).toInt = x.toInt % m.toInt - (if 0 ≤ x.toInt ∨ m.toInt ∣ x.toInt then 0 else m.toInt) := by
      rw [BitVec.toInt_srem, Int.tmod_eq_emod]
      split <;> (push_cast; omega)
    have hd : m.toInt ∣ x.toInt → x.toInt % m.toInt = 0 := fun h => Int.emod_eq_zero_of_dvd h
    by_cases hc : (x.srem m).slt 0 = true
    · rw [if_pos hc]
      have e : (-(1 : BitVec w)) &&& m = m := by
        show (-1#w) &&& m = m
        rw [BitVec.neg_one_eq_allOnes, BitVec.allOnes_and]
      rw [e, BitVec.toInt_add]
      rw [BitVec.slt_iff_toInt_lt, h0] at hc
      rw [hs] at hc ⊢
      split at hc
      · omega
      · next h => rw [if_neg h, Int.sub_add_cancel]; exact hb
    · rw [if_neg hc]
      have e : (-(0 : BitVec w)) &&& m = 0#w := by
        show (-0#w) &&& m = 0#w
        simp
      rw [e, BitVec.add_zero]
      rw [BitVec.slt_iff_toInt_lt, h0] at hc
      rw [hs] at hc ⊢
      split at hc
      · next h => rw [if_pos h]; omega
      · omega
  rw [key]
  exact ⟨rfl, Int.emod_nonneg _ (by omega), Int.emod_lt_of_pos _ hm⟩

example : (0 : Int) < (7 : BitVec 32).toInt ∧ (intDiv (-15 : BitVec 32) 7).toInt = -3 ∧
    (bssMod (-15 : BitVec 32) 7).toInt = 6 := by decide +kernel

/-! ## C56 -/

/-- C56: the growth function is strictly increasing in the sense that the next capacity exceeds the current,
is monotone, and grows by a factor of at most 1.625 plus one. -/
theorem C56_fbnext {x y : Nat} : x < fbnextN x ∧ 8 * fbnextN x ≤ 13 * x + 8 ∧ (x ≤ y → fbnextN x ≤ fbnextN y) := by
  unfold fbnextN
  refine ⟨by omega, by omega, fun h => by omega⟩

/-- C56: on an unsigned machine type the result is that integer as long as it is representable, so in
particular it exceeds the argument; `13x + 8 < 8·2^w` is enough. -/
theorem C56_fbnext_machine {w : Nat} (x : BitVec w) (h : fbnextN x.toNat < 2 ^ w) :
    (fbnext x).toNat = fbnextN x.toNat ∧ x.toNat < (fbnext x).toNat := by
  have key : (fbnext x).toNat = fbnextN x.toNat := by
    unfold fbnext
    have hx := x.isLt
    simp only [BitVec.toNat_sub, BitVec.toNat_add, BitVec.toNat_ushiftRight, Nat.shiftRight_eq_div_pow]
    rw [BitVec.toNat_ofNat]
    have e : fbnextN x.toNat + x.toNat / 128 = x.toNat + 1 + x.toNat / 2 + x.toNat / 8 := by
      unfold fbnextN; omega
    simp only [Nat.pow_one, show 2 ^ 3 = 8 from rfl, show 2 ^ 7 = 128 from rfl, Nat.add_mod_mod, Nat.mod_add_mod]
    rw [← e]
    have h2 : x.toNat / 128 < 2 ^ w := by omega
    generalize 2 ^ w = N at *
    have h3 : (N - x.toNat / 128 + (fbnextN x.toNat + x.toNat / 128)) = fbnextN x.toNat + N := by omega
    rw [h3, Nat.add_mod_right, Nat.mod_eq_of_lt h]
  rw [key]
  exact ⟨rfl, C56_fbnext (y := 0).1⟩

/-- C56: `AlignSize(sz, a)` is the least multiple of `a` that is at least `sz`, for every `a > 0`. -/
theorem C56_alignSize {sz a : Nat} (ha : 0 < a) : a ∣ alignSize sz a ∧ sz ≤ alignSize sz a ∧
    ∀ m, a ∣ m → sz ≤ m → alignSize sz a ≤ m := by
  unfold alignSize
  have hdm := Nat.div_add_mod sz a
  have hml := Nat.mod_lt sz ha
  refine ⟨Nat.dvd_mul_left .., ?_, ?_⟩
  · rw [Nat.add_mul, Nat.mul_comm]
    split
    · omega
    · omega
  · rintro m ⟨k, rfl⟩ hle
    rw [Nat.mul_comm]
    apply Nat.mul_le_mul_left
    by_cases h0 : sz % a = 0
    · rw [if_neg (by omega), Nat.add_zero]
      exact Nat.le_of_mul_le_mul_left (c := a) (by omega) ha
    · rw [if_pos h0]
      apply Nat.lt_of_mul_lt_mul_left (a := a)
      omega

/-- C56: `T_NEXTMULTIPLE(x, 2^k - 1)` is the least multiple of `2^k` that is at least `x`, when it is
representable. -/
theorem C56_nextMultiple {w k : Nat} (x : BitVec w) (h : x.toNat + (2 ^ k - 1) < 2 ^ w) :
    (nextMultiple x (BitVec.ofNat w (2 ^ k - 1))).toNat = alignSize x.toNat (2 ^ k) := by
  have hk : 2 ^ k - 1 < 2 ^ w := by omega
  have hp : 0 < 2 ^ k := Nat.two_pow_pos k
  have e : (x + BitVec.ofNat w (2 ^ k - 1)).toNat = x.toNat + (2 ^ k - 1) := by
    rw [BitVec.toNat_add, BitVec.toNat_ofNat, Nat.mod_eq_of_lt hk, Nat.mod_eq_of_lt h]
  have e2 : (nextMultiple x (BitVec.ofNat w (2 ^ k - 1))).toNat = (x.toNat + (2 ^ k - 1)) / 2 ^ k * 2 ^ k := by
    rw [← e]
    generalize hv : x + BitVec.ofNat w (2 ^ k - 1) = v
    unfold nextMultiple
    rw [hv]
    apply Nat.eq_of_testBit_eq
    intro i
    have hvi : w ≤ i → v.toNat.testBit i = false := fun hi => by
      rw [← BitVec.getLsbD]; exact BitVec.getLsbD_of_ge _ _ hi
    rw [BitVec.toNat_and, Nat.testBit_and, ← Nat.shiftLeft_eq, Nat.testBit_shiftLeft, ← Nat.shiftRight_eq_div_pow,
      Nat.testBit_shiftRight]
    by_cases hi : w ≤ i
    · rw [hvi hi]
      by_cases hki : k ≤ i
      · rw [show k + (i - k) = i by omega, hvi hi]; simp
      · simp [hki]
    · have : (~~~(BitVec.ofNat w (2 ^ k - 1))).toNat.testBit i = !(decide (i < k)) := by
        rw [← BitVec.getLsbD, BitVec.getLsbD_not]
        rw [BitVec.getLsbD, BitVec.toNat_ofNat, Nat.mod_eq_of_lt hk, Nat.testBit_two_pow_sub_one]
        simp; omega
      rw [this]
      by_cases hki : k ≤ i
      · simp [hki, show k + (i - k) = i by omega]
      · simp [hki]; omega
  rw [e2]
  unfold alignSize
  congr 1
  have hdm := Nat.div_add_mod x.toNat (2 ^ k)
  have hml := Nat.mod_lt x.toNat hp
  split
  · rw [Nat.div_eq_iff hp]
    rw [Nat.add_mul, Nat.mul_comm]; omega
  · rw [Nat.div_eq_iff hp]
    rw [Nat.add_mul, Nat.mul_comm]; omega

example : fbnextN (200 : BitVec 16).toNat < 2 ^ 16 ∧ (fbnext (200 : BitVec 16)).toNat = 325 := by decide +kernel
example : (13 : BitVec 32).toNat + (2 ^ 3 - 1) < 2 ^ 32 ∧ (nextMultiple (13 : BitVec 32) 7).toNat = 16 := by
  decide +kernel

end Verif.Arith
