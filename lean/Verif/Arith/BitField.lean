/-!
# `BitField` (C58), `BitField.h:14-60, 107-138` and `T_SETBIT`, `defines.h:56`

The word is a `BitVec w`; a `bit` or `mask` argument is any word (usually a single bit).
-/

namespace Verif.Arith

variable {w : Nat}

/-- `T_SETBIT(w,b,f,T)`, `defines.h:56`: `(w & ~b) | ((-(T)f) & b)`. -/
def setBit (x b : BitVec w) (f : Bool) : BitVec w :=
  (x &&& ~~~b) ||| ((-(if f then 1#w else 0#w)) &&& b)

/-- `_BIT_REF::operator=(bool)`, `BitField.h:19-23`; `field[bit] = value`. -/
def bfAssign (x b : BitVec w) (f : Bool) : BitVec w := setBit x b f

/-- `_BIT_REF::operator bool` / `Get(bit)`, `BitField.h:25, 122`. -/
def bfGet (x b : BitVec w) : Bool := (x &&& b) != 0#w

/-- `flip`, `BitField.h:26`. -/
def bfFlip (x b : BitVec w) : BitVec w := x ^^^ b

/-- `_BIT_GROUP::operator=`, `BitField.h:48-52`; `field(group) = value`. -/
def bfGroup (x g r : BitVec w) : BitVec w := (x &&& ~~~g) ||| (r &&& g)

/-- `GetGroup(group)` const, `BitField.h:123`. -/
def bfGetGroup (x g : BitVec w) : BitVec w := x &&& g

/-- `Set(bits, mask)`, `BitField.h:119`. -/
def bfSet (x bits mask : BitVec w) : BitVec w := x ^^^ (bits ^^^ (x &&& mask))

/-- `operator+=`, `BitField.h:133`. -/
def bfAdd (x b : BitVec w) : BitVec w := x ||| b

/-- `operator-=`, `BitField.h:134`. -/
def bfSub (x b : BitVec w) : BitVec w := x &&& ~~~b

theorem getLsbD_neg_b2i (f : Bool) (i : Nat) : (-(if f then 1#w else 0#w) : BitVec w).getLsbD i = (decide (i < w) && f) := by
  cases f
  · simp
  · simp only [if_true, Bool.and_true]
    rw [BitVec.neg_one_eq_allOnes, BitVec.getLsbD_allOnes]

/-- C58: assigning through `field[bit]` gives every addressed bit the value and leaves all others alone. -/
theorem C58_assign (x b : BitVec w) (f : Bool) (i : Nat) (hi : i < w) :
    (bfAssign x b f).getLsbD i = if b.getLsbD i then f else x.getLsbD i := by
  unfold bfAssign setBit
  rw [BitVec.getLsbD_or, BitVec.getLsbD_and, BitVec.getLsbD_and, BitVec.getLsbD_not, getLsbD_neg_b2i]
  simp only [hi, decide_true, Bool.true_and]
  cases b.getLsbD i <;> simp

/-- C58: reading says whether an addressed bit is set. -/
theorem C58_get (x b : BitVec w) : bfGet x b = true ↔ ∃ i, i < w ∧ b.getLsbD i = true ∧ x.getLsbD i = true := by
  unfold bfGet
  rw [bne_iff_ne, Ne, BitVec.eq_of_getLsbD_eq_iff]
  constructor
  · intro h
    apply Classical.byContradiction
    intro hn
    apply h
    intro i hi
    rw [BitVec.getLsbD_and, BitVec.getLsbD_zero]
    cases hx : x.getLsbD i <;> cases hb : b.getLsbD i <;> simp
    exact hn ⟨i, hi, hb, hx⟩
  · rintro ⟨i, hi, hb, hx⟩ h
    have := h i hi
    rw [BitVec.getLsbD_and, hb, hx] at this
    simp at this

/-- C58: reading back a single bit just assigned. -/
theorem C58_get_assign (x b : BitVec w) (f : Bool) (hb : ∃ i, i < w ∧ b.getLsbD i = true) :
    bfGet (bfAssign x b f) b = f := by
  rw [Bool.eq_iff_iff, C58_get]
  constructor
  · rintro ⟨i, hi, h1, h2⟩
    rw [C58_assign x b f i hi, h1] at h2
    simpa using h2
  · rintro rfl
    obtain ⟨i, hi, h⟩ := hb
    exact ⟨i, hi, h, by rw [C58_assign _ _ _ i hi, h]; simp⟩

/-- C58: flipping inverts exactly the addressed bits. -/
theorem C58_flip (x b : BitVec w) (i : Nat) :
    (bfFlip x b).getLsbD i = if b.getLsbD i then !x.getLsbD i else x.getLsbD i := by
  unfold bfFlip
  rw [BitVec.getLsbD_xor]
  cases b.getLsbD i <;> simp

/-- C58: assigning to a group writes the value's bits inside the group and nothing outside. -/
theorem C58_group (x g r : BitVec w) (i : Nat) (hi : i < w) :
    (bfGroup x g r).getLsbD i = if g.getLsbD i then r.getLsbD i else x.getLsbD i := by
  unfold bfGroup
  rw [BitVec.getLsbD_or, BitVec.getLsbD_and, BitVec.getLsbD_and, BitVec.getLsbD_not]
  simp only [hi, decide_true, Bool.true_and]
  cases g.getLsbD i <;> simp

/-- C58: adding sets exactly the addressed bits, subtracting clears exactly them. -/
theorem C58_add_sub (x b : BitVec w) (i : Nat) (hi : i < w) :
    (bfAdd x b).getLsbD i = (if b.getLsbD i then true else x.getLsbD i) ∧
    (bfSub x b).getLsbD i = (if b.getLsbD i then false else x.getLsbD i) := by
  unfold bfAdd bfSub
  rw [BitVec.getLsbD_or, BitVec.getLsbD_and, BitVec.getLsbD_not]
  simp only [hi, decide_true, Bool.true_and]
  cases b.getLsbD i <;> simp

/-- C58, masked `Set(bits, mask)`: the addressed bits get the requested values; outside the mask nothing
changes provided `bits` has no bit outside `mask`. -/
theorem C58_set_partial (x bits mask : BitVec w) (h : ∀ i, bits.getLsbD i = true → mask.getLsbD i = true) (i : Nat) :
    (bfSet x bits mask).getLsbD i = if mask.getLsbD i then bits.getLsbD i else x.getLsbD i := by
  unfold bfSet
  rw [BitVec.getLsbD_xor, BitVec.getLsbD_xor, BitVec.getLsbD_and]
  have := h i
  cases hm : mask.getLsbD i <;> cases hb : bits.getLsbD i <;> cases x.getLsbD i <;> simp_all

/-- C58, masked `Set`, without that condition: inside the mask the value is still right. -/
theorem C58_set_inside (x bits mask : BitVec w) (i : Nat) (h : mask.getLsbD i = true) :
    (bfSet x bits mask).getLsbD i = bits.getLsbD i := by
  unfold bfSet
  rw [BitVec.getLsbD_xor, BitVec.getLsbD_xor, BitVec.getLsbD_and, h]
  cases bits.getLsbD i <;> cases x.getLsbD i <;> simp

/-- C58 fails for `Set(bits, mask)` when `bits` reaches outside `mask`: those bits of the field are toggled. -/
theorem C58_set_counterexample :
    ∃ (x bits mask : BitVec 8) (i : Nat), mask.getLsbD i = false ∧ (bfSet x bits mask).getLsbD i ≠ x.getLsbD i :=
  ⟨0b0000_0000#8, 0b0001_0001#8, 0b0000_0001#8, 4, by decide⟩

/-- `_BIT_ITER::_incthis`, `BitField.h:87-95`: position = (word index, mask). -/
def bitIterInc (p : Nat × BitVec w) : Nat × BitVec w :=
  let b := p.2 <<< 1
  if b = 0#w then (p.1 + 1, 1#w) else (p.1, b)

/-- `_BIT_ITER::_decthis`, `BitField.h:96-104`, for words of at most 32 bits (`1 << 31` is an `int`). -/
def bitIterDec (p : Nat × BitVec w) : Nat × BitVec w :=
  let b := p.2 >>> 1
  if b = 0#w then (p.1 - 1, BitVec.twoPow w (w - 1)) else (p.1, b)

/-- The mask of bit `k` of an array of words: word `k / w`, bit `k % w`. -/
def bitPos (w k : Nat) : Nat × BitVec w := (k / w, BitVec.twoPow w (k % w))

theorem twoPow_ne_zero (i : Nat) (h : i < w) : BitVec.twoPow w i ≠ 0#w := by
  intro e
  have := congrArg (fun b => b.getLsbD i) e
  simp [BitVec.getLsbD_twoPow, h] at this

/-- C58: incrementing the bit iterator goes to the next bit, across word boundaries. -/
theorem C58_iter_inc (k : Nat) (hw : 0 < w) : bitIterInc (bitPos w k) = bitPos w (k + 1) := by
  unfold bitIterInc bitPos
  simp only
  have hk : k % w < w := Nat.mod_lt _ hw
  have hdm := Nat.div_add_mod k w
  have hsh : BitVec.twoPow w (k % w) <<< 1 = BitVec.twoPow w (k % w + 1) := by
    rw [BitVec.eq_of_getLsbD_eq_iff]
    intro i hi
    rw [BitVec.getLsbD_shiftLeft, BitVec.getLsbD_twoPow, BitVec.getLsbD_twoPow]
    cases i with
    | zero => simp
    | succ i =>
      simp [hi]
      by_cases h : k % w = i
      · simp [h]; omega
      · simp [h]
  rw [hsh]
  by_cases hl : k % w + 1 = w
  · have e : k + 1 = w * (k / w + 1) := by rw [Nat.mul_add]; omega
    rw [if_pos, e, Nat.mul_div_cancel_left _ hw, Nat.mul_mod_right]
    · congr 1
      rw [BitVec.twoPow_zero]
    · rw [BitVec.eq_of_getLsbD_eq_iff]
      intro i hi
      rw [BitVec.getLsbD_twoPow]; simp; omega
  · have hlt : k % w + 1 < w := by omega
    have e1 : (k + 1) / w = k / w := by
      rw [Nat.div_eq_iff hw]
      rw [Nat.mul_comm]; omega
    have e2 : (k + 1) % w = k % w + 1 := by
      have := Nat.div_add_mod (k + 1) w
      rw [e1] at this; omega
    rw [if_neg (twoPow_ne_zero _ hlt), e1, e2]

/-- C58: decrementing goes back one bit. -/
theorem C58_iter_dec (k : Nat) (hw : 0 < w) : bitIterDec (bitPos w (k + 1)) = bitPos w k := by
  unfold bitIterDec bitPos
  simp only
  have hk : k % w < w := Nat.mod_lt _ hw
  have hdm := Nat.div_add_mod k w
  by_cases hl : k % w + 1 = w
  · have e : k + 1 = w * (k / w + 1) := by rw [Nat.mul_add]; omega
    rw [e, Nat.mul_div_cancel_left _ hw, Nat.mul_mod_right, if_pos]
    · rw [show w - 1 = k % w by omega]; simp
    · rw [BitVec.eq_of_getLsbD_eq_iff]
      intro i hi
      rw [BitVec.getLsbD_ushiftRight, BitVec.getLsbD_twoPow]; simp; omega
  · have hlt : k % w + 1 < w := by omega
    have e1 : (k + 1) / w = k / w := by
      rw [Nat.div_eq_iff hw]
      rw [Nat.mul_comm]; omega
    have e2 : (k + 1) % w = k % w + 1 := by
      have := Nat.div_add_mod (k + 1) w
      rw [e1] at this; omega
    have hsh : BitVec.twoPow w (k % w + 1) >>> 1 = BitVec.twoPow w (k % w) := by
      rw [BitVec.eq_of_getLsbD_eq_iff]
      intro i hi
      rw [BitVec.getLsbD_ushiftRight, BitVec.getLsbD_twoPow, BitVec.getLsbD_twoPow]
      by_cases h1 : k % w = i
      · subst h1; simp [hk, hlt]; omega
      · have : ¬ (k % w + 1 = 1 + i) := by omega
        simp [h1, this]
    rw [e1, e2, hsh, if_neg (twoPow_ne_zero _ hk)]

example : bfAssign 0b1010#8 0b0001#8 true = 0b1011#8 ∧ bfSet 0b1111_0000#8 0b0001#8 0b0011#8 = 0b1111_0001#8 ∧
    (∀ i, (0b0001#8).getLsbD i = true → (0b0011#8).getLsbD i = true) := by
  refine ⟨by decide, by decide, ?_⟩
  intro i h
  by_cases h8 : i < 8
  · have : ∀ j : Fin 8, (0b0001#8).getLsbD j.val = true → (0b0011#8).getLsbD j.val = true := by decide
    exact this ⟨i, h8⟩ h
  · rw [BitVec.getLsbD_of_ge _ _ (by omega)] at h; cases h

end Verif.Arith
