/-!
# `sseVecT` with and without SSE (C172 to C174), `/repo/include/bss-util/sseVec.h`

A register is four lanes of 32 bits, lane 0 the lowest. The instructions of SSE2 are modelled by their documentation. In the portable code overflow of signed integers and shifts by less than 0 or more than 31 are
undefined (`none`).
-/

namespace Verif.Vec.Lanes

structure Reg where
  l0 : BitVec 32
  l1 : BitVec 32
  l2 : BitVec 32
  l3 : BitVec 32
  deriving DecidableEq

def Reg.get (r : Reg) (i : Nat) : BitVec 32 := match i % 4 with | 0 => r.l0 | 1 => r.l1 | 2 => r.l2 | _ => r.l3

/-- The lanes, as signed integers. -/
def Reg.ints (r : Reg) : List Int := [r.l0.toInt, r.l1.toInt, r.l2.toInt, r.l3.toInt]

def Reg.map2 (f : BitVec 32 → BitVec 32 → BitVec 32) (a b : Reg) : Reg := ⟨f a.l0 b.l0, f a.l1 b.l1, f a.l2 b.l2, f a.l3 b.l3⟩

/-- `ArrayMap`, `bss_util.h:992-998`, with a function that may be undefined. -/
def Reg.map2? (f : BitVec 32 → BitVec 32 → Option (BitVec 32)) (a b : Reg) : Option Reg := do
  some ⟨← f a.l0 b.l0, ← f a.l1 b.l1, ← f a.l2 b.l2, ← f a.l3 b.l3⟩

/-- All lanes the same: `BSS_SSE_SET1_EPI32`. -/
def Reg.all (x : BitVec 32) : Reg := ⟨x, x, x, x⟩

/-! ## Multiplication -/

/-- `_mm_mul_epu32`: the products of lanes 0 and 2 with 64 bits. -/
def mulEpu32 (a b : Reg) : Reg :=
  let p := a.l0.setWidth 64 * b.l0.setWidth 64
  let q := a.l2.setWidth 64 * b.l2.setWidth 64
  ⟨p.setWidth 32, (p >>> 32).setWidth 32, q.setWidth 32, (q >>> 32).setWidth 32⟩

/-- `_mm_srli_si128(a, 4)`. -/
def srli4 (a : Reg) : Reg := ⟨a.l1, a.l2, a.l3, 0#32⟩

/-- `_mm_shuffle_epi32`. -/
def shuffleEpi32 (a : Reg) (i : Nat) : Reg := ⟨a.get (i &&& 3), a.get ((i >>> 2) &&& 3), a.get ((i >>> 4) &&& 3), a.get ((i >>> 6) &&& 3)⟩

/-- `_mm_unpacklo_epi32`. -/
def unpackLo (a b : Reg) : Reg := ⟨a.l0, b.l0, a.l1, b.l1⟩

/-- `bss_mm_mul_epi32`, `sseVec.h:479-484`; `_MM_SHUFFLE(0, 0, 2, 0)` is 8. -/
def sseMul (a b : Reg) : Reg :=
  let tmp1 := mulEpu32 a b
  let tmp2 := mulEpu32 (srli4 a) (srli4 b)
  unpackLo (shuffleEpi32 tmp1 8) (shuffleEpi32 tmp2 8)

/-- A result of signed arithmetic. -/
def fit (x : Int) : Option (BitVec 32) := if -2 ^ 31 ≤ x ∧ x < 2 ^ 31 then some (BitVec.ofInt 32 x) else none

/-- `BSS_SSE_MUL_EPI32`, `_ADD_` and `_SUB_` of the portable code, `sseVec.h:98-100` and `186-188`. -/
def portMul (a b : Reg) : Option Reg := a.map2? (fun x y => fit (x.toInt * y.toInt)) b
def portAdd (a b : Reg) : Option Reg := a.map2? (fun x y => fit (x.toInt + y.toInt)) b
def portSub (a b : Reg) : Option Reg := a.map2? (fun x y => fit (x.toInt - y.toInt)) b

/-- `_mm_add_epi32` and `_mm_sub_epi32`. -/
def sseAdd (a b : Reg) : Reg := a.map2 (· + ·) b
def sseSub (a b : Reg) : Reg := a.map2 (· - ·) b

theorem mul_low (x y : BitVec 32) : (x.setWidth 64 * y.setWidth 64).setWidth 32 = x * y := by
  apply BitVec.eq_of_toNat_eq
  rw [BitVec.toNat_setWidth, BitVec.toNat_mul, BitVec.toNat_mul, BitVec.toNat_setWidth, BitVec.toNat_setWidth, Nat.mod_eq_of_lt (a := x.toNat) (by have := x.isLt; omega), Nat.mod_eq_of_lt (a := y.toNat) (by have := y.isLt; omega)]
  exact Nat.mod_mod_of_dvd _ (by decide)

theorem sseMul_eq (a b : Reg) : sseMul a b = a.map2 (· * ·) b := by
  have e : sseMul a b = ⟨(a.l0.setWidth 64 * b.l0.setWidth 64).setWidth 32, (a.l1.setWidth 64 * b.l1.setWidth 64).setWidth 32, (a.l2.setWidth 64 * b.l2.setWidth 64).setWidth 32, (a.l3.setWidth 64 * b.l3.setWidth 64).setWidth 32⟩ := rfl
  rw [e, mul_low, mul_low, mul_low, mul_low]
  rfl

theorem fit_some {x : Int} {r : BitVec 32} (h : fit x = some r) : r = BitVec.ofInt 32 x ∧ r.toInt = x := by
  unfold fit at h
  split at h
  · next hx =>
    cases h
    refine ⟨rfl, ?_⟩
    rw [BitVec.toInt_ofInt]
    apply Int.bmod_eq_of_le <;> omega
  · cases h

theorem map2_some {f : BitVec 32 → BitVec 32 → Option (BitVec 32)} {a b r : Reg} (h : a.map2? f b = some r) :
    f a.l0 b.l0 = some r.l0 ∧ f a.l1 b.l1 = some r.l1 ∧ f a.l2 b.l2 = some r.l2 ∧ f a.l3 b.l3 = some r.l3 := by
  unfold Reg.map2? at h
  cases h0 : f a.l0 b.l0 <;> cases h1 : f a.l1 b.l1 <;> cases h2 : f a.l2 b.l2 <;> cases h3 : f a.l3 b.l3 <;> rw [h0, h1, h2, h3] at h <;> cases h
  exact ⟨rfl, rfl, rfl, rfl⟩

/-- C172: if the portable code is defined, sums, differences and products are those of the integers in each lane, and SSE gives the same. -/
theorem C172_arith_partial {a b r : Reg} :
    (portAdd a b = some r → r.ints = List.zipWith (· + ·) a.ints b.ints ∧ sseAdd a b = r) ∧
    (portSub a b = some r → r.ints = List.zipWith (· - ·) a.ints b.ints ∧ sseSub a b = r) ∧
    (portMul a b = some r → r.ints = List.zipWith (· * ·) a.ints b.ints ∧ sseMul a b = r) := by
  have key : ∀ (f : Int → Int → Int) (g : BitVec 32 → BitVec 32 → BitVec 32), (∀ x y, g x y = BitVec.ofInt 32 (f x.toInt y.toInt)) → a.map2? (fun x y => fit (f x.toInt y.toInt)) b = some r →
      r.ints = List.zipWith f a.ints b.ints ∧ a.map2 g b = r := by
    intro f g hg h
    obtain ⟨h0, h1, h2, h3⟩ := map2_some h
    have k0 := fit_some h0; have k1 := fit_some h1; have k2 := fit_some h2; have k3 := fit_some h3
    constructor
    · simp only [Reg.ints, List.zipWith_cons_cons, List.zipWith_nil_left, k0.2, k1.2, k2.2, k3.2]
    · obtain ⟨r0, r1, r2, r3⟩ := r
      simp only [Reg.map2, hg, Reg.mk.injEq]
      exact ⟨k0.1.symm, k1.1.symm, k2.1.symm, k3.1.symm⟩
  refine ⟨key _ _ fun x y => ?_, key _ _ fun x y => ?_, fun h => ?_⟩
  · apply BitVec.eq_of_toInt_eq; rw [BitVec.toInt_add, BitVec.toInt_ofInt]
  · apply BitVec.eq_of_toInt_eq; rw [BitVec.toInt_sub, BitVec.toInt_ofInt]
  · rw [sseMul_eq]
    exact key _ _ (fun x y => by apply BitVec.eq_of_toInt_eq; rw [BitVec.toInt_mul, BitVec.toInt_ofInt]) h

example : portMul ⟨3, -4, 5, 65535⟩ ⟨-7, -8, 0, 2⟩ = some ⟨-21, 32, 0, 131070⟩ ∧ sseMul ⟨3, -4, 5, 65535⟩ ⟨-7, -8, 0, 2⟩ = ⟨-21, 32, 0, 131070⟩ := by decide +kernel

/-! ## Comparison, minimum and maximum -/

/-- `_sse_array_cmp`, `sseVec.h:108`, and the comparisons of SSE: all bits of a lane are set if the comparison holds. -/
def cmp (f : Int → Int → Bool) (a b : Reg) : Reg := a.map2 (fun x y => if f x.toInt y.toInt then BitVec.allOnes 32 else 0#32) b

/-- `operator==`, `<`, `>`, `sseVec.h:759-763`. -/
def eqMask (a b : Reg) : Reg := cmp (fun x y => x == y) a b
def ltMask (a b : Reg) : Reg := cmp (fun x y => decide (x < y)) a b
def gtMask (a b : Reg) : Reg := cmp (fun x y => decide (x > y)) a b

/-- `operator!`, `sseVec.h:770`. -/
def notMask (a : Reg) : Reg := eqMask a (Reg.all 0#32)

/-- `operator!=`, `<=`, `>=`, `sseVec.h:760-764`. -/
def neMask (a b : Reg) : Reg := notMask (eqMask a b)
def leMask (a b : Reg) : Reg := notMask (gtMask a b)
def geMask (a b : Reg) : Reg := notMask (ltMask a b)

/-- `bss_mm_min_epi32` and `bss_mm_max_epi32`, `sseVec.h:399-413`. -/
def sseMin (a b : Reg) : Reg :=
  let mask := ltMask a b
  (a.map2 (· &&& ·) mask).map2 (· ||| ·) (mask.map2 (fun m x => ~~~m &&& x) b)
def sseMax (a b : Reg) : Reg :=
  let mask := gtMask a b
  (a.map2 (· &&& ·) mask).map2 (· ||| ·) (mask.map2 (fun m x => ~~~m &&& x) b)

/-- `bssmin` and `bssmax`, `defines.h:15-16`, in each lane. -/
def portMin (a b : Reg) : Reg := a.map2 (fun x y => if x.toInt < y.toInt then x else y) b
def portMax (a b : Reg) : Reg := a.map2 (fun x y => if x.toInt > y.toInt then x else y) b

/-- A lane that is all ones or zero. -/
def truth (b : Bool) : Int := if b then -1 else 0

theorem select (c : Prop) [Decidable c] (x y : BitVec 32) : (x &&& (if c then BitVec.allOnes 32 else 0#32)) ||| (~~~(if c then BitVec.allOnes 32 else 0#32) &&& y) = if c then x else y := by
  by_cases h : c
  · simp only [if_pos h]
    rw [BitVec.and_allOnes, BitVec.not_allOnes, BitVec.zero_and, BitVec.or_zero]
  · simp only [if_neg h]
    rw [BitVec.and_zero, BitVec.not_zero, BitVec.allOnes_and, BitVec.zero_or]

theorem mask_int (c : Bool) : (if c then BitVec.allOnes 32 else 0#32).toInt = truth c := by cases c <;> decide

theorem cmp_ints (f : Int → Int → Bool) (a b : Reg) : (cmp f a b).ints = List.zipWith (fun x y => truth (f x y)) a.ints b.ints := by
  simp only [cmp, Reg.map2, Reg.ints, List.zipWith_cons_cons, List.zipWith_nil_left, mask_int]

theorem not_ints (f : Int → Int → Bool) (a b : Reg) : (notMask (cmp f a b)).ints = List.zipWith (fun x y => truth (!f x y)) a.ints b.ints := by
  have h : ∀ c : Bool, ((if c then BitVec.allOnes 32 else 0#32).toInt == (0#32).toInt) = !c := by decide
  unfold notMask eqMask
  rw [cmp_ints]
  simp only [cmp, Reg.map2, Reg.ints, Reg.all, List.zipWith_cons_cons, List.zipWith_nil_left, h]

/-- C172: comparisons are by lane, with -1 for true and 0 for false, for all six of them. -/
theorem C172_compare (a b : Reg) :
    (eqMask a b).ints = List.zipWith (fun x y => if x = y then -1 else 0) a.ints b.ints ∧ (neMask a b).ints = List.zipWith (fun x y => if x = y then 0 else -1) a.ints b.ints ∧
    (ltMask a b).ints = List.zipWith (fun x y => if x < y then -1 else 0) a.ints b.ints ∧ (leMask a b).ints = List.zipWith (fun x y => if x ≤ y then -1 else 0) a.ints b.ints ∧
    (gtMask a b).ints = List.zipWith (fun x y => if y < x then -1 else 0) a.ints b.ints ∧ (geMask a b).ints = List.zipWith (fun x y => if y ≤ x then -1 else 0) a.ints b.ints := by
  unfold neMask leMask geMask eqMask ltMask gtMask
  rw [cmp_ints, cmp_ints, cmp_ints, not_ints, not_ints, not_ints]
  refine ⟨?_, ?_, ?_, ?_, ?_, ?_⟩ <;> congr 1 <;> funext x y <;> unfold truth
  · by_cases h : x = y <;> simp [h]
  · by_cases h : x = y <;> simp [h]
  · by_cases h : x < y <;> simp [h]
  · by_cases h : x ≤ y <;> simp [h, show (y < x) = ¬ x ≤ y from by simp]
  · by_cases h : y < x <;> simp [h]
  · by_cases h : y ≤ x <;> simp [h, show (x < y) = ¬ y ≤ x from by simp]

/-- C172: minimum and maximum are those of each lane, and SSE gives the same as the portable code. -/
theorem C172_minmax (a b : Reg) :
    (sseMin a b).ints = List.zipWith min a.ints b.ints ∧ (sseMax a b).ints = List.zipWith max a.ints b.ints ∧ sseMin a b = portMin a b ∧ sseMax a b = portMax a b := by
  have e1 : sseMin a b = portMin a b := by
    simp only [sseMin, portMin, ltMask, cmp, Reg.map2, select, decide_eq_true_eq]
  have e2 : sseMax a b = portMax a b := by
    simp only [sseMax, portMax, gtMask, cmp, Reg.map2, select, decide_eq_true_eq]
  have m1 : ∀ x y : BitVec 32, (if x.toInt < y.toInt then x else y).toInt = min x.toInt y.toInt := by intro x y; split <;> omega
  have m2 : ∀ x y : BitVec 32, (if x.toInt > y.toInt then x else y).toInt = max x.toInt y.toInt := by intro x y; split <;> omega
  refine ⟨?_, ?_, e1, e2⟩
  · rw [e1]; simp only [portMin, Reg.map2, Reg.ints, List.zipWith_cons_cons, List.zipWith_nil_left, m1]
  · rw [e2]; simp only [portMax, Reg.map2, Reg.ints, List.zipWith_cons_cons, List.zipWith_nil_left, m2]

example : (sseMin ⟨3, -4, 5, 6⟩ ⟨-7, -3, 0, 6⟩).ints = [-7, -4, 0, 6] ∧ (leMask ⟨3, -4, 5, 6⟩ ⟨-7, -3, 0, 6⟩).ints = [0, -1, 0, -1] := by decide +kernel

/-! ## Shifts -/

/-- `_mm_srai_epi32`, and `_mm_sra_epi32` with the count of 64 bits: counts above 31 fill with the sign. -/
def sra (a : Reg) (count : Nat) : Reg :=
  let n := min count 31
  ⟨a.l0.sshiftRight n, a.l1.sshiftRight n, a.l2.sshiftRight n, a.l3.sshiftRight n⟩

/-- `operator>>(int)` with SSE, `sseVec.h:740`; the count is an immediate with 8 bits. -/
def sseShiftImm (a : Reg) (r : Int) : Reg := sra a (r % 256).toNat

/-- `operator>>(const sseVecT<int>&)` with SSE, `sseVec.h:739`: the count is the lower half of the register. -/
def sseShift (a b : Reg) : Reg := sra a (b.l0.toNat + b.l1.toNat * 2 ^ 32)

/-- `_sse_array_shift` with `_sse_array_sra`, `sseVec.h:55-62` and `117`. -/
def portShiftImm (a : Reg) (r : Int) : Option Reg :=
  if 0 ≤ r ∧ r < 32 then some ⟨a.l0.sshiftRight r.toNat, a.l1.sshiftRight r.toNat, a.l2.sshiftRight r.toNat, a.l3.sshiftRight r.toNat⟩ else none

/-- `BSS_SSE_SAR_EPI32` of the portable code, `sseVec.h:201` and `206`: the count is the first lane. -/
def portShift (a b : Reg) : Option Reg := portShiftImm a b.l0.toInt

/-- C172: shifting by a number from 0 to 31 is division by a power of 2, rounded down, in each lane, with SSE and without. -/
theorem C172_shift_partial (a : Reg) {r : Int} (h0 : 0 ≤ r) (h : r < 32) :
    portShiftImm a r = some (sseShiftImm a r) ∧ (sseShiftImm a r).ints = a.ints.map fun x => x / 2 ^ r.toNat := by
  have e : min (r % 256).toNat 31 = r.toNat := by omega
  refine ⟨?_, ?_⟩
  · unfold portShiftImm sseShiftImm sra
    rw [if_pos ⟨h0, h⟩]
    simp only [e]
  · unfold sseShiftImm sra
    simp only [e, Reg.ints, List.map_cons, List.map_nil, BitVec.toInt_sshiftRight, Int.shiftRight_eq_div_pow]
    push_cast
    rfl

example : (sseShiftImm ⟨7, -7, 1024, -1⟩ 2).ints = [1, -2, 256, -1] := by decide +kernel

/-- C172 fails for counts in a register: if all lanes have the count, and it is not 0, SSE shifts out all bits, so that each lane is 0 or -1, while the portable code shifts by the count. -/
theorem C172_register_false (a : Reg) {c : BitVec 32} (h0 : 0 < c.toInt) (h : c.toInt < 32) :
    (sseShift a (Reg.all c)).ints = a.ints.map (fun x => if x < 0 then -1 else 0) ∧
    ∃ r, portShift a (Reg.all c) = some r ∧ r.ints = a.ints.map fun x => x / 2 ^ c.toNat := by
  have hc : c.toInt = c.toNat := by
    rw [BitVec.toInt_eq_toNat_cond] at h0 ⊢
    split
    · rfl
    · next hh => rw [if_neg hh] at h0; have := c.isLt; omega
  have hbig : min (c.toNat + c.toNat * 2 ^ 32) 31 = 31 := by omega
  have fill : ∀ x : BitVec 32, (x.sshiftRight 31).toInt = if x.toInt < 0 then -1 else 0 := by
    intro x
    rw [BitVec.toInt_sshiftRight, Int.shiftRight_eq_div_pow]
    have h1 := BitVec.le_toInt x
    have h2 := BitVec.toInt_lt (x := x)
    split <;> omega
  constructor
  · unfold sseShift sra Reg.all
    simp only [hbig, Reg.ints, List.map_cons, List.map_nil, fill]
  · have hp := C172_shift_partial a (r := c.toInt) (by omega) h
    refine ⟨_, hp.1, ?_⟩
    rw [hp.2, hc, Int.toNat_natCast]

example : (sseShift ⟨1000, -1000, 8, 9⟩ (Reg.all 2)).ints = [0, -1, 0, 0] ∧ portShift ⟨1000, -1000, 8, 9⟩ (Reg.all 2) = some ⟨250, -250, 2, 2⟩ := by decide +kernel

/-! ## Order of lanes -/

/-- `BSS_SSE_SHUFFLE`, `sseVec.h:488`. -/
def shuffleCode (x y z w : Nat) : Nat := (w <<< 6) ||| (z <<< 4) ||| (y <<< 2) ||| x

/-- `_sse_array_shuffle4(x, x, i)`, `sseVec.h:73-82`, as `BSS_SSE_SHUFFLE_EPI32` of the portable code, `sseVec.h:240`. -/
def portShuffle (a : Reg) (i : Nat) : Reg := ⟨a.get (i &&& 3), a.get ((i >>> 2) &&& 3), a.get ((i >>> 4) &&& 3), a.get ((i >>> 6) &&& 3)⟩

/-- `Sum`, `sseVec.h:786`, with SSE. -/
def sseSum (a : Reg) : BitVec 32 :=
  let x := sseAdd a (shuffleEpi32 a (shuffleCode 1 0 3 2))
  (sseAdd x (shuffleEpi32 x (shuffleCode 2 3 0 1))).l0

/-- `Sum` without SSE. -/
def portSum (a : Reg) : Option (BitVec 32) := do
  let x ← portAdd a (portShuffle a (shuffleCode 1 0 3 2))
  let y ← portAdd x (portShuffle x (shuffleCode 2 3 0 1))
  some y.l0

/-- C173: `Shuffle<x, y, z, w>` gives lanes `x`, `y`, `z`, `w`, with SSE and without. -/
theorem C173_shuffle (a : Reg) {x y z w : Nat} (hx : x < 4) (hy : y < 4) (hz : z < 4) (hw : w < 4) :
    shuffleEpi32 a (shuffleCode x y z w) = ⟨a.get x, a.get y, a.get z, a.get w⟩ ∧ portShuffle a (shuffleCode x y z w) = ⟨a.get x, a.get y, a.get z, a.get w⟩ := by
  have key : ∀ x < 4, ∀ y < 4, ∀ z < 4, ∀ w < 4, shuffleCode x y z w &&& 3 = x ∧ (shuffleCode x y z w >>> 2) &&& 3 = y ∧ (shuffleCode x y z w >>> 4) &&& 3 = z ∧ (shuffleCode x y z w >>> 6) &&& 3 = w := by decide +kernel
  obtain ⟨h1, h2, h3, h4⟩ := key x hx y hy z hz w hw
  unfold shuffleEpi32 portShuffle
  rw [h1, h2, h3, h4]
  exact ⟨rfl, rfl⟩

/-- C173: `Sum` is the sum of the lanes if the portable code is defined; SSE gives it modulo 2^32 in any case. -/
theorem C173_sum (a : Reg) :
    sseSum a = a.l0 + a.l1 + a.l2 + a.l3 ∧ ∀ r, portSum a = some r → r.toInt = a.ints.sum ∧ sseSum a = r := by
  have e1 : sseSum a = a.l0 + a.l1 + a.l2 + a.l3 := by
    unfold sseSum
    rw [(C173_shuffle a (by decide) (by decide) (by decide) (by decide)).1]
    dsimp only
    rw [(C173_shuffle _ (by decide) (by decide) (by decide) (by decide)).1]
    simp only [sseAdd, Reg.map2, Reg.get, BitVec.add_assoc]
  refine ⟨e1, fun r h => ?_⟩
  unfold portSum at h
  rw [(C173_shuffle a (by decide) (by decide) (by decide) (by decide)).2] at h
  cases h1 : portAdd a ⟨a.get 1, a.get 0, a.get 3, a.get 2⟩ with
  | none => rw [h1] at h; cases h
  | some x =>
    rw [h1] at h
    simp only [Option.bind_eq_bind, Option.bind_some] at h
    rw [(C173_shuffle x (by decide) (by decide) (by decide) (by decide)).2] at h
    cases h2 : portAdd x ⟨x.get 2, x.get 3, x.get 0, x.get 1⟩ with
    | none => rw [h2] at h; cases h
    | some y =>
      rw [h2] at h
      cases h
      have a1 := fit_some (map2_some h1).1
      have a3 := fit_some (map2_some h1).2.2.1
      have b := fit_some (map2_some h2).1
      have hr : y.l0.toInt = a.ints.sum := by
        have : y.l0.toInt = x.l0.toInt + x.l2.toInt := b.2
        rw [this, a1.2, a3.2]
        simp only [Reg.ints, List.sum_cons, List.sum_nil, Reg.get]
        omega
      refine ⟨hr, ?_⟩
      rw [e1]
      apply BitVec.eq_of_toInt_eq
      rw [hr]
      have hy1 := BitVec.le_toInt y.l0
      have hy2 := BitVec.toInt_lt (x := y.l0)
      rw [hr] at hy1 hy2
      simp only [Reg.ints, List.sum_cons, List.sum_nil] at *
      rw [BitVec.toInt_add, BitVec.toInt_add, BitVec.toInt_add]
      simp only [Int.bmod_add_bmod]
      rw [Int.bmod_eq_of_le] <;> omega

example : portSum ⟨3, -4, 5, 6⟩ = some 10 ∧ sseSum ⟨3, -4, 5, 6⟩ = 10 := by decide +kernel

/-- `_mm_shuffle_pd`: one bit for each result. -/
def sseShufflePd {α : Type} (a b : α × α) (i : Nat) : α × α := (if i % 2 = 0 then a.1 else a.2, if i / 2 % 2 = 0 then b.1 else b.2)

/-- `_sse_array_shuffle2`, `sseVec.h:64-71`. -/
def portShufflePd {α : Type} (a b : α × α) (i : Nat) : α × α := (if i = 0 then a.1 else a.2, if i >>> 2 = 0 then b.1 else b.2)

/-- C173: the exchange of two doubles is the same with SSE and without. -/
theorem C173_swap {α : Type} (a : α × α) : sseShufflePd a a 1 = (a.2, a.1) ∧ portShufflePd a a 1 = (a.2, a.1) := ⟨rfl, rfl⟩

/-- C173 fails for other codes: for 2 and 3 the portable code takes other elements than the instruction. -/
theorem C173_pd_false {α : Type} (a b : α × α) : sseShufflePd a b 2 = (a.1, b.2) ∧ portShufflePd a b 2 = (a.2, b.1) ∧ sseShufflePd a b 3 = (a.2, b.2) ∧ portShufflePd a b 3 = (a.2, b.1) := ⟨rfl, rfl, rfl, rfl⟩

/-! ## Rounding -/

/-- `_mm_cvttps_epi32` of the number `n / 2^k` (every finite `float` is of this form): truncation, and -2^31 if the result does not fit. -/
def cvtt (n : Int) (k : Nat) : Int :=
  let t := n.tdiv (2 ^ k)
  if -2 ^ 31 ≤ t ∧ t < 2 ^ 31 then t else -2 ^ 31

/-- `bss_mm_floor_ps`, `sseVec.h:451-462`, for one lane. All numbers are representable: if 1 is subtracted, the number is not an integer and so below 2^24; for a number below -2^31 the last subtraction is rounded back. -/
def sseFloor (n : Int) (k : Nat) : Int :=
  let fi := cvtt n k
  if fi * 2 ^ k > n then (if fi = -2 ^ 31 then fi else fi - 1) else fi

/-- `bss_mm_ceil_ps`, `sseVec.h:464-475`; the same for the addition to -2^31. -/
def sseCeil (n : Int) (k : Nat) : Int :=
  let fi := cvtt n k
  if fi * 2 ^ k < n then (if fi = -2 ^ 31 then fi else fi + 1) else fi

theorem cvtt_range {n : Int} {k : Nat} (h1 : -2 ^ 31 * 2 ^ k ≤ n) (h2 : n < 2 ^ 31 * 2 ^ k) : cvtt n k = n.tdiv (2 ^ k) := by
  have hp : (0 : Int) < 2 ^ k := Int.pow_pos (by decide)
  unfold cvtt
  dsimp only
  apply if_pos
  constructor
  · rcases Int.le_total 0 n with h | h
    · have := Int.tdiv_nonneg h (Int.le_of_lt hp); omega
    · have h3 : (-n).tdiv (2 ^ k) ≤ 2 ^ 31 := by
        rw [Int.tdiv_eq_ediv_of_nonneg (by omega)]
        have : -n ≤ 2 ^ k * 2 ^ 31 := by rw [Int.mul_comm]; omega
        calc -n / 2 ^ k ≤ (2 ^ k * 2 ^ 31) / 2 ^ k := Int.ediv_le_ediv hp this
          _ = 2 ^ 31 := Int.mul_ediv_cancel_left _ (by omega)
      rw [Int.neg_tdiv] at h3
      omega
  · rcases Int.le_total 0 n with h | h
    · rw [Int.tdiv_eq_ediv_of_nonneg h]
      exact Int.ediv_lt_of_lt_mul hp h2
    · have := Int.tdiv_nonneg (a := -n) (by omega) (Int.le_of_lt hp)
      rw [Int.neg_tdiv] at this
      omega

/-- What is used about `float`: a number of 2^24 or more has no fraction. -/
def IsFloat (n : Int) (k : Nat) : Prop := (2 ^ k : Int) ∣ n ∨ (-2 ^ 24 * 2 ^ k < n ∧ n < 2 ^ 24 * 2 ^ k)

theorem tdiv_bounds (n : Int) (k : Nat) : ∃ t : Int, n.tdiv (2 ^ k) = t ∧ (0 ≤ n → t * 2 ^ k ≤ n ∧ n < (t + 1) * 2 ^ k) ∧ (n ≤ 0 → n ≤ t * 2 ^ k ∧ (t - 1) * 2 ^ k < n) ∧ ((2 ^ k : Int) ∣ n → t * 2 ^ k = n) := by
  have hp : (0 : Int) < 2 ^ k := Int.pow_pos (by decide)
  refine ⟨_, rfl, fun h => ?_, fun h => ?_, fun h => Int.tdiv_mul_cancel h⟩
  · rw [Int.tdiv_eq_ediv_of_nonneg h]
    exact ⟨Int.ediv_mul_le n (by omega), Int.lt_ediv_add_one_mul_self n hp⟩
  · have e : n.tdiv (2 ^ k) = -((-n) / 2 ^ k) := by
      rw [← Int.tdiv_eq_ediv_of_nonneg (by omega), Int.neg_tdiv, Int.neg_neg]
    rw [e]
    have a1 := Int.ediv_mul_le (-n) (b := 2 ^ k) (by omega)
    have a2 := Int.lt_ediv_add_one_mul_self (-n) hp
    rw [Int.sub_mul, Int.neg_mul]
    rw [Int.add_mul] at a2
    omega

/-- C174: for numbers from -2^31 to 2^31 (not included) `floor` is the greatest integer not above the number, and `ceil` the least not below. -/
theorem C174_round_partial {n : Int} {k : Nat} (hf : IsFloat n k) (h1 : -2 ^ 31 * 2 ^ k ≤ n) (h2 : n < 2 ^ 31 * 2 ^ k) :
    (sseFloor n k * 2 ^ k ≤ n ∧ n < (sseFloor n k + 1) * 2 ^ k) ∧ (sseCeil n k - 1) * 2 ^ k < n ∧ n ≤ sseCeil n k * 2 ^ k := by
  have hp : (0 : Int) < 2 ^ k := Int.pow_pos (by decide)
  unfold sseFloor sseCeil
  rw [cvtt_range h1 h2]
  obtain ⟨t, ht, a1, a2, a3⟩ := tdiv_bounds n k
  rw [ht]
  dsimp only
  have hsmall : t = -2 ^ 31 → t * 2 ^ k = n := by
    intro he
    rcases hf with h | h
    · exact a3 h
    · subst he
      rcases Int.le_total 0 n with h0 | h0
      · have := (a1 h0).2; omega
      · have := (a2 h0).1; omega
  simp only [Int.add_mul, Int.sub_mul, Int.one_mul] at *
  rcases Int.le_total 0 n with h0 | h0
  · obtain ⟨b1, b2⟩ := a1 h0
    rw [if_neg (by omega)]
    refine ⟨⟨b1, b2⟩, ?_⟩
    by_cases hlt : t * 2 ^ k < n
    · rw [if_pos hlt, if_neg (fun he => by have := hsmall he; omega)]
      simp only [Int.add_mul, Int.one_mul]
      omega
    · rw [if_neg hlt]; omega
  · obtain ⟨b1, b2⟩ := a2 h0
    rw [if_neg (show ¬ t * 2 ^ k < n by omega)]
    refine ⟨?_, b2, b1⟩
    by_cases hgt : t * 2 ^ k > n
    · rw [if_pos hgt, if_neg (fun he => by have := hsmall he; omega)]
      simp only [Int.sub_mul, Int.one_mul]
      omega
    · rw [if_neg hgt]; omega

example : IsFloat (-5) 1 ∧ sseFloor (-5) 1 = -3 ∧ sseCeil (-5) 1 = -2 ∧ sseCeil 5 1 = 3 := by
  refine ⟨Or.inr ?_, ?_⟩ <;> decide

/-- C174 fails for greater numbers: all of them are rounded to -2^31, up or down. -/
theorem C174_range_false {n : Int} {k : Nat} (h : 2 ^ 31 * 2 ^ k ≤ n) : sseFloor n k = -2 ^ 31 ∧ sseCeil n k = -2 ^ 31 := by
  have hp : (0 : Int) < 2 ^ k := Int.pow_pos (by decide)
  have hc : cvtt n k = -2 ^ 31 := by
    obtain ⟨t, ht, a1, -, -⟩ := tdiv_bounds n k
    unfold cvtt
    rw [ht]
    dsimp only
    apply if_neg
    have b := (a1 (by omega)).2
    intro hh
    have : (t + 1) * 2 ^ k ≤ 2 ^ 31 * 2 ^ k := Int.mul_le_mul_of_nonneg_right (by omega) (by omega)
    omega
  unfold sseFloor sseCeil
  rw [hc]
  simp only [if_true]
  exact ⟨by split <;> rfl, by split <;> rfl⟩

end Verif.Vec.Lanes
