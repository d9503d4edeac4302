import Mathlib.Tactic.Ring
import Mathlib.Tactic.LinearCombination
import Mathlib.Tactic.Linarith

/-!
# `bssMultiplyExtract` (C69), `bss_util.h:908-962` and `964-968`

Unsigned `w`-bit arithmetic on naturals modulo `2^w`, `w = 2h`.  A signed value is an `Int` in
`[-2^(w-1), 2^(w-1))`.
-/

namespace Verif.Arith

/-- High and low word of the product, `bss_util.h:934-946`. -/
def mulWords (h x y : Nat) : Nat × Nat :=
  let W := 2 ^ (2 * h)
  let a := x / 2 ^ h
  let b := x % 2 ^ h
  let c := y / 2 ^ h
  let d := y % 2 ^ h
  let ac := a * c % W
  let bc := b * c % W
  let ad := a * d % W
  let bd := b * d % W
  let mid34 := (bd / 2 ^ h + bc % 2 ^ h + ad % 2 ^ h) % W
  let high := (ac + bc / 2 ^ h + ad / 2 ^ h + mid34 / 2 ^ h) % W
  let low := (mid34 * 2 ^ h) % W ||| bd % 2 ^ h
  (high, low)

/-- The last three lines, `bss_util.h:958-960`, for `shift` below the width.  `high << (w - shift)` with
`shift = 0` shifts by the full width: undefined in C++ (`junk = none`), on real hardware some value
(`junk = some j`), masked to zero right after. -/
def extractLow (w : Nat) (junk : Option Nat) (high low shift : Nat) : Option Nat :=
  if shift = 0 then do
    let j ← junk
    some ((low >>> shift) ||| (j &&& 0))
  else some ((low >>> shift) ||| ((high <<< (w - shift)) % 2 ^ w))

/-- `_bssmultiplyextract<uint64_t>`, `bss_util.h:928-961`, unsigned operands. -/
def mulExtractU (h : Nat) (junk : Option Nat) (x y shift : Nat) : Option Nat :=
  let w := 2 * h
  let (high, low) := mulWords h x y
  if shift ≥ w then
    if shift - w < w then some (high >>> (shift - w)) else none
  else extractLow w junk high low shift

/-- `bssAbs` on a signed value, `bss_util.h:908-914`: `(x + mask) ^ mask` with `mask = -1` for negative `x`; the
addition overflows for the minimum. -/
def bssAbs (w : Nat) (x : Int) : Option Nat :=
  if x < 0 then (if x - 1 < -2 ^ (w - 1) then none else some (-((x - 1) + 1)).toNat) else some x.toNat

/-- Two's complement negation of the double word, `bss_util.h:949-953`. -/
def negWords (w : Nat) (hl : Nat × Nat) : Nat × Nat :=
  (((2 ^ w - 1 - hl.1) + (if hl.2 = 0 then 1 else 0)) % 2 ^ w, ((2 ^ w - 1 - hl.2) + 1) % 2 ^ w)

/-- Reading a word as a signed value. -/
def toSigned (w : Nat) (v : Nat) : Int := Int.bmod v (2 ^ w)

/-- `_bssmultiplyextract<int64_t>`, `bss_util.h:928-961`, signed operands. -/
def mulExtractS (h : Nat) (junk : Option Nat) (x y : Int) (shift : Nat) : Option Int := do
  let w := 2 * h
  let ax ← bssAbs w x
  let ay ← bssAbs w y
  let hl := mulWords h ax ay
  let hl := if (decide (x < 0)) != (decide (y < 0)) then negWords w hl else hl
  if shift ≥ w then
    if shift - w < w then some (Int.fdiv (toSigned w hl.1) (2 ^ (shift - w))) else none
  else (extractLow w junk hl.1 hl.2 shift).map (toSigned w)

/-- The version for types with a double-width counterpart, `bss_util.h:964-968`: multiply in a signed type of
`2w` bits (overflow would be undefined), shift arithmetically, truncate. -/
def mulExtractWide (w : Nat) (x y : Int) (shift : Nat) : Option Int :=
  if shift < 2 * w ∧ -2 ^ (2 * w - 1) ≤ x * y ∧ x * y < 2 ^ (2 * w - 1) then
    some (Int.bmod (Int.fdiv (x * y) (2 ^ shift)) (2 ^ w))
  else none

/-! ### lemmas -/

theorem school (B x y a b c d q1 r1 q2 r2 q r m t : ℤ) (hx : B * a + b = x) (hy : B * c + d = y)
    (h1 : B * q1 + r1 = b * c) (h2 : B * q2 + r2 = a * d) (h3 : B * q + r = b * d) (h4 : B * m + t = q + r1 + r2) :
    (a * c + q1 + q2 + m) * (B * B) + (t * B + r) = x * y := by
  subst hx hy
  linear_combination B * h1 + B * h2 + h3 + B * h4

theorem mulWords_spec (h x y : Nat) (hh : 2 ≤ h) (hx : x < 2 ^ (2 * h)) (hy : y < 2 ^ (2 * h)) :
    (mulWords h x y).1 * 2 ^ (2 * h) + (mulWords h x y).2 = x * y ∧
    (mulWords h x y).1 < 2 ^ (2 * h) ∧ (mulWords h x y).2 < 2 ^ (2 * h) := by
  have hW : 2 ^ (2 * h) = 2 ^ h * 2 ^ h := by rw [← Nat.pow_add]; congr 1; omega
  have hB4 : 4 ≤ 2 ^ h := by
    calc 4 = 2 ^ 2 := rfl
      _ ≤ 2 ^ h := Nat.pow_le_pow_right (by omega) hh
  unfold mulWords
  simp only
  rw [hW] at hx hy ⊢
  generalize hBdef : 2 ^ h = B at *
  have hBpos : 0 < B := by omega
  have ha : x / B < B := (Nat.div_lt_iff_lt_mul hBpos).2 hx
  have hc : y / B < B := (Nat.div_lt_iff_lt_mul hBpos).2 hy
  have hb : x % B < B := Nat.mod_lt _ hBpos
  have hd : y % B < B := Nat.mod_lt _ hBpos
  have ex := Nat.div_add_mod x B
  have ey := Nat.div_add_mod y B
  generalize x / B = a at *
  generalize x % B = b at *
  generalize y / B = c at *
  generalize y % B = d at *
  have lac : a * c < B * B := Nat.mul_lt_mul'' ha hc
  have lbc : b * c < B * B := Nat.mul_lt_mul'' hb hc
  have lad : a * d < B * B := Nat.mul_lt_mul'' ha hd
  have lbd : b * d < B * B := Nat.mul_lt_mul'' hb hd
  rw [Nat.mod_eq_of_lt lac, Nat.mod_eq_of_lt lbc, Nat.mod_eq_of_lt lad, Nat.mod_eq_of_lt lbd]
  have ebc := Nat.div_add_mod (b * c) B
  have ead := Nat.div_add_mod (a * d) B
  have ebd := Nat.div_add_mod (b * d) B
  have qbd : b * d / B < B := (Nat.div_lt_iff_lt_mul hBpos).2 lbd
  have rbc : b * c % B < B := Nat.mod_lt _ hBpos
  have rad : a * d % B < B := Nat.mod_lt _ hBpos
  have rbd : b * d % B < B := Nat.mod_lt _ hBpos
  generalize b * c / B = q1 at *
  generalize b * c % B = r1 at *
  generalize a * d / B = q2 at *
  generalize a * d % B = r2 at *
  generalize b * d / B = q at *
  generalize b * d % B = r at *
  have lmid : q + r1 + r2 < B * B := by
    have : 4 * B ≤ B * B := Nat.mul_le_mul_right _ hB4
    omega
  rw [Nat.mod_eq_of_lt lmid]
  have emid := Nat.div_add_mod (q + r1 + r2) B
  have rmid : (q + r1 + r2) % B < B := Nat.mod_lt _ hBpos
  rw [Nat.mul_mod_mul_right]
  generalize (q + r1 + r2) / B = m at *
  generalize (q + r1 + r2) % B = t at *
  have hor : t * B ||| r = t * B + r := by
    rw [← hBdef, Nat.mul_comm, ← Nat.two_pow_add_eq_or_of_lt]
    rw [hBdef]; exact rbd
  rw [hor]
  have key : (a * c + q1 + q2 + m) * (B * B) + (t * B + r) = x * y := by
    have := school B x y a b c d q1 r1 q2 r2 q r m t (by exact_mod_cast ex) (by exact_mod_cast ey)
      (by exact_mod_cast ebc) (by exact_mod_cast ead) (by exact_mod_cast ebd) (by exact_mod_cast emid)
    exact_mod_cast this
  have hlow : t * B + r < B * B := by
    have : (t + 1) * B ≤ B * B := Nat.mul_le_mul_right _ rmid
    rw [Nat.add_mul] at this; omega
  have hhigh : a * c + q1 + q2 + m < B * B := by
    have h1 : x * y < (B * B) * (B * B) := Nat.mul_lt_mul'' hx hy
    apply Nat.lt_of_mul_lt_mul_right (a := B * B)
    omega
  rw [Nat.mod_eq_of_lt hhigh]
  exact ⟨key, hhigh, hlow⟩

theorem extractLow_spec (w high low shift : Nat) (junk : Nat) (hs : shift < w) (hl : low < 2 ^ w) :
    extractLow w (some junk) high low shift = some ((high * 2 ^ w + low) / 2 ^ shift % 2 ^ w) := by
  unfold extractLow
  by_cases h0 : shift = 0
  · subst h0
    simp [Nat.mod_eq_of_lt hl]
  · rw [if_neg h0]
    congr 1
    have hw : 2 ^ w = 2 ^ shift * 2 ^ (w - shift) := by rw [← Nat.pow_add]; congr 1; omega
    have hp1 := Nat.two_pow_pos shift
    have hp2 := Nat.two_pow_pos (w - shift)
    rw [Nat.shiftRight_eq_div_pow, Nat.shiftLeft_eq]
    have hlow : low / 2 ^ shift < 2 ^ (w - shift) := by
      rw [Nat.div_lt_iff_lt_mul hp1, Nat.mul_comm, ← hw]; exact hl
    have e1 : (high * 2 ^ w + low) / 2 ^ shift = high * 2 ^ (w - shift) + low / 2 ^ shift := by
      rw [hw, Nat.mul_left_comm, Nat.mul_add_div hp1]
    have e2 : high * 2 ^ (w - shift) % 2 ^ w = (high % 2 ^ shift) * 2 ^ (w - shift) := by
      rw [hw, Nat.mul_mod_mul_right]
    rw [e1, e2, Nat.or_comm, ← Nat.mul_comm (2 ^ (w - shift)), ← Nat.two_pow_add_eq_or_of_lt hlow]
    have hlt2 : low / 2 ^ shift < 2 ^ w :=
      Nat.lt_of_lt_of_le hlow (Nat.pow_le_pow_right (by omega) (by omega))
    have hlt3 : 2 ^ (w - shift) * (high % 2 ^ shift) + low / 2 ^ shift < 2 ^ w := by
      have : (high % 2 ^ shift + 1) * 2 ^ (w - shift) ≤ 2 ^ shift * 2 ^ (w - shift) :=
        Nat.mul_le_mul_right _ (Nat.mod_lt _ hp1)
      rw [← hw, Nat.add_mul, Nat.mul_comm (high % 2 ^ shift)] at this
      omega
    rw [Nat.add_mod, e2, Nat.mod_eq_of_lt hlt2, Nat.mul_comm (high % 2 ^ shift), Nat.mod_eq_of_lt hlt3]

/-- C69, unsigned: for all operands and every shift below twice the width the result is the exact product shifted
right and truncated to the width (on hardware where an oversized shift produces some value). -/
theorem C69_unsigned (h x y shift junk : Nat) (hh : 2 ≤ h) (hx : x < 2 ^ (2 * h)) (hy : y < 2 ^ (2 * h))
    (hs : shift < 2 * (2 * h)) :
    mulExtractU h (some junk) x y shift = some (x * y / 2 ^ shift % 2 ^ (2 * h)) := by
  obtain ⟨e, h1, h2⟩ := mulWords_spec h x y hh hx hy
  unfold mulExtractU
  generalize mulWords h x y = hl at *
  obtain ⟨high, low⟩ := hl
  simp only at *
  by_cases hc : shift ≥ 2 * h
  · rw [if_pos hc, if_pos (by omega)]
    congr 1
    have hp := Nat.two_pow_pos (2 * h)
    have e1 : 2 ^ shift = 2 ^ (2 * h) * 2 ^ (shift - 2 * h) := by rw [← Nat.pow_add]; congr 1; omega
    rw [Nat.shiftRight_eq_div_pow, ← e, e1, ← Nat.div_div_eq_div_mul, Nat.mul_comm high, Nat.mul_add_div hp,
      Nat.div_eq_of_lt h2, Nat.add_zero, Nat.mod_eq_of_lt]
    exact Nat.lt_of_le_of_lt (Nat.div_le_self _ _) h1
  · rw [if_neg hc, extractLow_spec _ _ _ _ _ (by omega) h2, e]

theorem bssAbs_spec (w : Nat) (x : Int) (hlo : -2 ^ (w - 1) < x) : bssAbs w x = some x.natAbs := by
  unfold bssAbs
  split
  · next h => rw [if_neg (by omega)]; congr 1; omega
  · next h => congr 1; omega

theorem negWords_spec (w high low : Nat) (h1 : high < 2 ^ w) (h2 : low < 2 ^ w) :
    let r := negWords w (high, low)
    r.1 < 2 ^ w ∧ r.2 < 2 ^ w ∧
    ∃ k : Int, ((r.1 * 2 ^ w + r.2 : Nat) : Int) = -((high * 2 ^ w + low : Nat) : Int) + k * (2 ^ w * 2 ^ w : Nat) := by
  unfold negWords
  simp only
  have hp := Nat.two_pow_pos w
  refine ⟨Nat.mod_lt _ hp, Nat.mod_lt _ hp, ?_⟩
  generalize 2 ^ w = W at *
  by_cases h0 : low = 0
  · subst h0
    rw [if_pos rfl, show W - 1 - 0 + 1 = W by omega, Nat.mod_self]
    by_cases h3 : high = 0
    · subst h3
      refine ⟨0, ?_⟩
      rw [show W - 1 - 0 + 1 = W by omega, Nat.mod_self]; simp
    · refine ⟨1, ?_⟩
      rw [Nat.mod_eq_of_lt (by omega)]
      have : W - 1 - high + 1 = W - high := by omega
      rw [this]
      push_cast [Nat.cast_sub (Nat.le_of_lt h1)]
      ring
  · refine ⟨1, ?_⟩
    rw [if_neg h0, Nat.add_zero, Nat.mod_eq_of_lt (by omega), Nat.mod_eq_of_lt (a := W - 1 - low + 1) (by omega)]
    have e1 : ((W - 1 - high : Nat) : Int) = W - 1 - high := by omega
    have e2 : ((W - 1 - low + 1 : Nat) : Int) = W - low := by omega
    push_cast
    rw [e1]
    have e2' : ((W - 1 - low : Nat) : Int) + 1 = W - low := by omega
    rw [e2']
    ring

/-- Dividing a double word congruent to `P` by `2^s` (`s ≤ w`) gives the low word of `⌊P / 2^s⌋`. -/
theorem div_congr (w s : Nat) (V : Nat) (P k : Int) (hs : s ≤ w) (hV : (V : Int) = P + k * (2 ^ w * 2 ^ w : Nat)) :
    Int.bmod ((V / 2 ^ s % 2 ^ w : Nat) : Int) (2 ^ w) = Int.bmod (P / (2 ^ s : Nat)) (2 ^ w) := by
  have hp : (0 : Int) < (2 ^ s : Nat) := by exact_mod_cast Nat.two_pow_pos s
  rw [Int.natCast_mod, Int.emod_bmod, Int.natCast_div, hV]
  have e : k * ((2 ^ w * 2 ^ w : Nat) : Int) = (2 ^ s : Nat) * ((2 ^ w : Nat) * (k * (2 ^ (w - s) : Nat))) := by
    have : (2 ^ w * 2 ^ w : Nat) = 2 ^ s * (2 ^ w * 2 ^ (w - s)) := by
      rw [Nat.mul_left_comm, ← Nat.pow_add (a := 2) (m := s), show s + (w - s) = w by omega]
    rw [this]; push_cast; ring
  rw [e, Int.add_mul_ediv_left _ _ (by omega), Int.add_mul_bmod_self_left]

theorem words_extract (w : Nat) (hl : Nat × Nat) (P k : Int) (shift junk : Nat) (hw : 0 < w) (h1 : hl.1 < 2 ^ w) (h2 : hl.2 < 2 ^ w)
    (hV : ((hl.1 * 2 ^ w + hl.2 : Nat) : Int) = P + k * (2 ^ w * 2 ^ w : Nat))
    (hP1 : -(2 ^ (w - 1) * 2 ^ (w - 1) : Nat) ≤ P) (hP2 : P ≤ (2 ^ (w - 1) * 2 ^ (w - 1) : Nat)) (hs : shift < 2 * w) :
    (if shift ≥ w then
      if shift - w < w then some (Int.fdiv (toSigned w hl.1) (2 ^ (shift - w))) else none
      else (extractLow w (some junk) hl.1 hl.2 shift).map (toSigned w)) =
      some (Int.bmod (P / (2 ^ shift : Nat)) (2 ^ w)) := by
  by_cases hc : shift ≥ w
  · rw [if_pos hc, if_pos (by omega)]
    congr 1
    have hW : (2 ^ w : Nat) = 2 * 2 ^ (w - 1) := by rw [← Nat.pow_succ']; congr 1; omega
    have hp := Nat.two_pow_pos (w - 1)
    have hpw := Nat.two_pow_pos w
    -- the high word is `⌊P / 2^w⌋`
    have e0 := div_congr w w _ P k (Nat.le_refl _) hV
    have e1 : (hl.1 * 2 ^ w + hl.2) / 2 ^ w % 2 ^ w = hl.1 := by
      rw [Nat.mul_comm, Nat.mul_add_div hpw, Nat.div_eq_of_lt h2, Nat.add_zero, Nat.mod_eq_of_lt h1]
    rw [e1] at e0
    have range : ∀ Q : Int, -(2 ^ (w - 1) : Nat) ≤ Q → Q < (2 ^ (w - 1) : Nat) → Int.bmod Q (2 ^ w) = Q := by
      intro Q hq1 hq2
      apply Int.bmod_eq_of_le <;> rw [hW] <;> push_cast <;> push_cast at hq1 hq2 <;> omega
    have b1 : -(2 ^ (w - 1) : Nat) ≤ P / (2 ^ w : Nat) := by
      rw [Int.le_ediv_iff_mul_le (by exact_mod_cast hpw)]
      have : ((2 ^ (w - 1) : Nat) : Int) * (2 ^ w : Nat) = 2 * (2 ^ (w - 1) * 2 ^ (w - 1) : Nat) := by
        rw [hW]; push_cast; ring
      have hnn : (0 : Int) ≤ (2 ^ (w - 1) * 2 ^ (w - 1) : Nat) := Int.natCast_nonneg _
      rw [Int.neg_mul, this]
      linarith
    have b2 : P / (2 ^ w : Nat) < (2 ^ (w - 1) : Nat) := by
      rw [Int.ediv_lt_iff_lt_mul (by exact_mod_cast hpw)]
      have : ((2 ^ (w - 1) : Nat) : Int) * (2 ^ w : Nat) = 2 * (2 ^ (w - 1) * 2 ^ (w - 1) : Nat) := by
        rw [hW]; push_cast; ring
      have hnn : (0 : Int) < (2 ^ (w - 1) * 2 ^ (w - 1) : Nat) := by exact_mod_cast Nat.mul_pos hp hp
      rw [this]
      linarith
    have e2 : toSigned w hl.1 = P / (2 ^ w : Nat) := by
      unfold toSigned
      rw [e0, range _ b1 b2]
    have hpos : (0 : Int) < 2 ^ (shift - w) := by positivity
    have e3 : ((2 ^ shift : Nat) : Int) = (2 ^ w : Nat) * (2 ^ (shift - w)) := by
      have : (2 ^ shift : Nat) = 2 ^ w * 2 ^ (shift - w) := by rw [← Nat.pow_add]; congr 1; omega
      rw [this]; push_cast; rfl
    rw [e2, Int.fdiv_eq_ediv_of_nonneg _ (le_of_lt hpos), e3, ← Int.ediv_ediv_of_nonneg (by exact_mod_cast Nat.zero_le _)]
    symm
    generalize P / ((2 ^ w : Nat) : Int) = Q at *
    apply range
    · rw [Int.le_ediv_iff_mul_le hpos]
      have : (1 : Int) ≤ 2 ^ (shift - w) := hpos
      nlinarith [Int.natCast_nonneg (2 ^ (w - 1))]
    · rw [Int.ediv_lt_iff_lt_mul hpos]
      have : (1 : Int) ≤ 2 ^ (shift - w) := hpos
      nlinarith [Int.natCast_nonneg (2 ^ (w - 1))]
  · rw [if_neg hc, extractLow_spec _ _ _ _ _ (by omega) h2, Option.map_some]
    congr 1
    exact div_congr w shift _ P k (by omega) hV

/-- C69, signed: for all operands except the most negative value and every shift below twice the width, the
result is `⌊x·y / 2^shift⌋` truncated to the width (two's complement). -/
theorem C69_signed_partial (h : Nat) (x y : Int) (shift junk : Nat) (hh : 2 ≤ h)
    (hx1 : -2 ^ (2 * h - 1) < x) (hx2 : x < 2 ^ (2 * h - 1)) (hy1 : -2 ^ (2 * h - 1) < y) (hy2 : y < 2 ^ (2 * h - 1))
    (hs : shift < 2 * (2 * h)) :
    mulExtractS h (some junk) x y shift = some (Int.bmod (x * y / (2 ^ shift : Nat)) (2 ^ (2 * h))) := by
  have ax : x.natAbs < 2 ^ (2 * h - 1) := by
    have : (x.natAbs : Int) < ((2 ^ (2 * h - 1) : Nat) : Int) := by
      rw [Nat.cast_pow]; generalize ((2 : Nat) : Int) ^ (2 * h - 1) = Z at *; omega
    exact_mod_cast this
  have ay : y.natAbs < 2 ^ (2 * h - 1) := by
    have : (y.natAbs : Int) < ((2 ^ (2 * h - 1) : Nat) : Int) := by
      rw [Nat.cast_pow]; generalize ((2 : Nat) : Int) ^ (2 * h - 1) = Z at *; omega
    exact_mod_cast this
  have hlt : 2 ^ (2 * h - 1) < 2 ^ (2 * h) := Nat.pow_lt_pow_right (by omega) (by omega)
  obtain ⟨e, h1, h2⟩ := mulWords_spec h x.natAbs y.natAbs hh (by omega) (by omega)
  have habs : x.natAbs * y.natAbs ≤ 2 ^ (2 * h - 1) * 2 ^ (2 * h - 1) := Nat.mul_le_mul (by omega) (by omega)
  have hPabs : (x * y).natAbs ≤ 2 ^ (2 * h - 1) * 2 ^ (2 * h - 1) := by rw [Int.natAbs_mul]; exact habs
  have hP1 : -((2 ^ (2 * h - 1) * 2 ^ (2 * h - 1) : Nat) : Int) ≤ x * y := by omega
  have hP2 : x * y ≤ ((2 ^ (2 * h - 1) * 2 ^ (2 * h - 1) : Nat) : Int) := by omega
  unfold mulExtractS
  simp only [bssAbs_spec _ x hx1, bssAbs_spec _ y hy1, Option.bind_eq_bind, Option.bind_some]
  generalize mulWords h x.natAbs y.natAbs = hl at *
  by_cases hneg : (decide (x < 0)) != (decide (y < 0))
  · rw [if_pos hneg]
    obtain ⟨n1, n2, k, hk⟩ := negWords_spec (2 * h) hl.1 hl.2 h1 h2
    have hP : x * y = -((hl.1 * 2 ^ (2 * h) + hl.2 : Nat) : Int) := by
      rw [e]; push_cast
      by_cases hx0 : x < 0
      · have hy0 : ¬ y < 0 := by simpa [hx0] using hneg
        have a1 : |x| = -x := abs_of_neg hx0
        have a2 : |y| = y := abs_of_nonneg (by omega)
        rw [a1, a2]; ring
      · have hy0 : y < 0 := by simpa [hx0] using hneg
        have a1 : |x| = x := abs_of_nonneg (by omega)
        have a2 : |y| = -y := abs_of_neg hy0
        rw [a1, a2]; ring
    exact words_extract (2 * h) _ (x * y) k shift junk (by omega) n1 n2 (by rw [hP]; exact hk) hP1 hP2 hs
  · rw [if_neg hneg]
    have hP : x * y = ((hl.1 * 2 ^ (2 * h) + hl.2 : Nat) : Int) := by
      rw [e]; push_cast
      by_cases hx0 : x < 0
      · have hy0 : y < 0 := by simpa [hx0] using hneg
        have a1 : |x| = -x := abs_of_neg hx0
        have a2 : |y| = -y := abs_of_neg hy0
        rw [a1, a2]; ring
      · have hy0 : ¬ y < 0 := by simpa [hx0] using hneg
        have a1 : |x| = x := abs_of_nonneg (by omega)
        have a2 : |y| = y := abs_of_nonneg (by omega)
        rw [a1, a2]
    exact words_extract (2 * h) _ (x * y) 0 shift junk (by omega) h1 h2 (by rw [hP]; simp) hP1 hP2 hs

/-- C69: with a double-width type the result is right for every pair of operands of the type. -/
theorem C69_wide (w : Nat) (x y : Int) (shift : Nat) (hw : 0 < w)
    (hx1 : -2 ^ (w - 1) ≤ x) (hx2 : x < 2 ^ (w - 1)) (hy1 : -2 ^ (w - 1) ≤ y) (hy2 : y < 2 ^ (w - 1)) (hs : shift < 2 * w) :
    mulExtractWide w x y shift = some (Int.bmod (x * y / (2 ^ shift : Nat)) (2 ^ w)) := by
  unfold mulExtractWide
  have hpos : (0 : Int) < 2 ^ (w - 1) := by positivity
  have e : (2 : Int) ^ (2 * w - 1) = 2 * (2 ^ (w - 1) * 2 ^ (w - 1)) := by
    rw [← pow_add, ← pow_succ']; congr 1; omega
  have h1 : -2 ^ (2 * w - 1) ≤ x * y := by rw [e]; nlinarith
  have h2 : x * y < 2 ^ (2 * w - 1) := by rw [e]; nlinarith
  rw [if_pos ⟨hs, h1, h2⟩, Int.fdiv_eq_ediv_of_nonneg _ (by positivity)]
  push_cast
  rfl

/-- C69 fails for the most negative operand of the fallback version: the absolute value overflows (undefined). -/
theorem C69_min_counterexample : mulExtractS 32 (some 0) (-2 ^ 63) 3 0 = none := by decide +kernel

/-- C69, strict reading of the language: at `shift = 0` the fallback version shifts a 64-bit word by 64. -/
theorem C69_shift0_counterexample : mulExtractU 32 none 5 7 0 = none ∧ mulExtractS 32 none 5 7 0 = none := by decide +kernel

example : mulExtractS 32 (some 0) (-3) (2 ^ 62 + 1) 64 = some (-1) ∧ mulExtractS 32 (some 77) (-3) 5 0 = some (-15) := by
  decide +kernel

end Verif.Arith
