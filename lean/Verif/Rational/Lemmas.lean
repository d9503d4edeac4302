import Verif.Rational.Model
import Mathlib.Data.Int.GCD
import Mathlib.RingTheory.Coprime.Lemmas
import Mathlib.Data.Rat.Defs
import Mathlib.Algebra.Order.Field.Rat
import Mathlib.Tactic.FieldSimp
import Mathlib.Tactic.Ring
import Mathlib.Tactic.Linarith

namespace Verif.Rational

theorem chk_some {B x y : Int} : chk B x = some y ↔ y = x ∧ -B ≤ x ∧ x < B := by
  unfold chk; split <;> simp [*, eq_comm]

theorem cdiv_some {B a b y : Int} : cdiv B a b = some y ↔ b ≠ 0 ∧ y = a.tdiv b ∧ -B ≤ a.tdiv b ∧ a.tdiv b < B := by
  unfold cdiv; split
  · simp [*]
  · rw [chk_some]; simp [*]

theorem cabs_some {B a y : Int} : cabs B a = some y ↔ y = a.natAbs ∧ (a.natAbs : Int) < B := by
  unfold cabs
  rw [chk_some]
  split <;> constructor <;> rintro ⟨h1, h2⟩ <;> omega

theorem gcdLoop_eq : ∀ (f : Nat) (a b : Nat), b < f → b ≤ a → gcdLoop f a b = some ((Nat.gcd a b : Nat) : Int) := by
  intro f
  induction f with
  | zero => intro a b h; omega
  | succ f ih =>
    intro a b h1 h2
    unfold gcdLoop
    by_cases hb : b > 1
    · rw [if_pos (by exact_mod_cast hb)]
      have : (a : Int).tmod b = ((a % b : Nat) : Int) := by
        rw [Int.tmod_eq_emod_of_nonneg (by omega)]; rfl
      rw [this, ih b (a % b) (by have := Nat.mod_lt a (show 0 < b by omega); omega) (Nat.mod_lt a (by omega)).le]
      rw [Nat.gcd_comm b, ← Nat.gcd_rec, Nat.gcd_comm]
    · rw [if_neg (by omega)]
      by_cases h0 : b = 0
      · subst h0; simp
      · have : b = 1 := by omega
        subst this; simp

theorem gcd_some {B a b g : Int} (h : gcd B a b = some g) : g = Int.gcd a b := by
  unfold gcd at h
  simp only [Option.bind_eq_some_iff, cabs_some] at h
  obtain ⟨x, ⟨rfl, _⟩, y, ⟨rfl, _⟩, h⟩ := h
  split at h
  · rw [gcdLoop_eq _ _ _ (by omega) (by omega)] at h
    cases h
    rw [Nat.gcd_comm]; rfl
  · rw [gcdLoop_eq _ _ _ (by omega) (by omega)] at h
    cases h
    rfl

theorem gcd_def {B a b : Int} (ha : (a.natAbs : Int) < B) (hb : (b.natAbs : Int) < B) : gcd B a b = some ((Int.gcd a b : Nat) : Int) := by
  unfold gcd
  rw [cabs_some.2 ⟨rfl, ha⟩, Option.bind_some, cabs_some.2 ⟨rfl, hb⟩, Option.bind_some]
  split
  · rw [gcdLoop_eq _ _ _ (by omega) (by omega), Nat.gcd_comm]; rfl
  · rw [gcdLoop_eq _ _ _ (by omega) (by omega)]; rfl

/-- Exact truncating division. -/
theorem tdiv_mul {g x : Int} (hg : g ≠ 0) : (g * x).tdiv g = x := Int.mul_tdiv_cancel_left x hg

theorem val_ne {d : Int} (h : d ≠ 0) : (d : ℚ) ≠ 0 := by exact_mod_cast h

theorem gcd_dvd {a b : Int} {g : Int} (h : g = Int.gcd a b) : (∃ x, a = g * x) ∧ (∃ y, b = g * y) := by
  subst h
  exact ⟨Int.gcd_dvd_left _ _, Int.gcd_dvd_right _ _⟩

/-- The cofactors of the greatest common divisor are coprime. -/
theorem cofactor {g x y : Int} (hg : g ≠ 0) (h : g = Int.gcd (g * x) (g * y)) : Int.gcd x y = 1 := by
  rw [Int.gcd_mul_left] at h
  have hpos : 0 ≤ g := by rw [h]; positivity
  have : g.natAbs * 1 = g.natAbs * Int.gcd x y := by omega
  exact (Nat.eq_of_mul_eq_mul_left (by omega) this).symm

/-- Core of `+=` and `-=`: the sum `N = n1 y ± n2 x` over `g x y`. -/
theorem sum_coprime {n1 d1 n2 d2 g x y N g2 N' z : Int} (h1 : Int.gcd n1 d1 = 1) (h2 : Int.gcd n2 d2 = 1)
    (hd1 : d1 = g * x) (hd2 : d2 = g * y) (hxy : Int.gcd x y = 1)
    (hN : N = n1 * y + n2 * x ∨ N = n1 * y - n2 * x) (hg2 : g2 = Int.gcd N g) (hN' : N = g2 * N') (hz : d2 = g2 * z)
    (hg20 : g2 ≠ 0) : Int.gcd N' (x * z) = 1 := by
  have c1 : Int.gcd n1 x = 1 := by
    rw [hd1, mul_comm] at h1
    exact Int.isCoprime_iff_gcd_eq_one.1 ((Int.isCoprime_iff_gcd_eq_one.2 h1).of_mul_right_left)
  have c2 : Int.gcd n2 y = 1 := by
    rw [hd2, mul_comm] at h2
    exact Int.isCoprime_iff_gcd_eq_one.1 ((Int.isCoprime_iff_gcd_eq_one.2 h2).of_mul_right_left)
  have hx : IsCoprime N x := by
    have : IsCoprime (n1 * y) x :=
      (Int.isCoprime_iff_gcd_eq_one.2 c1).mul_left (Int.isCoprime_iff_gcd_eq_one.2 hxy).symm
    rcases hN with h | h
    · rw [h]; exact IsCoprime.add_mul_right_left this n2
    · rw [h, sub_eq_add_neg, ← neg_mul]; exact IsCoprime.add_mul_right_left this (-n2)
  have hy : IsCoprime N y := by
    have : IsCoprime (n2 * x) y :=
      (Int.isCoprime_iff_gcd_eq_one.2 c2).mul_left (Int.isCoprime_iff_gcd_eq_one.2 hxy)
    rcases hN with h | h
    · rw [h, add_comm]; exact IsCoprime.add_mul_right_left this n1
    · rw [h, sub_eq_add_neg, add_comm]; exact IsCoprime.add_mul_right_left this.neg_left n1
  have e1 : Int.gcd N (x * (g * y)) = Int.gcd N g := by
    rw [Int.gcd_mul_right_right_of_gcd_eq_one (Int.isCoprime_iff_gcd_eq_one.1 hx),
      Int.gcd_mul_left_right_of_gcd_eq_one (Int.isCoprime_iff_gcd_eq_one.1 hy)]
  rw [← hd2, hz] at e1
  have e2 : Int.gcd (g2 * N') (g2 * (x * z)) = Int.gcd N g := by
    rw [← hN', ← e1]; congr 1; ring
  rw [Int.gcd_mul_left] at e2
  have : g2.natAbs * Int.gcd N' (x * z) = g2.natAbs * 1 := by omega
  exact Nat.eq_of_mul_eq_mul_left (by omega) this

theorem chk_def {B x : Int} (h : (x.natAbs : Int) < B) : chk B x = some x := chk_some.2 ⟨rfl, by omega, by omega⟩

theorem natAbs_tdiv_le (a b : Int) : (a.tdiv b).natAbs ≤ a.natAbs := by
  rw [Int.natAbs_tdiv]; exact Nat.div_le_self _ _

theorem cdiv_def {B a b : Int} (hb : b ≠ 0) (h : (a.natAbs : Int) < B) : cdiv B a b = some (a.tdiv b) := by
  have := natAbs_tdiv_le a b
  exact cdiv_some.2 ⟨hb, rfl, by omega, by omega⟩

theorem fixSign_def {B n d : Int} (h1 : (n.natAbs : Int) < B) (h2 : (d.natAbs : Int) < B) : ∃ r, fixSign B n d = some r := by
  unfold fixSign
  split
  · rw [chk_def (by omega), Option.bind_some, chk_def (by omega)]; exact ⟨_, rfl⟩
  · exact ⟨_, rfl⟩

theorem fixSign_some {B n d : Int} {r : Q} (h : fixSign B n d = some r) :
    (d < 0 ∧ r = ⟨-n, -d⟩) ∨ (0 ≤ d ∧ r = ⟨n, d⟩) := by
  unfold fixSign at h
  split at h
  · simp only [Option.bind_eq_some_iff, Option.map_eq_some_iff, chk_some] at h
    obtain ⟨d', ⟨rfl, _⟩, n', ⟨rfl, _⟩, rfl⟩ := h
    exact Or.inl ⟨by assumption, rfl⟩
  · cases h
    exact Or.inr ⟨by omega, rfl⟩

end Verif.Rational
