import Verif.Rational.Lemmas
import Mathlib.Tactic.LinearCombination
import Mathlib.Algebra.Order.Field.Basic

/-!
# C29, C30, C78: rational numbers

Specification: the rational number `n / d` in Mathlib's `ℚ`, and lowest terms.
-/

namespace Verif.Rational

/-- The number represented. -/
def val (r : Q) : ℚ := (r.n : ℚ) / (r.d : ℚ)

/-- Lowest terms with a positive denominator. -/
def Canon (r : Q) : Prop := 0 < r.d ∧ Int.gcd r.n r.d = 1

theorem cop {a b : Int} : IsCoprime a b ↔ Int.gcd a b = 1 := Int.isCoprime_iff_gcd_eq_one

theorem gcd_pos {a b g : Int} (h : g = Int.gcd a b) (hg : g ≠ 0) : 0 < g := by
  have : (0 : Int) ≤ g := by rw [h]; exact Int.natCast_nonneg _
  omega

/-- The common part of addition and subtraction. -/
theorem sum_core {B n1 d1 n2 d2 N g d t g2 n u : Int} {a b c : Q} (ha : Canon a) (hb : Canon b) (e1 : n1 = a.n) (e2 : d1 = a.d)
    (e3 : n2 = b.n) (e4 : d2 = b.d) (hg : gcd B d1 d2 = some g) (hd : cdiv B d1 g = some d) (ht : cdiv B d2 g = some t)
    (hN : N = n1 * t + n2 * d ∨ N = n1 * t - n2 * d) (hg2 : gcd B N g = some g2) (hn : cdiv B N g2 = some n)
    (hu : cdiv B d2 g2 = some u) (hc : c = ⟨n, d * u⟩) :
    Canon c ∧ ((N = n1 * t + n2 * d → val c = val a + val b) ∧ (N = n1 * t - n2 * d → val c = val a - val b)) := by
  have hg' := gcd_some hg
  have hg2' := gcd_some hg2
  obtain ⟨hg0, rfl, _⟩ := cdiv_some.1 hd
  obtain ⟨_, rfl, _⟩ := cdiv_some.1 ht
  obtain ⟨hg20, rfl, _⟩ := cdiv_some.1 hn
  obtain ⟨_, rfl, _⟩ := cdiv_some.1 hu
  obtain ⟨⟨x, hx⟩, ⟨y, hy⟩⟩ := gcd_dvd hg'
  obtain ⟨⟨N', hN'⟩, ⟨z, hz⟩⟩ := gcd_dvd hg2'
  have hgp := gcd_pos hg' hg0
  have hg2p := gcd_pos hg2' hg20
  have hdz : d2 = g2 * (z * y) := by rw [hy]; conv_lhs => rw [hz]
                                     ring
  have ed : d1.tdiv g = x := by rw [hx]; exact tdiv_mul hg0
  have et : d2.tdiv g = y := by rw [hy]; exact tdiv_mul hg0
  have en : N.tdiv g2 = N' := by conv_lhs => rw [hN']
                                 exact tdiv_mul hg20
  have eu : d2.tdiv g2 = z * y := by rw [hdz]; exact tdiv_mul hg20
  rw [ed, et] at hN
  rw [en, ed, eu] at hc
  rw [ed, et]
  have hd1p : 0 < d1 := by rw [e2]; exact ha.1
  have hd2p : 0 < d2 := by rw [e4]; exact hb.1
  have hxp : 0 < x := by rw [hx] at hd1p; exact pos_of_mul_pos_right hd1p hgp.le
  have hzyp : 0 < z * y := by rw [hdz] at hd2p; exact pos_of_mul_pos_right hd2p hg2p.le
  have hyp : 0 < y := by rw [hy] at hd2p; exact pos_of_mul_pos_right hd2p hgp.le
  have hxy : Int.gcd x y = 1 := cofactor hg0 (by rw [← hx, ← hy]; exact hg')
  have hcop := sum_coprime (by rw [e1, e2]; exact ha.2 : Int.gcd n1 d1 = 1) (by rw [e3, e4]; exact hb.2 : Int.gcd n2 d2 = 1)
    hx hy hxy hN hg2' hN' hdz hg20
  subst hc
  refine ⟨⟨mul_pos hxp hzyp, hcop⟩, ?_⟩
  have qg := val_ne hg0
  have qg2 := val_ne hg20
  have qx := val_ne hxp.ne'
  have qy := val_ne hyp.ne'
  have qzy := val_ne hzyp.ne'
  have qz : (z : ℚ) ≠ 0 := by
    intro h; apply qzy; push_cast; rw [h]; ring
  have hzq : (g : ℚ) = g2 * z := by exact_mod_cast hz
  constructor
  · intro h
    have hq : (g2 : ℚ) * N' = n1 * y + n2 * x := by rw [hN'] at h; exact_mod_cast h
    simp only [val, ← e1, ← e2, ← e3, ← e4]
    rw [hx, hy]
    push_cast
    rw [hzq] at qg ⊢
    field_simp
    linear_combination hq
  · intro h
    have hq : (g2 : ℚ) * N' = n1 * y - n2 * x := by rw [hN'] at h; exact_mod_cast h
    simp only [val, ← e1, ← e2, ← e3, ← e4]
    rw [hx, hy]
    push_cast
    rw [hzq] at qg ⊢
    field_simp
    linear_combination hq

theorem add_ok {B : Int} {a b c : Q} (ha : Canon a) (hb : Canon b) (h : add B a b = some c) : Canon c ∧ val c = val a + val b := by
  unfold add at h
  simp only [Option.bind_eq_some_iff, Option.map_eq_some_iff, chk_some] at h
  obtain ⟨g, hg, d, hd, t, ht, p, ⟨rfl, _⟩, q, ⟨rfl, _⟩, N, ⟨rfl, _⟩, g2, hg2, n, hn, u, hu, d', ⟨rfl, _⟩, rfl⟩ := h
  obtain ⟨h1, h2, _⟩ := sum_core ha hb rfl rfl rfl rfl hg hd ht (Or.inl rfl) hg2 hn hu rfl
  exact ⟨h1, h2 rfl⟩

theorem sub_ok {B : Int} {a b c : Q} (ha : Canon a) (hb : Canon b) (h : sub B a b = some c) : Canon c ∧ val c = val a - val b := by
  unfold sub at h
  simp only [Option.bind_eq_some_iff, Option.map_eq_some_iff, chk_some] at h
  obtain ⟨g, hg, d, hd, t, ht, p, ⟨rfl, _⟩, q, ⟨rfl, _⟩, N, ⟨rfl, _⟩, g2, hg2, n, hn, u, hu, d', ⟨rfl, _⟩, rfl⟩ := h
  obtain ⟨h1, _, h2⟩ := sum_core ha hb rfl rfl rfl rfl hg hd ht (Or.inr rfl) hg2 hn hu rfl
  exact ⟨h1, h2 rfl⟩

theorem prod_coprime {x y z w g1 g2 : Int} (h1 : Int.gcd (g1 * x) (g2 * z) = 1) (h2 : Int.gcd (g2 * y) (g1 * w) = 1)
    (hxw : Int.gcd x w = 1) (hyz : Int.gcd y z = 1) : Int.gcd (x * y) (z * w) = 1 := by
  have a1 : IsCoprime x z := (cop.2 h1).of_mul_left_right.of_mul_right_right
  have a2 : IsCoprime y w := (cop.2 h2).of_mul_left_right.of_mul_right_right
  have := IsCoprime.mul_left (a1.mul_right (cop.2 hxw)) ((cop.2 hyz).mul_right a2)
  exact cop.1 this

theorem mul_ok {B : Int} {a b c : Q} (ha : Canon a) (hb : Canon b) (h : mul B a b = some c) : Canon c ∧ val c = val a * val b := by
  unfold mul at h
  simp only [Option.bind_eq_some_iff, Option.map_eq_some_iff, chk_some] at h
  obtain ⟨g1, hg1, g2, hg2, x, hx, y, hy, _, ⟨rfl, _⟩, z, hz, w, hw, _, ⟨rfl, _⟩, rfl⟩ := h
  have hg1' := gcd_some hg1
  have hg2' := gcd_some hg2
  obtain ⟨hg10, rfl, _⟩ := cdiv_some.1 hx
  obtain ⟨hg20, rfl, _⟩ := cdiv_some.1 hy
  obtain ⟨_, rfl, _⟩ := cdiv_some.1 hz
  obtain ⟨_, rfl, _⟩ := cdiv_some.1 hw
  obtain ⟨⟨x, hx⟩, ⟨w, hw⟩⟩ := gcd_dvd hg1'
  obtain ⟨⟨y, hy⟩, ⟨z, hz⟩⟩ := gcd_dvd hg2'
  have hgp := gcd_pos hg1' hg10
  have hg2p := gcd_pos hg2' hg20
  rw [show a.n.tdiv g1 = x by rw [hx]; exact tdiv_mul hg10, show b.n.tdiv g2 = y by rw [hy]; exact tdiv_mul hg20,
    show a.d.tdiv g2 = z by rw [hz]; exact tdiv_mul hg20, show b.d.tdiv g1 = w by rw [hw]; exact tdiv_mul hg10]
  have hzp : 0 < z := by have := ha.1; rw [hz] at this; exact pos_of_mul_pos_right this hg2p.le
  have hwp : 0 < w := by have := hb.1; rw [hw] at this; exact pos_of_mul_pos_right this hgp.le
  refine ⟨⟨mul_pos hzp hwp, ?_⟩, ?_⟩
  · exact prod_coprime (by rw [← hx, ← hz]; exact ha.2) (by rw [← hy, ← hw]; exact hb.2)
      (cofactor hg10 (by rw [← hx, ← hw]; exact hg1')) (cofactor hg20 (by rw [← hy, ← hz]; exact hg2'))
  · have q1 := val_ne hg10
    have q2 := val_ne hg20
    have q3 := val_ne hzp.ne'
    have q4 := val_ne hwp.ne'
    simp only [val]
    rw [hx, hy, hz, hw]
    push_cast
    field_simp

/-- Making the denominator positive changes neither the value nor coprimality. -/
theorem fixSign_ok {B n d : Int} {r : Q} (hd : d ≠ 0) (hc : Int.gcd n d = 1) (h : fixSign B n d = some r) :
    Canon r ∧ val r = (n : ℚ) / d := by
  rcases fixSign_some h with ⟨h1, rfl⟩ | ⟨h1, rfl⟩
  · refine ⟨⟨by show 0 < -d; omega, by simpa using hc⟩, ?_⟩
    simp [val]
  · exact ⟨⟨by show 0 < d; omega, hc⟩, rfl⟩

theorem canon_zero {a : Q} (ha : Canon a) (h : a.n = 0) : a.d = 1 := by
  have h1 := ha.1
  have h2 := ha.2
  rw [h] at h2
  simp at h2
  omega

theorem div_ok {B : Int} {a b c : Q} (ha : Canon a) (hb : Canon b) (hb0 : b.n ≠ 0) (h : div B a b = some c) :
    Canon c ∧ val c = val a / val b := by
  unfold div at h
  split at h
  · next h0 =>
    cases h
    refine ⟨ha, ?_⟩
    simp [val, h0]
  · next h0 =>
    simp only [Option.bind_eq_some_iff, chk_some] at h
    obtain ⟨g1, hg1, g2, hg2, x, hx, y, hy, _, ⟨rfl, _⟩, z, hz, w, hw, _, ⟨rfl, _⟩, h⟩ := h
    have hg1' := gcd_some hg1
    have hg2' := gcd_some hg2
    obtain ⟨hg10, rfl, _⟩ := cdiv_some.1 hx
    obtain ⟨hg20, rfl, _⟩ := cdiv_some.1 hy
    obtain ⟨_, rfl, _⟩ := cdiv_some.1 hz
    obtain ⟨_, rfl, _⟩ := cdiv_some.1 hw
    obtain ⟨⟨x, hx⟩, ⟨w, hw⟩⟩ := gcd_dvd hg1'
    obtain ⟨⟨y, hy⟩, ⟨z, hz⟩⟩ := gcd_dvd hg2'
    have hg2p := gcd_pos hg2' hg20
    rw [show a.n.tdiv g1 = x by rw [hx]; exact tdiv_mul hg10, show b.d.tdiv g2 = y by rw [hy]; exact tdiv_mul hg20,
      show a.d.tdiv g2 = z by rw [hz]; exact tdiv_mul hg20, show b.n.tdiv g1 = w by rw [hw]; exact tdiv_mul hg10] at h
    have hzp : 0 < z := by have := ha.1; rw [hz] at this; exact pos_of_mul_pos_right this hg2p.le
    have hyp : 0 < y := by have := hb.1; rw [hy] at this; exact pos_of_mul_pos_right this hg2p.le
    have hw0 : w ≠ 0 := by rintro rfl; rw [hw] at hb0; simp at hb0
    have hcop : Int.gcd (x * y) (z * w) = 1 :=
      prod_coprime (g1 := g1) (g2 := g2) (by rw [← hx, ← hz]; exact ha.2)
        (by rw [← hy, ← hw, Int.gcd_comm]; exact hb.2)
        (cofactor hg10 (by rw [← hx, ← hw]; exact hg1')) (cofactor hg20 (by rw [← hy, ← hz]; exact hg2'))
    obtain ⟨c1, c2⟩ := fixSign_ok (mul_ne_zero hzp.ne' hw0) hcop h
    refine ⟨c1, ?_⟩
    have q1 := val_ne hg10
    have q2 := val_ne hg20
    have q3 := val_ne hzp.ne'
    have q4 := val_ne hw0
    have q5 := val_ne hyp.ne'
    rw [c2]
    simp only [val]
    rw [hx, hy, hz, hw]
    push_cast
    field_simp

theorem mk_ok {B n d : Int} {c : Q} (hd : d ≠ 0) (h : mk B n d = some c) : Canon c ∧ val c = (n : ℚ) / d := by
  unfold mk simplify at h
  split at h
  · next h0 =>
    cases h
    simp only at h0
    subst h0
    exact ⟨⟨Int.one_pos, by simp⟩, by simp [val]⟩
  · next h0 =>
    simp only [Option.bind_eq_some_iff] at h
    obtain ⟨g, hg, x, hx, y, hy, h⟩ := h
    have hg' := gcd_some hg
    obtain ⟨hg0, rfl, _⟩ := cdiv_some.1 hx
    obtain ⟨_, rfl, _⟩ := cdiv_some.1 hy
    obtain ⟨⟨x, hx⟩, ⟨y, hy⟩⟩ := gcd_dvd hg'
    rw [show n.tdiv g = x by rw [hx]; exact tdiv_mul hg0, show d.tdiv g = y by rw [hy]; exact tdiv_mul hg0] at h
    have hy0 : y ≠ 0 := by rintro rfl; rw [hy] at hd; simp at hd
    obtain ⟨c1, c2⟩ := fixSign_ok hy0 (cofactor hg0 (by rw [← hx, ← hy]; exact hg')) h
    refine ⟨c1, ?_⟩
    have q1 := val_ne hg0
    have q2 := val_ne hy0
    rw [c2, hx, hy]
    push_cast
    field_simp

theorem canon_ofInt (i : Int) : Canon (ofInt i) ∧ val (ofInt i) = i := ⟨⟨Int.one_pos, by simp [ofInt]⟩, by simp [val, ofInt]⟩

theorem shift_ok {a : Q} (ha : Canon a) (i : Int) : Canon ⟨a.n + i * a.d, a.d⟩ ∧ val ⟨a.n + i * a.d, a.d⟩ = val a + i := by
  refine ⟨⟨ha.1, ?_⟩, ?_⟩
  · exact cop.1 (IsCoprime.add_mul_right_left (cop.2 ha.2) i)
  · have := val_ne ha.1.ne'
    simp only [val]
    push_cast
    field_simp

theorem addInt_ok {B i : Int} {a c : Q} (ha : Canon a) (h : addInt B a i = some c) : Canon c ∧ val c = val a + i := by
  unfold addInt at h
  simp only [Option.bind_eq_some_iff, Option.map_eq_some_iff, chk_some] at h
  obtain ⟨_, ⟨rfl, _⟩, _, ⟨rfl, _⟩, rfl⟩ := h
  exact shift_ok ha i

theorem subInt_ok {B i : Int} {a c : Q} (ha : Canon a) (h : subInt B a i = some c) : Canon c ∧ val c = val a - i := by
  unfold subInt at h
  simp only [Option.bind_eq_some_iff, Option.map_eq_some_iff, chk_some] at h
  obtain ⟨_, ⟨rfl, _⟩, _, ⟨rfl, _⟩, rfl⟩ := h
  have := shift_ok ha (-i)
  rw [show a.n - i * a.d = a.n + -i * a.d by ring]
  refine ⟨this.1, this.2.trans ?_⟩
  push_cast; ring

theorem inc_ok {B : Int} {a c : Q} (ha : Canon a) (h : inc B a = some c) : Canon c ∧ val c = val a + 1 := by
  unfold inc at h
  simp only [Option.map_eq_some_iff, chk_some] at h
  obtain ⟨_, ⟨rfl, _⟩, rfl⟩ := h
  have := shift_ok ha 1
  rw [show a.n + a.d = a.n + 1 * a.d by ring]
  refine ⟨this.1, this.2.trans ?_⟩
  push_cast; ring

theorem dec_ok {B : Int} {a c : Q} (ha : Canon a) (h : dec B a = some c) : Canon c ∧ val c = val a - 1 := by
  unfold dec at h
  simp only [Option.map_eq_some_iff, chk_some] at h
  obtain ⟨_, ⟨rfl, _⟩, rfl⟩ := h
  have := shift_ok ha (-1)
  rw [show a.n - a.d = a.n + -1 * a.d by ring]
  refine ⟨this.1, this.2.trans ?_⟩
  push_cast; ring

theorem mulInt_ok {B i : Int} {a c : Q} (ha : Canon a) (h : mulInt B a i = some c) : Canon c ∧ val c = val a * i := by
  unfold mulInt at h
  simp only [Option.bind_eq_some_iff, Option.map_eq_some_iff, chk_some] at h
  obtain ⟨g, hg, j, hj, _, ⟨rfl, _⟩, d, hd, rfl⟩ := h
  have hg' := gcd_some hg
  obtain ⟨hg0, rfl, _⟩ := cdiv_some.1 hj
  obtain ⟨_, rfl, _⟩ := cdiv_some.1 hd
  obtain ⟨⟨x, hx⟩, ⟨y, hy⟩⟩ := gcd_dvd hg'
  have hgp := gcd_pos hg' hg0
  rw [show i.tdiv g = x by rw [hx]; exact tdiv_mul hg0, show a.d.tdiv g = y by rw [hy]; exact tdiv_mul hg0]
  have hyp : 0 < y := by have := ha.1; rw [hy] at this; exact pos_of_mul_pos_right this hgp.le
  have hc := ha.2
  rw [hy] at hc
  have a1 : IsCoprime a.n y := (cop.2 hc).of_mul_right_right
  have a2 : IsCoprime x y := cop.2 (cofactor hg0 (by rw [← hx, ← hy]; exact hg'))
  refine ⟨⟨hyp, cop.1 (a1.mul_left a2)⟩, ?_⟩
  have q1 := val_ne hg0
  have q2 := val_ne hyp.ne'
  simp only [val]
  rw [hx, hy]
  push_cast
  field_simp

theorem divInt_ok {B i : Int} {a c : Q} (ha : Canon a) (hi : i ≠ 0) (h : divInt B a i = some c) : Canon c ∧ val c = val a / i := by
  unfold divInt at h
  split at h
  · next h0 =>
    cases h
    exact ⟨ha, by simp [val, h0]⟩
  · simp only [Option.bind_eq_some_iff, chk_some] at h
    obtain ⟨g, hg, n, hn, j, hj, _, ⟨rfl, _⟩, h⟩ := h
    have hg' := gcd_some hg
    obtain ⟨hg0, rfl, _⟩ := cdiv_some.1 hn
    obtain ⟨_, rfl, _⟩ := cdiv_some.1 hj
    obtain ⟨⟨x, hx⟩, ⟨y, hy⟩⟩ := gcd_dvd hg'
    rw [show a.n.tdiv g = x by rw [hx]; exact tdiv_mul hg0, show i.tdiv g = y by rw [hy]; exact tdiv_mul hg0] at h
    have hy0 : y ≠ 0 := by rintro rfl; rw [hy] at hi; simp at hi
    have hc := ha.2
    rw [hx] at hc
    have a1 : IsCoprime x a.d := (cop.2 hc).of_mul_left_right
    have a2 : IsCoprime x y := cop.2 (cofactor hg0 (by rw [← hx, ← hy]; exact hg'))
    obtain ⟨c1, c2⟩ := fixSign_ok (mul_ne_zero ha.1.ne' hy0) (cop.1 (a1.mul_right a2)) h
    refine ⟨c1, ?_⟩
    have q1 := val_ne hg0
    have q2 := val_ne hy0
    have q3 := val_ne ha.1.ne'
    rw [c2]
    simp only [val]
    rw [hx, hy]
    push_cast
    field_simp

/-! ## C29 -/

/-- **C29**: the four operations on canonical rationals return the exact result whenever they do not overflow. -/
theorem C29_exact (B : Int) (a b c : Q) (ha : Canon a) (hb : Canon b) :
    (add B a b = some c → val c = val a + val b) ∧ (sub B a b = some c → val c = val a - val b) ∧
    (mul B a b = some c → val c = val a * val b) ∧ (b.n ≠ 0 → div B a b = some c → val c = val a / val b) :=
  ⟨fun h => (add_ok ha hb h).2, fun h => (sub_ok ha hb h).2, fun h => (mul_ok ha hb h).2, fun h0 h => (div_ok ha hb h0 h).2⟩

/-- **C29**: the same for an integer operand, on either side, and for increment and decrement. -/
theorem C29_exact_int (B i : Int) (a c : Q) (ha : Canon a) :
    (addInt B a i = some c → val c = val a + i) ∧ (subInt B a i = some c → val c = val a - i) ∧
    (mulInt B a i = some c → val c = val a * i) ∧ (i ≠ 0 → divInt B a i = some c → val c = val a / i) ∧
    (intSub B i a = some c → val c = i - val a) ∧ (a.n ≠ 0 → intDiv B i a = some c → val c = i / val a) ∧
    (inc B a = some c → val c = val a + 1) ∧ (dec B a = some c → val c = val a - 1) := by
  refine ⟨fun h => (addInt_ok ha h).2, fun h => (subInt_ok ha h).2, fun h => (mulInt_ok ha h).2,
    fun h0 h => (divInt_ok ha h0 h).2, fun h => ?_, fun h0 h => ?_, fun h => (inc_ok ha h).2, fun h => (dec_ok ha h).2⟩
  · rw [(sub_ok (canon_ofInt i).1 ha h).2, (canon_ofInt i).2]
  · rw [(div_ok (canon_ofInt i).1 ha h0 h).2, (canon_ofInt i).2]

theorem natAbs_mul_lt {x y X Y : Int} {B : Int} (h1 : (x.natAbs : Int) ≤ X) (h2 : (y.natAbs : Int) ≤ Y) (h : X * Y < B) :
    ((x * y).natAbs : Int) < B := by
  rw [Int.natAbs_mul]
  push_cast
  have a1 : (0 : Int) ≤ |x| := abs_nonneg x
  have a2 : (0 : Int) ≤ |y| := abs_nonneg y
  rw [Int.natCast_natAbs] at h1 h2
  have := mul_le_mul h1 h2 a2 (a1.trans h1)
  omega

theorem gcd_le {a b : Int} (hb : 0 < b) : 0 < (Int.gcd a b : Int) ∧ (Int.gcd a b : Int) ≤ b := by
  have h1 : 0 < Int.gcd a b := Int.gcd_pos_of_ne_zero_right _ (by omega)
  have h2 : (Int.gcd a b : Int) ≤ b := Int.le_of_dvd hb (Int.gcd_dvd_right _ _)
  omega

theorem gcd_natAbs_le {a b : Int} (hb : b ≠ 0) : 0 < (Int.gcd a b : Int) ∧ (Int.gcd a b : Int) ≤ b.natAbs := by
  have h1 : 0 < Int.gcd a b := Int.gcd_pos_of_ne_zero_right _ hb
  have h2 := Nat.le_of_dvd (by omega) (Int.gcd_dvd_natAbs_right a b)
  omega

/-- **C29**: addition and subtraction do not overflow if the textbook formula does not. -/
theorem C29_add_defined (B : Int) (a b : Q) (ha : 0 < a.d) (hb : 0 < b.d) (h1 : |a.n| * b.d + |b.n| * a.d < B) (h2 : a.d * b.d < B) :
    (add B a b).isSome ∧ (sub B a b).isSome := by
  have hna : (0 : Int) ≤ |a.n| := abs_nonneg _
  have hnb : (0 : Int) ≤ |b.n| := abs_nonneg _
  have p1 : 0 ≤ |a.n| * b.d := by positivity
  have p2 : 0 ≤ |b.n| * a.d := by positivity
  have hda : a.d < B := by nlinarith
  have hdb : b.d < B := by nlinarith
  obtain ⟨g1, g2⟩ := gcd_le (a := a.d) hb
  have hg := gcd_def (B := B) (a := a.d) (b := b.d) (by omega) (by omega)
  generalize hG : (Int.gcd a.d b.d : Int) = G at g1 g2 hg
  have hd := cdiv_def (B := B) (a := a.d) (b := G) (by omega) (by omega)
  have ht := cdiv_def (B := B) (a := b.d) (b := G) (by omega) (by omega)
  have ld := natAbs_tdiv_le a.d G
  have lt := natAbs_tdiv_le b.d G
  have hp : ((a.n * b.d.tdiv G).natAbs : Int) < |a.n| * b.d + 1 := natAbs_mul_lt (X := |a.n|) (Y := b.d) (by simp) (by omega) (by omega)
  have hq : ((b.n * a.d.tdiv G).natAbs : Int) < |b.n| * a.d + 1 := natAbs_mul_lt (X := |b.n|) (Y := a.d) (by simp) (by omega) (by omega)
  have finish : ∀ N : Int, (N.natAbs : Int) < B →
      ((gcd B N G).bind fun g => (cdiv B N g).bind fun n => (cdiv B b.d g).bind fun u =>
        (chk B (a.d.tdiv G * u)).map fun d => (⟨n, d⟩ : Q)).isSome := by
    intro N hN
    have hg' := gcd_def (B := B) (a := N) (b := G) hN (by omega)
    obtain ⟨k1, k2⟩ := gcd_le (a := N) g1
    rw [hg', Option.bind_some, cdiv_def (by omega) hN, Option.bind_some, cdiv_def (by omega) (by omega), Option.bind_some,
      chk_def (natAbs_mul_lt (X := a.d) (Y := b.d) (by omega) (by have := natAbs_tdiv_le b.d (Int.gcd N G); omega) h2)]
    rfl
  unfold add sub
  constructor <;>
  · rw [hg, Option.bind_some, hd, Option.bind_some, ht, Option.bind_some, chk_def (by omega), Option.bind_some,
      chk_def (by omega), Option.bind_some, chk_def (by omega), Option.bind_some]
    exact finish _ (by omega)

/-- **C29**: multiplication and division do not overflow if the textbook formula and the operands do not (the operands
must not be the most negative integer). -/
theorem C29_mul_defined (B : Int) (a b : Q) (ha : 0 < a.d) (hb : 0 < b.d) (h1 : |a.n| < B) (h2 : |b.n| < B) (h3 : a.d < B) (h4 : b.d < B) :
    (|a.n| * |b.n| < B → a.d * b.d < B → (mul B a b).isSome) ∧
    (b.n ≠ 0 → |a.n| * b.d < B → a.d * |b.n| < B → (div B a b).isSome) := by
  rw [← Int.natCast_natAbs] at h1 h2
  refine ⟨fun h5 h6 => ?_, fun h0 h5 h6 => ?_⟩
  · obtain ⟨k1, k2⟩ := gcd_le (a := a.n) hb
    obtain ⟨l1, l2⟩ := gcd_le (a := b.n) ha
    unfold mul
    rw [gcd_def (by omega) (by omega), Option.bind_some, gcd_def (by omega) (by omega), Option.bind_some,
      cdiv_def (by omega) (by omega), Option.bind_some, cdiv_def (by omega) (by omega), Option.bind_some,
      chk_def (natAbs_mul_lt (X := |a.n|) (Y := |b.n|) (by rw [← Int.natCast_natAbs]; exact_mod_cast natAbs_tdiv_le _ _)
        (by rw [← Int.natCast_natAbs]; exact_mod_cast natAbs_tdiv_le _ _) h5), Option.bind_some,
      cdiv_def (by omega) (by omega), Option.bind_some, cdiv_def (by omega) (by omega), Option.bind_some,
      chk_def (natAbs_mul_lt (X := a.d) (Y := b.d) (by have := natAbs_tdiv_le a.d (Int.gcd b.n a.d); omega)
        (by have := natAbs_tdiv_le b.d (Int.gcd a.n b.d); omega) h6)]
    rfl
  · unfold div
    split
    · rfl
    obtain ⟨k1, k2⟩ := gcd_natAbs_le (a := a.n) h0
    obtain ⟨l1, l2⟩ := gcd_le (a := b.d) ha
    rw [gcd_def (by omega) (by omega), Option.bind_some, gcd_def (by omega) (by omega), Option.bind_some,
      cdiv_def (by omega) (by omega), Option.bind_some, cdiv_def (by omega) (by omega), Option.bind_some]
    have e1 : ((a.n.tdiv (Int.gcd a.n b.n) * b.d.tdiv (Int.gcd b.d a.d)).natAbs : Int) < B :=
      natAbs_mul_lt (X := |a.n|) (Y := b.d) (by rw [← Int.natCast_natAbs]; exact_mod_cast natAbs_tdiv_le _ _)
        (by have := natAbs_tdiv_le b.d (Int.gcd b.d a.d); omega) h5
    have e2 : ((a.d.tdiv (Int.gcd b.d a.d) * b.n.tdiv (Int.gcd a.n b.n)).natAbs : Int) < B :=
      natAbs_mul_lt (X := a.d) (Y := |b.n|) (by have := natAbs_tdiv_le a.d (Int.gcd b.d a.d); omega)
        (by rw [← Int.natCast_natAbs]; exact_mod_cast natAbs_tdiv_le _ _) h6
    rw [chk_def e1, Option.bind_some, cdiv_def (by omega) (by omega), Option.bind_some, cdiv_def (by omega) (by omega), Option.bind_some,
      chk_def e2, Option.bind_some]
    obtain ⟨r, hr⟩ := fixSign_def e1 e2
    rw [hr]
    rfl

/-- **C29**: dividing by zero is not detected: it gives a fraction with denominator zero. -/
theorem C29_divide_by_zero_counterexample : div (2 ^ 31) ⟨3, 2⟩ ⟨0, 1⟩ = some ⟨1, 0⟩ ∧ divInt (2 ^ 31) ⟨3, 2⟩ 0 = some ⟨1, 0⟩ := by
  decide

/-! ## C30 -/

/-- **C30**: what the constructor builds is canonical and represents `n / d`. -/
theorem C30_constructor (B n d : Int) (c : Q) (hd : d ≠ 0) (h : mk B n d = some c) : Canon c ∧ val c = (n : ℚ) / d := mk_ok hd h

/-- **C30**: `Abs` gives the canonical absolute value. -/
theorem C30_abs (B : Int) (a c : Q) (ha : Canon a) (h : abs B a = some c) : Canon c ∧ val c = |val a| := by
  unfold abs at h
  simp only [Option.bind_eq_some_iff, cabs_some] at h
  obtain ⟨_, ⟨rfl, _⟩, h⟩ := h
  obtain ⟨h1, h2⟩ := mk_ok ha.1.ne' h
  refine ⟨h1, ?_⟩
  have hq : (0 : ℚ) < a.d := by exact_mod_cast ha.1
  rw [h2, val, abs_div, abs_of_pos hq, Int.natCast_natAbs]
  push_cast
  rfl

/-- **C30**: results of arithmetic on canonical operands are canonical. -/
theorem C30_canonical (B i : Int) (a b c : Q) (ha : Canon a) (hb : Canon b) :
    (add B a b = some c → Canon c) ∧ (sub B a b = some c → Canon c) ∧ (mul B a b = some c → Canon c) ∧
    (b.n ≠ 0 → div B a b = some c → Canon c) ∧ (addInt B a i = some c → Canon c) ∧ (subInt B a i = some c → Canon c) ∧
    (mulInt B a i = some c → Canon c) ∧ (i ≠ 0 → divInt B a i = some c → Canon c) ∧ (intSub B i a = some c → Canon c) ∧
    (a.n ≠ 0 → intDiv B i a = some c → Canon c) ∧ (inc B a = some c → Canon c) ∧ (dec B a = some c → Canon c) :=
  ⟨fun h => (add_ok ha hb h).1, fun h => (sub_ok ha hb h).1, fun h => (mul_ok ha hb h).1, fun h0 h => (div_ok ha hb h0 h).1,
    fun h => (addInt_ok ha h).1, fun h => (subInt_ok ha h).1, fun h => (mulInt_ok ha h).1, fun h0 h => (divInt_ok ha h0 h).1,
    fun h => (sub_ok (canon_ofInt i).1 ha h).1, fun h0 h => (div_ok (canon_ofInt i).1 ha h0 h).1, fun h => (inc_ok ha h).1,
    fun h => (dec_ok ha h).1⟩

/-- **C30**: on canonical rationals `==` is numeric equality. -/
theorem C30_equality (a b : Q) (ha : Canon a) (hb : Canon b) : eqQ a b = true ↔ val a = val b := by
  constructor
  · intro h
    simp only [eqQ, Bool.and_eq_true, beq_iff_eq] at h
    simp [val, h.1, h.2]
  · intro h
    have q1 := val_ne ha.1.ne'
    have q2 := val_ne hb.1.ne'
    simp only [val] at h
    rw [div_eq_div_iff q1 q2] at h
    have h : a.n * b.d = b.n * a.d := by exact_mod_cast h
    have d1 : a.d ∣ b.d := Int.dvd_of_dvd_mul_right_of_gcd_one ⟨b.n, by rw [h]; ring⟩ (by rw [Int.gcd_comm]; exact ha.2)
    have d2 : b.d ∣ a.d := Int.dvd_of_dvd_mul_right_of_gcd_one ⟨a.n, by rw [← h]; ring⟩ (by rw [Int.gcd_comm]; exact hb.2)
    have hd : a.d = b.d := Int.dvd_antisymm ha.1.le hb.1.le d1 d2
    rw [hd] at h
    have hn : a.n = b.n := mul_right_cancel₀ hb.1.ne' h
    simp [eqQ, hn, hd]

/-- **C30**: `GCD` is the greatest common divisor of every pair of integers whose absolute values are representable. -/
theorem C30_gcd (B a b : Int) (ha : |a| < B) (hb : |b| < B) :
    ∃ g, gcd B a b = some g ∧ 0 ≤ g ∧ g ∣ a ∧ g ∣ b ∧ ∀ e, e ∣ a → e ∣ b → e ∣ g := by
  refine ⟨_, gcd_def (by rw [Int.natCast_natAbs]; exact ha) (by rw [Int.natCast_natAbs]; exact hb), Int.natCast_nonneg _,
    Int.gcd_dvd_left _ _, Int.gcd_dvd_right _ _, fun e h1 h2 => Int.dvd_coe_gcd h1 h2⟩

/-! ## C78: comparisons with integers -/

theorem floor_ok {B : Int} {a : Q} (ha : 0 < a.d) (h1 : |a.n| < B) (h2 : a.d < B) :
    ∃ q, (cdiv B a.n a.d).bind (fun q => floorLoop B a.d 2 q (a.n.tmod a.d)) = some q ∧ q * a.d ≤ a.n ∧ a.n < (q + 1) * a.d := by
  rw [← Int.natCast_natAbs] at h1
  rw [cdiv_def (by omega) h1, Option.bind_some]
  have e := Int.mul_tdiv_add_tmod a.n a.d
  have l1 : (a.n.tmod a.d).natAbs < a.d.natAbs := by
    rw [Int.natAbs_tmod]; exact Nat.mod_lt _ (by omega)
  have l2 := natAbs_tdiv_le a.n a.d
  generalize hq : a.n.tdiv a.d = q at e l2
  generalize hr : a.n.tmod a.d = r at e l1
  unfold floorLoop
  by_cases hr0 : r < 0
  · rw [if_pos hr0, chk_def (by omega), Option.bind_some]
    have hq1 : -(B - 1) ≤ q - 1 := by
      by_contra hcon
      have hql : q ≤ -(B - 1) := by omega
      have : a.d * q ≤ a.d * -(B - 1) := mul_le_mul_of_nonneg_left hql ha.le
      have : a.d * -(B - 1) ≤ 1 * -(B - 1) := by nlinarith
      omega
    rw [chk_some.2 ⟨rfl, by omega, by omega⟩, Option.bind_some]
    unfold floorLoop
    rw [if_neg (by omega)]
    refine ⟨_, rfl, ?_, ?_⟩
    · linarith [e, (by ring : (q - 1) * a.d = a.d * q - a.d), (by omega : -a.d < r)]
    · linarith [e, (by ring : (q - 1 + 1) * a.d = a.d * q)]
  · rw [if_neg hr0]
    refine ⟨_, rfl, ?_, ?_⟩
    · linarith [e, (by ring : q * a.d = a.d * q)]
    · linarith [e, (by ring : (q + 1) * a.d = a.d * q + a.d), (by omega : r < a.d)]

theorem val_lt_iff {a : Q} (ha : 0 < a.d) (i : Int) : val a < i ↔ a.n < i * a.d := by
  have : (0 : ℚ) < a.d := by exact_mod_cast ha
  unfold val
  rw [div_lt_iff₀ this]
  exact_mod_cast Iff.rfl

theorem ltInt_ok {B : Int} {a : Q} (ha : 0 < a.d) (h1 : |a.n| < B) (h2 : a.d < B) (i : Int) : ltInt B a i = some (decide (val a < i)) := by
  obtain ⟨q, e, l1, l2⟩ := floor_ok ha h1 h2
  simp only [Option.bind_eq_some_iff] at e
  obtain ⟨q0, e1, e2⟩ := e
  unfold ltInt
  rw [e1, Option.bind_some, e2, Option.map_some]
  congr 1
  rw [decide_eq_decide, val_lt_iff ha]
  constructor
  · intro h
    have : (q + 1) * a.d ≤ i * a.d := mul_le_mul_of_nonneg_right (by omega) ha.le
    omega
  · intro h
    by_contra hcon
    have : i * a.d ≤ q * a.d := mul_le_mul_of_nonneg_right (by omega) ha.le
    omega

theorem eqInt_ok {a : Q} (ha : Canon a) (i : Int) : eqInt a i = decide (val a = i) := by
  have := C30_equality a (ofInt i) ha (canon_ofInt i).1
  rw [(canon_ofInt i).2] at this
  rw [Bool.eq_iff_iff, decide_eq_true_eq, ← this]
  simp only [eqInt, eqQ, ofInt, Bool.and_eq_true, beq_iff_eq]
  exact ⟨fun ⟨x, y⟩ => ⟨y.symm, x⟩, fun ⟨x, y⟩ => ⟨y, x.symm⟩⟩

/-- **C78**: the six comparisons of a canonical rational with an integer are exact (no rounding through floating
point), as long as the numerator is not the most negative integer. -/
theorem C78_compare_int (B : Int) (a : Q) (ha : Canon a) (h1 : |a.n| < B) (h2 : a.d < B) (i : Int) :
    ltInt B a i = some (decide (val a < i)) ∧ gtInt B a i = some (decide (val a > i)) ∧
    leInt B a i = some (decide (val a ≤ i)) ∧ geInt B a i = some (decide (val a ≥ i)) ∧
    eqInt a i = decide (val a = i) := by
  have hl := ltInt_ok ha.1 h1 h2 i
  have he := eqInt_ok ha i
  have hg : gtInt B a i = some (decide (val a > i)) := by
    unfold gtInt
    rw [he, hl]
    by_cases h : val a = i
    · simp [h]
    · simp only [h, decide_false, Bool.false_eq_true, if_false, Option.map_some, Option.some.injEq]
      rw [← decide_not, decide_eq_decide, not_lt]
      exact ⟨fun h3 => lt_of_le_of_ne h3 (Ne.symm h), le_of_lt⟩
  refine ⟨hl, hg, ?_, ?_, he⟩
  · unfold leInt
    rw [he, hg]
    by_cases h : val a = i
    · simp [h]
    · simp only [h, decide_false, Bool.false_eq_true, if_false, Option.map_some, Option.some.injEq]
      rw [← decide_not, decide_eq_decide, gt_iff_lt, not_lt]
  · unfold geInt
    rw [he, hl]
    by_cases h : val a = i
    · simp [h]
    · simp only [h, decide_false, Bool.false_eq_true, if_false, Option.map_some, Option.some.injEq]
      rw [← decide_not, decide_eq_decide, not_lt]

/-- **C78**: `Truncate` rounds towards zero: the integer part has the sign of the number and differs from it by less
than one. -/
theorem C78_truncate (B : Int) (a : Q) (ha : 0 < a.d) (h1 : |a.n| < B) :
    ∃ q, truncate B a = some q ∧ |(q : ℚ)| ≤ |val a| ∧ |val a| < |(q : ℚ)| + 1 ∧ 0 ≤ (q : ℚ) * val a := by
  rw [← Int.natCast_natAbs] at h1
  refine ⟨_, cdiv_def (by omega) h1, ?_⟩
  have hq : (0 : ℚ) < a.d := by exact_mod_cast ha
  have hv : |val a| = (|a.n| : ℤ) / (a.d : ℚ) := by
    unfold val; rw [abs_div, abs_of_pos hq]; push_cast; rfl
  have habs : |a.n.tdiv a.d| = |a.n| / a.d := by
    rw [← Int.natCast_natAbs, Int.natAbs_tdiv, ← Int.natCast_natAbs]
    have : a.d = (a.d.natAbs : Int) := by omega
    conv_rhs => rw [this]
    rfl
  refine ⟨?_, ?_, ?_⟩
  · rw [hv, le_div_iff₀ hq]
    have : |a.n.tdiv a.d| * a.d ≤ |a.n| := by rw [habs]; exact Int.ediv_mul_le _ (by omega)
    exact_mod_cast this
  · rw [hv, div_lt_iff₀ hq]
    have : |a.n| < (|a.n.tdiv a.d| + 1) * a.d := by rw [habs]; exact Int.lt_ediv_add_one_mul_self _ ha
    exact_mod_cast this
  · unfold val
    rw [mul_div_assoc']
    apply div_nonneg _ hq.le
    have : 0 ≤ a.n.tdiv a.d * a.n := by
      rcases le_total 0 a.n with h | h
      · exact mul_nonneg (Int.tdiv_nonneg h ha.le) h
      · have := Int.tdiv_nonneg (show 0 ≤ -a.n by omega) ha.le
        rw [Int.neg_tdiv] at this
        exact mul_nonneg_of_nonpos_of_nonpos (by omega) h
    exact_mod_cast this

/-! ### Examples: the hypotheses are met -/

example : Canon ⟨-5, 6⟩ ∧ Canon ⟨3, 4⟩ := by unfold Canon; decide
example : add (2 ^ 31) ⟨-5, 6⟩ ⟨3, 4⟩ = some ⟨-1, 12⟩ ∧ sub (2 ^ 31) ⟨1, 6⟩ ⟨1, 6⟩ = some ⟨0, 1⟩ ∧
    mul (2 ^ 31) ⟨-5, 6⟩ ⟨3, 10⟩ = some ⟨-1, 4⟩ ∧ div (2 ^ 31) ⟨5, 6⟩ ⟨-3, 4⟩ = some ⟨-10, 9⟩ ∧
    mk (2 ^ 31) 6 (-4) = some ⟨-3, 2⟩ ∧ divInt (2 ^ 31) ⟨6, 5⟩ (-4) = some ⟨-3, 10⟩ ∧ ltInt (2 ^ 31) ⟨-3, 2⟩ (-1) = some true := by
  decide
example : (|(-5 : Int)| * 4 + |3| * 6 < 2 ^ 31) ∧ (6 : Int) * 4 < 2 ^ 31 := by decide

end Verif.Rational
