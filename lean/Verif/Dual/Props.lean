import Verif.Dual.Model
import Mathlib.Analysis.Calculus.IteratedDeriv.Defs
import Mathlib.Analysis.SpecialFunctions.Complex.Analytic
import Mathlib.Analysis.SpecialFunctions.Trigonometric.Deriv
import Mathlib.Analysis.SpecialFunctions.ExpDeriv
import Mathlib.Analysis.SpecialFunctions.Pow.Deriv
import Mathlib.Analysis.Calculus.FDeriv.Analytic

/-!
# Automatic differentiation is differentiation (C96)
-/

noncomputable section

namespace Verif.Dual

open Filter Topology

/-! ## Specification -/

/-- Formulas in one variable. -/
inductive Expr
  | var
  | num (c : ℝ)
  | add (a b : Expr)
  | sub (a b : Expr)
  | mul (a b : Expr)
  | div (a b : Expr)
  | neg (a : Expr)
  | powNum (a : Expr) (k : ℝ)
  | pow (a b : Expr)
  | sin (a : Expr)
  | cos (a : Expr)
  | exp (a : Expr)
  | log (a : Expr)
  | log10 (a : Expr)
  | abs (a : Expr)

/-- The function of a formula. -/
def Expr.fn : Expr → ℝ → ℝ
  | var, x => x
  | num c, _ => c
  | add a b, x => a.fn x + b.fn x
  | sub a b, x => a.fn x - b.fn x
  | mul a b, x => a.fn x * b.fn x
  | div a b, x => a.fn x / b.fn x
  | neg a, x => -a.fn x
  | powNum a k, x => a.fn x ^ k
  | pow a b, x => a.fn x ^ b.fn x
  | sin a, x => Real.sin (a.fn x)
  | cos a, x => Real.cos (a.fn x)
  | exp a, x => Real.exp (a.fn x)
  | log a, x => Real.log (a.fn x)
  | log10 a, x => Real.logb 10 (a.fn x)
  | abs a, x => |a.fn x|

/-- The formula can be differentiated: no division by zero, powers and logarithms of positive numbers (powers also of negative numbers if the exponent is a whole number), no absolute value of zero. -/
def Expr.Defined : Expr → ℝ → Prop
  | var, _ => True
  | num _, _ => True
  | add a b, x => a.Defined x ∧ b.Defined x
  | sub a b, x => a.Defined x ∧ b.Defined x
  | mul a b, x => a.Defined x ∧ b.Defined x
  | div a b, x => a.Defined x ∧ b.Defined x ∧ b.fn x ≠ 0
  | neg a, x => a.Defined x
  | powNum a k, x => a.Defined x ∧ (0 < a.fn x ∨ a.fn x ≠ 0 ∧ ∃ z : ℤ, k = z)
  | pow a b, x => a.Defined x ∧ b.Defined x ∧ 0 < a.fn x
  | sin a, x => a.Defined x
  | cos a, x => a.Defined x
  | exp a, x => a.Defined x
  | log a, x => a.Defined x ∧ 0 < a.fn x
  | log10 a, x => a.Defined x ∧ 0 < a.fn x
  | abs a, x => a.Defined x ∧ a.fn x ≠ 0

/-- The program that evaluates the formula with dual numbers of order `n + 1`, the variable being `Dual(x, 1)`. -/
def Expr.run (n : ℕ) (x : ℝ) : Expr → Dual (n + 1)
  | var => (x, ofNum n 1)
  | num c => ofNum (n + 1) c
  | add a b => Dual.add (n + 1) (a.run n x) (b.run n x)
  | sub a b => Dual.sub (n + 1) (a.run n x) (b.run n x)
  | mul a b => Dual.mul (n + 1) (a.run n x) (b.run n x)
  | div a b => Dual.div (n + 1) (a.run n x) (b.run n x)
  | neg a => Dual.neg (n + 1) (a.run n x)
  | powNum a k => Dual.powNum (n + 1) (a.run n x) k
  | pow a b => Dual.pow (n + 1) (a.run n x) (b.run n x)
  | sin a => Dual.sin (n + 1) (a.run n x)
  | cos a => Dual.cos (n + 1) (a.run n x)
  | exp a => Dual.exp (n + 1) (a.run n x)
  | log a => Dual.log (n + 1) (a.run n x)
  | log10 a => Dual.log10 (n + 1) (a.run n x)
  | abs a => Dual.abs n (a.run n x)

/-! ## Proofs -/

/-- The dual number of the derivatives of a function. -/
def jet : (n : ℕ) → (ℝ → ℝ) → ℝ → Dual n
  | 0, f, x => f x
  | n + 1, f, x => (f x, jet n (deriv f) x)

theorem get_jet (n : ℕ) (f : ℝ → ℝ) (x : ℝ) (i : ℕ) (h : i ≤ n) : get n (jet n f x) i = iteratedDeriv i f x := by
  induction n generalizing f i with
  | zero =>
    obtain rfl : i = 0 := by omega
    rw [iteratedDeriv_zero]; rfl
  | succ n ih =>
    cases i with
    | zero => rw [iteratedDeriv_zero]; rfl
    | succ i => rw [iteratedDeriv_succ']; exact ih (deriv f) i (by omega)

theorem jet_congr {n : ℕ} {f g : ℝ → ℝ} {x : ℝ} (h : f =ᶠ[𝓝 x] g) : jet n f x = jet n g x := by
  induction n generalizing f g with
  | zero => exact h.eq_of_nhds
  | succ n ih => exact Prod.ext h.eq_of_nhds (ih h.deriv)

theorem low_jet (n : ℕ) (f : ℝ → ℝ) (x : ℝ) : low n (jet (n + 1) f x) = jet n f x := by
  induction n generalizing f with
  | zero => rfl
  | succ n ih => exact Prod.ext rfl (ih (deriv f))

theorem jet_num (n : ℕ) (c x : ℝ) : jet n (fun _ => c) x = ofNum n c := by
  induction n generalizing c with
  | zero => rfl
  | succ n ih =>
    refine Prod.ext rfl ?_
    show jet n (deriv fun _ => c) x = ofNum n 0
    rw [← ih 0]
    refine congrArg (fun g => jet n g x) ?_
    funext y
    exact deriv_const y c

theorem jet_var (n : ℕ) (x : ℝ) : jet (n + 1) (fun y => y) x = (x, ofNum n 1) := by
  refine Prod.ext rfl ?_
  rw [← jet_num n 1 x]
  refine congrArg (fun g => jet n g x) ?_
  funext y
  exact deriv_id y

variable {f g : ℝ → ℝ} {x : ℝ}

theorem diff (hf : AnalyticAt ℝ f x) : ∀ᶠ y in 𝓝 x, HasDerivAt f (deriv f y) y :=
  hf.eventually_analyticAt.mono fun _ h => h.differentiableAt.hasDerivAt

theorem aadd (hf : AnalyticAt ℝ f x) (hg : AnalyticAt ℝ g x) : AnalyticAt ℝ (fun y => f y + g y) x := hf.add hg

theorem asub (hf : AnalyticAt ℝ f x) (hg : AnalyticAt ℝ g x) : AnalyticAt ℝ (fun y => f y - g y) x := hf.sub hg

theorem amul (hf : AnalyticAt ℝ f x) (hg : AnalyticAt ℝ g x) : AnalyticAt ℝ (fun y => f y * g y) x := hf.mul hg

theorem aneg (hf : AnalyticAt ℝ f x) : AnalyticAt ℝ (fun y => -f y) x := hf.neg

theorem add_jet {n : ℕ} (hf : AnalyticAt ℝ f x) (hg : AnalyticAt ℝ g x) : add n (jet n f x) (jet n g x) = jet n (fun y => f y + g y) x := by
  induction n generalizing f g with
  | zero => rfl
  | succ n ih =>
    refine Prod.ext rfl ?_
    refine (ih hf.deriv hg.deriv).trans (jet_congr ?_)
    filter_upwards [diff hf, diff hg] with y h1 h2
    exact (h1.add h2).deriv.symm

theorem sub_jet {n : ℕ} (hf : AnalyticAt ℝ f x) (hg : AnalyticAt ℝ g x) : sub n (jet n f x) (jet n g x) = jet n (fun y => f y - g y) x := by
  induction n generalizing f g with
  | zero => rfl
  | succ n ih =>
    refine Prod.ext rfl ?_
    refine (ih hf.deriv hg.deriv).trans (jet_congr ?_)
    filter_upwards [diff hf, diff hg] with y h1 h2
    exact (h1.sub h2).deriv.symm

theorem neg_jet {n : ℕ} (hf : AnalyticAt ℝ f x) : neg n (jet n f x) = jet n (fun y => -f y) x := by
  induction n generalizing f with
  | zero => rfl
  | succ n ih =>
    refine Prod.ext rfl ?_
    refine (ih hf.deriv).trans (jet_congr ?_)
    filter_upwards [diff hf] with y h1
    exact h1.neg.deriv.symm

theorem mul_jet {n : ℕ} (hf : AnalyticAt ℝ f x) (hg : AnalyticAt ℝ g x) : mul n (jet n f x) (jet n g x) = jet n (fun y => f y * g y) x := by
  induction n generalizing f g with
  | zero => rfl
  | succ n ih =>
    refine Prod.ext rfl ?_
    show add n (mul n (jet n (deriv f) x) (low n (jet (n + 1) g x))) (mul n (jet n (deriv g) x) (low n (jet (n + 1) f x))) = _
    rw [low_jet, low_jet, ih hf.deriv hg, ih hg.deriv hf, add_jet (amul hf.deriv hg) (amul hg.deriv hf)]
    refine jet_congr ?_
    filter_upwards [diff hf, diff hg] with y h1 h2
    refine Eq.trans ?_ (h1.mul h2).deriv.symm
    ring

theorem div_jet {n : ℕ} (hf : AnalyticAt ℝ f x) (hg : AnalyticAt ℝ g x) (h0 : g x ≠ 0) : div n (jet n f x) (jet n g x) = jet n (fun y => f y / g y) x := by
  induction n generalizing f g with
  | zero => rfl
  | succ n ih =>
    refine Prod.ext rfl ?_
    show div n (sub n (mul n (jet n (deriv f) x) (low n (jet (n + 1) g x))) (mul n (jet n (deriv g) x) (low n (jet (n + 1) f x)))) (mul n (low n (jet (n + 1) g x)) (low n (jet (n + 1) g x))) = _
    rw [low_jet, low_jet, mul_jet hf.deriv hg, mul_jet hg.deriv hf, mul_jet hg hg, sub_jet (amul hf.deriv hg) (amul hg.deriv hf),
      ih (asub (amul hf.deriv hg) (amul hg.deriv hf)) (amul hg hg) (mul_ne_zero h0 h0)]
    refine jet_congr ?_
    filter_upwards [diff hf, diff hg, hg.continuousAt.eventually_ne h0] with y h1 h2 h3
    refine Eq.trans ?_ (h1.div h2 h3).deriv.symm
    ring

theorem num_jet (n : ℕ) (c x : ℝ) : ofNum n c = jet n (fun _ => c) x := (jet_num n c x).symm

theorem rpow_analytic (hf : AnalyticAt ℝ f x) (hg : AnalyticAt ℝ g x) (h0 : 0 < f x) : AnalyticAt ℝ (fun y => f y ^ g y) x := by
  have h1 : AnalyticAt ℝ (fun y => Real.exp (Real.log (f y) * g y)) x := ((hf.log h0).mul hg).rexp'
  refine h1.congr ?_
  filter_upwards [hf.continuousAt.eventually (lt_mem_nhds h0)] with y hy
  exact (Real.rpow_def_of_pos hy _).symm

theorem rpowNum_analytic (hf : AnalyticAt ℝ f x) {k : ℝ} (h0 : 0 < f x ∨ f x ≠ 0 ∧ ∃ z : ℤ, k = z) : AnalyticAt ℝ (fun y => f y ^ k) x := by
  rcases h0 with h0 | ⟨h0, z, rfl⟩
  · exact rpow_analytic hf analyticAt_const h0
  · have h1 : AnalyticAt ℝ (fun y => f y ^ z) x := hf.zpow h0
    refine h1.congr (Filter.Eventually.of_forall fun y => ?_)
    exact (Real.rpow_intCast _ _).symm

theorem powNum_jet {n : ℕ} (hf : AnalyticAt ℝ f x) {k : ℝ} (h0 : 0 < f x ∨ f x ≠ 0 ∧ ∃ z : ℤ, k = z) : powNum n (jet n f x) k = jet n (fun y => f y ^ k) x := by
  induction n generalizing f k with
  | zero => rfl
  | succ n ih =>
    have hne : f x ≠ 0 := by
      rcases h0 with h0 | h0
      · exact h0.ne'
      · exact h0.1
    have h0' : 0 < f x ∨ f x ≠ 0 ∧ ∃ z : ℤ, k - 1 = z := by
      rcases h0 with h0 | ⟨h0, z, rfl⟩
      · exact .inl h0
      · exact .inr ⟨h0, z - 1, by push_cast; ring⟩
    refine Prod.ext rfl ?_
    show mul n (mul n (jet n (deriv f) x) (ofNum n k)) (powNum n (low n (jet (n + 1) f x)) (k - 1)) = _
    rw [low_jet, num_jet n k x, ih hf h0', mul_jet hf.deriv analyticAt_const, mul_jet (amul hf.deriv analyticAt_const) (rpowNum_analytic hf h0')]
    refine jet_congr ?_
    filter_upwards [diff hf, hf.continuousAt.eventually_ne hne] with y h1 h2
    rw [(h1.rpow_const (.inl h2)).deriv]

theorem log_jet {n : ℕ} (hf : AnalyticAt ℝ f x) (h0 : 0 < f x) : log n (jet n f x) = jet n (fun y => Real.log (f y)) x := by
  cases n with
  | zero => rfl
  | succ n =>
    refine Prod.ext rfl ?_
    show div n (jet n (deriv f) x) (low n (jet (n + 1) f x)) = _
    rw [low_jet, div_jet hf.deriv hf h0.ne']
    refine jet_congr ?_
    filter_upwards [diff hf, hf.continuousAt.eventually (lt_mem_nhds h0)] with y h1 h2
    rw [(h1.log h2.ne').deriv]

theorem log10_jet {n : ℕ} (hf : AnalyticAt ℝ f x) (h0 : 0 < f x) : log10 n (jet n f x) = jet n (fun y => Real.logb 10 (f y)) x := by
  cases n with
  | zero => rfl
  | succ n =>
    have h10 : Real.log 10 ≠ 0 := (Real.log_pos (by norm_num)).ne'
    refine Prod.ext rfl ?_
    show div n (jet n (deriv f) x) (mul n (ofNum n (Real.log 10)) (low n (jet (n + 1) f x))) = _
    rw [low_jet, num_jet n _ x, mul_jet analyticAt_const hf, div_jet hf.deriv (amul analyticAt_const hf) (mul_ne_zero h10 h0.ne')]
    refine jet_congr ?_
    filter_upwards [diff hf, hf.continuousAt.eventually (lt_mem_nhds h0)] with y h1 h2
    have h3 : HasDerivAt (fun y => Real.logb 10 (f y)) (deriv f y / f y / Real.log 10) y := (h1.log h2.ne').div_const _
    rw [h3.deriv]
    field_simp

theorem pow_jet {n : ℕ} (hf : AnalyticAt ℝ f x) (hg : AnalyticAt ℝ g x) (h0 : 0 < f x) : pow n (jet n f x) (jet n g x) = jet n (fun y => f y ^ g y) x := by
  induction n generalizing f g with
  | zero => rfl
  | succ n ih =>
    refine Prod.ext rfl ?_
    show mul n (pow n (low n (jet (n + 1) f x)) (sub n (low n (jet (n + 1) g x)) (ofNum n 1)))
      (add n (mul n (low n (jet (n + 1) g x)) (jet n (deriv f) x)) (mul n (mul n (low n (jet (n + 1) f x)) (jet n (deriv g) x)) (log n (low n (jet (n + 1) f x))))) = _
    have hl := hf.log h0
    rw [low_jet, low_jet, num_jet n 1 x, sub_jet hg analyticAt_const, ih hf (asub hg analyticAt_const) h0, mul_jet hg hf.deriv, mul_jet hf hg.deriv, log_jet hf h0, mul_jet (amul hf hg.deriv) hl,
      add_jet (amul hg hf.deriv) (amul (amul hf hg.deriv) hl), mul_jet (rpow_analytic hf (asub hg analyticAt_const) h0) (aadd (amul hg hf.deriv) (amul (amul hf hg.deriv) hl))]
    refine jet_congr ?_
    filter_upwards [diff hf, diff hg, hf.continuousAt.eventually (lt_mem_nhds h0)] with y h1 h2 h3
    rw [(h1.rpow h2 h3).deriv, Real.rpow_sub_one h3.ne']
    have := h3.ne'
    field_simp

theorem trig_jet {n : ℕ} (hf : AnalyticAt ℝ f x) : sin n (jet n f x) = jet n (fun y => Real.sin (f y)) x ∧ cos n (jet n f x) = jet n (fun y => Real.cos (f y)) x := by
  induction n generalizing f with
  | zero => exact ⟨by rw [sin]; rfl, by rw [cos]; rfl⟩
  | succ n ih =>
    have hs : AnalyticAt ℝ (fun y => Real.sin (f y)) x := Real.analyticAt_sin.comp hf
    have hc : AnalyticAt ℝ (fun y => Real.cos (f y)) x := Real.analyticAt_cos.comp hf
    rw [sin, cos]
    constructor
    · refine Prod.ext rfl ?_
      show mul n (jet n (deriv f) x) (cos n (low n (jet (n + 1) f x))) = _
      rw [low_jet, (ih hf).2, mul_jet hf.deriv hc]
      refine jet_congr ?_
      filter_upwards [diff hf] with y h1
      rw [h1.sin.deriv, mul_comm]
    · refine Prod.ext rfl ?_
      show mul n (jet n (deriv f) x) (neg n (sin n (low n (jet (n + 1) f x)))) = _
      rw [low_jet, (ih hf).1, neg_jet hs, mul_jet hf.deriv (aneg hs)]
      refine jet_congr ?_
      filter_upwards [diff hf] with y h1
      rw [h1.cos.deriv, mul_comm]

theorem exp_jet {n : ℕ} (hf : AnalyticAt ℝ f x) : exp n (jet n f x) = jet n (fun y => Real.exp (f y)) x := by
  induction n generalizing f with
  | zero => rfl
  | succ n ih =>
    refine Prod.ext rfl ?_
    show mul n (jet n (deriv f) x) (exp n (low n (jet (n + 1) f x))) = _
    rw [low_jet, ih hf, mul_jet hf.deriv hf.rexp']
    refine jet_congr ?_
    filter_upwards [diff hf] with y h1
    rw [h1.exp.deriv, mul_comm]

theorem abs_near (hf : AnalyticAt ℝ f x) (h0 : f x ≠ 0) : (fun y => |f y|) =ᶠ[𝓝 x] fun y => f y * sgn (f x) := by
  rcases lt_or_gt_of_ne h0 with h | h
  · filter_upwards [hf.continuousAt.eventually (gt_mem_nhds h)] with y hy
    rw [abs_of_neg hy, sgn, if_neg (not_lt.2 h.le), if_pos h]
    ring
  · filter_upwards [hf.continuousAt.eventually (lt_mem_nhds h)] with y hy
    rw [abs_of_pos hy, sgn, if_pos h, if_neg (not_lt.2 h.le)]
    ring

theorem abs_jet {n : ℕ} (hf : AnalyticAt ℝ f x) (h0 : f x ≠ 0) : abs n (jet (n + 1) f x) = jet (n + 1) (fun y => |f y|) x := by
  refine Prod.ext rfl ?_
  show mul n (jet n (deriv f) x) (ofNum n (sgn (f x))) = jet n (deriv fun y => |f y|) x
  rw [num_jet n _ x, mul_jet hf.deriv analyticAt_const]
  refine jet_congr ?_
  refine EventuallyEq.trans ?_ (abs_near hf h0).deriv.symm
  filter_upwards [diff hf] with y h1
  rw [(h1.mul_const _).deriv]

theorem run_jet (n : ℕ) (e : Expr) (x : ℝ) (h : e.Defined x) : AnalyticAt ℝ e.fn x ∧ e.run n x = jet (n + 1) e.fn x := by
  induction e with
  | var => exact ⟨analyticAt_id, (jet_var n x).symm⟩
  | num c => exact ⟨analyticAt_const, num_jet (n + 1) c x⟩
  | add a b iha ihb =>
    obtain ⟨a1, a2⟩ := iha h.1
    obtain ⟨b1, b2⟩ := ihb h.2
    exact ⟨a1.add b1, by rw [Expr.run, a2, b2, add_jet a1 b1]; rfl⟩
  | sub a b iha ihb =>
    obtain ⟨a1, a2⟩ := iha h.1
    obtain ⟨b1, b2⟩ := ihb h.2
    exact ⟨a1.sub b1, by rw [Expr.run, a2, b2, sub_jet a1 b1]; rfl⟩
  | mul a b iha ihb =>
    obtain ⟨a1, a2⟩ := iha h.1
    obtain ⟨b1, b2⟩ := ihb h.2
    exact ⟨a1.mul b1, by rw [Expr.run, a2, b2, mul_jet a1 b1]; rfl⟩
  | div a b iha ihb =>
    obtain ⟨a1, a2⟩ := iha h.1
    obtain ⟨b1, b2⟩ := ihb h.2.1
    exact ⟨a1.div b1 h.2.2, by rw [Expr.run, a2, b2, div_jet a1 b1 h.2.2]; rfl⟩
  | neg a iha =>
    obtain ⟨a1, a2⟩ := iha h
    exact ⟨a1.neg, by rw [Expr.run, a2, neg_jet a1]; rfl⟩
  | powNum a k iha =>
    obtain ⟨a1, a2⟩ := iha h.1
    exact ⟨rpowNum_analytic a1 h.2, by rw [Expr.run, a2, powNum_jet a1 h.2]; rfl⟩
  | pow a b iha ihb =>
    obtain ⟨a1, a2⟩ := iha h.1
    obtain ⟨b1, b2⟩ := ihb h.2.1
    exact ⟨rpow_analytic a1 b1 h.2.2, by rw [Expr.run, a2, b2, pow_jet a1 b1 h.2.2]; rfl⟩
  | sin a iha =>
    obtain ⟨a1, a2⟩ := iha h
    exact ⟨Real.analyticAt_sin.comp a1, by rw [Expr.run, a2, (trig_jet a1).1]; rfl⟩
  | cos a iha =>
    obtain ⟨a1, a2⟩ := iha h
    exact ⟨Real.analyticAt_cos.comp a1, by rw [Expr.run, a2, (trig_jet a1).2]; rfl⟩
  | exp a iha =>
    obtain ⟨a1, a2⟩ := iha h
    exact ⟨a1.rexp', by rw [Expr.run, a2, exp_jet a1]; rfl⟩
  | log a iha =>
    obtain ⟨a1, a2⟩ := iha h.1
    exact ⟨a1.log h.2, by rw [Expr.run, a2, log_jet a1 h.2]; rfl⟩
  | log10 a iha =>
    obtain ⟨a1, a2⟩ := iha h.1
    refine ⟨?_, by rw [Expr.run, a2, log10_jet a1 h.2]; rfl⟩
    exact (a1.log h.2).div analyticAt_const (Real.log_pos (by norm_num)).ne'
  | abs a iha =>
    obtain ⟨a1, a2⟩ := iha h.1
    refine ⟨?_, by rw [Expr.run, a2, abs_jet a1 h.2]; rfl⟩
    exact (a1.mul analyticAt_const).congr (abs_near a1 h.2).symm

/-! ## The property -/

/-- The derivatives of every order up to the order of the dual number are those of the function of the formula. -/
theorem C96_derivatives (n : ℕ) (e : Expr) (x : ℝ) (h : e.Defined x) (i : ℕ) (hi : i ≤ n + 1) : get (n + 1) (e.run n x) i = iteratedDeriv i e.fn x := by
  rw [(run_jet n e x h).2, get_jet _ _ _ _ hi]

/-- A formula with all kinds of steps that is defined at 2. -/
example : (Expr.div (.pow (.log (.add .var (.num 1))) (.sin .var)) (.mul (.exp (.neg .var)) (.powNum (.abs (.sub .var (.num 5))) 3))).Defined 2 := by
  simp only [Expr.Defined, Expr.fn]
  norm_num
  exact Real.log_pos (by norm_num)

/-- A whole power of a negative number. -/
example : (Expr.powNum (.sub .var (.num 5)) 3).Defined 2 := ⟨⟨trivial, trivial⟩, .inr ⟨by simp only [Expr.fn]; norm_num, 3, by norm_num⟩⟩

/-- The second derivative of the cube of a number at 2 is 12. -/
example : get 2 ((Expr.mul .var (.mul .var .var)).run 1 2) 2 = 12 := by
  simp only [Expr.run, mul, add, low, ofNum, get]
  norm_num

end Verif.Dual
