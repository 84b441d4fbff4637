import Verif.Simple
import Verif.Props.Kernels
import Verif.Erf
import Mathlib.Analysis.Complex.RealDeriv
import Mathlib.Analysis.Complex.HasPrimitives
import Mathlib.Analysis.SpecialFunctions.Complex.LogDeriv
import Mathlib.Analysis.SpecialFunctions.Trigonometric.ArctanDeriv
import Mathlib.Analysis.SpecialFunctions.Pow.Deriv
import Mathlib.Analysis.SpecialFunctions.ExpDeriv
import Mathlib.Analysis.Calculus.Deriv.Inv
import Mathlib.Tactic.IntervalCases
import Mathlib.Tactic.FieldSimp
import Mathlib.Tactic.Positivity
import Mathlib.Tactic.LinearCombination

/-!
# C34: the derivatives of the simple models
-/

namespace BF.Simple

open BF.Kernels

/-! ## Specification -/

/-- The k-th column of the partials is the derivative of the result to the k-th parameter, for all parameters. -/
def PartialsRight (m : Simple) (x : ℝ) (p : ℕ → ℝ) : Prop :=
  ∀ k < m.npmax, HasDerivAt (fun t => m.result x (Function.update p k t)) (m.parts x p k) (p k)

/-- The derivative is the derivative of the result to x. -/
def DerivativeRight (m : Simple) (x : ℝ) (p : ℕ → ℝ) : Prop :=
  HasDerivAt (fun t => m.result t p) (m.deriv x p) x

/-! ## Theorems -/

/-- C34: the arctangent. -/
theorem C34_arctan (x : ℝ) (p : ℕ → ℝ) : PartialsRight arctan x p ∧ DerivativeRight arctan x p := by
  have pos : 1 + (p 2 * (x - p 1)) * (p 2 * (x - p 1)) ≠ 0 := by nlinarith [mul_self_nonneg (p 2 * (x - p 1))]
  have pos' : 1 + (p 2 * (x - p 1)) ^ 2 ≠ 0 := by positivity
  constructor
  · intro k hk
    simp only [arctan] at hk
    interval_cases k <;> simp only [arctan, Function.update, eq_rec_constant, dite_eq_ite, OfNat.ofNat_ne_zero, one_ne_zero, zero_ne_one,
      if_true, if_false, OfNat.ofNat_ne_one, OfNat.one_ne_ofNat, OfNat.zero_ne_ofNat]
    · exact ((hasDerivAt_id' (p 0)).mul_const _).congr_deriv (by ring)
    · exact ((((hasDerivAt_id' (p 1)).const_sub x).const_mul (p 2)).arctan.const_mul (p 0)).congr_deriv
        (by field_simp)
    · exact ((((hasDerivAt_id' (p 2)).mul_const (x - p 1))).arctan.const_mul (p 0)).congr_deriv
        (by field_simp)
  · unfold DerivativeRight
    simp only [arctan]
    exact ((((hasDerivAt_id' x).sub_const (p 1)).const_mul (p 2)).arctan.const_mul (p 0)).congr_deriv
      (by field_simp)

/-- C34: the exponential, rising or decaying. -/
theorem C34_exp (sign x : ℝ) (p : ℕ → ℝ) : PartialsRight (exp sign) x p ∧ DerivativeRight (exp sign) x p := by
  constructor
  · intro k hk
    simp only [exp] at hk
    interval_cases k <;> simp only [exp, Function.update, eq_rec_constant, dite_eq_ite, OfNat.ofNat_ne_zero, one_ne_zero, zero_ne_one,
      if_true, if_false, OfNat.ofNat_ne_one, OfNat.one_ne_ofNat, OfNat.zero_ne_ofNat]
    · exact ((hasDerivAt_id' (p 0)).mul_const _).congr_deriv (by ring)
    · exact (((((hasDerivAt_id' (p 1)).const_mul sign).mul_const x)).exp.const_mul (p 0)).congr_deriv (by ring)
  · unfold DerivativeRight
    simp only [exp]
    exact (((hasDerivAt_id' x).const_mul (sign * p 1)).exp.const_mul (p 0)).congr_deriv (by ring)

/-- C34: the gaussian, for any width but zero. -/
theorem C34_gauss (x : ℝ) (p : ℕ → ℝ) (hw : p 2 ≠ 0) : PartialsRight gauss x p ∧ DerivativeRight gauss x p := by
  constructor
  · intro k hk
    simp only [gauss] at hk
    interval_cases k <;> simp only [gauss, Function.update, eq_rec_constant, dite_eq_ite, OfNat.ofNat_ne_zero, one_ne_zero, zero_ne_one,
      if_true, if_false, OfNat.ofNat_ne_one, OfNat.one_ne_ofNat, OfNat.zero_ne_ofNat]
    · exact ((hasDerivAt_id' (p 0)).mul_const _).congr_deriv (by norm_num)
    · have h := ((hasDerivAt_id' (p 1)).const_sub x).mul_const (1.0 / p 2)
      exact (((h.const_mul (-0.5)).fun_mul h).exp.const_mul (p 0)).congr_deriv (by norm_num; ring)
    · have h := ((hasDerivAt_const (p 2) (1.0 : ℝ)).fun_div (hasDerivAt_id' (p 2)) hw).const_mul (x - p 1)
      exact (((h.const_mul (-0.5)).fun_mul h).exp.const_mul (p 0)).congr_deriv (by norm_num; field_simp; ring)
  · unfold DerivativeRight
    simp only [gauss]
    have h := ((hasDerivAt_id' x).sub_const (p 1)).mul_const (1.0 / p 2)
    exact (((h.const_mul (-0.5)).fun_mul h).exp.const_mul (p 0)).congr_deriv (by norm_num; field_simp; ring)

/-- C34: the lorentzian, for positive widths. -/
theorem C34_lorentz_partial (x : ℝ) (p : ℕ → ℝ) (hw : 0 < p 2) :
    PartialsRight lorentz x p ∧ DerivativeRight lorentz x p := by
  have hne : (x - p 1) * (x - p 1) + p 2 * p 2 ≠ 0 := by nlinarith [mul_self_nonneg (x - p 1), mul_self_pos.2 hw.ne']
  constructor
  · intro k hk
    simp only [lorentz] at hk
    interval_cases k <;> simp only [lorentz, Function.update, eq_rec_constant, dite_eq_ite, OfNat.ofNat_ne_zero, one_ne_zero, zero_ne_one,
      if_true, if_false, OfNat.ofNat_ne_one, OfNat.one_ne_ofNat, OfNat.zero_ne_ofNat, abs_of_pos hw]
    · exact (((hasDerivAt_id' (p 0)).mul_const (p 2 * p 2)).div_const _).congr_deriv (by ring)
    · have h := (hasDerivAt_id' (p 1)).const_sub x
      exact ((hasDerivAt_const (p 1) (p 0 * (p 2 * p 2))).fun_div ((h.fun_mul h).add_const (p 2 * p 2))
        hne).congr_deriv (by field_simp; ring)
    · have h := hasDerivAt_id' (p 2)
      exact (((h.fun_mul h).const_mul (p 0)).fun_div ((h.fun_mul h).const_add ((x - p 1) * (x - p 1)))
        hne).congr_deriv (by field_simp; ring)
  · unfold DerivativeRight
    simp only [lorentz]
    have h := (hasDerivAt_id' x).sub_const (p 1)
    exact ((hasDerivAt_const x (p 0 * (p 2 * p 2))).fun_div ((h.fun_mul h).add_const (p 2 * p 2))
        hne).congr_deriv (by field_simp; ring)

/-- C34, where it fails: for negative widths the partial of the lorentzian to its width has the wrong sign. -/
theorem C34_counterexample_lorentz (x : ℝ) (p : ℕ → ℝ) (hw : p 2 < 0) (ha : p 0 ≠ 0) (hx : x ≠ p 1) :
    HasDerivAt (fun t => lorentz.result x (Function.update p 2 t)) (-lorentz.parts x p 2) (p 2) ∧
    ¬ PartialsRight lorentz x p := by
  have hy : x - p 1 ≠ 0 := sub_ne_zero.2 hx
  have hne : (x - p 1) * (x - p 1) + p 2 * p 2 ≠ 0 := by nlinarith [mul_self_nonneg (x - p 1), mul_self_pos.2 hw.ne]
  have hd : HasDerivAt (fun t => lorentz.result x (Function.update p 2 t)) (-lorentz.parts x p 2) (p 2) := by
    simp only [lorentz, Function.update, eq_rec_constant, dite_eq_ite, OfNat.ofNat_ne_zero, one_ne_zero, zero_ne_one,
      if_true, if_false, OfNat.ofNat_ne_one, OfNat.one_ne_ofNat, OfNat.zero_ne_ofNat, abs_of_neg hw]
    have h := hasDerivAt_id' (p 2)
    exact (((h.fun_mul h).const_mul (p 0)).fun_div ((h.fun_mul h).const_add ((x - p 1) * (x - p 1)))
        hne).congr_deriv (by field_simp; ring)
  refine ⟨hd, fun h => ?_⟩
  have e := (h 2 (by simp [lorentz])).unique hd
  have hz : lorentz.parts x p 2 ≠ 0 := by
    simp only [lorentz, abs_of_neg hw]
    have hw' : -p 2 ≠ 0 := by linarith
    rw [neg_mul_neg]
    positivity
  exact hz (by linarith)

/-- C34: the logistic function, for any slope but zero. -/
theorem C34_logistic (x : ℝ) (p : ℕ → ℝ) (hw : p 2 ≠ 0) :
    PartialsRight logistic x p ∧ DerivativeRight logistic x p := by
  have hne : 1 + Real.exp ((p 1 - x) / p 2) ≠ 0 := by positivity
  constructor
  · intro k hk
    simp only [logistic] at hk
    interval_cases k <;> simp only [logistic, Function.update, eq_rec_constant, dite_eq_ite, OfNat.ofNat_ne_zero, one_ne_zero, zero_ne_one,
      if_true, if_false, OfNat.ofNat_ne_one, OfNat.one_ne_ofNat, OfNat.zero_ne_ofNat]
    · exact ((hasDerivAt_id' (p 0)).div_const _).congr_deriv (by ring)
    · exact ((hasDerivAt_const (p 1) (p 0)).fun_div
        ((((hasDerivAt_id' (p 1)).sub_const x).div_const (p 2)).exp.const_add 1) hne).congr_deriv
        (by field_simp; ring)
    · exact ((hasDerivAt_const (p 2) (p 0)).fun_div
        ((((hasDerivAt_const (p 2) (p 1 - x)).fun_div (hasDerivAt_id' (p 2)) hw)).exp.const_add 1) hne).congr_deriv
        (by field_simp; ring)
  · unfold DerivativeRight
    simp only [logistic]
    exact ((hasDerivAt_const x (p 0)).fun_div
        ((((hasDerivAt_id' x).const_sub (p 1)).div_const (p 2)).exp.const_add 1) hne).congr_deriv
        (by field_simp; ring)

/-- C34: a power of x, for positive x, and for whole exponents also for negative x. -/
theorem C34_power (e x : ℝ) (p : ℕ → ℝ) (hx : 0 < x ∨ (∃ n : ℤ, e = n) ∧ x ≠ 0) :
    PartialsRight (power e) x p ∧ DerivativeRight (power e) x p := by
  have hx0 : x ≠ 0 := by
    rcases hx with h | h
    · exact h.ne'
    · exact h.2
  constructor
  · intro k hk
    simp only [power] at hk
    interval_cases k <;> simp only [power, Function.update_self]
    exact (((hasDerivAt_id' (p 0)).mul_const _).const_add 0).congr_deriv (by ring)
  · unfold DerivativeRight
    simp only [power]
    exact (((Real.hasDerivAt_rpow_const (p := e) (Or.inl hx0)).const_mul (p 0)).const_add 0).congr_deriv (by ring)

/-- C34: a power law, at the right side of its shift. -/
theorem C34_powerLaw (x : ℝ) (p : ℕ → ℝ) (hx : p 1 < x) :
    PartialsRight powerLaw x p ∧ DerivativeRight powerLaw x p := by
  have hpos : 0 < x - p 1 := sub_pos.2 hx
  constructor
  · intro k hk
    simp only [powerLaw] at hk
    interval_cases k <;> simp only [powerLaw, Function.update, eq_rec_constant, dite_eq_ite, OfNat.ofNat_ne_zero, one_ne_zero, zero_ne_one,
      if_true, if_false, OfNat.ofNat_ne_one, OfNat.one_ne_ofNat, OfNat.zero_ne_ofNat]
    · exact ((hasDerivAt_id' (p 0)).mul_const _).congr_deriv (by ring)
    · exact ((((hasDerivAt_id' (p 1)).const_sub x).rpow_const (p := p 2) (Or.inl hpos.ne')).const_mul
        (p 0)).congr_deriv (by ring)
    · exact (((hasDerivAt_id' (p 2)).const_rpow hpos).const_mul (p 0)).congr_deriv (by ring)
  · unfold DerivativeRight
    simp only [powerLaw]
    exact ((((hasDerivAt_id' x).sub_const (p 1)).rpow_const (p := p 2) (Or.inl hpos.ne')).const_mul
        (p 0)).congr_deriv (by ring)

/-- C34: the sine with two amplitudes. -/
theorem C34_sine (x : ℝ) (p : ℕ → ℝ) : PartialsRight sine x p ∧ DerivativeRight sine x p := by
  constructor
  · intro k hk
    simp only [sine] at hk
    interval_cases k <;> simp only [sine, Function.update, eq_rec_constant, dite_eq_ite, OfNat.ofNat_ne_zero, one_ne_zero, zero_ne_one,
      if_true, if_false, OfNat.ofNat_ne_one, OfNat.one_ne_ofNat, OfNat.zero_ne_ofNat]
    · have h := (hasDerivAt_id' (p 0)).const_mul (2 * Real.pi * x)
      exact ((h.cos.const_mul (p 1)).fun_add (h.sin.const_mul (p 2))).congr_deriv (by ring)
    · exact (((hasDerivAt_id' (p 1)).mul_const _).add_const _).congr_deriv (by ring)
    · exact (((hasDerivAt_id' (p 2)).mul_const _).const_add _).congr_deriv (by ring)
  · unfold DerivativeRight
    simp only [sine]
    have h := ((hasDerivAt_id' x).const_mul (2 * Real.pi)).mul_const (p 0)
    exact ((h.cos.const_mul (p 1)).fun_add (h.sin.const_mul (p 2))).congr_deriv (by ring)

/-- C34: the sine with an amplitude and a phase. -/
theorem C34_sine_phase (x : ℝ) (p : ℕ → ℝ) : PartialsRight sinePhase x p ∧ DerivativeRight sinePhase x p := by
  constructor
  · intro k hk
    simp only [sinePhase] at hk
    interval_cases k <;> simp only [sinePhase, Function.update, eq_rec_constant, dite_eq_ite, OfNat.ofNat_ne_zero, one_ne_zero, zero_ne_one,
      if_true, if_false, OfNat.ofNat_ne_one, OfNat.one_ne_ofNat, OfNat.zero_ne_ofNat]
    · exact ((hasDerivAt_id' (p 0)).mul_const _).congr_deriv (by ring)
    · exact (((((hasDerivAt_id' (p 1)).const_mul (2 * Real.pi * x)).add_const (p 2))).sin.const_mul
        (p 0)).congr_deriv (by ring)
    · exact (((hasDerivAt_id' (p 2)).const_add (2 * Real.pi * x * p 1)).sin.const_mul (p 0)).congr_deriv (by ring)
  · unfold DerivativeRight
    simp only [sinePhase]
    exact ((((((hasDerivAt_id' x).const_mul (2 * Real.pi)).mul_const (p 1)).add_const (p 2))).sin.const_mul
        (p 0)).congr_deriv (by ring)

/-- C34: the sine of given frequency. -/
theorem C34_sine_amp (frequency x : ℝ) (p : ℕ → ℝ) :
    PartialsRight (sineAmp frequency) x p ∧ DerivativeRight (sineAmp frequency) x p := by
  constructor
  · intro k hk
    simp only [sineAmp] at hk
    interval_cases k <;> simp only [sineAmp, Function.update, eq_rec_constant, dite_eq_ite, OfNat.ofNat_ne_zero, one_ne_zero, zero_ne_one,
      if_true, if_false, OfNat.ofNat_ne_one, OfNat.one_ne_ofNat, OfNat.zero_ne_ofNat]
    · exact ((((hasDerivAt_id' (p 0)).mul_const _).const_add 0).add_const _).congr_deriv (by ring)
    · exact (((hasDerivAt_id' (p 1)).mul_const _).const_add _).congr_deriv (by ring)
  · unfold DerivativeRight
    simp only [sineAmp]
    have h := (hasDerivAt_id' x).const_mul (2 * Real.pi * frequency)
    exact (((h.cos.const_mul (p 0)).const_add 0).fun_add (h.sin.const_mul (p 1))).congr_deriv (by ring)

/-- C34: the etalon, wherever its denominator is not zero. -/
theorem C34_etalon (x : ℝ) (p : ℕ → ℝ)
    (hd : 1 + p 1 * Real.sin (Real.pi * x * p 2 + p 3) * Real.sin (Real.pi * x * p 2 + p 3) ≠ 0) :
    PartialsRight etalon x p ∧ DerivativeRight etalon x p := by
  have hd' : 1 + p 1 * (Real.sin (Real.pi * x * p 2 + p 3) * Real.sin (Real.pi * x * p 2 + p 3)) ≠ 0 := by
    rwa [← mul_assoc]
  constructor
  · intro k hk
    simp only [etalon] at hk
    interval_cases k <;> simp only [etalon, Function.update, eq_rec_constant, dite_eq_ite, OfNat.ofNat_ne_zero, one_ne_zero, zero_ne_one,
      if_true, if_false, OfNat.ofNat_ne_one, OfNat.one_ne_ofNat, OfNat.zero_ne_ofNat, OfNat.ofNat_eq_ofNat, Nat.reduceEqDiff]
    · exact ((hasDerivAt_id' (p 0)).div_const _).congr_deriv (by ring)
    · exact ((hasDerivAt_const (p 1) (p 0)).fun_div
        ((((hasDerivAt_id' (p 1)).mul_const (Real.sin (Real.pi * x * p 2 + p 3))).mul_const
          (Real.sin (Real.pi * x * p 2 + p 3))).const_add 1) hd).congr_deriv
        (by generalize Real.sin (Real.pi * x * p 2 + p 3) = s at *; field_simp; ring)
    · have h := (((hasDerivAt_id' (p 2)).const_mul (Real.pi * x)).add_const (p 3)).sin
      exact ((hasDerivAt_const (p 2) (p 0)).fun_div (((h.const_mul (p 1)).fun_mul h).const_add 1) hd).congr_deriv
        (by
          generalize Real.sin (Real.pi * x * p 2 + p 3) = s at *
          generalize Real.cos (Real.pi * x * p 2 + p 3) = c at *
          field_simp; ring)
    · have h := ((hasDerivAt_id' (p 3)).const_add (Real.pi * x * p 2)).sin
      exact ((hasDerivAt_const (p 3) (p 0)).fun_div (((h.const_mul (p 1)).fun_mul h).const_add 1) hd).congr_deriv
        (by
          generalize Real.sin (Real.pi * x * p 2 + p 3) = s at *
          generalize Real.cos (Real.pi * x * p 2 + p 3) = c at *
          field_simp; ring)
  · unfold DerivativeRight
    simp only [etalon]
    have h := ((((hasDerivAt_id' x).const_mul Real.pi).mul_const (p 2)).add_const (p 3)).sin
    exact ((hasDerivAt_const x (p 0)).fun_div (((h.const_mul (p 1)).fun_mul h).const_add 1) hd).congr_deriv
        (by
          generalize Real.sin (Real.pi * x * p 2 + p 3) = s at *
          generalize Real.cos (Real.pi * x * p 2 + p 3) = c at *
          field_simp; ring)

/-- C34: the sine with a drifting frequency. -/
theorem C34_sine_drift (x : ℝ) (p : ℕ → ℝ) : PartialsRight sineDrift x p ∧ DerivativeRight sineDrift x p := by
  have e : 2 * Real.pi * x * p 0 + 2 * Real.pi * x * x * p 3 = 2 * Real.pi * x * (p 0 + p 3 * x) := by ring
  constructor
  · intro k hk
    simp only [sineDrift] at hk
    interval_cases k <;> simp only [sineDrift, Function.update, eq_rec_constant, dite_eq_ite, OfNat.ofNat_ne_zero, one_ne_zero, zero_ne_one,
      if_true, if_false, OfNat.ofNat_ne_one, OfNat.one_ne_ofNat, OfNat.zero_ne_ofNat, Nat.reduceEqDiff, e]
    · have h := ((hasDerivAt_id' (p 0)).add_const (p 3 * x)).const_mul (2 * Real.pi * x)
      exact ((h.cos.const_mul (p 1)).fun_add (h.sin.const_mul (p 2))).congr_deriv (by ring)
    · exact (((hasDerivAt_id' (p 1)).mul_const _).add_const _).congr_deriv (by ring)
    · exact (((hasDerivAt_id' (p 2)).mul_const _).const_add _).congr_deriv (by ring)
    · have h := (((hasDerivAt_id' (p 3)).mul_const x).const_add (p 0)).const_mul (2 * Real.pi * x)
      exact ((h.cos.const_mul (p 1)).fun_add (h.sin.const_mul (p 2))).congr_deriv (by ring)
  · unfold DerivativeRight
    simp only [sineDrift]
    have h := ((hasDerivAt_id' x).const_mul (2 * Real.pi)).fun_mul
      (((hasDerivAt_id' x).const_mul (p 3)).const_add (p 0))
    exact ((h.cos.const_mul (p 1)).fun_add (h.sin.const_mul (p 2))).congr_deriv (by ring)

/-- C34: a kernel, wherever the kernel itself has a derivative (see C37). -/
theorem kernel_right (k : Kernel) (x : ℝ) (p : ℕ → ℝ) (hw : p 2 ≠ 0)
    (hk : HasDerivAt k.result (k.partialx ((x - p 1) / p 2)) ((x - p 1) / p 2)) :
    PartialsRight (kernel k) x p ∧ DerivativeRight (kernel k) x p := by
  constructor
  · intro j hj
    simp only [kernel] at hj
    interval_cases j <;> simp only [kernel, Function.update, eq_rec_constant, dite_eq_ite, OfNat.ofNat_ne_zero, one_ne_zero, zero_ne_one,
      if_true, if_false, OfNat.ofNat_ne_one, OfNat.one_ne_ofNat, OfNat.zero_ne_ofNat]
    · exact ((hasDerivAt_id' (p 0)).mul_const _).congr_deriv (by ring)
    · have h := HasDerivAt.comp (p 1) (h₂ := k.result) (h := fun t => (x - t) / p 2) hk
        (((hasDerivAt_id' (p 1)).const_sub x).div_const (p 2))
      exact (h.const_mul (p 0)).congr_deriv (by ring)
    · have h := HasDerivAt.comp (p 2) (h₂ := k.result) (h := fun t => (x - p 1) / t) hk
        ((hasDerivAt_const (p 2) (x - p 1)).fun_div (hasDerivAt_id' (p 2)) hw)
      exact (h.const_mul (p 0)).congr_deriv (by field_simp; ring)
  · unfold DerivativeRight
    simp only [kernel]
    have h := HasDerivAt.comp x (h₂ := k.result) (h := fun t => (t - p 1) / p 2) hk
        (((hasDerivAt_id' x).sub_const (p 1)).div_const (p 2))
    exact (h.const_mul (p 0)).congr_deriv (by ring)

/-- C34: the models made of a kernel, for all kernels of the package, off their edges. -/
theorem C34_kernel (k : Kernel) (e : List ℝ) (hk : (k, e) ∈ edges) (x : ℝ) (p : ℕ → ℝ) (hw : p 2 ≠ 0)
    (hx : |(x - p 1) / p 2| ∉ e) : PartialsRight (kernel k) x p ∧ DerivativeRight (kernel k) x p :=
  kernel_right k x p hw ((C37_derivative k e hk _).1 hx)

/-- C34: the sinc. -/
theorem C34_sinc (x : ℝ) (p : ℕ → ℝ) (hw : p 2 ≠ 0) :
    PartialsRight sincModel x p ∧ DerivativeRight sincModel x p :=
  C34_kernel sinc [] (by simp [edges]) x p hw List.not_mem_nil

/-- C34: the pseudo voigt, for positive widths. -/
theorem C34_pseudo_voigt_partial (x : ℝ) (p : ℕ → ℝ) (hw : 0 < p 2) :
    PartialsRight pseudoVoigt x p ∧ DerivativeRight pseudoVoigt x p := by
  obtain ⟨lp, ld⟩ := C34_lorentz_partial x p hw
  obtain ⟨gp, gd⟩ := C34_gauss x p hw.ne'
  constructor
  · intro k hk
    have hk4 : k < 4 := hk
    by_cases h3 : k = 3
    · subst h3
      have e : ∀ t, pseudoVoigt.result x (Function.update p 3 t)
          = t * lorentz.result x p + (1 - t) * gauss.result x p := by
        intro t
        simp [pseudoVoigt, lorentz, gauss, Function.update]
      simp only [e]
      exact (((hasDerivAt_id' (p 3)).mul_const (lorentz.result x p)).fun_add
        (((hasDerivAt_id' (p 3)).const_sub 1).mul_const (gauss.result x p))).congr_deriv
        (by simp only [pseudoVoigt]; ring)
    · have hk3 : k < 3 := by omega
      have e : ∀ t, pseudoVoigt.result x (Function.update p k t) = p 3 * lorentz.result x (Function.update p k t)
          + (1 - p 3) * gauss.result x (Function.update p k t) := by
        intro t
        simp only [pseudoVoigt, Function.update_of_ne (Ne.symm h3)]
      simp only [e]
      refine (((lp k hk3).const_mul (p 3)).fun_add ((gp k hk3).const_mul (1 - p 3))).congr_deriv ?_
      interval_cases k <;> simp only [pseudoVoigt]
  · exact (HasDerivAt.const_mul (p 3) ld).fun_add (HasDerivAt.const_mul (1 - p 3) gd)

/-- What `scipy.special.wofz` is: the function with value 1 in 0 and this derivative. -/
def IsFaddeeva (w : ℂ → ℂ) : Prop :=
  w 0 = 1 ∧ ∀ z, HasDerivAt w (2 * Complex.I / Real.sqrt Real.pi - 2 * z * w z) z

theorem re_deriv {w : ℂ → ℂ} {g : ℝ → ℂ} {w' g' : ℂ} {t : ℝ} (hw : HasDerivAt w w' (g t)) (hg : HasDerivAt g g' t) :
    HasDerivAt (fun s => (w (g s)).re) (w' * g').re t := by
  have h := Complex.reCLM.hasFDerivAt.comp_hasDerivAt t (hw.scomp t hg)
  exact h.congr_deriv (by simp [mul_comm])

/-- On the imaginary axis it is positive. -/
theorem faddeeva_axis {w : ℂ → ℂ} (hw : IsFaddeeva w) (y : ℝ) : 0 < (w (Complex.I * y)).re := by
  have hg : ∀ t : ℝ, HasDerivAt (fun s : ℝ => Complex.I * (s : ℂ)) Complex.I t := fun t =>
    ((hasDerivAt_id' t).ofReal_comp.const_mul Complex.I).congr_deriv (by simp)
  have hr : ∀ t : ℝ, HasDerivAt (fun s : ℝ => (w (Complex.I * s)).re)
      (-(2 / Real.sqrt Real.pi) + 2 * t * (w (Complex.I * t)).re) t := by
    intro t
    refine (re_deriv (w := w) (g := fun s : ℝ => Complex.I * (s : ℂ)) (hw.2 (Complex.I * t)) (hg t)).congr_deriv ?_
    have e : (2 * Complex.I / (Real.sqrt Real.pi : ℂ) - 2 * (Complex.I * t) * w (Complex.I * t)) * Complex.I
        = ((-(2 / Real.sqrt Real.pi) : ℝ) : ℂ) + ((2 * t : ℝ) : ℂ) * w (Complex.I * t) := by
      push_cast
      linear_combination (2 / (Real.sqrt Real.pi : ℂ) - 2 * t * w (Complex.I * t)) * Complex.I_mul_I
    rw [e, Complex.add_re, Complex.ofReal_re, Complex.re_ofReal_mul]
  have hH : ∀ t : ℝ, HasDerivAt (fun s => Real.exp (-s ^ 2) * (w (Complex.I * s)).re + erf s) 0 t := by
    intro t
    have h1 : HasDerivAt (fun s : ℝ => Real.exp (-s ^ 2)) (Real.exp (-t ^ 2) * (-(2 * t))) t := by
      refine (((hasDerivAt_id' t).fun_pow 2).fun_neg.exp).congr_deriv ?_
      simp
    exact ((h1.fun_mul (hr t)).fun_add (erf_hasDerivAt t)).congr_deriv (by ring)
  have hc := is_const_of_deriv_eq_zero (fun t => (hH t).differentiableAt) (fun t => (hH t).deriv) y 0
  simp only [erf_zero, Complex.ofReal_zero, mul_zero, hw.1, Complex.one_re, add_zero] at hc
  norm_num at hc
  have h2 := erf_lt_one y
  have h3 : 0 < Real.exp (-y ^ 2) * (w (Complex.I * y)).re := by linarith
  exact (mul_pos_iff_of_pos_left (Real.exp_pos _)).1 h3

/-- C34: the voigt profile, for any widths but a zero gaussian width. -/
theorem C34_voigt (w : ℂ → ℂ) (hw : IsFaddeeva w) (x : ℝ) (p : ℕ → ℝ) (h2 : p 2 ≠ 0) :
    PartialsRight (voigt w) x p ∧ DerivativeRight (voigt w) x p := by
  have hs2 : Real.sqrt 2 ≠ 0 := by positivity
  have hs : p 2 * Real.sqrt 2 ≠ 0 := mul_ne_zero h2 hs2
  have hs2c : (Real.sqrt 2 : ℂ) ≠ 0 := by exact_mod_cast hs2
  have h2c : (p 2 : ℂ) ≠ 0 := by exact_mod_cast h2
  have hsc : ((p 2 * Real.sqrt 2 : ℝ) : ℂ) ≠ 0 := by exact_mod_cast hs
  have hz0 : ∀ g s : ℝ, (w (Complex.I * g / s)).re ≠ 0 := by
    intro g s
    have := faddeeva_axis hw (g / s)
    rw [show Complex.I * (g : ℂ) / s = Complex.I * ((g / s : ℝ) : ℂ) by push_cast; ring]
    exact this.ne'
  constructor
  · intro k hk
    have hk4 : k < 4 := hk
    interval_cases k <;> simp only [voigt, Function.update, eq_rec_constant, dite_eq_ite, OfNat.ofNat_ne_zero, one_ne_zero, zero_ne_one,
      if_true, if_false, OfNat.ofNat_ne_one, OfNat.one_ne_ofNat, OfNat.zero_ne_ofNat, Nat.reduceEqDiff]
    · exact (((hasDerivAt_id' (p 0)).mul_const _).div_const _).congr_deriv (by ring)
    · have hg : HasDerivAt (fun t : ℝ => ((x - t : ℝ) : ℂ) / ((p 2 * Real.sqrt 2 : ℝ) : ℂ)
          + Complex.I * (p 3 : ℂ) / ((p 2 * Real.sqrt 2 : ℝ) : ℂ)) (-1 / ((p 2 * Real.sqrt 2 : ℝ) : ℂ)) (p 1) :=
        ((((hasDerivAt_id' (p 1)).const_sub x).ofReal_comp.div_const _).add_const _).congr_deriv (by push_cast; ring)
      exact (((re_deriv (hw.2 _) hg).const_mul (p 0)).div_const _).congr_deriv (by ring)
    · have hsig : HasDerivAt (fun t : ℝ => ((t * Real.sqrt 2 : ℝ) : ℂ)) (Real.sqrt 2 : ℂ) (p 2) :=
        ((hasDerivAt_id' (p 2)).mul_const (Real.sqrt 2)).ofReal_comp.congr_deriv (by push_cast; ring)
      have hg0 : HasDerivAt (fun t : ℝ => Complex.I * (p 3 : ℂ) / ((t * Real.sqrt 2 : ℝ) : ℂ))
          (-(Complex.I * (p 3 : ℂ) / ((p 2 * Real.sqrt 2 : ℝ) : ℂ)) / (p 2 : ℂ)) (p 2) :=
        ((hasDerivAt_const (p 2) (Complex.I * (p 3 : ℂ))).fun_div hsig hsc).congr_deriv
          (by push_cast; field_simp; ring)
      have hg : HasDerivAt (fun t : ℝ => ((x - p 1 : ℝ) : ℂ) / ((t * Real.sqrt 2 : ℝ) : ℂ)
          + Complex.I * (p 3 : ℂ) / ((t * Real.sqrt 2 : ℝ) : ℂ))
          (-(((x - p 1 : ℝ) : ℂ) / ((p 2 * Real.sqrt 2 : ℝ) : ℂ)
          + Complex.I * (p 3 : ℂ) / ((p 2 * Real.sqrt 2 : ℝ) : ℂ)) / (p 2 : ℂ)) (p 2) :=
        (((hasDerivAt_const (p 2) (((x - p 1 : ℝ) : ℂ))).fun_div hsig hsc).fun_add hg0).congr_deriv
          (by push_cast; field_simp; ring)
      have h0 := hz0 (p 3) (p 2 * Real.sqrt 2)
      refine (((re_deriv (hw.2 _) hg).const_mul (p 0)).fun_div (re_deriv (hw.2 _) hg0) h0).congr_deriv ?_
      generalize (w (Complex.I * (p 3 : ℂ) / ((p 2 * Real.sqrt 2 : ℝ) : ℂ))).re = r0 at *
      field_simp
    · have hg0 : HasDerivAt (fun t : ℝ => Complex.I * (t : ℂ) / ((p 2 * Real.sqrt 2 : ℝ) : ℂ))
          (Complex.I / ((p 2 * Real.sqrt 2 : ℝ) : ℂ)) (p 3) :=
        (((hasDerivAt_id' (p 3)).ofReal_comp.const_mul Complex.I).div_const _).congr_deriv (by push_cast; ring)
      have hg := hg0.const_add (((x - p 1 : ℝ) : ℂ) / ((p 2 * Real.sqrt 2 : ℝ) : ℂ))
      have h0 := hz0 (p 3) (p 2 * Real.sqrt 2)
      refine (((re_deriv (hw.2 _) hg).const_mul (p 0)).fun_div (re_deriv (hw.2 _) hg0) h0).congr_deriv ?_
      generalize (w (Complex.I * (p 3 : ℂ) / ((p 2 * Real.sqrt 2 : ℝ) : ℂ))).re = r0 at *
      field_simp
  · unfold DerivativeRight
    simp only [voigt]
    have hg : HasDerivAt (fun t : ℝ => ((t - p 1 : ℝ) : ℂ) / ((p 2 * Real.sqrt 2 : ℝ) : ℂ)
          + Complex.I * (p 3 : ℂ) / ((p 2 * Real.sqrt 2 : ℝ) : ℂ)) (1 / ((p 2 * Real.sqrt 2 : ℝ) : ℂ)) x :=
        ((((hasDerivAt_id' x).sub_const (p 1)).ofReal_comp.div_const _).add_const _).congr_deriv (by push_cast; ring)
    refine (((re_deriv (hw.2 _) hg).const_mul (p 0)).div_const _).congr_deriv ?_
    have h0 := hz0 (p 3) (p 2 * Real.sqrt 2)
    generalize (w (Complex.I * (p 3 : ℂ) / ((p 2 * Real.sqrt 2 : ℝ) : ℂ))).re = r0 at *
    generalize 2 * Complex.I / (Real.sqrt Real.pi : ℂ) - _ = D at *
    have e : (p 0 : ℂ) * D / ((r0 : ℂ) * ((p 2 * Real.sqrt 2 : ℝ) : ℂ))
        = ((p 0 / r0 : ℝ) : ℂ) * (D * (1 / ((p 2 * Real.sqrt 2 : ℝ) : ℂ))) := by
      push_cast
      ring
    rw [e, Complex.re_ofReal_mul]
    ring

/-- There is such a function. -/
theorem exists_faddeeva : ∃ w, IsFaddeeva w := by
  have hd : Differentiable ℂ fun z : ℂ => Complex.exp (z ^ 2) := by fun_prop
  obtain ⟨F, F0, hF⟩ := hd.isExactOn_univ.with_val_at 0 0
  refine ⟨fun z => Complex.exp (-z ^ 2) * (1 + 2 * Complex.I / Real.sqrt Real.pi * F z), ?_, fun z => ?_⟩
  · simp [F0]
  · have h1 : HasDerivAt (fun s : ℂ => Complex.exp (-s ^ 2)) (Complex.exp (-z ^ 2) * (-(2 * z))) z := by
      refine (((hasDerivAt_id' z).fun_pow 2).fun_neg.cexp).congr_deriv ?_
      simp
    refine (h1.fun_mul (((hF z (Set.mem_univ z)).const_mul (2 * Complex.I / Real.sqrt Real.pi)).const_add
      1)).congr_deriv ?_
    have e : Complex.exp (-z ^ 2) * Complex.exp (z ^ 2) = 1 := by
      rw [← Complex.exp_add]; simp
    linear_combination (2 * Complex.I / (Real.sqrt Real.pi : ℂ)) * e

/-- C34: the etalon with drift: the partials to the parameters. -/
theorem C34_etalon_drift_partial (x y : ℝ) (p : ℕ → ℝ) (k : ℕ) (hk : k < 5) :
    HasDerivAt (fun t => etalonDriftResult x y (Function.update p k t)) (etalonDriftParts x y p k) (p k) := by
  have e : Real.pi * (x * p 2 + p 3 + p 4 * y) = Real.pi * (p 2 * x + p 3 + p 4 * y) := by ring
  have hd : 1 + p 1 * Real.sin (Real.pi * (p 2 * x + p 3 + p 4 * y))
      * (p 1 * Real.sin (Real.pi * (p 2 * x + p 3 + p 4 * y))) ≠ 0 := by
    nlinarith [mul_self_nonneg (p 1 * Real.sin (Real.pi * (p 2 * x + p 3 + p 4 * y)))]
  have hd' : 1 + p 1 ^ 2 * Real.sin (Real.pi * (p 2 * x + p 3 + p 4 * y)) ^ 2 ≠ 0 := by positivity
  unfold etalonDriftResult etalonDriftParts
  interval_cases k <;> simp only [Function.update, eq_rec_constant, dite_eq_ite, OfNat.ofNat_ne_zero, one_ne_zero, zero_ne_one,
      if_true, if_false, OfNat.ofNat_ne_one, OfNat.one_ne_ofNat, OfNat.zero_ne_ofNat, Nat.reduceEqDiff, e]
  · exact ((hasDerivAt_id' (p 0)).div_const _).congr_deriv (by ring)
  · have h := (hasDerivAt_id' (p 1)).mul_const (Real.sin (Real.pi * (p 2 * x + p 3 + p 4 * y)))
    exact ((hasDerivAt_const (p 1) (p 0)).fun_div ((h.fun_mul h).const_add 1) hd).congr_deriv
      (by generalize Real.sin (Real.pi * (p 2 * x + p 3 + p 4 * y)) = s at *; field_simp; ring)
  · have h := ((((((hasDerivAt_id' (p 2)).mul_const x).add_const (p 3)).add_const (p 4 * y)).const_mul
      Real.pi).sin).const_mul (p 1)
    exact ((hasDerivAt_const (p 2) (p 0)).fun_div ((h.fun_mul h).const_add 1) hd).congr_deriv
      (by
        generalize Real.sin (Real.pi * (p 2 * x + p 3 + p 4 * y)) = s at *
        generalize Real.cos (Real.pi * (p 2 * x + p 3 + p 4 * y)) = c at *
        field_simp; ring)
  · have h := (((((hasDerivAt_id' (p 3)).const_add (p 2 * x)).add_const (p 4 * y)).const_mul
      Real.pi).sin).const_mul (p 1)
    exact ((hasDerivAt_const (p 3) (p 0)).fun_div ((h.fun_mul h).const_add 1) hd).congr_deriv
      (by
        generalize Real.sin (Real.pi * (p 2 * x + p 3 + p 4 * y)) = s at *
        generalize Real.cos (Real.pi * (p 2 * x + p 3 + p 4 * y)) = c at *
        field_simp; ring)
  · have h := (((((hasDerivAt_id' (p 4)).mul_const y).const_add (p 2 * x + p 3)).const_mul
      Real.pi).sin).const_mul (p 1)
    exact ((hasDerivAt_const (p 4) (p 0)).fun_div ((h.fun_mul h).const_add 1) hd).congr_deriv
      (by
        generalize Real.sin (Real.pi * (p 2 * x + p 3 + p 4 * y)) = s at *
        generalize Real.cos (Real.pi * (p 2 * x + p 3 + p 4 * y)) = c at *
        field_simp; ring)

/-- C34, where it fails: the etalon with drift has no derivative to x. It would not be the right one either: what
is put in the list has the frequency as a factor too many. -/
theorem C34_counterexample_etalon_drift :
    (∀ x y p, etalonDriftDerivative x y p = none) ∧
    ∃ (x y : ℝ) (p : ℕ → ℝ), ¬ HasDerivAt (fun t => etalonDriftResult t y p) (etalonDriftValues x y p).1 x := by
  refine ⟨fun _ _ _ => rfl, 1 / 8, 0, fun k => [1, 1, 2, 0, 0].getD k 0, fun h => ?_⟩
  have hpi := Real.pi_pos
  have e1 : Real.pi * (2 * (1 / 8)) = Real.pi / 4 := by ring
  have h2 : (Real.sqrt 2 / 2) * (Real.sqrt 2 / 2) = 1 / 2 := by
    have := Real.mul_self_sqrt (show (0 : ℝ) ≤ 2 by norm_num)
    linarith
  have hd : HasDerivAt (fun t : ℝ => etalonDriftResult t 0 fun k => [1, 1, 2, 0, 0].getD k 0)
      (-(8 / 9) * Real.pi) (1 / 8) := by
    simp only [etalonDriftResult]
    norm_num
    have h := (((hasDerivAt_id' (1 / 8 : ℝ)).const_mul 2).const_mul Real.pi).sin
    rw [e1] at h
    have hs : 1 + Real.sin (Real.pi * (2 * (1 / 8))) * Real.sin (Real.pi * (2 * (1 / 8))) ≠ 0 := by
      rw [e1, Real.sin_pi_div_four, h2]; norm_num
    have h' := ((h.fun_mul h).const_add 1).fun_inv hs
    refine h'.congr_deriv ?_
    rw [e1, Real.sin_pi_div_four, Real.cos_pi_div_four, h2]
    linear_combination (-(16 / 9) * Real.pi) * h2
  have hu := hd.unique h
  have e2 : Real.pi * (1 / 8 * 2) = Real.pi / 4 := by ring
  simp only [etalonDriftValues] at hu
  norm_num at hu
  rw [show Real.pi * (1 / 4) = Real.pi / 4 by ring, Real.sin_pi_div_four, Real.cos_pi_div_four] at hu
  have h4 : Real.sqrt 2 * Real.sqrt 2 = 2 := Real.mul_self_sqrt (by norm_num)
  rw [show (1 + Real.sqrt 2 / 2 * (Real.sqrt 2 / 2)) = 3 / 2 by rw [h2]; norm_num] at hu
  have h5 : 2 * Real.pi * 2 * (Real.sqrt 2 / 2) * (Real.sqrt 2 / 2) = 2 * Real.pi := by
    linear_combination Real.pi * h4
  rw [h5, show (3 / 2 * (3 / 2) : ℝ) = 9 / 4 by norm_num, div_eq_mul_inv] at hu
  norm_num at hu
  linarith

/-- C34: a constant model has no partials and its derivative is that of what is inside. -/
theorem C34_constant (c : Constant) (x : ℝ) (p : ℕ → ℝ)
    (hc : ∀ m v, c = .fixedModel m v → DerivativeRight m x v) :
    (∀ q, c.result x q = c.result x p) ∧ c.partial x p = [] ∧
      HasDerivAt (fun t => c.result t p) (c.deriv x p) x := by
  cases c with
  | table t => exact ⟨fun _ => rfl, rfl, hasDerivAt_const x t⟩
  | fixedModel m v => exact ⟨fun _ => rfl, rfl, hc m v rfl⟩

/-! ## The columns -/

/-- C34: the array of partials has a column for each of the parameters, or for each parameter that is left when
others are fixed, in that order; and nothing is left unwritten. -/
theorem C34_columns (m : Simple) (x : ℝ) (p : ℕ → ℝ) (l : List ℕ) (hl : ∀ k ∈ l, k < m.npmax) :
    m.basePartial m.npmax x p none = some ((List.range m.npmax).map fun k => some (m.parts x p k)) ∧
    m.basePartial l.length x p (some l) = some (l.map fun k => some (m.parts x p k)) := by
  constructor
  · simp [Simple.basePartial]
  · have : l.all (· < m.npmax) = true := by simpa using hl
    simp only [Simple.basePartial, this]
    simp only [Option.getD_some, and_true, ite_self, le_refl, if_true, Nat.sub_self, List.replicate_zero,
      List.append_nil]
    rw [if_pos ⟨trivial, this⟩]

/-- C34: the same for the pseudo voigt, as long as nothing is fixed, or only the balance. -/
theorem C34_columns_pseudo_voigt_partial (x : ℝ) (p : ℕ → ℝ) :
    pseudoVoigtPartial x p none = some ((List.range 4).map fun k => some (pseudoVoigt.parts x p k)) ∧
    pseudoVoigtPartial x p (some [0, 1, 2]) = some ([0, 1, 2].map fun k => some (pseudoVoigt.parts x p k)) := by
  constructor
  · have hl := (C34_columns lorentz x p [] (by simp)).1
    have hg := (C34_columns gauss x p [] (by simp)).1
    rw [show lorentz.npmax = 3 from rfl] at hl
    rw [show gauss.npmax = 3 from rfl] at hg
    simp only [pseudoVoigtPartial, hl, hg]
    rfl
  · have hl := (C34_columns lorentz x p [0, 1, 2] (by simp [lorentz])).2
    have hg := (C34_columns gauss x p [0, 1, 2] (by simp [gauss])).2
    rw [show [0, 1, 2].length = 3 from rfl] at hl hg
    simp only [pseudoVoigtPartial, hl, hg]
    rfl

/-- C34, where it fails: with any other parameter fixed, the pseudo voigt has no partials, or partials with a column
that was never written. -/
theorem C34_counterexample_pseudo_voigt (x : ℝ) (p : ℕ → ℝ) :
    (∀ l, 3 ∈ l → pseudoVoigtPartial x p (some l) = none) ∧
    ∃ r, pseudoVoigtPartial x p (some [0, 2]) = some r ∧ r.length = 3 ∧ r[2]? = some none := by
  refine ⟨fun l hl => by simp [pseudoVoigtPartial, hl], ?_⟩
  simp [pseudoVoigtPartial, Simple.basePartial, lorentz, gauss, addRows]

/-! ## The hypotheses are met -/

example : ∃ p : ℕ → ℝ, (0 : ℝ) < p 2 ∧ p 1 < 3 ∧
    1 + p 1 * Real.sin (Real.pi * 3 * p 2 + p 3) * Real.sin (Real.pi * 3 * p 2 + p 3) ≠ 0 := by
  refine ⟨fun _ => 2, by norm_num, by norm_num, ?_⟩
  nlinarith [mul_self_nonneg (Real.sin (Real.pi * 3 * 2 + 2))]

example : |((3 : ℝ) - 1) / 4| ∉ [(1 : ℝ)] := by norm_num

end BF.Simple
