import Mathlib.Analysis.SpecialFunctions.Gaussian.GaussianIntegral
import Mathlib.Analysis.Calculus.MeanValue
import Mathlib.Analysis.Calculus.Deriv.MeanValue
import Mathlib.MeasureTheory.Integral.IntervalIntegral.FundThmCalculus
import Mathlib.MeasureTheory.Integral.IntegralEqImproper

/-!
# The error function and its inverse

`scipy.special.erf` and `scipy.special.erfinv` are external to the repository. They are taken to be the
mathematical functions, defined here; what is used of them is proved below.
-/

namespace BF

open MeasureTheory Filter Real Set

/-- `special.erf`: 2/√π times the integral of exp(-t²) from 0 to x. -/
noncomputable def erf (x : ℝ) : ℝ := 2 / √π * ∫ t in (0 : ℝ)..x, exp (-t ^ 2)

/-- `special.erfinv` on (-1,1): the x with `erf x = y`. (Outside (-1,1) scipy gives infinities and nan;
the model does not use it there.) -/
noncomputable def erfinv (y : ℝ) : ℝ := Function.invFun erf y

theorem continuous_gauss : Continuous fun t : ℝ => exp (-t ^ 2) := by fun_prop

theorem erf_hasDerivAt (x : ℝ) : HasDerivAt erf (2 / √π * exp (-x ^ 2)) x := by
  unfold erf
  exact (intervalIntegral.integral_hasDerivAt_right (continuous_gauss.intervalIntegrable _ _)
    (continuous_gauss.stronglyMeasurableAtFilter _ _) continuous_gauss.continuousAt).const_mul _

theorem erf_continuous : Continuous erf :=
  continuous_iff_continuousAt.2 fun x => (erf_hasDerivAt x).continuousAt

theorem erf_strictMono : StrictMono erf := by
  apply strictMono_of_deriv_pos
  intro x
  rw [(erf_hasDerivAt x).deriv]
  positivity

theorem erf_zero : erf 0 = 0 := by simp [erf]

theorem erf_neg (x : ℝ) : erf (-x) = -erf x := by
  unfold erf
  have h := intervalIntegral.integral_comp_neg (a := 0) (b := x) fun t : ℝ => exp (-t ^ 2)
  simp only [neg_zero, even_two, Even.neg_pow] at h
  rw [intervalIntegral.integral_symm, ← h]
  ring

theorem erf_tendsto_atTop : Tendsto erf atTop (nhds 1) := by
  have h1 : IntegrableOn (fun t : ℝ => exp (-t ^ 2)) (Ioi 0) := by
    have := (integrable_exp_neg_mul_sq (b := 1) one_pos).integrableOn (s := Ioi 0)
    simpa using this
  have h2 := intervalIntegral_tendsto_integral_Ioi 0 h1 (tendsto_id (α := ℝ))
  have h3 : ∫ t in Ioi (0 : ℝ), exp (-t ^ 2) = √π / 2 := by
    have := integral_gaussian_Ioi 1
    simpa using this
  rw [h3] at h2
  have h4 := h2.const_mul (2 / √π)
  have h5 : 2 / √π * (√π / 2) = 1 := by
    have : √π ≠ 0 := by positivity
    field_simp
  rw [h5] at h4
  exact h4

theorem erf_lt_one (x : ℝ) : erf x < 1 := by
  have h1 : erf x < erf (x + 1) := erf_strictMono (by linarith)
  have h2 : erf (x + 1) ≤ 1 := erf_strictMono.monotone.ge_of_tendsto erf_tendsto_atTop _
  linarith

theorem neg_one_lt_erf (x : ℝ) : -1 < erf x := by
  have := erf_lt_one (-x)
  rw [erf_neg] at this
  linarith

theorem exists_erf (y : ℝ) (h1 : -1 < y) (h2 : y < 1) : ∃ x, erf x = y := by
  obtain ⟨b, hb⟩ := (erf_tendsto_atTop.eventually (lt_mem_nhds h2)).exists
  obtain ⟨a, ha⟩ := (erf_tendsto_atTop.eventually (lt_mem_nhds (show -y < 1 by linarith))).exists
  have ha' : erf (-a) ≤ y := by rw [erf_neg]; linarith
  exact (mem_range_of_exists_le_of_exists_ge erf_continuous ⟨-a, ha'⟩ ⟨b, hb.le⟩)

theorem erf_erfinv (y : ℝ) (h1 : -1 < y) (h2 : y < 1) : erf (erfinv y) = y :=
  Function.invFun_eq (exists_erf y h1 h2)

theorem erfinv_erf (x : ℝ) : erfinv (erf x) = x :=
  Function.leftInverse_invFun erf_strictMono.injective x

end BF
