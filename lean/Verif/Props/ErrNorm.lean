import Verif.Props.ErrSum
import Mathlib.Analysis.SpecialFunctions.Gaussian.GaussianIntegral
import Mathlib.MeasureTheory.Integral.Gamma
import Mathlib.MeasureTheory.Integral.IntegralEqImproper
import Mathlib.Analysis.SpecialFunctions.ImproperIntegrals
import Mathlib.Analysis.SpecialFunctions.Exponential
import Mathlib.Analysis.Normed.Algebra.Exponential

/-!
# C29: each likelihood is a normalised density of the datum

The datum is `y`, at some place `x`. There are no weights and the data are not cyclic.
-/

namespace BF.ErrDis

open Real MeasureTheory

variable {X : Type*}

/-- The datum with another value. -/
def Datum.at (d : Datum X) (y : ℝ) : Datum X := { d with y := y }

theorem residual_at (P : Prob X) (hc : P.cyclic = none) (a : List ℝ) (d : Datum X) (y : ℝ) :
    P.residual a (d.at y) = y - P.f d.x a := by
  simp [Prob.residual, Prob.fold, hc, Datum.at]

theorem C29_gauss (P : Prob X) (hc : P.cyclic = none) (hw : P.hasW = false) (a : List ℝ) (d : Datum X)
    (hs : 0 < fromEnd a 1 * fromEnd a 1 + P.varyy d) :
    ∫ y, exp (gaussLd P a (d.at y)) = 1 := by
  set s2 := fromEnd a 1 * fromEnd a 1 + P.varyy d with hs2
  have e : ∀ y, exp (gaussLd P a (d.at y))
      = exp (-(1 / (2 * s2)) * (y - P.f d.x (a.take P.np)) ^ 2) * (√(2 * π * s2))⁻¹ := by
    intro y
    have : gaussS2 P a (d.at y) = s2 := rfl
    simp only [gaussLd, hw, Bool.false_eq_true, if_false, this, Prob.weightedResSq,
      residual_at P hc]
    rw [exp_sub, div_eq_mul_inv]
    congr 1
    · congr 1
      field_simp
      norm_num
      ring
    · rw [← exp_log (show 0 < √(2 * π * s2) by positivity), log_sqrt (by positivity), LOG2PI,
        ← log_mul (by positivity) (by positivity)]
      congr 2
      ring
  simp only [e]
  rw [integral_mul_const,
    integral_sub_right_eq_self (fun y => exp (-(1 / (2 * s2)) * y ^ 2)) (P.f d.x (a.take P.np)),
    integral_gaussian]
  rw [show π / (1 / (2 * s2)) = 2 * π * s2 by field_simp]
  exact mul_inv_cancel₀ (by positivity)

/-- Power and scale positive. -/
theorem C29_exponential (P : Prob X) (hc : P.cyclic = none) (hw : P.hasW = false) (a : List ℝ)
    (d : Datum X) (hs : 0 < expScale P a d) (hp : 0 < fromEnd a 1) :
    ∫ y, exp (expLd P a (d.at y)) = 1 := by
  set s := expScale P a d with hsdef
  set p := fromEnd a 1
  have hG : 0 < Gamma (1 / p) := Gamma_pos_of_pos (by positivity)
  have e : ∀ y, exp (expLd P a (d.at y))
      = exp (-(1 / s ^ p) * |y - P.f d.x (allBut a 2)| ^ p) * (p / (2 * s) / Gamma (1 / p)) := by
    intro y
    have h1 : expScale P a (d.at y) = s := rfl
    simp only [expLd, hw, Bool.false_eq_true, if_false, h1, residual_at P hc, gammaln]
    rw [exp_add, exp_sub, exp_log (by positivity), exp_log hG, abs_div, abs_of_pos hs,
      div_rpow (abs_nonneg _) hs.le]
    congr 2
    ring
  simp only [e]
  rw [integral_mul_const, integral_sub_right_eq_self (fun y => exp (-(1 / s ^ p) * |y| ^ p))
    (P.f d.x (allBut a 2)), integral_comp_abs (f := fun y => exp (-(1 / s ^ p) * y ^ p)),
    integral_exp_neg_mul_rpow hp (by positivity)]
  rw [Gamma_add_one (by positivity), one_div (s ^ p), inv_rpow (by positivity), ← rpow_mul hs.le,
    show p * (-1 / p) = -1 by field_simp, rpow_neg_one]
  field_simp

theorem C29_laplace (P : Prob X) (hc : P.cyclic = none) (hw : P.hasW = false) (a : List ℝ)
    (d : Datum X) (hs : 0 < scaleOf P a d) :
    ∫ y, exp (laplaceLd P a (d.at y)) = 1 := by
  set s := scaleOf P a d with hsdef
  have e : ∀ y, exp (laplaceLd P a (d.at y))
      = exp (-(1 / s) * |y - P.f d.x (a.take P.np)| ^ (1 : ℝ)) * (1 / (2 * s)) := by
    intro y
    have h1 : scaleOf P a (d.at y) = s := rfl
    simp only [laplaceLd, hw, Bool.false_eq_true, if_false, h1, residual_at P hc]
    rw [exp_sub, exp_add, exp_log two_pos, exp_log hs, rpow_one, div_eq_mul_one_div]
    congr 2
    ring
  simp only [e]
  rw [integral_mul_const, integral_sub_right_eq_self (fun y => exp (-(1 / s) * |y| ^ (1 : ℝ)))
    (P.f d.x (a.take P.np)), integral_comp_abs (f := fun y => exp (-(1 / s) * y ^ (1 : ℝ))),
    integral_exp_neg_mul_rpow one_pos (by positivity)]
  norm_num
  rw [rpow_neg_one, inv_inv]
  field_simp

theorem C29_cauchy (P : Prob X) (hc : P.cyclic = none) (a : List ℝ) (d : Datum X)
    (hs : 0 < scaleOf P a d) : ∫ y, exp (cauchyLd P a (d.at y)) = 1 := by
  set s := scaleOf P a d with hsdef
  have e : ∀ y, exp (cauchyLd P a (d.at y))
      = (1 + ((y - P.f d.x (allBut a 1)) / s) ^ 2)⁻¹ * (1 / (π * s)) := by
    intro y
    have h1 : scaleOf P a (d.at y) = s := rfl
    simp only [cauchyLd, h1, residual_at P hc]
    have hpos : 0 < (y - P.f d.x (allBut a 1)) * (y - P.f d.x (allBut a 1)) + s * s := by
      have := mul_self_nonneg (y - P.f d.x (allBut a 1))
      positivity
    rw [exp_sub, exp_sub, exp_log hs, exp_log pi_pos, exp_log hpos]
    have : 1 + ((y - P.f d.x (allBut a 1)) / s) ^ 2
        = ((y - P.f d.x (allBut a 1)) * (y - P.f d.x (allBut a 1)) + s * s) / s ^ 2 := by
      field_simp
      ring
    rw [this]
    field_simp
  simp only [e]
  rw [integral_mul_const, integral_sub_right_eq_self (fun y => (1 + (y / s) ^ 2)⁻¹)
    (P.f d.x (allBut a 1)), Measure.integral_comp_div (fun y => (1 + y ^ 2)⁻¹) s,
    integral_univ_inv_one_add_sq]
  rw [abs_of_pos hs, smul_eq_mul]
  field_simp

theorem C29_uniform (P : Prob X) (hw : P.hasW = false) (a : List ℝ) (d : Datum X)
    (hs : 0 < scaleOf P a d) : ∫ y, like (uniformLd P a (d.at y)) = 1 := by
  set s := scaleOf P a d with hsdef
  set m := P.f d.x (allBut a 1) with hm
  have e : (fun y => like (uniformLd P a (d.at y)))
      = (Set.Ioo (m - s) (m + s)).indicator fun _ => 1 / (2 * s) := by
    funext y
    have h1 : scaleOf P a (d.at y) = s := rfl
    have h2 : P.f (d.at y).x (allBut a 1) = m := rfl
    have h3 : (d.at y).y = y := rfl
    simp only [uniformLd, hw, Bool.false_eq_true, if_false, h1, h2, h3]
    by_cases h : |y - m| < s
    · rw [if_pos h, Set.indicator_of_mem]
      · simp only [like]
        rw [exp_neg, exp_log (by positivity), one_div]
      · rw [abs_lt] at h
        exact ⟨by linarith, by linarith⟩
    · rw [if_neg h, Set.indicator_of_notMem]
      · rfl
      · intro h'
        exact h (abs_lt.2 ⟨by linarith [h'.1], by linarith [h'.2]⟩)
  rw [e, integral_indicator measurableSet_Ioo, setIntegral_const, smul_eq_mul, measureReal_def,
    Real.volume_Ioo, ENNReal.toReal_ofReal (by linarith)]
  field_simp
  ring

/-- Counts: the sum over all natural numbers, with the right log factorial. -/
theorem C29_poisson (lf : ℝ → ℝ) (hlf : ∀ k : ℕ, lf k = log (Nat.factorial k)) (P : Prob X)
    (a : List ℝ) (d : Datum X) (hm : 0 < P.f d.x a) :
    HasSum (fun k : ℕ => like (poissonLd lf P a (d.at k))) 1 := by
  set m := P.f d.x a with hmdef
  have e : ∀ k : ℕ, like (poissonLd lf P a (d.at k)) = m ^ k / (Nat.factorial k : ℝ) * exp (-m) := by
    intro k
    have h1 : P.f (d.at (k : ℝ)).x a = m := rfl
    have h2 : (d.at (k : ℝ)).y = k := rfl
    simp only [poissonLd, h1, h2, if_neg (not_le.2 hm), like, hlf]
    rw [exp_sub, exp_sub, exp_log (by positivity), mul_comm, exp_mul, exp_log hm, rpow_natCast, exp_neg]
    ring
  simp only [e]
  have h := (NormedSpace.expSeries_div_hasSum_exp m).mul_right (exp (-m))
  rw [← Real.exp_eq_exp_ℝ, ← exp_add, add_neg_cancel, exp_zero] at h
  exact h

/-- Two classes: 0 and anything else. -/
theorem C29_bernoulli (P : Prob X) (a : List ℝ) (d : Datum X) (h0 : 0 < P.f d.x a)
    (h1 : P.f d.x a < 1) (y : ℝ) (hy : y ≠ 0) :
    like (bernoulliLd P a (d.at 0)) + like (bernoulliLd P a (d.at y)) = 1 := by
  have h2 : ∀ z, P.f (d.at z).x a = P.f d.x a := fun z => rfl
  have h3 : ∀ z, (d.at z).y = z := fun z => rfl
  have h4 : ¬ 1 - P.f d.x a ≤ 0 := by linarith
  simp only [bernoulliLd, h2, h3, if_true, if_neg hy, if_neg (not_le.2 h0), if_neg h4, like]
  rw [exp_log h0, exp_log (by linarith)]
  ring

theorem classLoop_spec (mock : List ℝ) (y k : ℕ) (lld : ℝ) :
    classLoop y mock k lld = lld + (if k ≤ y then mock.getD (y - k) 0 else 0) := by
  induction mock generalizing k lld with
  | nil => simp [classLoop]
  | cons m ms ih =>
    rw [classLoop, ih]
    by_cases hk : y = k
    · subst hk
      simp
    · have : ¬ ((y : ℝ) = (k : ℝ)) := by exact_mod_cast hk
      simp only [if_neg this, add_zero]
      by_cases hle : k ≤ y
      · rw [if_pos hle, if_pos (by omega)]
        congr 1
        have : y - k = (y - (k + 1)) + 1 := by omega
        rw [this, List.getD_cons_succ]
      · rw [if_neg hle, if_neg (by omega)]

/-- Several classes: when the outputs of the model are positive and sum to one, as those of the softmax
model do, so do the likelihoods of the classes. -/
theorem C29_classes (mock : List ℝ) (hpos : ∀ m ∈ mock, 0 < m) (hsum : mock.sum = 1) :
    ((List.range mock.length).map fun k : ℕ => like (classLd mock k)).sum = 1 := by
  have : ((List.range mock.length).map fun k : ℕ => like (classLd mock k)) = mock := by
    apply List.ext_getElem
    · simp
    · intro i h1 h2
      have hm := hpos _ (List.getElem_mem h2)
      simp only [List.getElem_map, List.getElem_range, classLd, classLoop_spec, Nat.zero_le, if_true,
        Nat.sub_zero, zero_add, List.getD_eq_getElem?_getD, List.getElem?_eq_getElem h2,
        Option.getD_some, if_neg (not_le.2 hm), like, exp_log hm]
  rw [this, hsum]

/-- Mixtures of normalised distributions are normalised, for all fractions. -/
theorem C29_mixed (e1 e2 : Dist X) (P : Prob X) (a : List ℝ) (d : Datum X)
    (h1 : ∫ y, exp (e1.ld P (mixP1 e2 a) (d.at y)) = 1)
    (h2 : ∫ y, exp (e2.ld P (mixP2 e1 e2 a) (d.at y)) = 1) :
    ∫ y, exp (mixLd e1 e2 P a (d.at y)) = 1 := by
  have i1 : Integrable fun y => exp (e1.ld P (mixP1 e2 a) (d.at y)) := by
    by_contra h
    rw [integral_undef h] at h1
    exact zero_ne_one h1
  have i2 : Integrable fun y => exp (e2.ld P (mixP2 e1 e2 a) (d.at y)) := by
    by_contra h
    rw [integral_undef h] at h2
    exact zero_ne_one h2
  by_cases hf0 : fromEnd a 1 ≤ 0
  · simpa [mixLd, hf0] using h2
  · by_cases hf1 : 1 ≤ fromEnd a 1
    · simpa [mixLd, hf0, hf1] using h1
    · have e : ∀ y, exp (mixLd e1 e2 P a (d.at y))
          = fromEnd a 1 * exp (e1.ld P (mixP1 e2 a) (d.at y))
            + (1 - fromEnd a 1) * exp (e2.ld P (mixP2 e1 e2 a) (d.at y)) := by
        intro y
        have : 0 < 1 - fromEnd a 1 := by linarith
        simp only [mixLd, if_neg hf0, if_neg hf1, logaddexp]
        rw [exp_log (by positivity), exp_add, exp_add, exp_log (not_le.1 hf0), exp_log this]
        ring
      simp only [e]
      rw [integral_add (i1.const_mul _) (i2.const_mul _), integral_const_mul, integral_const_mul, h1,
        h2]
      ring

example : ∫ y, exp (mixLd gaussDist laplaceDist plainDemo [0, 2, 3, 1 / 4]
    ((⟨0, 0, 1, 1⟩ : Datum ℝ).at y)) = 1 := by
  apply C29_mixed
  · refine C29_gauss plainDemo rfl rfl _ _ ?_
    simp [mixP1, laplaceDist, allBut, fromEnd, Prob.varyy, Prob.accuracy, plainDemo, circleDemo]
  · refine C29_laplace plainDemo rfl rfl _ _ ?_
    simp [mixP2, gaussDist, laplaceDist, allBut, fromEnd, scaleOf, Prob.hasAccuracy, plainDemo, circleDemo]

end BF.ErrDis
