import Verif.Props.Scales

/-!
# C83: `toSigma` gives the standard deviation of the data

The datum is `y`; the model has the value `f`. The variance is the mean of `(y - f) ^ 2` over the likelihood.
-/

noncomputable section

namespace BF.ErrDis

open Real MeasureTheory

variable {X : Type*}

theorem second_moment (b p : ℝ) (hb : 0 < b) (hp : 0 < p) :
    ∫ x : ℝ, x ^ 2 * exp (-b * |x| ^ p) = 2 * (b ^ (-3 / p) * (1 / p) * Gamma (3 / p)) := by
  have h : ∀ x : ℝ, x ^ 2 * exp (-b * |x| ^ p) = |x| ^ (2 : ℝ) * exp (-b * |x| ^ p) := by
    intro x
    rw [rpow_two, sq_abs]
  simp only [h]
  rw [integral_comp_abs (f := fun x => x ^ (2 : ℝ) * exp (-b * x ^ p)),
    integral_rpow_mul_exp_neg_mul_rpow hp (by norm_num) hb]
  norm_num

theorem C83_exponential (P : Prob X) (hc : P.cyclic = none) (hw : P.hasW = false) (hacc : P.acc = .none)
    (p : List ℝ) (s q : ℝ) (hs : 0 < s) (hq : 0 < q) (d : Datum X) :
    ∫ y, (y - P.f d.x p) ^ 2 * exp (expLd P (p ++ [s, q]) (d.at y)) = powerSigma s q ^ 2 := by
  have hG : 0 < Gamma (1 / q) := Gamma_pos_of_pos (by positivity)
  have hG3 : 0 < Gamma (3 / q) := Gamma_pos_of_pos (by positivity)
  have e : ∀ y, (y - P.f d.x p) ^ 2 * exp (expLd P (p ++ [s, q]) (d.at y))
      = ((y - P.f d.x p) ^ 2 * exp (-(1 / s ^ q) * |y - P.f d.x p| ^ q)) * (q / (2 * s) / Gamma (1 / q)) := by
    intro y
    simp only [expLd, hw, Bool.false_eq_true, if_false, expScale_none P hacc, residual_at P hc, gammaln,
      fromEnd_two_one, allBut_two]
    rw [exp_add, exp_sub, exp_log (by positivity), exp_log hG, abs_div, abs_of_pos hs,
      div_rpow (abs_nonneg _) hs.le, show -(1 / s ^ q) * |y - P.f d.x p| ^ q
        = -(|y - P.f d.x p| ^ q / s ^ q) by ring]
    ring
  simp only [e]
  rw [integral_mul_const,
    integral_sub_right_eq_self (fun y : ℝ => y ^ 2 * exp (-(1 / s ^ q) * |y| ^ q)) (P.f d.x p),
    second_moment _ _ (by positivity) hq, powerSigma, mul_pow, sq_sqrt (by positivity), one_div (s ^ q),
    ← rpow_neg hs.le, ← rpow_mul hs.le, show -q * (-3 / q) = 3 by field_simp,
    show (3 : ℝ) = ((3 : ℕ) : ℝ) by norm_num, rpow_natCast]
  field_simp

theorem C83_gauss (P : Prob X) (hc : P.cyclic = none) (hw : P.hasW = false) (hacc : P.acc = .none)
    (p : List ℝ) (hlen : p.length = P.np) (s : ℝ) (hs : 0 < s) (d : Datum X) :
    ∫ y, (y - P.f d.x p) ^ 2 * exp (gaussLd P (p ++ [s]) (d.at y)) = toSigma s ^ 2 := by
  have e : ∀ y, (y - P.f d.x p) ^ 2 * exp (gaussLd P (p ++ [s]) (d.at y))
      = ((y - P.f d.x p) ^ 2 * exp (-(1 / (2 * s ^ 2)) * |y - P.f d.x p| ^ (2 : ℝ))) * (√(2 * π * s ^ 2))⁻¹ := by
    intro y
    simp only [gaussLd, gaussS2, hw, Bool.false_eq_true, if_false, Prob.weightedResSq, residual_at P hc,
      fromEnd_one, varyy_zero P hacc, take_left' p [s] P.np hlen, rpow_two, sq_abs]
    rw [exp_sub, mul_assoc]
    congr 1
    rw [div_eq_mul_inv]
    congr 1
    · congr 1
      field_simp
      norm_num
      ring
    · rw [← exp_log (show 0 < √(2 * π * s ^ 2) by positivity), log_sqrt (by positivity), LOG2PI, ← log_mul (by positivity) (by positivity)]
      congr 2
      rw [show s * s + 0 = s ^ 2 by ring]
      ring
  simp only [e]
  have hG : Gamma (3 / 2) = √π / 2 := by
    have := Gamma_add_one (show (1 / 2 : ℝ) ≠ 0 by norm_num)
    rw [Gamma_one_half_eq] at this
    rw [show (3 / 2 : ℝ) = 1 / 2 + 1 by norm_num, this]
    ring
  have hpow : (1 / (2 * s ^ 2)) ^ (-3 / 2 : ℝ) = 2 * s ^ 2 * √(2 * s ^ 2) := by
    rw [one_div, ← rpow_neg_one, ← rpow_mul (by positivity), show (-1 * (-3 / 2) : ℝ) = 1 + 1 / 2 by norm_num,
      rpow_add (by positivity), rpow_one, sqrt_eq_rpow]
  rw [integral_mul_const,
    integral_sub_right_eq_self (fun y : ℝ => y ^ 2 * exp (-(1 / (2 * s ^ 2)) * |y| ^ (2 : ℝ))) (P.f d.x p),
    second_moment _ _ (by positivity) two_pos, hG, hpow, toSigma, show 2 * π * s ^ 2 = π * (2 * s ^ 2) by ring,
    sqrt_mul pi_pos.le]
  have h1 : 0 < √(2 * s ^ 2) := sqrt_pos.2 (by positivity)
  have h2 : 0 < √π := sqrt_pos.2 pi_pos
  field_simp

theorem C83_laplace (P : Prob X) (hc : P.cyclic = none) (hw : P.hasW = false) (hacc : P.acc = .none)
    (p : List ℝ) (hlen : p.length = P.np) (s : ℝ) (hs : 0 < s) (d : Datum X) :
    ∫ y, (y - P.f d.x p) ^ 2 * exp (laplaceLd P (p ++ [s]) (d.at y)) = laplaceSigma s ^ 2 := by
  have e : ∀ y, (y - P.f d.x p) ^ 2 * exp (laplaceLd P (p ++ [s]) (d.at y))
      = ((y - P.f d.x p) ^ 2 * exp (-(1 / s) * |y - P.f d.x p| ^ (1 : ℝ))) * (1 / (2 * s)) := by
    intro y
    simp only [laplaceLd, hw, Bool.false_eq_true, if_false, residual_at P hc, scaleOf_none P hacc,
      take_left' p [s] P.np hlen]
    rw [exp_sub, exp_add, exp_log two_pos, exp_log hs, rpow_one, mul_assoc, div_eq_mul_one_div]
    rw [show -(1 / s) * |y - P.f d.x p| = -|y - P.f d.x p| / s by ring]
  simp only [e]
  rw [integral_mul_const,
    integral_sub_right_eq_self (fun y : ℝ => y ^ 2 * exp (-(1 / s) * |y| ^ (1 : ℝ))) (P.f d.x p),
    second_moment _ _ (by positivity) one_pos, laplaceSigma, mul_pow, sq_sqrt (by norm_num)]
  have hG : Gamma (3 / 1) = 2 := by norm_num [Nat.factorial]
  have hpow : (1 / s) ^ (-3 / 1 : ℝ) = s ^ 3 := by
    rw [one_div, ← rpow_neg_one, ← rpow_mul hs.le]
    norm_num
  rw [hG, hpow]
  field_simp

theorem C83_uniform (P : Prob X) (hw : P.hasW = false) (hacc : P.acc = .none) (p : List ℝ) (s : ℝ) (hs : 0 < s)
    (d : Datum X) :
    ∫ y, (y - P.f d.x p) ^ 2 * like (uniformLd P (p ++ [s]) (d.at y)) = uniformSigma s ^ 2 := by
  set m := P.f d.x p with hm
  have e : (fun y => (y - m) ^ 2 * like (uniformLd P (p ++ [s]) (d.at y)))
      = (Set.Ioo (m - s) (m + s)).indicator fun y => (y - m) ^ 2 * (1 / (2 * s)) := by
    funext y
    have h2 : P.f (d.at y).x p = m := rfl
    have h3 : (d.at y).y = y := rfl
    simp only [uniformLd, hw, Bool.false_eq_true, if_false, scaleOf_none P hacc, allBut_one, h2, h3]
    by_cases h : |y - m| < s
    · rw [if_pos h, Set.indicator_of_mem]
      · simp only [like]
        rw [exp_neg, exp_log (by positivity), one_div]
      · rw [abs_lt] at h
        exact ⟨by linarith, by linarith⟩
    · rw [if_neg h, Set.indicator_of_notMem]
      · simp [like]
      · intro h'
        exact h (abs_lt.2 ⟨by linarith [h'.1], by linarith [h'.2]⟩)
  rw [e, integral_indicator measurableSet_Ioo, ← integral_Ioc_eq_integral_Ioo, ← intervalIntegral.integral_of_le (by linarith),
    intervalIntegral.integral_mul_const, intervalIntegral.integral_comp_sub_right (fun y => y ^ 2), integral_pow,
    uniformSigma, div_pow, sq_sqrt (by norm_num)]
  have h1 : m - s - m = -s := by ring
  have h2 : m + s - m = s := by ring
  rw [h1, h2]
  push_cast
  field_simp
  ring

/-- The Cauchy distribution has no variance; `toSigma` gives the scale all the same. -/
theorem C83_counterexample_cauchy (P : Prob X) (hc : P.cyclic = none) (hacc : P.acc = .none)
    (p : List ℝ) (s : ℝ) (hs : 0 < s) (d : Datum X) :
    ¬ Integrable fun y => (y - P.f d.x p) ^ 2 * exp (cauchyLd P (p ++ [s]) (d.at y)) := by
  intro h
  set m := P.f d.x p with hm
  have h1 : IntegrableOn (fun _ : ℝ => s / (2 * π)) (Set.Ioi (m + s)) := by
    refine Integrable.mono' (h.integrableOn (s := Set.Ioi (m + s))) aestronglyMeasurable_const ?_
    rw [ae_restrict_iff' measurableSet_Ioi]
    refine Filter.Eventually.of_forall ?_
    intro y hy
    have hy' : s < y - m := by
      have : m + s < y := hy
      linarith
    have hpos : 0 < (y - m) * (y - m) + s * s := by
      have := mul_self_nonneg (y - m)
      positivity
    rw [norm_of_nonneg (by positivity)]
    simp only [cauchyLd, scaleOf_none P hacc, residual_at P hc, allBut_one, ← hm]
    rw [exp_sub, exp_sub, exp_log hs, exp_log pi_pos, exp_log hpos, ← sub_nonneg]
    have : (y - m) ^ 2 * (s / π / ((y - m) * (y - m) + s * s)) - s / (2 * π)
        = s / (2 * π) * (((y - m) ^ 2 - s ^ 2) / ((y - m) * (y - m) + s * s)) := by
      field_simp
      ring
    rw [this]
    apply mul_nonneg (by positivity)
    apply div_nonneg _ hpos.le
    nlinarith
  rw [integrableOn_const_iff] at h1
  rcases h1 with h1 | h1
  · simp [hs.ne', pi_ne_zero] at h1
  · simp at h1

example : powerSigma 3 1 = 3 * √2 := by
  have hG : Gamma 3 = 2 := by norm_num [Nat.factorial]
  simp [powerSigma, hG]

end BF.ErrDis
