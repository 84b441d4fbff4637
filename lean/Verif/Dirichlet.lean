import Mathlib.Analysis.SpecialFunctions.Trigonometric.Sinc
import Mathlib.Analysis.SpecialFunctions.ImproperIntegrals
import Mathlib.MeasureTheory.Integral.Prod
import Mathlib.MeasureTheory.Integral.IntervalIntegral.FundThmCalculus
import Mathlib.Analysis.SpecialFunctions.Trigonometric.Deriv
import Mathlib.Analysis.Calculus.Deriv.MeanValue
import Mathlib.Tactic.Linarith
import Mathlib.Tactic.FieldSimp
import Mathlib.Tactic.Positivity
import Mathlib.Tactic.NormNum

/-! Mathematics that Mathlib does not have: the integral of sin x / x, and Taylor bounds of sin and cos. -/

noncomputable section

namespace BF.Dirichlet

open MeasureTheory Set Filter Topology

theorem inner_s {t : ℝ} (ht : 0 < t) : ∫ s in Ioi (0 : ℝ), Real.sin t * Real.exp (-t * s) = Real.sinc t := by
  rw [integral_const_mul, integral_exp_mul_Ioi (by linarith), Real.sinc_of_ne_zero ht.ne']
  simp
  rfl

theorem inner_t (s R : ℝ) (hR : 0 ≤ R) : ∫ t in Ioc 0 R, Real.sin t * Real.exp (-t * s)
    = (1 - Real.exp (-R * s) * (Real.cos R + s * Real.sin R)) / (1 + s ^ 2) := by
  have h1 : 1 + s ^ 2 ≠ 0 := by positivity
  rw [← intervalIntegral.integral_of_le hR]
  have hd : ∀ t : ℝ, HasDerivAt
      (fun t => -(Real.exp (-t * s) * (Real.cos t + s * Real.sin t)) / (1 + s ^ 2))
      (Real.sin t * Real.exp (-t * s)) t := by
    intro t
    have he : HasDerivAt (fun t : ℝ => Real.exp (-t * s)) (Real.exp (-t * s) * (-1 * s)) t :=
      ((hasDerivAt_neg t).mul_const s).exp
    have hc := (Real.hasDerivAt_cos t).fun_add ((Real.hasDerivAt_sin t).const_mul s)
    refine ((he.fun_mul hc).fun_neg.div_const (1 + s ^ 2)).congr_deriv ?_
    field_simp
    ring
  rw [intervalIntegral.integral_eq_sub_of_hasDerivAt (fun t _ => hd t)
    (by apply Continuous.intervalIntegrable; fun_prop)]
  simp
  field_simp
  ring

theorem integrable_both (R : ℝ) : Integrable
    (fun p : ℝ × ℝ => Real.sin p.1 * Real.exp (-p.1 * p.2))
    ((volume.restrict (Ioc 0 R)).prod (volume.restrict (Ioi 0))) := by
  rw [integrable_prod_iff (by apply Continuous.aestronglyMeasurable; fun_prop)]
  constructor
  · rw [ae_restrict_iff' measurableSet_Ioc]
    exact Eventually.of_forall fun t ht =>
      (integrableOn_exp_mul_Ioi (a := -t) (by linarith [ht.1]) 0).const_mul (Real.sin t)
  · have hc : Integrable (fun t => |Real.sinc t|) (volume.restrict (Ioc 0 R)) :=
      ((Real.continuous_sinc.abs).integrableOn_Icc (a := 0) (b := R)).mono_set Ioc_subset_Icc_self
    refine hc.congr ?_
    rw [Filter.EventuallyEq, ae_restrict_iff' measurableSet_Ioc]
    refine Eventually.of_forall fun t ht => ?_
    have h0 : 0 < t := ht.1
    rw [Real.sinc_of_ne_zero h0.ne']
    simp only [norm_mul, Real.norm_eq_abs, Real.abs_exp]
    rw [integral_const_mul, integral_exp_mul_Ioi (by linarith), abs_div, abs_of_pos h0]
    simp
    rfl

theorem sinc_as_exp {R : ℝ} (hR : 0 ≤ R) : ∫ t in (0 : ℝ)..R, Real.sinc t
    = ∫ s in Ioi (0 : ℝ), (1 - Real.exp (-R * s) * (Real.cos R + s * Real.sin R)) / (1 + s ^ 2) := by
  rw [intervalIntegral.integral_of_le hR]
  have h1 : ∫ t in Ioc 0 R, Real.sinc t
      = ∫ t in Ioc 0 R, ∫ s in Ioi (0 : ℝ), Real.sin t * Real.exp (-t * s) :=
    setIntegral_congr_fun measurableSet_Ioc fun t ht => (inner_s ht.1).symm
  rw [h1, integral_integral_swap (integrable_both R)]
  exact integral_congr_ae (Eventually.of_forall fun s => inner_t s R hR)

theorem rest_bound {R s : ℝ} (hs : 0 < s) :
    ‖Real.exp (-R * s) * (Real.cos R + s * Real.sin R) / (1 + s ^ 2)‖ ≤ 2 * Real.exp (-R * s) := by
  rw [Real.norm_eq_abs, abs_div, abs_mul, Real.abs_exp, abs_of_pos (show 0 < 1 + s ^ 2 by positivity),
    div_le_iff₀ (by positivity)]
  have h2 : |Real.cos R + s * Real.sin R| ≤ 1 + s := by
    refine (abs_add_le _ _).trans ?_
    rw [abs_mul, abs_of_pos hs]
    have := Real.abs_cos_le_one R
    have := mul_le_mul_of_nonneg_left (Real.abs_sin_le_one R) hs.le
    linarith
  have h3 : 1 + s ≤ 2 * (1 + s ^ 2) := by nlinarith [sq_nonneg (s - 1)]
  have := Real.exp_pos (-R * s)
  nlinarith

/-- The integral of sin x / x from 0 to infinity is pi / 2. -/
theorem tendsto_sinc : Tendsto (fun R => ∫ t in (0 : ℝ)..R, Real.sinc t) atTop (𝓝 (Real.pi / 2)) := by
  have hA : IntegrableOn (fun s : ℝ => (1 + s ^ 2)⁻¹) (Ioi 0) := integrable_inv_one_add_sq.integrableOn
  have hE : ∀ R, 0 < R → IntegrableOn
      (fun s => Real.exp (-R * s) * (Real.cos R + s * Real.sin R) / (1 + s ^ 2)) (Ioi 0) := by
    intro R hR
    refine Integrable.mono' ((integrableOn_exp_mul_Ioi (a := -R) (by linarith) 0).const_mul 2) ?_ ?_
    · apply Continuous.aestronglyMeasurable
      refine Continuous.div (by fun_prop) (by fun_prop) (fun s => by positivity)
    · rw [ae_restrict_iff' measurableSet_Ioi]
      exact Eventually.of_forall fun s hs => rest_bound hs
  have hval : ∀ R, 0 < R → ∫ t in (0 : ℝ)..R, Real.sinc t
      = Real.pi / 2 - ∫ s in Ioi (0 : ℝ), Real.exp (-R * s) * (Real.cos R + s * Real.sin R) / (1 + s ^ 2) := by
    intro R hR
    rw [sinc_as_exp hR.le]
    have hpi : ∫ s in Ioi (0 : ℝ), (1 + s ^ 2)⁻¹ = Real.pi / 2 := by
      rw [integral_Ioi_inv_one_add_sq]; simp
    rw [← hpi, ← integral_sub hA (hE R hR)]
    refine integral_congr_ae (Eventually.of_forall fun s => ?_)
    simp only
    rw [sub_div, one_div]
  rw [tendsto_iff_norm_sub_tendsto_zero]
  have h2 : Tendsto (fun R : ℝ => 2 / R) atTop (𝓝 0) := tendsto_const_nhds.div_atTop tendsto_id
  refine squeeze_zero' (Eventually.of_forall fun R => norm_nonneg _) ?_ h2
  filter_upwards [eventually_gt_atTop 0] with R hR
  rw [hval R hR, sub_sub_cancel_left, norm_neg]
  refine (norm_integral_le_of_norm_le
    ((integrableOn_exp_mul_Ioi (a := -R) (by linarith) 0).const_mul 2) ?_).trans ?_
  · rw [ae_restrict_iff' measurableSet_Ioi]
    exact Eventually.of_forall fun s hs => rest_bound hs
  · rw [integral_const_mul, integral_exp_mul_Ioi (by linarith)]
    simp
    rfl

/-! ### Taylor bounds -/

/-- The Taylor polynomials of the sine, `n` terms. -/
def sinT (n : ℕ) (x : ℝ) : ℝ := ∑ k ∈ Finset.range n, (-1) ^ k * x ^ (2 * k + 1) / ((2 * k + 1).factorial : ℝ)

/-- The Taylor polynomials of the cosine, `n` terms. -/
def cosT (n : ℕ) (x : ℝ) : ℝ := ∑ k ∈ Finset.range n, (-1) ^ k * x ^ (2 * k) / ((2 * k).factorial : ℝ)

theorem sinT_deriv (n : ℕ) (x : ℝ) : HasDerivAt (sinT n) (cosT n x) x := by
  unfold sinT cosT
  refine HasDerivAt.fun_sum fun k _ => ?_
  have := ((hasDerivAt_pow (2 * k + 1) x).const_mul ((-1 : ℝ) ^ k)).div_const ((2 * k + 1).factorial : ℝ)
  refine this.congr_deriv ?_
  have h : ((2 * k).factorial : ℝ) ≠ 0 := by positivity
  rw [Nat.factorial_succ]
  push_cast
  have h2 : (2 * (k : ℝ) + 1) ≠ 0 := by positivity
  field_simp

theorem cosT_deriv (n : ℕ) (x : ℝ) : HasDerivAt (cosT (n + 1)) (-sinT n x) x := by
  have e : cosT (n + 1) = fun x => (∑ k ∈ Finset.range n,
      (-1) ^ (k + 1) * x ^ (2 * k + 1 + 1) / ((2 * k + 1 + 1).factorial : ℝ)) + 1 := by
    funext x
    unfold cosT
    rw [Finset.sum_range_succ']
    simp [mul_add]
  rw [e]
  have : HasDerivAt (fun x : ℝ => ∑ k ∈ Finset.range n,
      (-1 : ℝ) ^ (k + 1) * x ^ (2 * k + 1 + 1) / ((2 * k + 1 + 1).factorial : ℝ)) (-sinT n x) x := by
    unfold sinT
    rw [← Finset.sum_neg_distrib]
    refine HasDerivAt.fun_sum fun k _ => ?_
    have := ((hasDerivAt_pow (2 * k + 1 + 1) x).const_mul ((-1 : ℝ) ^ (k + 1))).div_const
      ((2 * k + 1 + 1).factorial : ℝ)
    refine this.congr_deriv ?_
    have h : ((2 * k + 1).factorial : ℝ) ≠ 0 := by positivity
    rw [Nat.factorial_succ (2 * k + 1)]
    push_cast
    have h2 : (2 * (k : ℝ) + 1 + 1) ≠ 0 := by positivity
    rw [pow_succ (-1 : ℝ)]
    field_simp
  exact (this.fun_add (hasDerivAt_const x 1)).congr_deriv (by ring)

theorem nonneg_of_deriv {f f' : ℝ → ℝ} (hf : ∀ x, HasDerivAt f (f' x) x) (h0 : 0 ≤ f 0)
    (h : ∀ x, 0 ≤ x → 0 ≤ f' x) {x : ℝ} (hx : 0 ≤ x) : 0 ≤ f x := by
  have hm : MonotoneOn f (Ici 0) := by
    refine monotoneOn_of_deriv_nonneg (convex_Ici 0) ?_ ?_ ?_
    · exact fun y _ => (hf y).continuousAt.continuousWithinAt
    · exact fun y _ => (hf y).differentiableAt.differentiableWithinAt
    · intro y hy
      rw [interior_Ici] at hy
      rw [(hf y).deriv]
      exact h y (le_of_lt hy)
  exact h0.trans (hm self_mem_Ici hx hx)

theorem taylor (n : ℕ) : (∀ x : ℝ, 0 ≤ x → 0 ≤ (-1) ^ (n + 1) * (Real.cos x - cosT (n + 1) x)) ∧
    ∀ x : ℝ, 0 ≤ x → 0 ≤ (-1) ^ (n + 1) * (Real.sin x - sinT (n + 1) x) := by
  have hS : ∀ n : ℕ, (∀ x : ℝ, 0 ≤ x → 0 ≤ (-1) ^ (n + 1) * (Real.cos x - cosT (n + 1) x)) →
      ∀ x : ℝ, 0 ≤ x → 0 ≤ (-1) ^ (n + 1) * (Real.sin x - sinT (n + 1) x) := by
    intro n h x hx
    refine nonneg_of_deriv (f := fun x => (-1) ^ (n + 1) * (Real.sin x - sinT (n + 1) x))
      (fun x => ((Real.hasDerivAt_sin x).fun_sub (sinT_deriv (n + 1) x)).const_mul _) ?_ h hx
    simp [sinT]
  induction n with
  | zero =>
    have : ∀ x : ℝ, 0 ≤ x → 0 ≤ (-1) ^ (0 + 1) * (Real.cos x - cosT (0 + 1) x) := by
      intro x _
      simp [cosT]
      exact Real.cos_le_one x
    exact ⟨this, hS 0 this⟩
  | succ n ih =>
    have : ∀ x : ℝ, 0 ≤ x → 0 ≤ (-1) ^ (n + 1 + 1) * (Real.cos x - cosT (n + 1 + 1) x) := by
      intro x hx
      refine nonneg_of_deriv (f := fun x => (-1) ^ (n + 1 + 1) * (Real.cos x - cosT (n + 1 + 1) x))
        (fun x => (((Real.hasDerivAt_cos x).fun_sub (cosT_deriv (n + 1) x)).const_mul _)) ?_ ?_ hx
      · unfold cosT
        rw [Finset.sum_range_succ']
        simp
      · intro y hy
        have := ih.2 y hy
        rw [pow_succ]
        linarith
    exact ⟨this, hS (n + 1) this⟩

/-- With an odd number of terms the Taylor polynomial is above the sine, with an even number below. -/
theorem sin_le_taylor (m : ℕ) {x : ℝ} (hx : 0 ≤ x) : Real.sin x ≤ sinT (2 * m + 1) x := by
  have := (taylor (2 * m)).2 x hx
  rw [pow_succ, pow_mul] at this
  norm_num at this
  linarith

theorem taylor_le_sin (m : ℕ) {x : ℝ} (hx : 0 ≤ x) : sinT (2 * m + 2) x ≤ Real.sin x := by
  have := (taylor (2 * m + 1)).2 x hx
  rw [show 2 * m + 1 + 1 = 2 * (m + 1) by ring, pow_mul] at this
  norm_num at this
  exact this

end BF.Dirichlet
