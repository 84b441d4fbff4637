import Verif.Units
import Verif.Props.Poly
import Verif.Props.Splines
import Verif.Props.Shapes
import Verif.Props.BSplines
import Verif.Product
import Mathlib.MeasureTheory.Integral.IntervalIntegral.Basic

/-!
# C110: the units of the parameters fit the model

The data may be given in other units: x in seconds instead of days, y in millivolts instead of volts. The number that
stands for the same quantity is then multiplied by a factor that depends on its unit only. When each parameter has
the unit that the model says it has, the model at the converted x, with the converted parameters, gives the converted
result.
-/

noncomputable section

namespace BF.Units

open BF.Poly BF.Splines BF.Shapes BF.Kernels Finset

variable {G : Type*} [CommGroup G] {rad : G}

/-! ## What is meant -/

/-- A change of units: with what the number of a quantity is multiplied, for each unit. The factor of a product is
the product of the factors, factors are positive, and the radian is a pure number. -/
structure Conversion (G : Type*) [CommGroup G] (rad : G) where
  factor : G →* ℝ
  pos : ∀ u, 0 < factor u
  radian : factor rad = 1

/-- The parameters, converted with the units `unit`. -/
def Conversion.pars (c : Conversion G rad) (unit : ℕ → G) (p : ℕ → ℝ) : ℕ → ℝ := fun k => c.factor (unit k) * p k

/-- The units fit: for every x and all parameters the model in the new units, `after`, gives the result of the model
in the old units, `before`, expressed in the new units. -/
def Fits (c : Conversion G rad) (xU yU : G) (unit : ℕ → G) (before after : ℝ → (ℕ → ℝ) → ℝ) : Prop :=
  ∀ x p, after (c.factor xU * x) (c.pars unit p) = c.factor yU * before x p

/-- The same for models that may raise an error: they raise it for the same x. -/
def FitsOpt (c : Conversion G rad) (xU yU : G) (unit : ℕ → G) (before after : ℝ → (ℕ → ℝ) → Option ℝ) : Prop :=
  ∀ x p, after (c.factor xU * x) (c.pars unit p) = (before x p).map (c.factor yU * ·)

/-- The same for models of two inputs. -/
def Fits2 (c : Conversion G rad) (xU : ℕ → G) (yU : G) (unit : ℕ → G) (before after : ℝ → ℝ → (ℕ → ℝ) → ℝ) : Prop :=
  ∀ x y p, after (c.factor (xU 0) * x) (c.factor (xU 1) * y) (c.pars unit p) = c.factor yU * before x y p

/-- There are such changes: from metres and seconds (x) and volts (y) to kilometres and millivolts. -/
def metric : Conversion (Multiplicative ℤ × Multiplicative ℤ) 1 where
  factor :=
    { toFun := fun u => (1 / 1000 : ℝ) ^ (Multiplicative.toAdd u.1) * (1000 : ℝ) ^ (Multiplicative.toAdd u.2)
      map_one' := by simp
      map_mul' := by
        intro a b
        simp only [Prod.fst_mul, Prod.snd_mul, toAdd_mul]
        rw [zpow_add₀ (by norm_num), zpow_add₀ (by norm_num)]
        ring }
  pos := by intro u; simp only [MonoidHom.coe_mk, OneHom.coe_mk]; positivity
  radian := by simp

/-! ## Models with a fixed number of parameters -/

variable (c : Conversion G rad) (xU yU : G)

theorem fne (u : G) : c.factor u ≠ 0 := (c.pos u).ne'

/-- C110: the arctangent. -/
theorem C110_arctan : Fits c xU yU (arctanUnit xU yU) Simple.arctan.result Simple.arctan.result := by
  intro x p
  have h := fne c xU
  simp only [Simple.arctan, Conversion.pars, arctanUnit, if_true, map_inv, OfNat.ofNat_ne_zero, one_ne_zero, if_false,
    OfNat.one_ne_ofNat]
  have : (c.factor xU)⁻¹ * p 2 * (c.factor xU * x - c.factor xU * p 1) = p 2 * (x - p 1) := by field_simp
  rw [this]
  ring

/-- C110: the exponential, growing or decaying. -/
theorem C110_exp (sign : ℝ) : Fits c xU yU (expUnit xU yU) (Simple.exp sign).result (Simple.exp sign).result := by
  intro x p
  have h := fne c xU
  simp only [Simple.exp, Conversion.pars, expUnit, if_true, map_inv, one_ne_zero, if_false]
  have : sign * ((c.factor xU)⁻¹ * p 1) * (c.factor xU * x) = sign * p 1 * x := by field_simp
  rw [this]
  ring

/-- The simplifications that occur in all of them. -/
theorem ratio (a b s : ℝ) (h : s ≠ 0) (q : ℝ) : (s * a - s * b) / (s * q) = (a - b) / q := by
  rw [← mul_sub, mul_div_mul_left _ _ h]

/-- C110: the Gaussian. -/
theorem C110_gauss : Fits c xU yU (peakUnit xU yU) Simple.gauss.result Simple.gauss.result := by
  intro x p
  have h := fne c xU
  simp only [Simple.gauss, Conversion.pars, peakUnit, if_true, one_ne_zero, if_false, OfNat.ofNat_ne_zero]
  have : (c.factor xU * x - c.factor xU * p 1) * (1.0 / (c.factor xU * p 2)) = (x - p 1) * (1.0 / p 2) := by
    have h1 : (1.0 : ℝ) = 1 := by norm_num
    rw [h1, mul_one_div, mul_one_div, ratio _ _ _ h]
  rw [this]
  ring

/-- C110: the Lorentzian. -/
theorem C110_lorentz : Fits c xU yU (peakUnit xU yU) Simple.lorentz.result Simple.lorentz.result := by
  intro x p
  have h := fne c xU
  simp only [Simple.lorentz, Conversion.pars, peakUnit, if_true, one_ne_zero, if_false, OfNat.ofNat_ne_zero]
  generalize c.factor xU = s at *
  have h1 : c.factor yU * p 0 * (s * p 2 * (s * p 2)) = s * s * (c.factor yU * (p 0 * (p 2 * p 2))) := by ring
  have h2 : (s * x - s * p 1) * (s * x - s * p 1) + s * p 2 * (s * p 2)
      = s * s * ((x - p 1) * (x - p 1) + p 2 * p 2) := by ring
  rw [h1, h2, mul_div_mul_left _ _ (mul_ne_zero h h), mul_div_assoc]

/-- C110: the logistic function. -/
theorem C110_logistic : Fits c xU yU (peakUnit xU yU) Simple.logistic.result Simple.logistic.result := by
  intro x p
  have h := fne c xU
  simp only [Simple.logistic, Conversion.pars, peakUnit, if_true, one_ne_zero, if_false, OfNat.ofNat_ne_zero]
  rw [ratio _ _ _ h, mul_div_assoc]

/-- C110: all kernels, and so the sinc. -/
theorem C110_kernel (K : Kernel) :
    Fits c xU yU (peakUnit xU yU) (Simple.kernel K).result (Simple.kernel K).result := by
  intro x p
  have h := fne c xU
  simp only [Simple.kernel, Conversion.pars, peakUnit, if_true, one_ne_zero, if_false, OfNat.ofNat_ne_zero]
  rw [ratio _ _ _ h, mul_assoc]

/-- C110: the Voigt profile. -/
theorem C110_voigt (w : ℂ → ℂ) :
    Fits c xU yU (peakUnit xU yU) (Simple.voigt w).result (Simple.voigt w).result := by
  intro x p
  have h := fne c xU
  simp only [Simple.voigt, Conversion.pars, peakUnit, if_true, one_ne_zero, if_false, OfNat.ofNat_ne_zero]
  generalize c.factor xU = s at *
  have hs : (s : ℂ) ≠ 0 := by exact_mod_cast h
  have h1 : Complex.I * ((s * p 3 : ℝ) : ℂ) / ((s * p 2 * Real.sqrt 2 : ℝ) : ℂ)
      = Complex.I * ((p 3 : ℝ) : ℂ) / ((p 2 * Real.sqrt 2 : ℝ) : ℂ) := by
    push_cast
    rw [mul_assoc (s : ℂ), show Complex.I * ((s : ℂ) * (p 3 : ℂ)) = (s : ℂ) * (Complex.I * (p 3 : ℂ)) by ring,
      mul_div_mul_left _ _ hs]
  have h2 : ((s * x - s * p 1 : ℝ) : ℂ) / ((s * p 2 * Real.sqrt 2 : ℝ) : ℂ)
      = ((x - p 1 : ℝ) : ℂ) / ((p 2 * Real.sqrt 2 : ℝ) : ℂ) := by
    push_cast
    rw [mul_assoc (s : ℂ), ← mul_sub, mul_div_mul_left _ _ hs]
  rw [h1, h2, mul_assoc, mul_div_assoc]

/-- C110: the sine with two amplitudes. -/
theorem C110_sine : Fits c xU yU (sineUnit rad xU yU) Simple.sine.result Simple.sine.result := by
  intro x p
  have h := fne c xU
  simp only [Simple.sine, Conversion.pars, sineUnit, if_true, one_ne_zero, if_false, OfNat.ofNat_ne_zero, map_div,
    c.radian]
  have : 2 * Real.pi * (c.factor xU * x) * (1 / c.factor xU * p 0) = 2 * Real.pi * x * p 0 := by field_simp
  rw [this]
  ring

/-- C110: the sine with a phase. -/
theorem C110_sine_phase : Fits c xU yU (sinePhaseUnit rad xU yU) Simple.sinePhase.result Simple.sinePhase.result := by
  intro x p
  have h := fne c xU
  simp only [Simple.sinePhase, Conversion.pars, sinePhaseUnit, if_true, one_ne_zero, if_false, OfNat.ofNat_ne_zero,
    OfNat.ofNat_ne_one, map_div, c.radian]
  have : 2 * Real.pi * (c.factor xU * x) * (1 / c.factor xU * p 1) = 2 * Real.pi * x * p 1 := by field_simp
  rw [this, one_mul]
  ring

/-- C110: the sine of a fixed frequency; the frequency is converted too. -/
theorem C110_sine_amp (frequency : ℝ) : Fits c xU yU (sameUnit xU yU) (Simple.sineAmp frequency).result
    (Simple.sineAmp (c.factor xU⁻¹ * frequency)).result := by
  intro x p
  have h := fne c xU
  simp only [Simple.sineAmp, Conversion.pars, sameUnit, map_inv]
  have : 2 * Real.pi * ((c.factor xU)⁻¹ * frequency) * (c.factor xU * x) = 2 * Real.pi * frequency * x := by field_simp
  rw [this]
  ring

/-- C110: the etalon. -/
theorem C110_etalon : Fits c xU yU (etalonUnit rad xU yU) Simple.etalon.result Simple.etalon.result := by
  intro x p
  have h := fne c xU
  simp only [Simple.etalon, Conversion.pars, etalonUnit, if_true, one_ne_zero, if_false, OfNat.ofNat_ne_zero,
    OfNat.ofNat_ne_one, map_div, map_one, c.radian, show (3 : ℕ) ≠ 2 by norm_num]
  have : Real.pi * (c.factor xU * x) * (1 / c.factor xU * p 2) + 1 * p 3 = Real.pi * x * p 2 + p 3 := by field_simp
  rw [this, one_mul, mul_div_assoc]

/-- C110: the sine with a drift. -/
theorem C110_sine_drift :
    Fits c xU yU (sineDriftUnit rad xU yU) Simple.sineDrift.result Simple.sineDrift.result := by
  intro x p
  have h := fne c xU
  simp only [Simple.sineDrift, Conversion.pars, sineDriftUnit, if_true, one_ne_zero, if_false, OfNat.ofNat_ne_zero,
    map_div, map_mul, c.radian, show (1 : ℕ) ≠ 3 by norm_num, show (2 : ℕ) ≠ 3 by norm_num]
  have : 2 * Real.pi * (c.factor xU * x) * (1 / c.factor xU * p 0 + 1 / (c.factor xU * c.factor xU) * p 3 *
      (c.factor xU * x)) = 2 * Real.pi * x * (p 0 + p 3 * x) := by field_simp
  rw [this]
  ring

/-- C110: the etalon of two inputs. -/
theorem C110_etalon_drift (xU : ℕ → G) :
    Fits2 c xU yU (etalonDriftUnit rad xU yU) Simple.etalonDriftResult Simple.etalonDriftResult := by
  intro x y p
  have h := fne c (xU 0)
  have h1 := fne c (xU 1)
  simp only [Simple.etalonDriftResult, Conversion.pars, etalonDriftUnit, if_true, one_ne_zero, if_false,
    OfNat.ofNat_ne_zero, OfNat.ofNat_ne_one, map_div, map_one, c.radian, show (3 : ℕ) ≠ 2 by norm_num,
    show (4 : ℕ) ≠ 2 by norm_num, show (4 : ℕ) ≠ 3 by norm_num]
  have : Real.pi * (1 / c.factor (xU 0) * p 2 * (c.factor (xU 0) * x) + 1 * p 3 + 1 / c.factor (xU 1) * p 4 *
      (c.factor (xU 1) * y)) = Real.pi * (p 2 * x + p 3 + p 4 * y) := by field_simp
  rw [this, one_mul, mul_div_assoc]

/-- C110: the kernels of two inputs, on an ellipse along the axes. -/
theorem C110_kernel2d (K : Kernel) (xU : ℕ → G) (x y : ℝ) (p : ℕ → ℝ) :
    Kernel2d.Shape.ellipse.result K (c.factor (xU 0) * x, c.factor (xU 1) * y) (c.pars (kernel2dUnit rad xU yU) p)
      = (Kernel2d.Shape.ellipse.result K (x, y) p).map (c.factor yU * ·) := by
  have h := fne c (xU 0)
  have h1 := fne c (xU 1)
  simp only [Kernel2d.Shape.result, Kernel2d.Shape.uv, Conversion.pars, kernel2dUnit]
  norm_num
  rw [ratio _ _ _ h, ratio _ _ _ h1]
  congr 1
  funext f
  simp only [Function.comp]
  ring

/-- C110: the round and the rotated ones, when both inputs have the same unit. -/
theorem C110_kernel2d_same (shape : Kernel2d.Shape) (K : Kernel) (xU : ℕ → G) (h01 : c.factor (xU 1) = c.factor (xU 0))
    (x y : ℝ) (p : ℕ → ℝ) :
    shape.result K (c.factor (xU 0) * x, c.factor (xU 1) * y) (c.pars (kernel2dUnit rad xU yU) p)
      = (shape.result K (x, y) p).map (c.factor yU * ·) := by
  cases shape with
  | ellipse => exact C110_kernel2d c yU K xU x y p
  | circle =>
    have h := fne c (xU 0)
    simp only [Kernel2d.Shape.result, Kernel2d.Shape.uv, Conversion.pars, kernel2dUnit]
    norm_num
    rw [h01, ratio _ _ _ h, ratio _ _ _ h]
    congr 1
    funext f
    simp only [Function.comp]
    ring
  | rotated =>
    have h := fne c (xU 0)
    simp only [Kernel2d.Shape.result, Kernel2d.Shape.uv, Conversion.pars, kernel2dUnit]
    norm_num
    rw [h01, c.radian, one_mul]
    have e1 : ((c.factor (xU 0) * x - c.factor (xU 0) * p 1) * Real.cos (p 5)
        - (c.factor (xU 0) * y - c.factor (xU 0) * p 2) * Real.sin (p 5)) / (c.factor (xU 0) * p 3)
        = ((x - p 1) * Real.cos (p 5) - (y - p 2) * Real.sin (p 5)) / p 3 := by
      rw [← mul_div_mul_left _ (p 3) h]; ring
    have e2 : ((c.factor (xU 0) * x - c.factor (xU 0) * p 1) * Real.sin (p 5)
        + (c.factor (xU 0) * y - c.factor (xU 0) * p 2) * Real.cos (p 5)) / (c.factor (xU 0) * p 4)
        = ((x - p 1) * Real.sin (p 5) + (y - p 2) * Real.cos (p 5)) / p 4 := by
      rw [← mul_div_mul_left _ (p 4) h]; ring
    rw [e1, e2]
    congr 1
    funext f
    simp only [Function.comp]
    ring

/-! ## Models with any number of parameters -/

theorem app_left (a b : List ℝ) (k : ℕ) (h : k < a.length) : (a ++ b).getD k 0 = a.getD k 0 := by
  simp only [List.getD_eq_getElem?_getD, List.getElem?_append_left h]

theorem app_right (a b : List ℝ) (k : ℕ) (h : a.length ≤ k) : (a ++ b).getD k 0 = b.getD (k - a.length) 0 := by
  simp only [List.getD_eq_getElem?_getD, List.getElem?_append_right h]

theorem linear_fits (t : ℝ) (a : ℕ → ℝ) (p : ℕ → ℝ) (l l' : List ℝ) (hl : l'.length = l.length)
    (h : ∀ k, k < l.length → a k * l'.getD k 0 = t * l.getD k 0) :
    linearResult (fun k => a k * p k) l' = t * linearResult p l := by
  rw [linear_sum, linear_sum, hl, mul_sum]
  apply sum_congr rfl
  intro k hk
  have := h k (mem_range.1 hk)
  linear_combination p k * this

/-- C110: polynomials. -/
theorem C110_polynomial (degree : ℕ) : Fits c xU yU (polyUnit xU yU) (polyResult degree) (polyResult degree) := by
  intro x p
  have h := fne c xU
  apply linear_fits
  · simp [polyPartial, powers_range]
  · intro k hk
    simp only [polyPartial, powers_range, List.length_map, List.length_range] at hk ⊢
    rw [BSplines.getD_map _ _ k hk, BSplines.getD_map _ _ k hk, polyUnit, map_div, map_pow, mul_pow]
    field_simp

/-- C110: Chebyshev polynomials, for which x is a pure number. -/
theorem C110_chebyshev (degree : ℕ) : Fits c 1 yU (sameUnit 1 yU) (chebResult degree) (chebResult degree) := by
  intro x p
  rw [map_one, one_mul]
  exact linear_fits _ _ p _ _ rfl fun k _ => rfl

/-- C110: harmonics; the period is converted too. -/
theorem C110_harmonic (order : ℕ) (period : ℝ) : Fits c xU yU (sameUnit xU yU) (harmonicResult order period)
    (harmonicResult order (c.factor xU * period)) := by
  intro x p
  have h := fne c xU
  have : harmonicPartial order (c.factor xU * period) (c.factor xU * x) = harmonicPartial order period x := by
    unfold harmonicPartial
    rw [show 2 * Real.pi * (c.factor xU * x) = c.factor xU * (2 * Real.pi * x) by ring, mul_div_mul_left _ _ h]
  rw [harmonicResult, this]
  exact linear_fits _ _ p _ _ rfl fun k _ => rfl

/-- C110: the quotient of two polynomials. -/
theorem C110_pade (num den : ℕ) :
    Fits c xU yU (padeUnit num xU yU) (padeResult num den) (padeResult num den) := by
  intro x p
  have h := fne c xU
  have loop : ∀ (q : ℕ → ℝ) (t : ℝ) (n k j : ℕ), (∀ i, i < n → c.pars (padeUnit num xU yU) p (k + i)
      = t / c.factor xU ^ (j + i) * p (k + i)) → ∀ s xx, padeLoop (c.factor xU * x) (c.pars (padeUnit num xU yU) p) n k
        (t * s) (c.factor xU ^ j * xx) = t * padeLoop x p n k s xx := by
    intro _ t n
    induction n with
    | zero => intro k j _ s xx; rfl
    | succ n ih =>
      intro k j hp s xx
      have h0 := hp 0 (Nat.succ_pos n)
      rw [Nat.add_zero, Nat.add_zero] at h0
      rw [padeLoop, padeLoop, h0]
      have e1 : t * s + t / c.factor xU ^ j * p k * (c.factor xU ^ j * xx) = t * (s + p k * xx) := by
        field_simp
      have e2 : c.factor xU ^ j * xx * (c.factor xU * x) = c.factor xU ^ (j + 1) * (xx * x) := by ring
      rw [e1, e2]
      apply ih
      intro i hi
      have := hp (i + 1) (by omega)
      rw [show k + 1 + i = k + (i + 1) by omega, show j + 1 + i = j + (i + 1) by omega]
      exact this
  have hn := loop p (c.factor yU) (num + 1) 0 0 (by
    intro i hi
    rw [Nat.zero_add, Conversion.pars, padeUnit, if_pos (by omega), map_div, map_pow]) 0 1
  have hd := loop p 1 (num + den + 2 - (num + 1)) (num + 1) 0 (by
    intro i hi
    rw [Conversion.pars, padeUnit, if_neg (by omega), map_inv, map_pow, Nat.zero_add, one_div]
    congr 4
    omega) 0 1
  rw [mul_zero, pow_zero, one_mul] at hn hd
  rw [one_mul] at hd
  rw [padeResult, padeResult, padeNum, padeNum, padeDen, padeDen, hn, hd, mul_div_assoc]

/-- C110: polynomial amplitudes of a sine; the frequency is converted too. -/
theorem C110_poly_sine (degree : ℕ) (frequency : ℝ) (xU : ℕ → G) :
    Fits2 c xU yU (polySineUnit (2 * (degree + 1)) xU yU) (polySineResult degree frequency)
      (polySineResult degree (c.factor (xU 0)⁻¹ * frequency)) := by
  intro x y p
  have h := fne c (xU 0)
  have h1 := fne c (xU 1)
  have ht : 2 * Real.pi * (c.factor (xU 0)⁻¹ * frequency) * (c.factor (xU 0) * x) = 2 * Real.pi * frequency * x := by
    rw [map_inv]; field_simp
  rw [polySineResult, polySineResult, polySinePartial, polySinePartial, ht]
  simp only [powers_range]
  apply linear_fits
  · simp
  · intro k hk
    simp only [List.length_append, List.length_map, List.length_range] at hk
    rw [polySineUnit, show 2 * (degree + 1) / 2 = degree + 1 by omega, map_div, map_pow]
    by_cases hk' : k < degree + 1
    · rw [app_left _ _ _ (by simpa using hk'), app_left _ _ _ (by simpa using hk'),
        BSplines.getD_map _ _ k hk', BSplines.getD_map _ _ k hk', Nat.mod_eq_of_lt hk', mul_pow]
      field_simp
    · rw [app_right _ _ _ (by simpa using hk'), app_right _ _ _ (by simpa using hk')]
      simp only [List.length_map, List.length_range]
      have hm : k % (degree + 1) = k - (degree + 1) := by
        rw [Nat.mod_eq_sub_mod (by omega), Nat.mod_eq_of_lt (by omega)]
      rw [BSplines.getD_map _ _ _ (by omega), BSplines.getD_map _ _ _ (by omega), hm, mul_pow]
      field_simp

theorem splineLoop_scale (n : ℕ) (s x : ℝ) (hs : 0 < s) (ks : List ℝ) (xc : ℝ) (inn : Bool) :
    splineLoop n (s * x) (ks.map (s * ·)) (s ^ n * xc) inn = (splineLoop n x ks xc inn).map (s ^ n * ·) := by
  induction ks generalizing xc inn with
  | nil => cases inn <;> simp [splineLoop]
  | cons k ks ih =>
    rw [List.map_cons, splineLoop, splineLoop]
    have hk : s * x ≥ s * k ↔ x ≥ k := mul_le_mul_iff_right₀ hs
    simp only [hk, product_pow, ← mul_sub, mul_pow]
    by_cases h : x ≥ k
    · rw [if_pos h, if_pos h, ih, List.map_cons]
      cases inn <;> simp <;> ring
    · rw [if_neg h, if_neg h, ih, List.map_cons]
      cases inn <;> simp

theorem splineLoop_length (n : ℕ) (x : ℝ) (ks : List ℝ) (xc : ℝ) (inn : Bool) :
    (splineLoop n x ks xc inn).length = ks.length + 1 := by
  induction ks generalizing xc inn with
  | nil => simp [splineLoop]
  | cons k ks ih =>
    rw [splineLoop]
    split <;> simp [ih]

/-- The columns of the splines, before and after. -/
theorem spline_scale (order : ℕ) (knots : List ℝ) (s x : ℝ) (hs : 0 < s) :
    (splinePartial order knots x = none ∧ splinePartial order (knots.map (s * ·)) (s * x) = none) ∨
    ∃ l l', splinePartial order knots x = some l ∧ splinePartial order (knots.map (s * ·)) (s * x) = some l' ∧
      l.length = nspline order knots ∧ l'.length = nspline order knots ∧
      ∀ k, l'.getD k 0 = s ^ (if k > order then order else k) * l.getD k 0 := by
  by_cases h : knots.length < 2
  · exact Or.inl ⟨by rw [splinePartial, if_pos h], by rw [splinePartial, List.length_map, if_pos h]⟩
  refine Or.inr ⟨powers order 1 x ++ splineLoop order x knots.tail.dropLast (product order x) true,
    powers order 1 (s * x) ++ (splineLoop order x knots.tail.dropLast (product order x) true).map (s ^ order * ·),
    by rw [splinePartial, if_neg h], ?_, ?_, ?_, ?_⟩
  · rw [splinePartial, List.length_map, if_neg h, ← List.map_tail, ← List.map_dropLast,
      show product order (s * x) = s ^ order * product order x by rw [product_pow, product_pow, mul_pow],
      splineLoop_scale order s x hs]
  · simp [powers_range, splineLoop_length, nspline]
    omega
  · simp [powers_range, splineLoop_length, nspline]
    omega
  · intro k
    simp only [powers_range]
    by_cases hk : k < order
    · rw [app_left _ _ _ (by simpa using hk), app_left _ _ _ (by simpa using hk), BSplines.getD_map _ _ k hk,
        BSplines.getD_map _ _ k hk, if_neg (by omega), mul_pow]
      ring
    · rw [app_right _ _ _ (by simpa using hk), app_right _ _ _ (by simpa using hk)]
      have : (if k > order then order else k) = order := by split <;> omega
      rw [this]
      simp only [List.length_map, List.length_range, List.getD_eq_getElem?_getD, List.getElem?_map]
      cases (splineLoop order x knots.tail.dropLast (product order x) true)[k - order]? <;> simp

/-- C110: splines; the knots are converted too. -/
theorem C110_splines (order : ℕ) (knots : List ℝ) : FitsOpt c xU yU (splineUnit order xU yU)
    (splineResult order knots) (splineResult order (knots.map (c.factor xU * ·))) := by
  intro x p
  have hne := fne c xU
  rcases spline_scale order knots (c.factor xU) x (c.pos xU) with ⟨h1, h2⟩ | ⟨l, l', h1, h2, hl, hl', hk⟩
  · rw [splineResult, splineResult, h1, h2]; rfl
  · rw [splineResult, splineResult, h1, h2]
    simp only [Option.map_some]
    congr 1
    refine linear_fits _ _ p _ _ (by rw [hl, hl']) fun k _ => ?_
    rw [hk k, splineUnit, map_div, map_pow]
    field_simp

/-- C110: a sine with splines as amplitudes; the knots and the frequency are converted too. -/
theorem C110_sine_spline (freq : ℝ) (order : ℕ) (knots : List ℝ) :
    FitsOpt c xU yU (sineSplineUnit order (2 * nspline order knots) xU yU) (sineSplineResult freq order knots)
      (sineSplineResult (c.factor xU⁻¹ * freq) order (knots.map (c.factor xU * ·))) := by
  intro x p
  have hne := fne c xU
  have ht : 2 * Real.pi * (c.factor xU⁻¹ * freq) * (c.factor xU * x) = 2 * Real.pi * freq * x := by
    rw [map_inv]; field_simp
  rw [sineSplineResult, sineSplineResult, sineSplinePartial, sineSplinePartial, ht]
  rcases spline_scale order knots (c.factor xU) x (c.pos xU) with ⟨h1, h2⟩ | ⟨l, l', h1, h2, hl, hl', hk⟩
  · rw [h1, h2]; rfl
  · rw [h1, h2]
    simp only [Option.map_some]
    congr 1
    refine linear_fits _ _ p _ _ (by simp [hl, hl']) fun k hk' => ?_
    simp only [List.length_append, List.length_map, hl] at hk'
    simp only [sineSplineUnit, show 2 * nspline order knots / 2 = nspline order knots by omega, map_div, map_pow]
    have mapD : ∀ (a : ℝ) (b : List ℝ) (i : ℕ), (b.map (a * ·)).getD i 0 = a * b.getD i 0 := by
      intro a b i
      simp only [List.getD_eq_getElem?_getD, List.getElem?_map]
      cases b[i]? <;> simp
    by_cases hn : k < nspline order knots
    · rw [app_left _ _ _ (by simpa [hl'] using hn), app_left _ _ _ (by simpa [hl] using hn), mapD, mapD, hk k,
        Nat.mod_eq_of_lt hn]
      field_simp
    · have hm : k % nspline order knots = k - nspline order knots := by
        rw [Nat.mod_eq_sub_mod (by omega), Nat.mod_eq_of_lt (by omega)]
      rw [app_right _ _ _ (by simpa [hl'] using hn), app_right _ _ _ (by simpa [hl] using hn), mapD, mapD]
      simp only [List.length_map, hl, hl']
      rw [hk, hm]
      field_simp

/-- C110: B-splines; the knots are converted too. -/
theorem C110_bsplines (m : BSplines.Spec) : FitsOpt c xU yU (sameUnit xU yU) m.result
    ({ m with
      knots := m.knots.map (c.factor xU * ·) } : BSplines.Spec).result := by
  intro x p
  have hs := c.pos xU
  generalize hS : c.factor xU = s at hs
  have hhead : ∀ l : List ℝ, (l.map (s * ·)).headD 0 = s * l.headD 0 := by intro l; cases l <;> simp
  have hlast : ∀ l : List ℝ, (l.map (s * ·)).getLastD 0 = s * l.getLastD 0 := by
    intro l
    rcases List.eq_nil_or_concat l with rfl | ⟨l', a, rfl⟩ <;> simp
  rw [BSplines.Spec.result, BSplines.Spec.result, BSplines.Spec.partials, BSplines.Spec.partials]
  simp only [hhead, hlast]
  have hc : (s * x < s * m.knots.headD 0 ∨ s * x > s * m.knots.getLastD 0) ↔
      (x < m.knots.headD 0 ∨ x > m.knots.getLastD 0) := by
    rw [gt_iff_lt, gt_iff_lt, mul_lt_mul_iff_right₀ hs, mul_lt_mul_iff_right₀ hs]
  by_cases hx : x < m.knots.headD 0 ∨ x > m.knots.getLastD 0
  · rw [if_pos (hc.2 hx), if_pos hx]; rfl
  rw [if_neg (fun h => hx (hc.1 h)), if_neg hx]
  have hx0 : m.knots.headD 0 ≤ x := not_lt.1 fun h => hx (Or.inl h)
  have hb : ({ m with
      knots := m.knots.map (s * ·) } : BSplines.Spec).bspline
      = { m.bspline with
          knots := m.bspline.knots.map (s * ·) } := by
    simp only [BSplines.Spec.bspline, BSplines.augknt, hhead, hlast, List.map_append, List.map_replicate]
  have ht0 : m.bspline.t 0 = m.knots.headD 0 := by
    simp only [BSplines.Spec.bspline, BSplines.Bspline.t, BSplines.augknt]
    cases m.order with
    | zero => cases m.knots <;> simp
    | succ n => simp [List.replicate_succ]
  rw [hb]
  generalize m.bspline = b at ht0
  have ht : ∀ i, BSplines.Bspline.t { b with
      knots := b.knots.map (s * ·) } i = s * b.t i := by
    intro i
    simp only [BSplines.Bspline.t, List.getD_eq_getElem?_getD, List.getElem?_map]
    cases b.knots[i]? <;> simp
  have hbasis : ∀ q, BSplines.Bspline.basis { b with
      knots := b.knots.map (s * ·) } (s * x) q = b.basis x q := by
    intro q
    induction q with
    | zero =>
      simp only [BSplines.Bspline.basis, BSplines.Bspline.basis0, List.length_map]
      apply List.map_congr_left
      intro i _
      congr 1
      rw [eq_iff_iff, ht, ht, mul_le_mul_iff_right₀ hs, mul_lt_mul_iff_right₀ hs]
      have : (s * x = BSplines.Bspline.lastKnot { b with
          knots := b.knots.map (s * ·) } (i + 1)) ↔ x = b.lastKnot (i + 1) ∨ False := by
        rw [or_false, BSplines.Bspline.lastKnot, BSplines.Bspline.lastKnot, ht, ht, List.length_map]
        split
        · exact mul_right_inj' hs.ne'
        · constructor
          · intro h
            have : s * x ≥ s * b.t 0 := by rw [ht0]; exact mul_le_mul_of_nonneg_left hx0 hs.le
            linarith
          · intro h
            rw [ht0] at h
            linarith
      rw [this, or_false]
    | succ q ih =>
      simp only [BSplines.Bspline.basis, List.length_map, ih]
      apply List.map_congr_left
      intro i _
      have hq : ∀ (a d : ℝ), (if s * d ≠ 0 then (s * a) / (s * d) else 0) = if d ≠ 0 then a / d else 0 := by
        intro a d
        by_cases hd : d = 0
        · simp [hd]
        · rw [if_pos (mul_ne_zero hs.ne' hd), if_pos hd, mul_div_mul_left _ _ hs.ne']
      simp only [BSplines.Bspline.first, BSplines.Bspline.second, ht, ← mul_sub, hq]
  simp only [Option.map_some]
  congr 1
  rw [BSplines.Bspline.call, hbasis]
  exact linear_fits _ _ p _ _ rfl fun k _ => rfl

/-- C110: a free shape, for x inside the borders; the borders are converted too. -/
theorem C110_free_shape_partial (m : Free) (hr : ∀ r, m.shape.range = some r → 0 ≤ r) (x : ℝ) (p : ℕ → ℝ)
    (h1 : m.xlo ≤ x) (h2 : x ≤ m.xhi) :
    Free.result { m with
      xlo := c.factor xU * m.xlo
      xhi := c.factor xU * m.xhi } (c.factor xU * x) (c.pars (sameUnit xU yU) p)
      = (m.result x p).map (c.factor yU * ·) := by
  have hs := c.pos xU
  have hin : m.inDomain x := by
    intro r h
    have := hr r h
    push Not
    constructor <;> linarith
  have hin' : Free.inDomain { m with
      xlo := c.factor xU * m.xlo
      xhi := c.factor xU * m.xhi } (c.factor xU * x) := by
    intro r h
    have := hr r h
    have := mul_le_mul_of_nonneg_left h1 hs.le
    have := mul_le_mul_of_nonneg_left h2 hs.le
    push Not
    constructor <;> simp only <;> linarith
  rw [Free.result, Free.result, Free.partials, Free.partials, if_pos hin, if_pos hin']
  simp only [Option.map_some]
  congr 1
  have : m.npix * (c.factor xU * x - c.factor xU * m.xlo) / (c.factor xU * m.xhi - c.factor xU * m.xlo)
      = m.npix * (x - m.xlo) / (m.xhi - m.xlo) := by
    rw [← mul_sub, ← mul_sub, ← mul_assoc, mul_comm (m.npix : ℝ), mul_assoc, mul_div_mul_left _ _ hs.ne']
  rw [this]
  exact linear_fits _ _ p _ _ rfl fun k _ => rfl

theorem triangle_eq (m dk i fuel : ℕ) (hi : i ≤ dk + m) (hf : m ≤ fuel) :
    triangle fuel (m * dk + m * (m + 1) / 2 + i) dk = (i, dk + m) := by
  induction m generalizing dk fuel with
  | zero =>
    cases fuel with
    | zero => simp [triangle]
    | succ f => rw [triangle, if_neg (by omega)]; simp
  | succ m ih =>
    cases fuel with
    | zero => omega
    | succ f =>
      have ht := tri_succ m
      have hm : (m + 1) * dk = m * dk + dk := by ring
      have hm' : m * (dk + 1) = m * dk + m := by ring
      rw [triangle, if_pos (by omega)]
      have : (m + 1) * dk + (m + 1) * (m + 1 + 1) / 2 + i - (dk + 1) = m * (dk + 1) + m * (m + 1) / 2 + i := by omega
      rw [this, ih (dk + 1) f (by omega) (by omega)]
      simp only [Prod.mk.injEq, true_and]
      omega

/-- What the unit of a parameter of the surface is: the powers of the two inputs. -/
theorem polySurfaceUnit_eq (xU : ℕ → G) (d i : ℕ) (hi : i ≤ d) :
    polySurfaceUnit xU yU (d * (d + 1) / 2 + i) = yU / (xU 0 ^ i * xU 1 ^ (d - i)) := by
  have hd : d ≤ d * (d + 1) / 2 + i := by
    rcases Nat.eq_zero_or_pos d with rfl | h
    · omega
    · have : d * 2 ≤ d * (d + 1) := Nat.mul_le_mul_left d (by omega)
      omega
  have := triangle_eq d 0 i (d * (d + 1) / 2 + i) (by omega) hd
  rw [Nat.mul_zero, Nat.zero_add, Nat.zero_add] at this
  simp only [polySurfaceUnit, this]

/-- C110: a polynomial in two inputs, when both have the same unit. -/
theorem C110_poly_surface_partial (degree : ℕ) (xU : ℕ → G) (h01 : c.factor (xU 1) = c.factor (xU 0)) :
    Fits2 c xU yU (polySurfaceUnit xU yU) (Poly.surfaceResult degree) (Poly.surfaceResult degree) := by
  intro x y p
  have hne := fne c (xU 0)
  rw [(C35_surface _ _ _ _).1, (C35_surface _ _ _ _).1, mul_sum]
  apply sum_congr rfl
  intro d _
  rw [mul_sum]
  apply sum_congr rfl
  intro i hi
  have hi' : i ≤ d := by have := mem_range.1 hi; omega
  rw [Conversion.pars, polySurfaceUnit_eq yU xU d i hi', map_div, map_mul, map_pow, map_pow, h01, mul_pow, mul_pow]
  field_simp

/-- C110: a layer of a neural net without offsets. Its result is a pure number. -/
theorem C110_softmax (s : SoftMax.Spec) (ho : s.offset = false) (xU : ℕ → G) (x p : ℕ → ℝ) (n : ℕ) (hn : n < s.ndout) :
    s.result (fun k => c.factor (xU k) * x k) (c.pars (softMaxUnit s xU) p) n = s.result x p n := by
  have hr : ∀ i, i < s.ndout → SoftMax.rasterResult s (fun k => c.factor (xU k) * x k) (c.pars (softMaxUnit s xU) p) i
      = SoftMax.rasterResult s x p i := by
    intro i hi
    simp only [SoftMax.rasterResult, ho, SoftMax.connectResult]
    apply sum_congr rfl
    intro k hk
    have hk' := mem_range.1 hk
    have h1 : i * s.ndim + k < s.ndim * s.ndout := by
      have : (i + 1) * s.ndim ≤ s.ndout * s.ndim := Nat.mul_le_mul_right _ hi
      rw [Nat.mul_comm s.ndim]
      have h2 : (i + 1) * s.ndim = i * s.ndim + s.ndim := by ring
      omega
    rw [Conversion.pars, softMaxUnit, if_neg (by omega), show (i * s.ndim + k) % s.ndim = k by
      rw [Nat.mul_comm, Nat.mul_add_mod, Nat.mod_eq_of_lt hk']]
    have := fne c (xU k)
    rw [map_div, map_one]
    field_simp
  unfold SoftMax.Spec.result
  rw [hr n hn]
  split
  · split
    · rfl
    · unfold SoftMax.softmax
      rw [hr n hn, sum_congr rfl fun i hi => by rw [hr i (mem_range.1 hi)]]
  · rfl

/-! ## Models made of models -/

/-- The unit of a compound model so far is `r`; this says that the operations on it make sense, and that the result
has the unit `r'`: only like can be added to like or subtracted from it. -/
def Makes : List (Link G × Op × (ℝ → (ℕ → ℝ) → ℝ)) → G → G → Prop
  | [], r, r' => r' = r
  | (m, op, _) :: ms, r, r' =>
    match op with
    | .add => m.yUnit = r ∧ Makes ms r r'
    | .sub => m.yUnit = r ∧ Makes ms r r'
    | .mul => Makes ms (r * m.yUnit) r'
    | .div => Makes ms (r / m.yUnit) r'

/-- The function uses the first `n` parameters only. -/
def Uses (n : ℕ) (f : ℝ → (ℕ → ℝ) → ℝ) : Prop := ∀ x p q, (∀ k, k < n → p k = q k) → f x p = f x q

/-- The units that a compound model gives. -/
def chainUnit (ms : List (Link G)) (k : ℕ) : G := (getParameterUnit ms k).getD 1

theorem chainUnit_head (m : Link G) (ms : List (Link G)) (k : ℕ) (h : k < m.npbase) :
    chainUnit (m :: ms) k = m.unit m.xUnit m.yUnit k := by
  rw [chainUnit, getParameterUnit, if_pos h, Option.getD_some]

theorem chainUnit_tail (m : Link G) (ms : List (Link G)) (k : ℕ) :
    chainUnit (m :: ms) (m.npbase + k) = chainUnit ms k := by
  rw [chainUnit, getParameterUnit, if_neg (by omega), show m.npbase + k - m.npbase = k by omega, chainUnit]

theorem link_fits (m : Link G) (f : ℝ → (ℕ → ℝ) → ℝ) (ms : List (Link G)) (hu : Uses m.npbase f)
    (hf : Fits c m.xUnit m.yUnit (m.unit m.xUnit m.yUnit) f f) (x : ℝ) (p : ℕ → ℝ) :
    f (c.factor m.xUnit * x) (c.pars (chainUnit (m :: ms)) p) = c.factor m.yUnit * f x p := by
  rw [← hf x p]
  apply hu
  intro k hk
  rw [Conversion.pars, Conversion.pars, chainUnit_head m ms k hk]

/-- C110: sums, differences, products and quotients of models. Let the units of each model fit, with its own `xUnit`
and `yUnit`, let all have the same `xUnit`, and let only like be added to like. Then the units of the compound fit
too. -/
theorem C110_compound (head : Link G × (ℝ → (ℕ → ℝ) → ℝ)) (ms : List (Link G × Op × (ℝ → (ℕ → ℝ) → ℝ)))
    (r : G) (hr : Makes ms head.1.yUnit r) (hh : head.1.xUnit = xU) (hx : ∀ m ∈ ms, m.1.xUnit = xU)
    (uh : Uses head.1.npbase head.2) (um : ∀ m ∈ ms, Uses m.1.npbase m.2.2)
    (fh : Fits c head.1.xUnit head.1.yUnit (head.1.unit head.1.xUnit head.1.yUnit) head.2 head.2)
    (fm : ∀ m ∈ ms, Fits c m.1.xUnit m.1.yUnit (m.1.unit m.1.xUnit m.1.yUnit) m.2.2 m.2.2) :
    Fits c xU r (chainUnit (head.1 :: ms.map Prod.fst)) (chainResult head ms) (chainResult head ms) := by
  intro x p
  have key : ∀ (ms : List (Link G × Op × (ℝ → (ℕ → ℝ) → ℝ))) (a : G), Makes ms a r → (∀ m ∈ ms, m.1.xUnit = xU) →
      (∀ m ∈ ms, Uses m.1.npbase m.2.2) →
      (∀ m ∈ ms, Fits c m.1.xUnit m.1.yUnit (m.1.unit m.1.xUnit m.1.yUnit) m.2.2 m.2.2) → ∀ p res,
      restResult ms (c.factor xU * x) (c.pars (chainUnit (ms.map Prod.fst)) p) (c.factor a * res)
        = c.factor r * restResult ms x p res := by
    intro ms
    induction ms with
    | nil =>
      intro a ha _ _ _ p res
      have : r = a := ha
      rw [this]; rfl
    | cons m ms ih =>
      intro a ha hx um fm p res
      obtain ⟨m, op, f⟩ := m
      have h1 := link_fits c m f (ms.map Prod.fst) (um _ (List.mem_cons_self ..)) (fm _ (List.mem_cons_self ..)) x p
      rw [show m.xUnit = xU from hx _ (List.mem_cons_self ..)] at h1
      have ih' := fun b hb => ih b hb (fun n hn => hx n (List.mem_cons_of_mem _ hn))
        (fun n hn => um n (List.mem_cons_of_mem _ hn)) (fun n hn => fm n (List.mem_cons_of_mem _ hn))
        (fun k => p (m.npbase + k))
      have hp : (fun k => c.pars (chainUnit (m :: ms.map Prod.fst)) p (m.npbase + k))
          = c.pars (chainUnit (ms.map Prod.fst)) fun k => p (m.npbase + k) := by
        funext k
        rw [Conversion.pars, chainUnit_tail, Conversion.pars]
      rw [List.map_cons, restResult, restResult]
      simp only [h1, hp]
      cases op with
      | add =>
        have ha' : m.yUnit = a ∧ Makes ms a r := ha
        rw [← ih' a ha'.2, ha'.1]
        simp only [Op.operate, mul_add]
      | sub =>
        have ha' : m.yUnit = a ∧ Makes ms a r := ha
        rw [← ih' a ha'.2, ha'.1]
        simp only [Op.operate, mul_sub]
      | mul =>
        rw [← ih' (a * m.yUnit) ha]
        simp only [Op.operate, map_mul]
        congr 1
        ring
      | div =>
        rw [← ih' (a / m.yUnit) ha]
        simp only [Op.operate, map_div]
        congr 1
        rw [mul_div_mul_comm]
  have h1 := link_fits c head.1 head.2 (ms.map Prod.fst) uh fh x p
  rw [hh] at h1
  have hp : (fun k => c.pars (chainUnit (head.1 :: ms.map Prod.fst)) p (head.1.npbase + k))
      = c.pars (chainUnit (ms.map Prod.fst)) fun k => p (head.1.npbase + k) := by
    funext k
    rw [Conversion.pars, chainUnit_tail, Conversion.pars]
  rw [chainResult, chainResult, h1, hp, key ms head.1.yUnit hr hx um fm]

/-- C110: which parameters have a unit: as many as the models in the chain have together; beyond that there is an
error. -/
theorem C110_defined (ms : List (Link G)) (k : ℕ) :
    (getParameterUnit ms k).isSome ↔ k < (ms.map Link.npbase).sum := by
  induction ms generalizing k with
  | nil => simp [getParameterUnit]
  | cons m ms ih =>
    rw [getParameterUnit, List.map_cons, List.sum_cons]
    split
    · simp only [Option.isSome_some, true_iff]; omega
    · rw [ih]; omega

/-- C110: the unit of the integral. When the units fit, the integral is converted with the unit that
`getIntegralUnit` gives. -/
theorem C110_integral (unit : ℕ → G) (f g : ℝ → (ℕ → ℝ) → ℝ) (h : Fits c xU yU unit f g) (a b : ℝ) (p : ℕ → ℝ) :
    ∫ x in (c.factor xU * a)..(c.factor xU * b), g x (c.pars unit p)
      = c.factor (getIntegralUnit [xU] yU) * ∫ x in a..b, f x p := by
  rw [← intervalIntegral.mul_integral_comp_mul_left (f := fun x => g x (c.pars unit p))]
  simp only [h _ p, intervalIntegral.integral_const_mul, getIntegralUnit, List.foldl_cons, List.foldl_nil, map_mul]
  ring

@[inherit_doc C110_integral]
theorem C110_integral2 (xU : ℕ → G) (unit : ℕ → G) (f g : ℝ → ℝ → (ℕ → ℝ) → ℝ) (h : Fits2 c xU yU unit f g)
    (a b a' b' : ℝ) (p : ℕ → ℝ) :
    ∫ x in (c.factor (xU 0) * a)..(c.factor (xU 0) * b), ∫ y in (c.factor (xU 1) * a')..(c.factor (xU 1) * b'),
        g x y (c.pars unit p)
      = c.factor (getIntegralUnit [xU 0, xU 1] yU) * ∫ x in a..b, ∫ y in a'..b', f x y p := by
  rw [← intervalIntegral.mul_integral_comp_mul_left
    (f := fun x => ∫ y in (c.factor (xU 1) * a')..(c.factor (xU 1) * b'), g x y (c.pars unit p))]
  simp only [← intervalIntegral.mul_integral_comp_mul_left (f := fun y => g _ y (c.pars unit p)), h _ _ p,
    intervalIntegral.integral_const_mul, getIntegralUnit, List.foldl_cons, List.foldl_nil, map_mul]
  ring

/-! ### Lists of parameters -/

/-- A list of parameters, converted with the units `unit`. -/
def Conversion.list (c : Conversion G rad) (unit : ℕ → G) (l : List ℝ) : List ℝ :=
  l.mapIdx fun k v => c.factor (unit k) * v

theorem list_segment (unit : ℕ → G) (l : List ℝ) (n m : ℕ) :
    ((c.list unit l).drop n).take m = c.list (fun k => unit (n + k)) ((l.drop n).take m) := by
  apply List.ext_getElem?
  intro i
  by_cases h : i < m
  · simp only [Conversion.list, List.getElem?_take, List.getElem?_drop, List.getElem?_mapIdx, h, if_true]
  · simp only [Conversion.list, List.getElem?_take, List.getElem?_drop, List.getElem?_mapIdx, h, if_false]
    rfl

theorem list_congr (u v : ℕ → G) (l : List ℝ) (h : ∀ k, k < l.length → u k = v k) : c.list u l = c.list v l := by
  apply List.ext_getElem?
  intro i
  simp only [Conversion.list, List.getElem?_mapIdx]
  by_cases hi : i < l.length
  · rw [h i hi]
  · rw [List.getElem?_eq_none (by omega)]; rfl

/-- C110: a product of models, one for each input, when y is a pure number: then the units of the product are those
of its models. -/
theorem C110_product_partial (ms : List (Product.Comp × (G → G → ℕ → G))) (xU : ℕ → G)
    (hf : ∀ m ∈ ms, ∀ (u : G) (x : ℝ) (l : List ℝ), l.length = m.1.np →
      m.1.res (c.factor u * x) (c.list (m.2 u 1) l) = m.1.res x l)
    (xs params : List ℝ) (hp : params.length = Product.npars (ms.map Prod.fst)) :
    Product.baseResult (ms.map Prod.fst) (c.list xU xs)
        (c.list (productUnit (ms.map fun m => (m.1.np, (1 : G), m.2)) xU 1) params)
      = Product.baseResult (ms.map Prod.fst) xs params := by
  have hn : ∀ (l : List Product.Comp) (a : ℕ), l.foldl (fun np m => np + m.np) a = a + (l.map Product.Comp.np).sum := by
    intro l
    induction l with
    | nil => intro a; simp
    | cons m l ih => intro a; rw [List.foldl_cons, ih, List.map_cons, List.sum_cons]; omega
  rw [Product.npars, hn, Nat.zero_add] at hp
  have key : ∀ (ms : List (Product.Comp × (G → G → ℕ → G))) (k n : ℕ) (res : ℝ),
      (∀ m ∈ ms, ∀ (u : G) (x : ℝ) (l : List ℝ), l.length = m.1.np →
        m.1.res (c.factor u * x) (c.list (m.2 u 1) l) = m.1.res x l) →
      params.length = n + ((ms.map Prod.fst).map Product.Comp.np).sum → ∀ (unit : ℕ → G),
      (∀ j, unit (n + j) = productLoop xU 1 (ms.map fun m => (m.1.np, (1 : G), m.2)) k j 1) →
      Product.resLoop (c.list xU xs) (c.list unit params) (ms.map Prod.fst) k n res
        = Product.resLoop xs params (ms.map Prod.fst) k n res := by
    intro ms
    induction ms with
    | nil => intro k n res _ _ unit _; rfl
    | cons m ms ih =>
      intro k n res hf hp unit hu
      rw [List.map_cons, Product.resLoop, Product.resLoop]
      have hx : (c.list xU xs)[k]? = (xs[k]?).map fun v => c.factor (xU k) * v := by
        rw [Conversion.list, List.getElem?_mapIdx]
      rw [hx]
      cases hxk : xs[k]? with
      | none => rfl
      | some x =>
        simp only [Option.map_some]
        rw [List.map_cons, List.map_cons, List.sum_cons] at hp
        have hseg : ((c.list unit params).take (n + m.1.np)).drop n
            = c.list (m.2 (xU k) 1) ((params.take (n + m.1.np)).drop n) := by
          rw [List.drop_take, List.drop_take, show n + m.1.np - n = m.1.np by omega, list_segment]
          apply list_congr
          intro j hj
          rw [hu j, List.map_cons, productLoop, if_pos, div_one]
          rw [List.length_take] at hj
          omega
        rw [hseg, hf m (List.mem_cons_self ..) (xU k) x _ (by
          rw [List.length_drop, List.length_take]; omega)]
        apply ih (k + 1) (n + m.1.np) _ (fun q hq => hf q (List.mem_cons_of_mem _ hq)) (by omega)
        intro j
        rw [Nat.add_assoc, hu (m.1.np + j), List.map_cons, productLoop, if_neg (by omega),
          show m.1.np + j - m.1.np = j by omega]
  exact key ms 0 0 1 hf (by omega) _ fun j => by rw [Nat.zero_add]; rfl

open BF.Dynamic in
/-- C110: a repeating model, if the units of the repeated model fit; also when some parameters are the same in all
repetitions. -/
theorem C110_repeating (r r' : Rep ℝ) (unit : G → G → ℕ → G) (h1 : r'.ncomp = r.ncomp) (h2 : r'.m = r.m)
    (h3 : r'.same = r.same)
    (hf : ∀ l : List ℝ, l.length = r.m → r'.f (c.list (unit xU yU) l) = c.factor yU * r.f l) (params : List ℝ)
    (hp : r.m ≤ params.length) :
    r'.baseResult (c.list (fun k => (repeatingUnit r unit xU yU k).getD 1) params)
      = (r.baseResult params).map (c.factor yU * ·) := by
  have hidx : r'.index = r.index := by rw [Rep.index, Rep.index, h2, h3]
  have hdel : r'.delta = r.delta := by rw [Rep.delta, Rep.delta, hidx]
  have hsc : ∀ (idx : List ℕ) (vals a : List ℝ) (v : ℕ → G),
      (∀ (j i : ℕ), idx[j]? = some i → v j = unit xU yU i) →
      BF.Arr.scatter (c.list (unit xU yU) a) idx (c.list v vals)
        = (BF.Arr.scatter a idx vals).map (c.list (unit xU yU)) := by
    intro idx
    induction idx with
    | nil => intro vals a v _; cases vals <;> simp [BF.Arr.scatter, Conversion.list]
    | cons i idx ih =>
      intro vals a v hv
      cases vals with
      | nil => simp [BF.Arr.scatter, Conversion.list]
      | cons w vals =>
        have e1 : c.list v (w :: vals) = (c.factor (v 0) * w) :: c.list (fun j => v (j + 1)) vals := by
          simp only [Conversion.list, List.mapIdx_cons]
        rw [e1, BF.Arr.scatter, BF.Arr.scatter]
        have e2 : (c.list (unit xU yU) a).length = a.length := by simp [Conversion.list]
        rw [e2]
        split
        · have e3 : (c.list (unit xU yU) a).set i (c.factor (v 0) * w) = c.list (unit xU yU) (a.set i w) := by
            rw [hv 0 i rfl, Conversion.list, Conversion.list, List.mapIdx_set]
          rw [e3]
          exact ih vals _ _ fun j i' hj => hv (j + 1) i' (by simpa using hj)
        · rfl
  have hlen : ∀ (idx : List ℕ) (vals a b : List ℝ), BF.Arr.scatter a idx vals = some b → b.length = a.length := by
    intro idx
    induction idx with
    | nil => intro vals a b h; cases vals <;> simp [BF.Arr.scatter] at h; rw [h]
    | cons i idx ih =>
      intro vals a b h
      cases vals with
      | nil => simp [BF.Arr.scatter] at h
      | cons w vals =>
        rw [BF.Arr.scatter] at h
        split at h
        · rw [ih _ _ _ h, List.length_set]
        · simp at h
  have key : ∀ (n i : ℕ) (pars : List ℝ) (res : ℝ), pars.length = r.m →
      repLoop r' (c.list (fun k => (repeatingUnit r unit xU yU k).getD 1) params) n (r.m + i * r.delta)
        (c.list (unit xU yU) pars) (c.factor yU * res)
      = (repLoop r params n (r.m + i * r.delta) pars res).map (c.factor yU * ·) := by
    intro n
    induction n with
    | zero =>
      intro i pars res hl
      rw [repLoop, repLoop, hf pars hl, Option.map_some, mul_add]
    | succ n ih =>
      intro i pars res hl
      rw [repLoop, repLoop, hidx, hdel, list_segment, hsc, hf pars hl, ← mul_add]
      · cases hs : BF.Arr.scatter pars r.index ((params.drop (r.m + i * r.delta)).take r.delta) with
        | none => rfl
        | some pars' =>
          simp only [Option.map_some]
          rw [show r.m + i * r.delta + r.delta = r.m + (i + 1) * r.delta by ring]
          exact ih (i + 1) pars' _ (by rw [hlen _ _ _ _ hs, hl])
      · intro j k hj
        have hjd : j < r.delta := by
          obtain ⟨h, -⟩ := List.getElem?_eq_some_iff.1 hj
          exact h
        rw [repeatingUnit, Rep.par2model, if_pos (by omega), if_neg (by omega),
          show r.m + i * r.delta + j - r.m = r.delta * i + j by rw [Nat.mul_comm r.delta]; omega, Nat.mul_add_mod,
          Nat.mod_eq_of_lt hjd, hj]
        rfl
  rw [Rep.baseResult, Rep.baseResult, h1]
  cases r.ncomp with
  | zero => simp
  | succ n =>
    simp only
    rw [h2]
    have e : (c.list (fun k => (repeatingUnit r unit xU yU k).getD 1) params).take r.m
        = c.list (unit xU yU) (params.take r.m) := by
      have := list_segment c (fun k => (repeatingUnit r unit xU yU k).getD 1) params 0 r.m
      rw [List.drop_zero, List.drop_zero] at this
      rw [this]
      apply list_congr
      intro k hk
      rw [List.length_take] at hk
      rw [Nat.zero_add, repeatingUnit, Rep.par2model, if_neg (by omega)]
      rfl
    have := key n 0 (params.take r.m) 0 (by rw [List.length_take]; omega)
    rw [Nat.zero_mul, Nat.add_zero, mul_zero] at this
    rw [e, this]

/-! ## Models of which the units do not fit -/

theorem getD_surface (n m : ℕ) (f g : ℕ → ℝ) (i j : ℕ) (hi : i < n) (hj : j < m) :
    (surfaceStep ((List.range n).map f) ((List.range m).map g))[i * m + j]? = some (f i * g j) := by
  have hl : ∀ n, (surfaceStep ((List.range n).map f) ((List.range m).map g)).length = n * m := by
    intro n
    induction n with
    | zero => simp [surfaceStep]
    | succ n ih =>
      unfold surfaceStep at ih ⊢
      rw [List.range_succ, List.map_append, List.flatMap_append, List.length_append, ih]
      simp
      ring
  induction n with
  | zero => omega
  | succ n ih =>
    have h := hl n
    unfold surfaceStep at ih h ⊢
    rw [List.range_succ, List.map_append, List.flatMap_append]
    by_cases hn : i < n
    · rw [List.getElem?_append_left]
      · exact ih hn
      · rw [h]
        have : (i + 1) * m ≤ n * m := Nat.mul_le_mul_right m hn
        have : (i + 1) * m = i * m + m := by ring
        omega
    · have : i = n := by omega
      subst this
      rw [List.getElem?_append_right (by rw [h]; omega), h, show i * m + j - i * m = j by omega]
      simp [hj]

/-- C110: splines in two inputs, of the default order 3, with the same number of knots, and the same unit. -/
theorem C110_surface_splines_partial (k0 k1 : List ℝ) (hl : k1.length = k0.length) (xU : ℕ → G)
    (h01 : c.factor (xU 1) = c.factor (xU 0)) (x : ℕ → ℝ) (p : ℕ → ℝ) :
    Shapes.surfaceResult [(3, k0.map (c.factor (xU 0) * ·)), (3, k1.map (c.factor (xU 1) * ·))]
        (fun k => c.factor (xU k) * x k) (c.pars (surfaceSplinesUnit [(3, k0), (3, k1)] xU yU) p)
      = (Shapes.surfaceResult [(3, k0), (3, k1)] x p).map (c.factor yU * ·) := by
  have hne := fne c (xU 0)
  unfold Shapes.surfaceResult Shapes.surfacePartial
  simp only [surfaceLoop, h01, Nat.zero_add]
  have asList : ∀ (l : List ℝ), l = (List.range l.length).map fun i => l.getD i 0 := by
    intro l
    apply List.ext_getElem?
    intro i
    rw [List.getElem?_map]
    by_cases hi : i < l.length
    · rw [List.getElem?_range hi, List.getElem?_eq_getElem hi]
      simp [hi]
    · rw [List.getElem?_eq_none (by omega), List.getElem?_eq_none (by simpa using hi)]; rfl
  have one : ∀ l : List ℝ, surfaceStep [1] l = l := by intro l; simp [surfaceStep]
  rcases spline_scale 3 k0 (c.factor (xU 0)) (x 0) (c.pos (xU 0)) with ⟨a1, a2⟩ | ⟨l, l', a1, a2, al, al', ak⟩
  · rw [a1, a2]; rfl
  rw [a1, a2]
  simp only [Option.bind_some, one]
  rcases spline_scale 3 k1 (c.factor (xU 0)) (x 1) (c.pos (xU 0)) with ⟨b1, b2⟩ | ⟨q, q', b1, b2, bl, bl', bk⟩
  · rw [b1, b2]; rfl
  rw [b1, b2]
  simp only [Option.bind_some, Option.map_some]
  congr 1
  have hn : nspline 3 k1 = nspline 3 k0 := by simp [nspline, hl]
  rw [hn] at bl bl'
  have hlen : ∀ a b : List ℝ, (surfaceStep a b).length = a.length * b.length := by
    intro a b
    simp [surfaceStep, List.length_flatMap]
  refine linear_fits _ _ p _ _ (by rw [hlen, hlen, al, al', bl, bl']) fun k hk => ?_
  rw [hlen, al, bl] at hk
  generalize hN : nspline 3 k0 = N at *
  have hNpos : 0 < N := by
    rcases Nat.eq_zero_or_pos N with h | h
    · rw [h] at hk; simp at hk
    · exact h
  have hi : k / N < N := Nat.div_lt_of_lt_mul hk
  have hj : k % N < N := Nat.mod_lt _ hNpos
  have hk' : k = k / N * N + k % N := by rw [Nat.mul_comm]; exact (Nat.div_add_mod k N).symm
  have hget : ∀ (a b : List ℝ), a.length = N → b.length = N →
      (surfaceStep a b).getD k 0 = a.getD (k / N) 0 * b.getD (k % N) 0 := by
    intro a b ha hb
    have e := getD_surface N N (fun i => a.getD i 0) (fun i => b.getD i 0) (k / N) (k % N) hi hj
    rw [← hk'] at e
    rw [← ha, ← asList a, ha, ← hb, ← asList b] at e
    rw [List.getD_eq_getElem?_getD, e, Option.getD_some, hb]
  rw [hget _ _ al' bl', hget _ _ al bl, ak, bk]
  have hu : c.factor (surfaceSplinesUnit [(3, k0), (3, k1)] xU yU k)
      = c.factor yU / c.factor (xU 0) ^ (if k % N > 3 then 3 else k % N)
        / c.factor (xU 0) ^ (if k / N > 3 then 3 else k / N) := by
    have e0 : k0.length + 3 - 1 = N := hN
    have e1 : k1.length + 3 - 1 = N := hn
    simp only [surfaceSplinesUnit, surfaceSplinesLoop, e0, e1, map_div, map_pow, h01, Nat.zero_add,
      Nat.mod_eq_of_lt hi]
  rw [hu]
  field_simp

theorem linear_pick (a : ℕ → ℝ) (j : ℕ) (l : List ℝ) :
    linearResult (fun k => a k * if k = j then 1 else 0) l = a j * l.getD j 0 := by
  rw [linear_sum]
  by_cases hj : j < l.length
  · rw [sum_eq_single j]
    · simp
    · intro k _ hk; simp [hk]
    · intro h; exact absurd (mem_range.2 hj) h
  · rw [List.getD_eq_getElem?_getD, List.getElem?_eq_none (by omega), Option.getD_none, mul_zero]
    apply sum_eq_zero
    intro k hk
    have := mem_range.1 hk
    simp [show k ≠ j by omega]

theorem linear_pick' (j : ℕ) (l : List ℝ) : linearResult (fun k => if k = j then 1 else 0) l = l.getD j 0 := by
  have := linear_pick (fun _ => 1) j l
  simpa using this

/-- One parameter is 1, all others are 0. -/
def only (j : ℕ) : ℕ → ℝ := fun k => if k = j then 1 else 0

theorem only_pars (unit : ℕ → G) (j : ℕ) (l : List ℝ) :
    linearResult (c.pars unit (only j)) l = c.factor (unit j) * l.getD j 0 := linear_pick _ j l

theorem only_value (j : ℕ) (l : List ℝ) : linearResult (only j) l = l.getD j 0 := linear_pick' j l

/-- C110 does not hold for splines in two inputs: the unit of a parameter has the powers of the two inputs the
wrong way round. So it is wrong when the inputs have different units. -/
theorem C110_counterexample_surface_splines (xU : ℕ → G) (h : c.factor (xU 0) ≠ c.factor (xU 1)) :
    ∃ (x : ℕ → ℝ) (p : ℕ → ℝ),
    Shapes.surfaceResult [(3, [0, 1].map (c.factor (xU 0) * ·)), (3, [0, 1].map (c.factor (xU 1) * ·))]
        (fun k => c.factor (xU k) * x k) (c.pars (surfaceSplinesUnit [(3, [0, 1]), (3, [0, 1])] xU yU) p)
      ≠ (Shapes.surfaceResult [(3, [0, 1]), (3, [0, 1])] x p).map (c.factor yU * ·) := by
  refine ⟨fun _ => 1, only 1, ?_⟩
  have h0 := fne c (xU 0)
  have hy := fne c yU
  simp only [Shapes.surfaceResult, Shapes.surfacePartial, surfaceLoop, splinePartial, powers, splineLoop, product,
    surfaceStep, only_pars, only_value, surfaceSplinesUnit, surfaceSplinesLoop]
  norm_num [splineLoop, only_pars, only_value, surfaceSplinesUnit, surfaceSplinesLoop, List.replicate]
  intro e
  field_simp at e
  exact h e.symm

/-- C110 does not hold for splines in two inputs of another order than 3: the order is taken to be 3 in the unit. Here
it is 4, and both inputs have the same unit. -/
theorem C110_counterexample_surface_order (xU : ℕ → G) (h01 : xU 1 = xU 0) (h : c.factor (xU 0) ≠ 1) :
    ∃ (x : ℕ → ℝ) (p : ℕ → ℝ),
    Shapes.surfaceResult [(4, [0, 1].map (c.factor (xU 0) * ·)), (4, [0, 1].map (c.factor (xU 1) * ·))]
        (fun k => c.factor (xU k) * x k) (c.pars (surfaceSplinesUnit [(4, [0, 1]), (4, [0, 1])] xU yU) p)
      ≠ (Shapes.surfaceResult [(4, [0, 1]), (4, [0, 1])] x p).map (c.factor yU * ·) := by
  refine ⟨fun _ => 1, only 4, ?_⟩
  have h0 := fne c (xU 0)
  have hy := fne c yU
  simp only [Shapes.surfaceResult, Shapes.surfacePartial, surfaceLoop, splinePartial, powers, splineLoop, product,
    surfaceStep, only_pars, only_value, surfaceSplinesUnit, surfaceSplinesLoop, h01]
  norm_num [splineLoop, only_pars, only_value, surfaceSplinesUnit, surfaceSplinesLoop, List.replicate, h01]
  intro e
  field_simp at e
  exact h e

/-- C110 does not hold for a polynomial in two inputs: the powers of the two inputs are the wrong way round in the
unit, so it is wrong when the inputs have different units. -/
theorem C110_counterexample_poly_surface (xU : ℕ → G) (h : c.factor (xU 0) ≠ c.factor (xU 1)) :
    ¬ Fits2 c xU yU (polySurfaceUnit xU yU) (Poly.surfaceResult 1) (Poly.surfaceResult 1) := by
  intro hf
  have e := hf 1 0 (fun k => if k = 1 then 1 else 0)
  have h1 := fne c (xU 1)
  have hy := fne c yU
  rw [(C35_surface _ _ _ _).1, (C35_surface _ _ _ _).1] at e
  have hu : polySurfaceUnit xU yU 1 = yU / (xU 0 ^ 0 * xU 1 ^ (1 - 0)) := polySurfaceUnit_eq yU xU 1 0 (by omega)
  simp [sum_range_succ, Conversion.pars, hu] at e
  field_simp at e
  exact h (by linarith)

/-- C110 does not hold for a power of x: the unit does not have the power of x in it. -/
theorem C110_counterexample_power (exponent : ℝ) (he : exponent ≠ 0) (h : c.factor xU ≠ 1) :
    ¬ Fits c xU yU (sameUnit xU yU) (Simple.power exponent).result (Simple.power exponent).result := by
  intro hf
  have e := hf 1 (fun _ => 1)
  have hy := fne c yU
  simp only [Simple.power, Conversion.pars, sameUnit, mul_one, zero_add, Real.one_rpow] at e
  have e' : c.factor xU ^ exponent = 1 := mul_left_cancel₀ hy (by rw [mul_one]; exact e)
  have hlog := congrArg Real.log e'
  rw [Real.log_rpow (c.pos xU), Real.log_one] at hlog
  rcases mul_eq_zero.1 hlog with h' | h'
  · exact he h'
  · exact h (Real.eq_one_of_pos_of_log_eq_zero (c.pos xU) h')

/-- C110 does not hold for a power law, of which the exponent is a parameter: the unit of the amplitude cannot be the
one of y. -/
theorem C110_counterexample_power_law (h : c.factor xU ≠ 1) :
    ¬ Fits c xU yU (powerLawUnit xU yU) Simple.powerLaw.result Simple.powerLaw.result := by
  intro hf
  have e := hf 1 (fun k => if k = 1 then 0 else 1)
  have hy := fne c yU
  simp [Simple.powerLaw, Conversion.pars, powerLawUnit] at e
  exact h (by simpa [hy] using e)

/-- C110 does not hold for the pseudo-Voigt profile: its last parameter, the share of the Lorentzian, is a number
between 0 and 1, and is said to have the unit of x. -/
theorem C110_counterexample_pseudo_voigt (h : c.factor xU ≠ 1) :
    ¬ Fits c xU yU (peakUnit xU yU) Simple.pseudoVoigt.result Simple.pseudoVoigt.result := by
  intro hf
  have hy := fne c yU
  have hx := fne c xU
  have e := hf 1 (fun k => if k = 1 then 0 else 1)
  have hl := C110_lorentz c xU yU 1 (fun k => if k = 1 then 0 else 1)
  have hg := C110_gauss c xU yU 1 (fun k => if k = 1 then 0 else 1)
  simp only [Simple.pseudoVoigt] at e
  rw [hl, hg] at e
  have l1 : Simple.lorentz.result 1 (fun k => if k = 1 then 0 else 1) = 1 / 2 := by
    simp [Simple.lorentz]; norm_num
  have g1 : Simple.gauss.result 1 (fun k => if k = 1 then 0 else 1) = Real.exp (-(1 / 2)) := by
    simp [Simple.gauss]; norm_num
  rw [l1, g1] at e
  have hne : Real.exp (-(1 / 2)) ≠ 1 / 2 := by
    have := Real.add_one_lt_exp (show (-(1 / 2) : ℝ) ≠ 0 by norm_num)
    intro h'
    rw [h'] at this
    norm_num at this
  have h3 : c.pars (peakUnit xU yU) (fun k => if k = 1 then 0 else 1) 3 = c.factor xU := by
    simp [Conversion.pars, peakUnit]
  rw [h3] at e
  simp only [show (3 : ℕ) ≠ 1 by norm_num, if_false] at e
  apply h
  have e2 : c.factor yU * ((c.factor xU - 1) * (1 / 2 - Real.exp (-(1 / 2)))) = 0 := by
    linear_combination e
  rcases mul_eq_zero.1 e2 with h' | h'
  · exact absurd h' hy
  · rcases mul_eq_zero.1 h' with h'' | h''
    · linarith
    · exact absurd (by linarith) hne

/-- C110 does not hold for the radial velocity: the first parameter is the eccentricity, a pure number, and is said to
be a frequency. `ecc` is the method that solves Kepler's equation. -/
theorem C110_counterexample_radial_velocity (ecc : ℝ → ℝ → ℝ) (he : ∀ e, 0 ≤ e → e < 1 → ecc e 0 = 0)
    (h : c.factor xU ≠ 1) :
    ¬ Fits c xU yU (radialVelocityUnit rad xU yU) (Kepler.velocity ecc) (Kepler.velocity ecc) := by
  intro hf
  have hs := c.pos xU
  have hy := fne c yU
  generalize hS : c.factor xU = s at hs h
  let e := min 1 s / 2
  have e0 : 0 < e := by have : 0 < min 1 s := lt_min one_pos hs; simp only [e]; linarith
  have e1 : e < 1 := by have := min_le_left 1 s; simp only [e]; linarith
  have e2 : 1 / s * e < 1 := by
    have h1 := min_le_right 1 s
    rw [one_div, inv_mul_lt_iff₀ hs]
    simp only [e]
    linarith
  have val : ∀ q : ℕ → ℝ, 0 ≤ q 0 → q 0 < 1 → q 3 = 0 → q 4 = 0 → Kepler.velocity ecc 0 q = q 1 * (1 + q 0) := by
    intro q q0 q1 q3 q4
    simp only [Kepler.velocity, Kepler.anomaly, Kepler.meanAnomaly, q3, q4, mul_zero, zero_div, sub_zero, he _ q0 q1,
      Kepler.trueAnomaly, Real.sin_zero, Real.cos_zero, Kepler.arctan2]
    have : Complex.arg ⟨1 + 1, 0⟩ = 0 := by
      have : (⟨1 + 1, 0⟩ : ℂ) = ((2 : ℝ) : ℂ) := by apply Complex.ext <;> norm_num
      rw [this, Complex.arg_ofReal_of_nonneg (by norm_num)]
    rw [this]
    simp
  have e' := hf 0 (fun k => if k = 0 then e else if k = 1 then 1 else 0)
  rw [mul_zero, val, val] at e'
  · simp only [Conversion.pars, radialVelocityUnit, map_div, c.radian, hS, if_true, one_ne_zero, if_false, mul_one,
      one_mul] at e'
    have e3 : 1 + 1 / s * e = 1 + e := mul_left_cancel₀ hy e'
    have e4 : 1 / s * e = 1 * e := by linarith
    have e5 := mul_right_cancel₀ e0.ne' e4
    exact h (by rw [one_div] at e5; exact inv_eq_one.1 e5)
  · exact e0.le
  · exact e1
  · rfl
  · rfl
  · simp only [Conversion.pars, radialVelocityUnit, map_div, c.radian, hS, if_true]; positivity
  · simp only [Conversion.pars, radialVelocityUnit, map_div, c.radian, hS, if_true]; exact e2
  · simp [Conversion.pars]
  · simp [Conversion.pars]

/-- C110 does not hold for the orbit of a star: the third parameter is a period, and is said to be a frequency. -/
theorem C110_counterexample_stellar_orbit (ecc : ℝ → ℝ → ℝ) (he : ∀ M, ecc 0 M = M) (h : c.factor xU ≠ 1) :
    ∃ x p, Kepler.orbit ecc false (c.factor xU * x) (c.pars (stellarOrbitUnit rad xU yU) p)
      ≠ (c.factor yU * (Kepler.orbit ecc false x p).1, c.factor yU * (Kepler.orbit ecc false x p).2) := by
  have hs := c.pos xU
  have hy := fne c yU
  generalize hS : c.factor xU = s at hs h
  have hs2 : s * s - 1 ≠ 0 := by
    intro h'
    have : (s - 1) * (s + 1) = 0 := by linarith
    rcases mul_eq_zero.1 this with h1 | h1
    · exact h (by linarith)
    · linarith
  have val : ∀ (x : ℝ) (q : ℕ → ℝ), q 0 = 0 → q 4 = 0 → q 5 = 0 → q 6 = 0 →
      (2 * Real.pi * x / q 2 - q 3 = 0 → (Kepler.orbit ecc false x q).1 = 0) ∧
      (2 * Real.pi * x / q 2 - q 3 = Real.pi / 2 → (Kepler.orbit ecc false x q).1 = q 1) := by
    intro x q q0 q4 q5 q6
    constructor <;> intro hM
    · have : Complex.arg ⟨1 + 1, 0⟩ = 0 := by
        have : (⟨1 + 1, 0⟩ : ℂ) = ((2 : ℝ) : ℂ) := by apply Complex.ext <;> norm_num
        rw [this, Complex.arg_ofReal_of_nonneg (by norm_num)]
      have h1 : Complex.arg ⟨1, 0⟩ = 0 := by
        have : (⟨1, 0⟩ : ℂ) = ((1 : ℝ) : ℂ) := by apply Complex.ext <;> norm_num
        rw [this, Complex.arg_ofReal_of_nonneg (by norm_num)]
      simp [Kepler.orbit, Kepler.orbitSpherical, Kepler.anomaly, Kepler.meanAnomaly, hM, q0, he, Kepler.trueAnomaly,
        Kepler.arctan2, Kepler.toRect, q4, q5, q6, this, h1]
    · have h1 : Complex.arg ⟨1, 1⟩ = Real.pi / 4 := by
        have : (⟨1, 1⟩ : ℂ) = ((√2 : ℝ) : ℂ) * (Complex.cos ((Real.pi / 4 : ℝ) : ℂ)
            + Complex.sin ((Real.pi / 4 : ℝ) : ℂ) * Complex.I) := by
          have h2 : √2 * (√2 / 2) = 1 := by
            rw [← mul_div_assoc, Real.mul_self_sqrt (by norm_num)]; norm_num
          rw [← Complex.ofReal_cos, ← Complex.ofReal_sin, Real.cos_pi_div_four, Real.sin_pi_div_four]
          apply Complex.ext
          · simp only [Complex.mul_re, Complex.add_re, Complex.ofReal_re, Complex.ofReal_im, Complex.I_re, Complex.I_im,
              Complex.add_im, Complex.mul_im]
            linarith
          · simp only [Complex.mul_re, Complex.add_re, Complex.ofReal_re, Complex.ofReal_im, Complex.I_re, Complex.I_im,
              Complex.add_im, Complex.mul_im]
            linarith
        rw [this, Complex.arg_mul_cos_add_sin_mul_I (by positivity)]
        constructor <;> linarith [Real.pi_pos]
      have h2 : Complex.arg ⟨0, 1⟩ = Real.pi / 2 := by
        have : (⟨0, 1⟩ : ℂ) = Complex.I := rfl
        rw [this, Complex.arg_I]
      have h3 : 2 * (Real.pi / 4) = Real.pi / 2 := by ring
      simp [Kepler.orbit, Kepler.orbitSpherical, Kepler.anomaly, Kepler.meanAnomaly, hM, q0, he, Kepler.trueAnomaly,
        Kepler.arctan2, Kepler.toRect, q4, q5, q6, h1, h2, h3, Kepler.radius]
  let x : ℝ := 1 / (4 * (s * s - 1))
  refine ⟨x, fun k => if k = 1 then 1 else if k = 2 then 1 else if k = 3 then 2 * Real.pi * x else 0, ?_⟩
  intro e
  have e1 := congrArg Prod.fst e
  simp only at e1
  rw [(val x _ rfl rfl rfl rfl).1 (by norm_num)] at e1
  have hx : c.pars (stellarOrbitUnit rad xU yU)
      (fun k => if k = 1 then 1 else if k = 2 then 1 else if k = 3 then 2 * Real.pi * x else 0) 1 = c.factor yU := by
    simp [Conversion.pars, stellarOrbitUnit]
  rw [(val _ _ (by simp [Conversion.pars]) (by simp [Conversion.pars]) (by simp [Conversion.pars])
    (by simp [Conversion.pars])).2, hx, mul_zero] at e1
  · exact hy e1
  · simp only [Conversion.pars, stellarOrbitUnit, map_div, map_one, c.radian, hS]
    norm_num
    rw [hS, c.radian, one_mul]
    have : 2 * Real.pi * (s * x) * s - 2 * Real.pi * x = 2 * Real.pi * ((s * s - 1) * x) := by ring
    have hx1 : (s * s - 1) * x = 1 / 4 := by
      simp only [x]
      rw [mul_one_div, mul_comm 4, div_mul_eq_div_div, div_self hs2]
    rw [this, hx1]
    ring

/-- C110 does not hold for the sine with a drift and splines: its units are those of a model without the polynomial
that comes first. -/
theorem C110_counterexample_sine_spline_drift (order : ℕ) (ho : 1 ≤ order) (knots : List ℝ) (h2 : 2 ≤ knots.length)
    (hs : knots.Pairwise (· ≤ ·)) (h : c.factor xU ≠ 1) :
    ¬ FitsOpt c xU yU (sineSplineDriftUnit order (2 * nspline order knots + 2) xU yU) (driftResult 1 order knots)
      (driftResult 1 order (knots.map (c.factor xU * ·))) := by
  intro hf
  have hn : 2 ≤ nspline order knots := by unfold nspline; omega
  have hy := fne c yU
  have hsx := c.pos xU
  have hs' : (knots.map (c.factor xU * ·)).Pairwise (· ≤ ·) := by
    rw [List.pairwise_map]
    exact hs.imp fun hab => mul_le_mul_of_nonneg_left hab hsx.le
  have val : ∀ (ks : List ℝ), 2 ≤ ks.length → ks.Pairwise (· ≤ ·) → ks.length = knots.length → ∀ (q : ℕ → ℝ),
      (∀ k, k ≠ 2 → q k = 0) → driftResult 1 order ks 0 q = some (q 2) := by
    intro ks l1 l2 l3 q hq
    have hns : nspline order ks = nspline order knots := by unfold nspline; rw [l3]
    rw [driftResult, amp_value order ks l1 l2, Option.map_some, hns]
    congr 1
    rw [sum_eq_single 0, sum_eq_zero]
    · simp [col, show 0 < order by omega]
    · intro k hk
      rw [hq _ (by omega), zero_mul]
    · intro k _ hk
      rw [hq _ (by omega), zero_mul]
    · intro h'
      exact absurd (mem_range.2 (by omega)) h'
  have e := hf 0 (only 2)
  rw [mul_zero, val knots h2 hs rfl (only 2) (by intro k hk; simp [only, hk]),
    val _ (by rw [List.length_map]; exact h2) hs' (by rw [List.length_map]) _
      (by intro k hk; simp [Conversion.pars, only, hk])] at e
  simp only [Conversion.pars, only, if_true, mul_one, Option.map_some, Option.some.injEq] at e
  rw [sineSplineDriftUnit, sineSplineUnit, show (2 * nspline order knots + 2) / 2 = nspline order knots + 1 by omega,
    Nat.mod_eq_of_lt (by omega), map_div, map_pow] at e
  have hpow : ∀ j : ℕ, j ≠ 0 → c.factor xU ^ j ≠ 1 := by
    intro j hj hj'
    exact h ((pow_eq_one_iff_of_nonneg hsx.le hj).1 hj')
  rw [div_eq_iff (pow_ne_zero _ hsx.ne')] at e
  have e' : c.factor xU ^ (if 2 > order then order else 2) = 1 := by
    have : c.factor yU * 1 = c.factor yU * c.factor xU ^ (if 2 > order then order else 2) := by rw [mul_one]; exact e
    exact (mul_left_cancel₀ hy this).symm
  exact hpow _ (by split <;> omega) e'

/-- C110 does not hold for a layer of a neural net with offsets: the first offset is said to have a unit, because of
`>` where `>=` is meant. -/
theorem C110_counterexample_softmax_offset (s : SoftMax.Spec) (ho : s.offset = true) (hn : s.normed = false)
    (xU : ℕ → G) (h : c.factor (xU 0) ≠ 1) :
    ∃ x p, s.result (fun k => c.factor (xU k) * x k) (c.pars (softMaxUnit s xU) p) 0 ≠ s.result x p 0 := by
  refine ⟨fun _ => 0, only (s.ndim * s.ndout), ?_⟩
  intro e
  simp only [SoftMax.Spec.result, hn, SoftMax.rasterResult, ho, SoftMax.connectResult, SoftMax.Spec.nraster] at e
  simp [Conversion.pars, only, softMaxUnit] at e
  exact h e

/-- C110 does not hold for a product of models with a unit for y: the models in it do not know of that unit, and from
the second on it is divided out. So the constants of this product have the units 1 and 1 / y. -/
theorem C110_counterexample_product (xU : ℕ → G) (h : c.factor yU ≠ 1) :
    ∃ params : List ℝ,
      let m : Product.Comp := { np := 1, res := fun _ l => l.getD 0 0, par := fun _ _ => [1] }
      let u : ℕ × G × (G → G → ℕ → G) := (1, 1, polyUnit)
      Product.baseResult [m, m] (c.list xU [0, 0]) (c.list (productUnit [u, u] xU yU) params)
        ≠ (Product.baseResult [m, m] [0, 0] params).map (c.factor yU * ·) := by
  refine ⟨[1, 1], ?_⟩
  have hy := c.pos yU
  simp only [Product.baseResult, Product.resLoop, Conversion.list, productUnit, productLoop, polyUnit]
  norm_num
  intro e
  have e' : c.factor yU * c.factor yU = 1 := by
    have := congrArg (· * c.factor yU) e
    simp only [inv_mul_cancel₀ hy.ne'] at this
    exact this.symm
  have : (c.factor yU - 1) * (c.factor yU + 1) = 0 := by linarith
  rcases mul_eq_zero.1 this with h1 | h1
  · exact h (by linarith)
  · linarith

/-- C110 does not hold when the units are set on a compound model: only the first model gets them. -/
theorem C110_counterexample_set_units (h : c.factor yU ≠ 1) :
    let const : Link G := Link.new 1 polyUnit
    let peak : Link G := Link.new 3 peakUnit
    ¬ Fits c xU yU (chainUnit (setUnits xU yU [const, peak]))
      (chainResult (const, polyResult 0) [(peak, .add, Simple.gauss.result)])
      (chainResult (const, polyResult 0) [(peak, .add, Simple.gauss.result)]) := by
  intro const peak hf
  have e := hf 0 (fun k => if k = 0 ∨ k = 2 then 0 else 1)
  have e1 : ∀ x q, chainResult (const, polyResult 0) [(peak, .add, Simple.gauss.result)] x q
      = q 0 + Simple.gauss.result x fun k => q (1 + k) := by
    intro x q
    simp [chainResult, restResult, Op.operate, const, peak, Link.new, polyResult, polyPartial, powers, linearResult]
  rw [e1, e1] at e
  simp [Simple.gauss, Conversion.pars, chainUnit, setUnits, getParameterUnit, const, peak, Link.new, peakUnit] at e
  exact h (by linarith)

/-- C110 does not hold for the units of a model inside another one, as in brackets or in a `CombiModel`: the units of
the model itself are not handed to the one inside. -/
theorem C110_counterexample_bracket (h : c.factor yU ≠ 1) :
    ¬ Fits c xU yU (fun k => (bracketUnit [Link.new 3 peakUnit] xU yU k).getD 1) Simple.gauss.result
      Simple.gauss.result := by
  intro hf
  have e := hf 0 (fun k => if k = 1 then 0 else 1)
  simp [Simple.gauss, Conversion.pars, bracketUnit, getParameterUnit, Link.new, peakUnit] at e
  exact h e.symm

/-- C110 does not hold for a model of which a parameter is fixed that is not the last one: the others get the units of
the parameters before them. Here it is the amplitude of a Gaussian. -/
theorem C110_counterexample_fixed (a : ℝ) (ha : a ≠ 0) (h : c.factor xU ≠ c.factor yU) :
    ¬ Fits c xU yU (fixedUnit peakUnit [1, 2] xU yU)
      (fun x q => Simple.gauss.result x fun k => if k = 0 then a else q (k - 1))
      (fun x q => Simple.gauss.result x fun k => if k = 0 then c.factor yU * a else q (k - 1)) := by
  intro hf
  have e := hf 1 (fun _ => 1)
  have hy := fne c yU
  have hx := fne c xU
  simp only [Simple.gauss, Conversion.pars, fixedUnit, peakUnit] at e
  norm_num at e
  rw [mul_assoc] at e
  have e1 := mul_left_cancel₀ hy e
  have e2 := mul_left_cancel₀ ha (e1.trans (mul_one a).symm)
  rw [Real.exp_eq_one_iff] at e2
  have e3 : (c.factor xU - c.factor yU) * (c.factor xU - c.factor yU) = 0 := by
    field_simp at e2
    nlinarith [e2]
  rcases mul_eq_zero.1 e3 with h' | h' <;> exact h (by linarith)

/-- C110 does not hold for a free shape at its borders: the range of the shape is a number of pixels, and it is
compared with x. After a change of units the model may refuse an x that it accepted before. -/
theorem C110_counterexample_free_shape (h : 1 < c.factor xU) :
    ∃ (m : Free) (x : ℝ) (p : ℕ → ℝ), (m.result x p).isSome ∧
      Free.result { m with
        xlo := c.factor xU * m.xlo
        xhi := c.factor xU * m.xhi } (c.factor xU * x) (c.pars (sameUnit xU yU) p) = none := by
  refine ⟨makeFree 1 none 1 0 0 none, -1, fun _ => 0, ?_, ?_⟩
  · have hin : (makeFree 1 none 1 0 0 none).inDomain (-1) := by
      intro r hr
      have : r = 1 := by
        simp [makeFree, tophat, tophatRange] at hr
        norm_num at hr
        exact hr.symm
      simp [makeFree, this]
      norm_num
    rw [Free.result, Free.partials, if_pos hin]
    rfl
  · rw [Free.result, Free.partials, if_neg, Option.map_none]
    intro hin
    apply hin 1
    · simp [makeFree, tophat, tophatRange]
      norm_num
    · left
      simp only [makeFree]
      linarith

/-- C110 does not hold for a round kernel of two inputs with different units. -/
theorem C110_counterexample_kernel2d (xU : ℕ → G) (h : c.factor (xU 0) ≠ c.factor (xU 1)) :
    ∃ x y p, Kernel2d.Shape.circle.result gauss (c.factor (xU 0) * x, c.factor (xU 1) * y)
        (c.pars (kernel2dUnit rad xU yU) p)
      ≠ (Kernel2d.Shape.circle.result gauss (x, y) p).map (c.factor yU * ·) := by
  refine ⟨0, 1, fun k => if k = 1 ∨ k = 2 then 0 else 1, ?_⟩
  intro e
  have h0 := c.pos (xU 0)
  have h1 := c.pos (xU 1)
  have hy := fne c yU
  simp only [Kernel2d.Shape.result, Kernel2d.Shape.uv, gauss, Conversion.pars, kernel2dUnit] at e
  norm_num at e
  rcases e with e | e
  · have e2 : c.factor (xU 1) / c.factor (xU 0) * (c.factor (xU 1) / c.factor (xU 0)) = 1 := by linarith
    have e3 : c.factor (xU 1) * c.factor (xU 1) = c.factor (xU 0) * c.factor (xU 0) := by
      field_simp at e2
      nlinarith [e2]
    exact h ((mul_self_inj h0.le h1.le).1 e3.symm)
  · exact hy e

/-! ## A case -/

/-- The hypotheses on the units are met: from metres and volts to kilometres and millivolts. -/
example : metric.factor (Multiplicative.ofAdd 1, 1) = 1 / 1000 ∧ metric.factor (1, Multiplicative.ofAdd 1) = 1000 ∧
    metric.factor (Multiplicative.ofAdd 1, 1) ≠ 1 := by
  simp [metric]

/-- A constant plus a Gaussian, both with the units set, meets the hypotheses of `C110_compound`. -/
example : let const : Link G := { npbase := 1, xUnit := xU, yUnit := yU, unit := polyUnit }
    let peak : Link G := { npbase := 3, xUnit := xU, yUnit := yU, unit := peakUnit }
    Fits c xU yU (chainUnit [const, peak]) (chainResult (const, polyResult 0) [(peak, .add, Simple.gauss.result)])
      (chainResult (const, polyResult 0) [(peak, .add, Simple.gauss.result)]) := by
  intro const peak
  refine C110_compound c xU (const, polyResult 0) [(peak, .add, Simple.gauss.result)] yU ⟨rfl, rfl⟩ rfl ?_ ?_ ?_
    (C110_polynomial c xU yU 0) ?_
  · intro m hm; rw [List.mem_singleton] at hm; subst hm; rfl
  · intro x p q hpq
    have := hpq 0 Nat.one_pos
    simp [polyResult, polyPartial, powers, linearResult, this]
  · intro m hm
    rw [List.mem_singleton] at hm
    subst hm
    intro x p q hpq
    have h0 := hpq 0 (by norm_num [peak])
    have h1 := hpq 1 (by norm_num [peak])
    have h2 := hpq 2 (by norm_num [peak])
    simp [Simple.gauss, h0, h1, h2]
  · intro m hm; rw [List.mem_singleton] at hm; subst hm; exact C110_gauss c xU yU

end BF.Units
