import Mathlib.Analysis.Matrix.Order
import Mathlib.Analysis.SpecialFunctions.Gaussian.GaussianIntegral
import Mathlib.MeasureTheory.Integral.Pi
import Mathlib.MeasureTheory.Measure.Lebesgue.Basic

/-!
# The integral of a Gaussian in any number of dimensions
-/

namespace BF.GaussInt

open Matrix MeasureTheory Finset
open scoped MatrixOrder

theorem product (K : ℕ) (v : ℝ) (hv : 0 < v) :
    ∫ u : Fin K → ℝ, Real.exp (-(u ⬝ᵥ u) / (2 * v)) = √(2 * Real.pi * v) ^ K := by
  have h : ∀ u : Fin K → ℝ, Real.exp (-(u ⬝ᵥ u) / (2 * v))
      = ∏ i, (fun x : ℝ => Real.exp (-(1 / (2 * v)) * x ^ 2)) (u i) := by
    intro u
    rw [← Real.exp_sum]
    congr 1
    simp only [dotProduct, ← Finset.mul_sum]
    rw [neg_mul, neg_div, one_div, mul_comm, div_eq_mul_inv]
    simp only [pow_two, mul_inv]
    ring
  simp only [h]
  rw [integral_fintype_prod_volume_eq_pow (fun x : ℝ => Real.exp (-(1 / (2 * v)) * x ^ 2)), integral_gaussian]
  simp only [Fintype.card_fin]
  congr 2
  field_simp

/-- A Gaussian with any positive definite matrix. -/
theorem gauss (K : ℕ) (H : Matrix (Fin K) (Fin K) ℝ) (hH : H.PosDef) (v : ℝ) (hv : 0 < v) :
    ∫ u : Fin K → ℝ, Real.exp (-(u ⬝ᵥ H *ᵥ u) / (2 * v)) = √(2 * Real.pi * v) ^ K / √H.det := by
  obtain ⟨B, hB⟩ := CStarAlgebra.nonneg_iff_eq_star_mul_self.mp hH.posSemidef.nonneg
  have hdet : H.det = B.det ^ 2 := by
    rw [hB, det_mul, star_eq_conjTranspose, det_conjTranspose]
    simp [pow_two]
  have hpos := hH.det_pos
  have hne : B.det ≠ 0 := by
    intro h
    rw [hdet, h] at hpos
    simp at hpos
  have hq : ∀ u : Fin K → ℝ, u ⬝ᵥ H *ᵥ u = (toLin' B u) ⬝ᵥ (toLin' B u) := by
    intro u
    rw [hB, star_eq_conjTranspose, ← mulVec_mulVec, dotProduct_mulVec, vecMul_conjTranspose]
    simp [toLin'_apply]
  simp only [hq]
  have hm := Real.map_matrix_volume_pi_eq_smul_volume_pi hne
  have hcont : Continuous (toLin' B) := LinearMap.continuous_of_finiteDimensional _
  have := integral_map (μ := volume) hcont.measurable.aemeasurable
    (f := fun u : Fin K → ℝ => Real.exp (-(u ⬝ᵥ u) / (2 * v)))
    (by
      apply Continuous.aestronglyMeasurable
      unfold dotProduct
      fun_prop)
  rw [← this, hm, integral_smul_measure, product K v hv, hdet, Real.sqrt_sq_eq_abs]
  rw [ENNReal.toReal_ofReal (abs_nonneg _), abs_inv, smul_eq_mul]
  field_simp

end BF.GaussInt
