import Verif.Poly
import Mathlib.RingTheory.Polynomial.Chebyshev
import Mathlib.Analysis.Calculus.Deriv.Polynomial
import Mathlib.Analysis.Calculus.Deriv.Pow
import Mathlib.Analysis.Calculus.Deriv.Inv
import Mathlib.Analysis.SpecialFunctions.Trigonometric.Deriv
import Mathlib.Algebra.BigOperators.Intervals
import Mathlib.Algebra.BigOperators.Field
import Mathlib.Tactic.FieldSimp
import Mathlib.Tactic.LinearCombination

/-!
# C35: polynomials and other sums of functions; C34 for the models of variable length
-/

namespace BF.Poly

open Finset

/-! ## Lists and sums -/

theorem linear_aux (p : ℕ → ℝ) (part : List ℝ) (n : ℕ) (a : ℝ) :
    (part.zipIdx n).foldl (fun res c => res + p c.2 * c.1) a
      = a + ∑ k ∈ range part.length, p (n + k) * part.getD k 0 := by
  induction part generalizing n a with
  | nil => simp
  | cons v t ih =>
    rw [List.zipIdx_cons, List.foldl_cons, ih, List.length_cons, sum_range_succ']
    simp only [List.getD_cons_succ, List.getD_cons_zero, Nat.add_zero]
    have : ∀ k, n + 1 + k = n + (k + 1) := by intro k; omega
    simp only [this]
    ring

theorem linear_sum (p : ℕ → ℝ) (part : List ℝ) :
    linearResult p part = ∑ k ∈ range part.length, p k * part.getD k 0 := by
  simp [linearResult, linear_aux]

theorem linear_range (p : ℕ → ℝ) (n : ℕ) (f : ℕ → ℝ) :
    linearResult p ((List.range n).map f) = ∑ k ∈ range n, p k * f k := by
  rw [linear_sum]
  simp only [List.length_map, List.length_range]
  apply sum_congr rfl
  intro k hk
  have : k < n := mem_range.1 hk
  simp [List.getD_eq_getElem?_getD, this]

theorem linear_append (p : ℕ → ℝ) (a b : List ℝ) :
    linearResult p (a ++ b) = linearResult p a + linearResult (fun k => p (a.length + k)) b := by
  rw [linear_sum, linear_sum, linear_sum, List.length_append, sum_range_add]
  congr 1
  · apply sum_congr rfl
    intro k hk
    simp only [List.getD_eq_getElem?_getD, List.getElem?_append_left (mem_range.1 hk)]
  · apply sum_congr rfl
    intro k _
    simp only [List.getD_eq_getElem?_getD, List.getElem?_append_right (Nat.le_add_right _ _), Nat.add_sub_cancel_left]

theorem powers_range (n : ℕ) (v x : ℝ) : powers n v x = (List.range n).map fun k => v * x ^ k := by
  induction n generalizing v with
  | zero => rfl
  | succ n ih =>
    rw [powers, ih, List.range_succ_eq_map, List.map_cons, List.map_map]
    simp only [pow_zero, mul_one, Function.comp_def, pow_succ']
    congr 1
    apply List.map_congr_left
    intro k _
    ring

theorem sum_deriv {ι : Type*} (s : Finset ι) (f : ι → ℝ → ℝ) (f' : ι → ℝ) (x : ℝ)
    (h : ∀ i ∈ s, HasDerivAt (f i) (f' i) x) : HasDerivAt (fun t => ∑ i ∈ s, f i t) (∑ i ∈ s, f' i) x :=
  HasDerivAt.fun_sum h

/-! ## Linear models -/

/-- C35: a linear model is the sum of its parameters times its columns, so the columns are the derivatives to the
parameters. -/
theorem C35_linear (p : ℕ → ℝ) (part : List ℝ) (k : ℕ) (c : ℝ) (hk : part[k]? = some c) :
    linearResult p part = ∑ j ∈ range part.length, p j * part.getD j 0 ∧
    HasDerivAt (fun t => linearResult (Function.update p k t) part) c (p k) := by
  refine ⟨linear_sum p part, ?_⟩
  obtain ⟨hlt, hc⟩ := List.getElem?_eq_some_iff.1 hk
  have e : ∀ t, linearResult (Function.update p k t) part
      = t * c + ∑ j ∈ (range part.length).erase k, p j * part.getD j 0 := by
    intro t
    rw [linear_sum, ← add_sum_erase _ _ (mem_range.2 hlt), Function.update_self]
    congr 1
    · rw [List.getD_eq_getElem?_getD, hk]; rfl
    · apply sum_congr rfl
      intro j hj
      rw [Function.update_of_ne (ne_of_mem_erase hj)]
  simp only [e]
  exact (((hasDerivAt_id' (p k)).mul_const c).add_const _).congr_deriv (by ring)

/-! ## Polynomials -/

/-- C35: the polynomial model is a polynomial. -/
theorem C35_poly (degree : ℕ) (x : ℝ) (p : ℕ → ℝ) :
    polyResult degree x p = ∑ k ∈ range (degree + 1), p k * x ^ k ∧
    polyPartial degree x = (List.range (degree + 1)).map fun k => x ^ k := by
  have e : polyPartial degree x = (List.range (degree + 1)).map fun k => x ^ k := by
    rw [polyPartial, powers_range]
    simp
  exact ⟨by rw [polyResult, e, linear_range], e⟩

/-- C35: and its derivative is the derivative. -/
theorem C35_poly_derivative (degree : ℕ) (x : ℝ) (p : ℕ → ℝ) :
    HasDerivAt (fun t => polyResult degree t p) (polyDerivative degree x p) x := by
  simp only [(C35_poly degree _ p).1]
  have h := sum_deriv (range (degree + 1)) (fun k t => p k * t ^ k) (fun k => p k * (k * x ^ (k - 1))) x
    (fun k _ => ((hasDerivAt_pow k x).const_mul (p k)))
  refine h.congr_deriv ?_
  unfold polyDerivative
  by_cases hd : degree + 1 ≤ 1
  · have : degree = 0 := by omega
    subst this
    simp
  · rw [if_neg hd]
    obtain ⟨d, rfl⟩ : ∃ d, degree = d + 1 := ⟨degree - 1, by omega⟩
    simp only [show d + 1 + 1 - 2 = d by omega, (C35_poly d x _).1]
    rw [sum_range_succ']
    simp only [Nat.cast_zero, zero_mul, mul_zero, add_zero, Nat.add_sub_cancel]
    apply sum_congr rfl
    intro k _
    rw [add_comm 1 k]
    ring

/-! ## Chebyshev polynomials -/

open Polynomial.Chebyshev in
theorem chebLoop_T (x : ℝ) (n i : ℕ) :
    chebLoop x n ((T ℝ i).eval x) ((T ℝ (i + 1 : ℕ)).eval x)
      = (List.range n).map fun j => (T ℝ (i + 2 + j : ℕ)).eval x := by
  induction n generalizing i with
  | zero => rfl
  | succ n ih =>
    have e : 2 * x * (T ℝ (i + 1 : ℕ)).eval x - (T ℝ i).eval x = (T ℝ (i + 2 : ℕ)).eval x := by
      push_cast
      rw [T_add_two]
      simp
    rw [chebLoop, e]
    have h := ih (i + 1)
    rw [show i + 1 + 1 = i + 2 by ring] at h
    rw [h, List.range_succ_eq_map, List.map_cons, List.map_map, Nat.add_zero]
    congr 1
    apply List.map_congr_left
    intro j _
    simp only [Function.comp_apply]
    rw [show i + 1 + 2 + j = i + 2 + (j + 1) by ring]

open Polynomial.Chebyshev in
/-- C35: the columns of the Chebyshev model are the Chebyshev polynomials of the first kind. -/
theorem C35_chebyshev (degree : ℕ) (x : ℝ) (p : ℕ → ℝ) :
    chebResult degree x p = ∑ k ∈ range (degree + 1), p k * (T ℝ k).eval x ∧
    chebPartial degree x = (List.range (degree + 1)).map fun k : ℕ => (T ℝ k).eval x := by
  have e : chebPartial degree x = (List.range (degree + 1)).map fun k : ℕ => (T ℝ k).eval x := by
    unfold chebPartial
    by_cases hd : degree + 1 ≥ 2
    · simp only [if_pos hd]
      obtain ⟨d, rfl⟩ : ∃ d, degree = d + 1 := ⟨degree - 1, by omega⟩
      have h := chebLoop_T x d 0
      simp only [Nat.cast_zero, T_zero, Polynomial.eval_one, zero_add, Nat.cast_one, T_one,
        Polynomial.eval_X] at h
      rw [show d + 1 + 1 - 2 = d by omega, h, List.range_succ_eq_map, List.range_succ_eq_map]
      simp only [List.map_cons, List.map_map, Nat.cast_zero, T_zero, Polynomial.eval_one, Nat.succ_eq_add_one,
        zero_add, Nat.cast_one, T_one, Polynomial.eval_X]
      congr 2
      apply List.map_congr_left
      intro j _
      simp only [Function.comp_apply, Nat.succ_eq_add_one]
      rw [show 2 + j = j + 1 + 1 by ring]
    · simp only [if_neg hd]
      have : degree = 0 := by omega
      subst this
      simp
  exact ⟨by rw [chebResult, e, linear_range], e⟩

open Polynomial.Chebyshev in
theorem chebDerLoop_U (x : ℝ) (p : ℕ → ℝ) (n i : ℕ) (der : ℝ) :
    chebDerLoop x p n (i + 2) ((U ℝ i).eval x) ((U ℝ (i + 1 : ℕ)).eval x) der
      = der + ∑ j ∈ range n, p (i + 3 + j) * ((i + 3 + j : ℕ) * (U ℝ (i + 2 + j : ℕ)).eval x) := by
  induction n generalizing i der with
  | zero => simp [chebDerLoop]
  | succ n ih =>
    have e : 2 * x * (U ℝ (i + 1 : ℕ)).eval x - (U ℝ i).eval x = (U ℝ (i + 2 : ℕ)).eval x := by
      push_cast
      rw [U_add_two]
      simp
    have h := ih (i + 1)
    simp only [chebDerLoop, e]
    rw [show i + 1 + 1 = i + 2 by ring] at h
    rw [show i + 2 + 1 = i + 1 + 2 by ring, h, sum_range_succ', Nat.add_zero, Nat.add_zero]
    have e2 : ∀ j, i + 1 + 3 + j = i + 3 + (j + 1) := by intro j; ring
    have e3 : ∀ j, i + 1 + 2 + j = i + 2 + (j + 1) := by intro j; ring
    simp only [e2, e3]
    push_cast
    ring

open Polynomial.Chebyshev in
/-- C35: and the derivative of the Chebyshev model is the derivative. -/
theorem C35_chebyshev_derivative (degree : ℕ) (x : ℝ) (p : ℕ → ℝ) :
    HasDerivAt (fun t => chebResult degree t p) (chebDerivative degree x p) x := by
  simp only [(C35_chebyshev degree _ p).1]
  have h := sum_deriv (range (degree + 1)) (fun k t => p k * (T ℝ k).eval t)
    (fun k => p k * (k * (U ℝ ((k : ℤ) - 1)).eval x)) x
    (fun k _ => by
      refine ((T ℝ k).hasDerivAt x).const_mul (p k) |>.congr_deriv ?_
      rw [T_derivative_eq_U]
      simp)
  refine h.congr_deriv ?_
  unfold chebDerivative
  by_cases hd : degree + 1 ≤ 1
  · have : degree = 0 := by omega
    subst this
    simp
  rw [if_neg hd]
  simp only
  obtain ⟨d, rfl⟩ : ∃ d, degree = d + 1 := ⟨degree - 1, by omega⟩
  rw [show d + 1 + 1 - 1 = d + 1 by omega]
  by_cases h2 : d + 1 ≥ 2
  · rw [if_pos h2]
    obtain ⟨c, rfl⟩ : ∃ c, d = c + 1 := ⟨d - 1, by omega⟩
    have hl := chebDerLoop_U x p c 0 (1 * p 1 + 2 * (2 * x) * p 2)
    simp only [Nat.cast_zero, U_zero, Polynomial.eval_one, zero_add, Nat.cast_one, U_one, Polynomial.eval_mul,
      Polynomial.eval_X, Polynomial.eval_ofNat] at hl
    rw [show c + 1 + 1 - 2 = c by omega, hl, sum_range_succ', sum_range_succ', sum_range_succ']
    have e : ∀ k : ℕ, k + 1 + 1 + 1 = 3 + k := by intro k; ring
    have e' : ∀ k : ℕ, ((3 + k : ℕ) : ℤ) - 1 = ((2 + k : ℕ) : ℤ) := by intro k; push_cast; ring
    simp only [e, e']
    simp only [zero_add, Nat.cast_zero, zero_mul, mul_zero, add_zero, Nat.cast_one, sub_self, U_zero,
      Polynomial.eval_one, one_mul, mul_one]
    norm_num
    ring
  · rw [if_neg h2]
    have : d = 0 := by omega
    subst this
    rw [sum_range_succ', sum_range_succ']
    simp

/-! ## Harmonics -/

/-- C34: the harmonic model is the sum of cosines and sines of the multiples of 1/period. -/
theorem C34_harmonic_result (order : ℕ) (period x : ℝ) (p : ℕ → ℝ) :
    harmonicResult order period x p = ∑ j ∈ range order,
      (p (2 * j) * Real.cos ((j + 1) * (2 * Real.pi * x / period))
        + p (2 * j + 1) * Real.sin ((j + 1) * (2 * Real.pi * x / period))) := by
  unfold harmonicResult harmonicPartial
  simp only
  rw [linear_range]
  induction order with
  | zero => simp
  | succ n ih =>
    rw [show 2 * (n + 1) = 2 * n + 1 + 1 by ring, sum_range_succ, sum_range_succ, ih, sum_range_succ]
    have h0 : 2 * n % 2 = 0 := by omega
    have h1 : (2 * n + 1) % 2 ≠ 0 := by omega
    have h2 : 2 * n / 2 = n := by omega
    have h3 : (2 * n + 1) / 2 = n := by omega
    rw [if_pos h0, if_neg h1, h2, h3]
    push_cast
    rw [add_comm 1 (n : ℝ)]
    ring

theorem harmonicLoop_sum (tp x : ℝ) (p : ℕ → ℝ) (n k j : ℕ) (df : ℝ) :
    harmonicLoop tp x p n k j df = df + ∑ i ∈ range n, tp * (j + 1 + i : ℕ) *
      (p (k + 2 * i + 1) * Real.cos ((j + 1 + i : ℕ) * x) - p (k + 2 * i) * Real.sin ((j + 1 + i : ℕ) * x)) := by
  induction n generalizing k j df with
  | zero => simp [harmonicLoop]
  | succ n ih =>
    rw [harmonicLoop, ih, sum_range_succ']
    have e1 : ∀ i, k + 2 + 2 * i = k + 2 * (i + 1) := by intro i; ring
    have e2 : ∀ i, j + 1 + 1 + i = j + 1 + (i + 1) := by intro i; ring
    simp only [e1, e2]
    simp only [Nat.mul_zero, Nat.add_zero]
    ring

/-- C34: and its derivative is the derivative. -/
theorem C34_harmonic_derivative (order : ℕ) (period x : ℝ) (p : ℕ → ℝ) :
    HasDerivAt (fun t => harmonicResult order period t p) (harmonicDerivative order period x p) x := by
  simp only [C34_harmonic_result]
  unfold harmonicDerivative
  simp only
  rw [harmonicLoop_sum, zero_add]
  apply sum_deriv
  intro j _
  have e : 2 * Real.pi / period * x = 2 * Real.pi * x / period := by ring
  have ha : HasDerivAt (fun t : ℝ => ((j : ℝ) + 1) * (2 * Real.pi * t / period))
      (((j : ℝ) + 1) * (2 * Real.pi / period)) x :=
    ((((hasDerivAt_id' x).const_mul (2 * Real.pi)).div_const period).const_mul _).congr_deriv (by ring)
  refine ((ha.cos.const_mul (p (2 * j))).fun_add (ha.sin.const_mul (p (2 * j + 1)))).congr_deriv ?_
  rw [e]
  push_cast
  simp only [zero_add]
  rw [add_comm 1 (j : ℝ)]
  ring

/-! ## Sines of varying amplitude -/

/-- C34: the sine with polynomial amplitudes. -/
theorem C34_poly_sine_result (degree : ℕ) (f x y : ℝ) (p : ℕ → ℝ) :
    polySineResult degree f x y p =
      polyResult degree y p * Real.cos (2 * Real.pi * f * x)
      + polyResult degree y (fun k => p (degree + 1 + k)) * Real.sin (2 * Real.pi * f * x) := by
  unfold polySineResult polySinePartial
  rw [linear_append, powers_range, powers_range, linear_range, linear_range, (C35_poly degree y _).1,
    (C35_poly degree y _).1, sum_mul, sum_mul, List.length_map, List.length_range]
  congr 1
  · exact sum_congr rfl fun k _ => by ring
  · exact sum_congr rfl fun k _ => by ring

/-- C34: its derivatives to the two inputs. -/
theorem C34_poly_sine_derivative (degree : ℕ) (f x y : ℝ) (p : ℕ → ℝ) :
    HasDerivAt (fun t => polySineResult degree f t y p) (polySineDerivative degree f x y p).1 x ∧
    HasDerivAt (fun t => polySineResult degree f x t p) (polySineDerivative degree f x y p).2 y := by
  simp only [C34_poly_sine_result, polySineDerivative]
  have ha : HasDerivAt (fun t : ℝ => 2 * Real.pi * f * t) (2 * Real.pi * f) x :=
    ((hasDerivAt_id' x).const_mul _).congr_deriv (by ring)
  refine ⟨?_, ?_⟩
  · exact ((ha.cos.const_mul _).fun_add (ha.sin.const_mul _)).congr_deriv (by ring)
  · exact ((C35_poly_derivative degree y p).mul_const _).fun_add
      ((C35_poly_derivative degree y fun k => p (degree + 1 + k)).mul_const _)

/-! ## Rational functions -/

theorem padeLoop_sum (x : ℝ) (p : ℕ → ℝ) (n k : ℕ) (s xx : ℝ) :
    padeLoop x p n k s xx = s + xx * ∑ j ∈ range n, p (k + j) * x ^ j := by
  induction n generalizing k s xx with
  | zero => simp [padeLoop]
  | succ n ih =>
    rw [padeLoop, ih, sum_range_succ']
    have e1 : ∀ i, k + 1 + i = k + (i + 1) := by intro i; ring
    simp only [e1, pow_succ, ← mul_assoc, pow_zero, mul_one, Nat.add_zero, ← sum_mul]
    ring

/-- The polynomial of degree `n` with its coefficients from place `k` on. -/
def polyFrom (n k : ℕ) (p : ℕ → ℝ) (x : ℝ) : ℝ := ∑ j ∈ range (n + 1), p (k + j) * x ^ j

theorem padeNum_eq (num : ℕ) (x : ℝ) (p : ℕ → ℝ) : padeNum num x p = polyFrom num 0 p x := by
  rw [padeNum, padeLoop_sum, polyFrom]; ring

theorem padeDen_eq (num den : ℕ) (x : ℝ) (p : ℕ → ℝ) : padeDen num den x p = polyFrom den (num + 1) p x := by
  rw [padeDen, padeLoop_sum, polyFrom, show num + den + 2 - (num + 1) = den + 1 by omega]; ring

/-- C34: the Padé model is a quotient of two polynomials. -/
theorem C34_pade_result (num den : ℕ) (x : ℝ) (p : ℕ → ℝ) :
    padeResult num den x p =
      (∑ j ∈ range (num + 1), p j * x ^ j) / ∑ j ∈ range (den + 1), p (num + 1 + j) * x ^ j := by
  rw [padeResult, padeNum_eq, padeDen_eq, polyFrom, polyFrom]
  simp

theorem padeDerLoop_sum (x : ℝ) (p : ℕ → ℝ) (off n k : ℕ) (s ds xx : ℝ) :
    padeDerLoop x p off n k s ds xx = (s + xx * x * ∑ j ∈ range n, p (k + j) * x ^ j,
      ds + xx * ∑ j ∈ range n, ((k + j : ℕ) - (off : ℝ)) * p (k + j) * x ^ j) := by
  induction n generalizing k s ds xx with
  | zero => simp [padeDerLoop]
  | succ n ih =>
    rw [padeDerLoop, ih, sum_range_succ', sum_range_succ']
    have e1 : ∀ i, k + 1 + i = k + (i + 1) := by intro i; ring
    simp only [e1, pow_succ, ← mul_assoc, pow_zero, mul_one, Nat.add_zero, ← sum_mul]
    ext
    · simp only; ring
    · simp only; ring

theorem polyFrom_deriv (n k : ℕ) (p : ℕ → ℝ) (x : ℝ) :
    HasDerivAt (polyFrom n k p) (∑ j ∈ range n, ((j : ℝ) + 1) * p (k + 1 + j) * x ^ j) x := by
  have h := sum_deriv (range (n + 1)) (fun j t => p (k + j) * t ^ j) (fun j => p (k + j) * (j * x ^ (j - 1))) x
    (fun j _ => ((hasDerivAt_pow j x).const_mul (p (k + j))))
  refine h.congr_deriv ?_
  rw [sum_range_succ']
  simp only [Nat.cast_zero, zero_mul, mul_zero, add_zero, Nat.add_sub_cancel]
  apply sum_congr rfl
  intro j _
  rw [show k + (j + 1) = k + 1 + j by ring]
  push_cast
  ring

/-- C34: the derivative of the Padé model, wherever its denominator is not zero. -/
theorem C34_pade_derivative (num den : ℕ) (x : ℝ) (p : ℕ → ℝ)
    (hd : ∑ j ∈ range (den + 1), p (num + 1 + j) * x ^ j ≠ 0) :
    HasDerivAt (fun t => padeResult num den t p) (padeDerivative num den x p) x := by
  have hd' : polyFrom den (num + 1) p x ≠ 0 := hd
  have e : ∀ t, padeResult num den t p = polyFrom num 0 p t / polyFrom den (num + 1) p t := fun t => by
    rw [padeResult, padeNum_eq, padeDen_eq]
  simp only [e]
  refine ((polyFrom_deriv num 0 p x).fun_div (polyFrom_deriv den (num + 1) p x) hd').congr_deriv ?_
  unfold padeDerivative
  simp only [padeDerLoop_sum]
  have h1 : p 0 * 1 + 1 * x * ∑ j ∈ range num, p (1 + j) * x ^ j = polyFrom num 0 p x := by
    rw [polyFrom, sum_range_succ']
    simp only [pow_succ, ← mul_assoc, ← sum_mul]
    simp only [zero_add, pow_zero, mul_one, add_comm 1]
    ring
  have h2 : p (num + 1) * 1 + 1 * x * ∑ j ∈ range (num + den + 2 - (num + 2)), p (num + 2 + j) * x ^ j
      = polyFrom den (num + 1) p x := by
    rw [polyFrom, sum_range_succ', show num + den + 2 - (num + 2) = den by omega]
    simp only [pow_succ, ← mul_assoc, ← sum_mul]
    have e1 : ∀ j, num + 1 + (j + 1) = num + 2 + j := by intro j; ring
    simp only [e1, pow_zero, mul_one, Nat.add_zero]
    ring
  rw [h1, h2, show num + den + 2 - (num + 2) = den by omega]
  have h3 : ∀ j : ℕ, (((num + 2 + j : ℕ) : ℝ) - ((num + 1 : ℕ) : ℝ)) = (j : ℝ) + 1 := by
    intro j; push_cast; ring
  simp only [h3]
  have h4 : ∀ j : ℕ, (((1 + j : ℕ) : ℝ) - ((0 : ℕ) : ℝ)) = (j : ℝ) + 1 := by
    intro j; push_cast; ring
  simp only [h4, zero_add, one_mul, pow_two]
  rw [mul_comm (∑ j ∈ range den, _) (polyFrom num 0 p x)]

theorem polyFrom_update (n k i : ℕ) (p : ℕ → ℝ) (t x : ℝ) (hi : i < k ∨ k + n < i) :
    polyFrom n k (Function.update p i t) x = polyFrom n k p x := by
  unfold polyFrom
  apply sum_congr rfl
  intro j hj
  have := mem_range.1 hj
  rw [Function.update_of_ne (by omega)]

theorem polyFrom_partial (n k i : ℕ) (p : ℕ → ℝ) (x : ℝ) (hi : i ≤ n) :
    HasDerivAt (fun t => polyFrom n k (Function.update p (k + i) t) x) (x ^ i) (p (k + i)) := by
  have e : ∀ t, polyFrom n k (Function.update p (k + i) t) x
      = t * x ^ i + ∑ j ∈ (range (n + 1)).erase i, p (k + j) * x ^ j := by
    intro t
    rw [polyFrom, ← add_sum_erase _ _ (mem_range.2 (show i < n + 1 by omega)), Function.update_self]
    congr 1
    apply sum_congr rfl
    intro j hj
    have := ne_of_mem_erase hj
    rw [Function.update_of_ne (by omega)]
  simp only [e]
  exact (((hasDerivAt_id' (p (k + i))).mul_const (x ^ i)).add_const _).congr_deriv (by ring)

/-- C34: the partials of the Padé model, wherever its denominator is not zero. -/
theorem C34_pade_columns (num den : ℕ) (x : ℝ) (p : ℕ → ℝ)
    (hd : ∑ j ∈ range (den + 1), p (num + 1 + j) * x ^ j ≠ 0) (k : ℕ) (hk : k < num + den + 2) :
    ∃ c, (padePartial num den x p)[k]? = some c ∧
      HasDerivAt (fun t => padeResult num den x (Function.update p k t)) c (p k) := by
  have hd' : polyFrom den (num + 1) p x ≠ 0 := hd
  have e : ∀ q, padeResult num den x q = polyFrom num 0 q x / polyFrom den (num + 1) q x := fun q => by
    rw [padeResult, padeNum_eq, padeDen_eq]
  simp only [e, padePartial, padeNum_eq, padeDen_eq, powers_range]
  by_cases hn : k < num + 1
  · refine ⟨x ^ k / polyFrom den (num + 1) p x, ?_, ?_⟩
    · rw [List.getElem?_append_left (by simpa using hn)]
      simp [hn]
    · simp only [polyFrom_update den (num + 1) k p _ x (Or.inl hn)]
      have h := polyFrom_partial num 0 k p x (by omega)
      simp only [zero_add] at h
      exact h.div_const _
  · obtain ⟨i, rfl⟩ : ∃ i, k = num + 1 + i := ⟨k - (num + 1), by omega⟩
    have hi : i ≤ den := by omega
    refine ⟨-x ^ i * polyFrom num 0 p x / (polyFrom den (num + 1) p x * polyFrom den (num + 1) p x), ?_, ?_⟩
    · rw [List.getElem?_append_right (by simp)]
      simp [show num + 1 + i - (num + 1) = i by omega, show num + den + 2 - (num + 1) = den + 1 by omega,
        show i < den + 1 by omega]
    · simp only [polyFrom_update num 0 (num + 1 + i) p _ x (Or.inr (by omega))]
      have h := polyFrom_partial den (num + 1) i p x hi
      have hne : polyFrom den (num + 1) (Function.update p (num + 1 + i) (p (num + 1 + i))) x ≠ 0 := by
        rwa [Function.update_eq_self]
      refine ((hasDerivAt_const (p (num + 1 + i)) (polyFrom num 0 p x)).fun_div h hne).congr_deriv ?_
      rw [Function.update_eq_self]
      ring

/-! ## Surfaces -/

theorem tri_succ (d : ℕ) : (d + 1) * (d + 1 + 1) / 2 = d * (d + 1) / 2 + (d + 1) := by
  have : (d + 1) * (d + 1 + 1) = d * (d + 1) + 2 * (d + 1) := by ring
  rw [this, Nat.add_mul_div_left _ _ (by norm_num)]

theorem tri_mono {a b : ℕ} (h : a ≤ b) : a * (a + 1) / 2 ≤ b * (b + 1) / 2 :=
  Nat.div_le_div_right (Nat.mul_le_mul h (by omega))

theorem surfaceCount_eq (degree : ℕ) : surfaceCount degree = (degree + 1) * (degree + 1 + 1) / 2 := by
  rw [surfaceCount, Nat.mul_comm]

theorem surfaceBlock_range (d : ℕ) (x y : ℝ) :
    surfaceBlock d x y = (List.range (d + 1)).map fun i => x ^ (d - i) * y ^ i := by
  apply List.ext_getElem?
  intro i
  unfold surfaceBlock
  rw [powers_range, powers_range, List.getElem?_zipWith]
  by_cases hi : i < d + 1
  · rw [List.getElem?_reverse (by simpa using hi)]
    simp [hi, show d - i < d + 1 by omega, mul_comm]
  · have h1 : (List.range (d + 1))[i]? = none := List.getElem?_eq_none (by simpa using hi)
    simp [h1]

theorem surface_length (degree : ℕ) (x y : ℝ) :
    (surfacePartial degree x y).length = (degree + 1) * (degree + 1 + 1) / 2 := by
  induction degree with
  | zero => simp [surfacePartial, surfaceBlock_range]
  | succ d ih =>
    unfold surfacePartial at ih ⊢
    rw [List.range_succ, List.flatMap_append, List.length_append, ih, tri_succ (d + 1)]
    simp [surfaceBlock_range]

/-- C35: the surface model is the full polynomial in x and y: per degree the powers of x go down and those of y go
up. -/
theorem C35_surface (degree : ℕ) (x y : ℝ) (p : ℕ → ℝ) :
    surfaceResult degree x y p =
      ∑ d ∈ range (degree + 1), ∑ i ∈ range (d + 1), p (d * (d + 1) / 2 + i) * (x ^ (d - i) * y ^ i) ∧
    (surfacePartial degree x y).length = (degree + 1) * (degree + 2) / 2 := by
  refine ⟨?_, surface_length degree x y⟩
  induction degree with
  | zero => simp [surfaceResult, surfacePartial, surfaceBlock, powers, linearResult]
  | succ d ih =>
    have hl := surface_length d x y
    unfold surfaceResult surfacePartial at ih ⊢
    unfold surfacePartial at hl
    rw [List.range_succ, List.flatMap_append, linear_append, ih, sum_range_succ _ (d + 1), hl]
    congr 1
    simp [surfaceBlock_range, linear_range]

theorem flat_get {α : Type*} (B : ℕ → List α) (hB : ∀ j, (B j).length = j + 1) (N j f : ℕ) (hj : j < N)
    (hf : f ≤ j) : ((List.range N).flatMap B)[j * (j + 1) / 2 + f]? = (B j)[f]? := by
  have hlen : ∀ n, ((List.range n).flatMap B).length = n * (n + 1) / 2 := by
    intro n
    induction n with
    | zero => simp
    | succ n ih =>
      rw [List.range_succ, List.flatMap_append, List.length_append, ih, tri_succ]
      simp [hB]
  induction N with
  | zero => omega
  | succ n ih =>
    rw [List.range_succ, List.flatMap_append]
    by_cases h : j < n
    · rw [List.getElem?_append_left]
      · exact ih h
      · rw [hlen]
        have := tri_mono (show j + 1 ≤ n from h)
        rw [tri_succ] at this
        omega
    · have : j = n := by omega
      subst this
      rw [List.getElem?_append_right (by rw [hlen]; omega), hlen]
      simp [Nat.add_sub_cancel_left]

theorem xIndexLoop_flat (D fuel n : ℕ) (hn : n ≤ D + 1) (hfuel : D + 1 - n ≤ fuel) :
    xIndexLoop (surfaceCount D) fuel n (n * (n + 1) / 2) = (List.range (D + 1 - n)).flatMap fun j =>
      (List.range (n + j)).map fun f => ((n + j) * (n + j + 1) / 2 + f, n + j - f) := by
  induction fuel generalizing n with
  | zero =>
    have : D + 1 - n = 0 := by omega
    simp [xIndexLoop, this]
  | succ fuel ih =>
    rw [xIndexLoop, surfaceCount_eq]
    by_cases h : n ≤ D
    · have hlt : n * (n + 1) / 2 < (D + 1) * (D + 1 + 1) / 2 := by
        have := tri_mono (show n + 1 ≤ D + 1 by omega)
        rw [tri_succ] at this
        omega
      rw [if_pos hlt]
      have e := ih (n + 1) (by omega) (by omega)
      rw [tri_succ, surfaceCount_eq, ← Nat.add_assoc] at e
      rw [e, show D + 1 - n = (D + 1 - (n + 1)) + 1 by omega, List.range_succ_eq_map, List.flatMap_cons,
        List.flatMap_map]
      have e3 : ∀ j, n + 1 + j = n + (j + 1) := by intro j; ring
      simp only [e3, Nat.succ_eq_add_one, Nat.add_zero]
    · have : n = D + 1 := by omega
      subst this
      simp

theorem yIndexLoop_flat (D fuel n : ℕ) (hn : n ≤ D + 1) (hn1 : 1 ≤ n) (hfuel : D + 1 - n ≤ fuel) :
    yIndexLoop (surfaceCount D) fuel n (n * (n + 1) / 2 + 1) = (List.range (D + 1 - n)).flatMap fun j =>
      (List.range (n + j)).map fun f => ((n + j) * (n + j + 1) / 2 + 1 + f, f + 1) := by
  induction fuel generalizing n with
  | zero =>
    have : D + 1 - n = 0 := by omega
    simp [yIndexLoop, this]
  | succ fuel ih =>
    rw [yIndexLoop, surfaceCount_eq]
    by_cases h : n ≤ D
    · have hlt : n * (n + 1) / 2 + 1 < (D + 1) * (D + 1 + 1) / 2 := by
        have := tri_mono (show n + 1 ≤ D + 1 by omega)
        rw [tri_succ] at this
        omega
      rw [if_pos hlt]
      have e := ih (n + 1) (by omega) (by omega) (by omega)
      rw [tri_succ, surfaceCount_eq,
        show n * (n + 1) / 2 + (n + 1) + 1 = n * (n + 1) / 2 + 1 + n + 1 by ring] at e
      rw [e, show D + 1 - n = (D + 1 - (n + 1)) + 1 by omega, List.range_succ_eq_map, List.flatMap_cons,
        List.flatMap_map]
      have e3 : ∀ j, n + 1 + j = n + (j + 1) := by intro j; ring
      simp only [e3, Nat.succ_eq_add_one, Nat.add_zero]
    · have : n = D + 1 := by omega
      subst this
      simp

/-- C35: and its derivatives to x and to y are the derivatives. -/
theorem C35_surface_derivative (degree : ℕ) (x y : ℝ) (p : ℕ → ℝ) :
    HasDerivAt (fun t => surfaceResult degree t y p) (surfaceDerivative degree x y p).1 x ∧
    HasDerivAt (fun t => surfaceResult degree x t p) (surfaceDerivative degree x y p).2 y := by
  have hx := sum_deriv (range (degree + 1))
    (fun d t => ∑ i ∈ range (d + 1), p (d * (d + 1) / 2 + i) * (t ^ (d - i) * y ^ i))
    (fun d => ∑ i ∈ range (d + 1), p (d * (d + 1) / 2 + i) * ((d - i : ℕ) * x ^ (d - i - 1) * y ^ i)) x
    (fun d _ => sum_deriv _ _ _ _ fun i _ => (((hasDerivAt_pow (d - i) x).mul_const (y ^ i)).const_mul _))
  have hy := sum_deriv (range (degree + 1))
    (fun d t => ∑ i ∈ range (d + 1), p (d * (d + 1) / 2 + i) * (x ^ (d - i) * t ^ i))
    (fun d => ∑ i ∈ range (d + 1), p (d * (d + 1) / 2 + i) * (x ^ (d - i) * (i * y ^ (i - 1)))) y
    (fun d _ => sum_deriv _ _ _ _ fun i _ => (((hasDerivAt_pow i y).const_mul (x ^ (d - i))).const_mul _))
  simp only [(C35_surface degree _ _ p).1]
  unfold surfaceDerivative
  simp only
  rcases degree with _ | D
  · refine ⟨hx.congr_deriv ?_, hy.congr_deriv ?_⟩ <;> simp [surfaceCount]
  have hgt : ¬ surfaceCount (D + 1) ≤ 1 := by
    rw [surfaceCount_eq, tri_succ (D + 1), tri_succ D]
    omega
  have hfuel : D + 1 + 1 - 1 ≤ surfaceCount (D + 1) := by
    rw [surfaceCount_eq, tri_succ (D + 1)]
    omega
  have ex := xIndexLoop_flat (D + 1) (surfaceCount (D + 1)) 1 (by omega) hfuel
  have ey := yIndexLoop_flat (D + 1) (surfaceCount (D + 1)) 1 (by omega) (by omega) hfuel
  norm_num at ex ey
  rw [if_neg hgt]
  simp only [Nat.add_sub_cancel, (C35_surface D _ _ _).1]
  rw [ex, ey]
  have px : ∀ j f, j < D + 1 → f < j + 1 →
      pick p ((List.range (D + 1)).flatMap fun j =>
        (List.range (1 + j)).map fun f => ((1 + j) * (1 + j + 1) / 2 + f, 1 + j - f)) (j * (j + 1) / 2 + f)
      = p ((j + 1) * (j + 1 + 1) / 2 + f) * ((j + 1 - f : ℕ) : ℝ) := by
    intro j f hj hf
    unfold pick
    rw [flat_get _ (by intro j; simp [add_comm]) (D + 1) j f hj (by omega)]
    rw [List.getElem?_map, List.getElem?_range (show f < 1 + j by omega)]
    simp [add_comm 1 j]
  have py : ∀ j f, j < D + 1 → f < j + 1 →
      pick p ((List.range (D + 1)).flatMap fun j =>
        (List.range (1 + j)).map fun f => ((1 + j) * (1 + j + 1) / 2 + 1 + f, f + 1)) (j * (j + 1) / 2 + f)
      = p ((j + 1) * (j + 1 + 1) / 2 + 1 + f) * ((f + 1 : ℕ) : ℝ) := by
    intro j f hj hf
    unfold pick
    rw [flat_get _ (by intro j; simp [add_comm]) (D + 1) j f hj (by omega)]
    rw [List.getElem?_map, List.getElem?_range (show f < 1 + j by omega)]
    simp [add_comm 1 j]
  refine ⟨hx.congr_deriv ?_, hy.congr_deriv ?_⟩
  · rw [sum_range_succ']
    simp only [zero_add, range_one, sum_singleton, Nat.zero_mul, Nat.zero_div, Nat.sub_self, Nat.cast_zero, zero_mul,
      mul_zero, add_zero]
    apply sum_congr rfl
    intro j hj
    rw [sum_range_succ]
    simp only [Nat.sub_self, Nat.cast_zero, zero_mul, mul_zero, add_zero]
    apply sum_congr rfl
    intro f hf
    have hf' := mem_range.1 hf
    rw [px j f (mem_range.1 hj) hf', show j + 1 - f - 1 = j - f by omega]
    ring
  · rw [sum_range_succ']
    simp only [zero_add, range_one, sum_singleton, Nat.zero_mul, Nat.zero_div, Nat.sub_self, Nat.cast_zero, zero_mul,
      mul_zero, add_zero]
    apply sum_congr rfl
    intro j hj
    rw [sum_range_succ']
    simp only [Nat.cast_zero, zero_mul, mul_zero, add_zero]
    apply sum_congr rfl
    intro f hf
    have hf' := mem_range.1 hf
    rw [py j f (mem_range.1 hj) hf', show j + 1 - (f + 1) = j - f by omega,
      show (j + 1) * (j + 1 + 1) / 2 + (f + 1) = (j + 1) * (j + 1 + 1) / 2 + 1 + f by ring]
    push_cast
    ring

/-! ## The hypotheses are met -/

example : ∑ j ∈ range (1 + 1), (fun k : ℕ => (k : ℝ)) (2 + 1 + j) * (2 : ℝ) ^ j ≠ 0 := by
  norm_num [sum_range_succ]

example : surfacePartial 2 2 3 = [1, 2, 3, 4, 6, 9] := by
  norm_num [surfacePartial, surfaceBlock, powers, List.range_succ]

example : chebPartial 3 2 = [1, 2, 7, 26] := by
  norm_num [chebPartial, chebLoop]

end BF.Poly
