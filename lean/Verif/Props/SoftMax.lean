import Verif.SoftMax
import Mathlib.Algebra.BigOperators.Field
import Mathlib.Analysis.Calculus.Deriv.Add
import Mathlib.Analysis.Calculus.Deriv.Inv
import Mathlib.Analysis.SpecialFunctions.ExpDeriv
import Mathlib.Analysis.SpecialFunctions.Trigonometric.ArctanDeriv

/-!
# C77: the softmax model
-/

namespace BF.SoftMax

open Finset

/-! ## Transfer functions -/

theorem sum_exp_pos (nd : ℕ) (h : 0 < nd) (r : ℕ → ℝ) : 0 < ∑ i ∈ range nd, Real.exp (r i) :=
  sum_pos (fun _ _ => Real.exp_pos _) ⟨0, mem_range.2 h⟩

theorem logistic_range (r : ℝ) : 0 < logistic r ∧ logistic r < 1 := by
  have h := Real.exp_pos (-r)
  constructor
  · unfold logistic; positivity
  · unfold logistic
    rw [div_lt_one (by positivity)]
    linarith

/-- C77: with normalisation the outputs are probabilities: between 0 and 1, and for more than one output their sum
is 1. -/
theorem C77_probabilities (s : Spec) (hn : s.normed = true) (x p : ℕ → ℝ) :
    (∀ n < s.ndout, 0 < s.result x p n ∧ s.result x p n < 1) ∧
    (s.ndout ≠ 0 → s.ndout ≠ 1 → ∑ n ∈ range s.ndout, s.result x p n = 1) := by
  unfold Spec.result
  simp only [if_pos hn]
  by_cases h1 : s.ndout = 1
  · simp only [if_pos h1]
    exact ⟨fun n _ => logistic_range _, fun _ h => absurd h1 h⟩
  · simp only [if_neg h1]
    unfold softmax
    have hs : s.ndout ≠ 0 → ∑ n ∈ range s.ndout,
        Real.exp (rasterResult s x p n) / ∑ i ∈ range s.ndout, Real.exp (rasterResult s x p i) = 1 := by
      intro h0
      rw [← sum_div]
      exact div_self (sum_exp_pos _ (Nat.pos_of_ne_zero h0) _).ne'
    refine ⟨fun n hnn => ?_, fun h0 _ => hs h0⟩
    have hpos := sum_exp_pos s.ndout (by omega) (rasterResult s x p)
    refine ⟨div_pos (Real.exp_pos _) hpos, ?_⟩
    rw [div_lt_one hpos]
    have hj : ∃ j < s.ndout, j ≠ n := by
      by_cases h : n = 0
      · exact ⟨1, by omega, by omega⟩
      · exact ⟨0, by omega, fun hh => h hh.symm⟩
    obtain ⟨j, hj, hjn⟩ := hj
    calc Real.exp (rasterResult s x p n) < Real.exp (rasterResult s x p n) + Real.exp (rasterResult s x p j) := by
          linarith [Real.exp_pos (rasterResult s x p j)]
      _ = ∑ i ∈ {n, j}, Real.exp (rasterResult s x p i) := by rw [sum_pair hjn.symm]
      _ ≤ _ := by
        apply sum_le_sum_of_subset_of_nonneg
        · intro i hi
          rw [mem_insert, mem_singleton] at hi
          rw [mem_range]
          rcases hi with rfl | rfl <;> assumption
        · intro i _ _
          exact (Real.exp_pos _).le

theorem logistic_deriv (r : ℝ) : HasDerivAt logistic (logisticDerivative r) r := by
  have h : HasDerivAt (fun t : ℝ => 1 + Real.exp (-t)) (-Real.exp (-r)) r :=
    (((hasDerivAt_id' r).fun_neg.exp).const_add 1).congr_deriv (by ring)
  have hne : (1 + Real.exp (-r)) ≠ 0 := by positivity
  have h2 := (hasDerivAt_const r (1 : ℝ)).fun_div h hne
  refine h2.congr_deriv ?_
  unfold logisticDerivative
  rw [Real.exp_neg] at *
  have := Real.exp_pos r
  field_simp
  ring

theorem arctan_deriv (r : ℝ) : HasDerivAt Real.arctan (arctanDerivative r) r :=
  (Real.hasDerivAt_arctan r).congr_deriv (by unfold arctanDerivative; rw [sq])

theorem heaviside_deriv (r : ℝ) (hr : r ≠ 0) : HasDerivAt heaviside 0 r := by
  rcases lt_or_gt_of_ne hr with h | h
  · refine (hasDerivAt_const r (0 : ℝ)).congr_of_eventuallyEq ?_
    filter_upwards [Iio_mem_nhds h] with t ht
    rw [heaviside, if_neg (not_le.2 ht)]
  · refine (hasDerivAt_const r (1 : ℝ)).congr_of_eventuallyEq ?_
    filter_upwards [Ioi_mem_nhds h] with t ht
    rw [heaviside, if_pos (le_of_lt ht)]

/-- The chain rule for the softmax. -/
theorem softmax_deriv (nd : ℕ) (r : ℝ → ℕ → ℝ) (d : ℕ → ℝ) (t : ℝ)
    (hr : ∀ i < nd, HasDerivAt (fun s => r s i) (d i) t) (n : ℕ) (hn : n < nd) :
    HasDerivAt (fun s => softmax nd (r s) n) (∑ i ∈ range nd, softmaxDerivative nd (r t) n i * d i) t := by
  have hpos := sum_exp_pos nd (by omega) (r t)
  have h1 : HasDerivAt (fun s => ∑ i ∈ range nd, Real.exp (r s i)) (∑ i ∈ range nd, Real.exp (r t i) * d i) t :=
    HasDerivAt.fun_sum fun i hi => (hr i (mem_range.1 hi)).exp
  have h2 := (hr n hn).exp.fun_div h1 hpos.ne'
  refine h2.congr_deriv ?_
  unfold softmaxDerivative
  dsimp only
  generalize hN : ∑ i ∈ range nd, Real.exp (r t i) = N at hpos
  have h3 : ∀ i ∈ range nd, (if n = i then (N - Real.exp (r t i)) * Real.exp (r t i) / (N * N)
      else -(Real.exp (r t n) * Real.exp (r t i) / (N * N))) * d i
      = (if n = i then Real.exp (r t n) * d n / N else 0)
        - Real.exp (r t n) / N ^ 2 * (Real.exp (r t i) * d i) := by
    intro i _
    by_cases h : n = i
    · subst h
      rw [if_pos rfl, if_pos rfl]
      field_simp
    · rw [if_neg h, if_neg h]
      field_simp
      ring
  rw [sum_congr rfl h3, sum_sub_distrib, sum_ite_eq, if_pos (mem_range.2 hn), ← mul_sum]
  field_simp

/-! ## The layers -/

theorem loop_spec (s : Spec) (x : ℕ → ℝ) (N : ℕ) : (connectLoop s x N).2 = N * s.ndim ∧
    ∀ a j, (connectLoop s x N).1 a j
      = if a < N ∧ a * s.ndim ≤ j ∧ j < a * s.ndim + s.ndim then x (j - a * s.ndim) else 0 := by
  induction N with
  | zero => exact ⟨by simp [connectLoop], fun a j => by simp [connectLoop]⟩
  | succ N ih =>
    obtain ⟨h1, h2⟩ := ih
    refine ⟨by simp only [connectLoop, h1]; ring, fun a j => ?_⟩
    simp only [connectLoop, h1, h2]
    by_cases h : a = N
    · subst h
      by_cases h3 : a * s.ndim ≤ j ∧ j < a * s.ndim + s.ndim
      · rw [if_pos ⟨rfl, h3⟩, if_pos ⟨Nat.lt_succ_self a, h3⟩]
      · rw [if_neg (fun hh => h3 hh.2), if_neg (fun hh => h3 hh.2), if_neg (fun hh => h3 hh.2)]
    · rw [if_neg (fun hh => h hh.1)]
      by_cases h3 : a < N ∧ a * s.ndim ≤ j ∧ j < a * s.ndim + s.ndim
      · rw [if_pos h3, if_pos ⟨by omega, h3.2⟩]
      · rw [if_neg h3, if_neg]
        rintro ⟨h4, h5⟩
        exact h3 ⟨by omega, h5⟩

theorem connect_deriv (s : Spec) (x p : ℕ → ℝ) (n : ℕ) (hn : n < s.ndout) (j : ℕ) :
    HasDerivAt (fun t => connectResult s x (Function.update p j t) n) (connectPartial s x n j) (p j) := by
  have h1 : HasDerivAt (fun t => connectResult s x (Function.update p j t) n)
      (∑ k ∈ range s.ndim, x k * (if n * s.ndim + k = j then 1 else 0)) (p j) := by
    apply HasDerivAt.fun_sum
    intro k _
    apply HasDerivAt.const_mul
    by_cases h : n * s.ndim + k = j
    · rw [if_pos h, h]
      simpa using hasDerivAt_id' (p j)
    · rw [if_neg h]
      simp only [Function.update_of_ne h]
      exact hasDerivAt_const _ _
  refine h1.congr_deriv ?_
  rw [connectPartial, (loop_spec s x s.ndout).2]
  by_cases h : n * s.ndim ≤ j ∧ j < n * s.ndim + s.ndim
  · rw [if_pos ⟨hn, h⟩, sum_eq_single (j - n * s.ndim)]
    · rw [if_pos (by omega), mul_one]
    · intro k _ hk
      rw [if_neg (by omega), mul_zero]
    · intro hk
      exact absurd (mem_range.2 (by omega)) hk
  · rw [if_neg (fun hh => h hh.2)]
    apply sum_eq_zero
    intro k hk
    have := mem_range.1 hk
    rw [if_neg (by omega), mul_zero]

theorem index_lt (n nd k nk : ℕ) (hn : n < nd) (hk : k < nk) : n * nk + k < nk * nd := by
  have : (n + 1) * nk ≤ nd * nk := Nat.mul_le_mul_right _ hn
  rw [Nat.succ_mul] at this
  rw [mul_comm nk nd]
  omega

theorem raster_deriv (s : Spec) (x p : ℕ → ℝ) (n : ℕ) (hn : n < s.ndout) (j : ℕ) :
    HasDerivAt (fun t => rasterResult s x (Function.update p j t) n) (rasterPartial s x n j) (p j) := by
  have h1 := connect_deriv s x p n hn j
  unfold rasterResult rasterPartial
  by_cases ho : s.offset = true
  · simp only [if_pos ho]
    by_cases hj : j < s.nraster
    · rw [if_pos hj]
      have h2 : HasDerivAt (fun t => Function.update p j t (s.nraster + n)) 0 (p j) := by
        simp only [Function.update_of_ne (show s.nraster + n ≠ j by omega)]
        exact hasDerivAt_const _ _
      exact (h1.fun_add h2).congr_deriv (add_zero _)
    · rw [if_neg hj]
      have h0 : connectPartial s x n j = 0 := by
        rw [connectPartial, (loop_spec s x s.ndout).2, if_neg]
        rintro ⟨_, h3, h4⟩
        apply hj
        have := index_lt n s.ndout (j - n * s.ndim) s.ndim hn (by omega)
        have e : n * s.ndim + (j - n * s.ndim) = j := by omega
        rw [e] at this
        exact this
      by_cases hjn : j - s.nraster = n
      · rw [if_pos hjn]
        have e : s.nraster + n = j := by omega
        have h2 : HasDerivAt (fun t => Function.update p j t (s.nraster + n)) 1 (p j) := by
          rw [e]
          simpa using hasDerivAt_id' (p j)
        exact (h1.fun_add h2).congr_deriv (by rw [h0, zero_add])
      · rw [if_neg hjn]
        have h2 : HasDerivAt (fun t => Function.update p j t (s.nraster + n)) 0 (p j) := by
          simp only [Function.update_of_ne (show s.nraster + n ≠ j by omega)]
          exact hasDerivAt_const _ _
        exact (h1.fun_add h2).congr_deriv (by rw [h0, zero_add])
  · simp only [if_neg ho]
    exact h1

theorem raster_deriv_x (s : Spec) (x p : ℕ → ℝ) (n k : ℕ) (hk : k < s.ndim) :
    HasDerivAt (fun t => rasterResult s (Function.update x k t) p n) (rasterDerivative s p n k) (x k) := by
  have h1 : HasDerivAt (fun t => connectResult s (Function.update x k t) p n)
      (∑ i ∈ range s.ndim, (if i = k then 1 else 0) * p (n * s.ndim + i)) (x k) := by
    apply HasDerivAt.fun_sum
    intro i _
    apply HasDerivAt.mul_const
    by_cases h : i = k
    · rw [if_pos h, h]
      simpa using hasDerivAt_id' (x k)
    · rw [if_neg h]
      simp only [Function.update_of_ne h]
      exact hasDerivAt_const _ _
  have h2 : ∑ i ∈ range s.ndim, (if i = k then 1 else 0) * p (n * s.ndim + i) = rasterDerivative s p n k := by
    simp only [ite_mul, one_mul, zero_mul, sum_ite_eq', mem_range, if_pos hk]
    rfl
  rw [h2] at h1
  unfold rasterResult
  by_cases ho : s.offset = true
  · simp only [if_pos ho]
    exact h1.add_const _
  · simp only [if_neg ho]
    exact h1

/-- The chain rule of `pipe`. -/
theorem pipe_deriv (s : Spec) (r : ℝ → ℕ → ℝ) (drd : ℕ → ℕ → ℝ) (j : ℕ) (t : ℝ)
    (hr : ∀ i < s.ndout, HasDerivAt (fun u => r u i) (drd i j) t) (n : ℕ) (hn : n < s.ndout) :
    HasDerivAt (fun u => if s.normed then if s.ndout = 1 then logistic (r u n) else softmax s.ndout (r u) n else r u n)
      (s.pipe (r t) drd n j) t := by
  unfold Spec.pipe
  by_cases hnm : s.normed = true
  · simp only [if_pos hnm]
    by_cases h1 : s.ndout = 1
    · simp only [if_pos h1]
      exact HasDerivAt.comp (h₂ := logistic) t (logistic_deriv (r t n)) (hr n hn)
    · simp only [if_neg h1]
      exact softmax_deriv s.ndout r (fun i => drd i j) t hr n hn
  · simp only [if_neg hnm]
    exact hr n hn

/-- C77: the partials are the derivatives to the parameters, for every output and every parameter. -/
theorem C77_partials (s : Spec) (x p : ℕ → ℝ) (n : ℕ) (hn : n < s.ndout) :
    (s.partials x p none n).length = s.np ∧
    ∀ j < s.np, ∃ d, (s.partials x p none n)[j]? = some d ∧
      HasDerivAt (fun t => s.result x (Function.update p j t) n) d (p j) := by
  refine ⟨by simp [Spec.partials], fun j hj => ⟨_, by
    rw [Spec.partials, List.getElem?_map, List.getElem?_range hj]; rfl, ?_⟩⟩
  have h := pipe_deriv s (fun u => rasterResult s x (Function.update p j u)) (rasterPartial s x) j (p j)
    (fun i hi => raster_deriv s x p i hi j) n hn
  simp only [Function.update_eq_self] at h
  exact h

/-- C77: the derivative to each of the inputs. -/
theorem C77_derivative (s : Spec) (x p : ℕ → ℝ) (n : ℕ) (hn : n < s.ndout) (k : ℕ) (hk : k < s.ndim) :
    HasDerivAt (fun t => s.result (Function.update x k t) p n) (s.derivative x p n k) (x k) := by
  have h := pipe_deriv s (fun u => rasterResult s (Function.update x k u) p) (rasterDerivative s p) k (x k)
    (fun i _ => raster_deriv_x s x p i k hk) n hn
  simp only [Function.update_eq_self] at h
  exact h

/-- C77: what is added to the connections of all outputs alike has no influence: the parameters are not determined
by the results. -/
theorem C77_shift (s : Spec) (hn : s.normed = true) (h1 : s.ndout ≠ 1) (x p c : ℕ → ℝ) (n : ℕ) (hnd : n < s.ndout) :
    s.result x (fun j => if j < s.nraster then p j + c (j % s.ndim) else p j) n = s.result x p n := by
  have hr : ∀ i < s.ndout, rasterResult s x (fun j => if j < s.nraster then p j + c (j % s.ndim) else p j) i
      = rasterResult s x p i + ∑ k ∈ range s.ndim, x k * c k := by
    intro i hi
    have h2 : connectResult s x (fun j => if j < s.nraster then p j + c (j % s.ndim) else p j) i
        = connectResult s x p i + ∑ k ∈ range s.ndim, x k * c k := by
      unfold connectResult
      rw [← sum_add_distrib]
      apply sum_congr rfl
      intro k hk
      have hk' := mem_range.1 hk
      have : i * s.ndim + k < s.nraster := index_lt i s.ndout k s.ndim hi hk'
      dsimp only
      rw [if_pos this, show (i * s.ndim + k) % s.ndim = k by
        rw [mul_comm, Nat.mul_add_mod, Nat.mod_eq_of_lt hk']]
      ring
    unfold rasterResult
    by_cases ho : s.offset = true
    · simp only [if_pos ho]
      rw [h2, if_neg (by omega)]
      ring
    · simp only [if_neg ho]
      exact h2
  unfold Spec.result
  simp only [if_pos hn, if_neg h1]
  unfold softmax
  have hsum : ∑ i ∈ range s.ndout,
      Real.exp (rasterResult s x (fun j => if j < s.nraster then p j + c (j % s.ndim) else p j) i)
      = ∑ i ∈ range s.ndout, Real.exp (rasterResult s x p i + ∑ k ∈ range s.ndim, x k * c k) :=
    sum_congr rfl fun i hi => by rw [hr i (mem_range.1 hi)]
  rw [hr n hnd, hsum]
  simp only [Real.exp_add]
  rw [← sum_mul, mul_div_mul_right _ _ (Real.exp_pos _).ne']

/-- C77: for a model with fixed parameters, `basePartial` is called with the list of the remaining parameters. It
returns a column for each of all parameters nevertheless. -/
theorem C77_counterexample_fixed : ∃ (s : Spec) (x p : ℕ → ℝ) (parlist : List ℕ),
    (s.partials x p (some parlist) 0).length ≠ parlist.length :=
  ⟨⟨2, 3, true, true⟩, fun _ => 0, fun _ => 0, [0, 1], by simp [Spec.partials, Spec.np, Spec.nraster]⟩

/-- Two inputs and three outputs, with offset and normalisation. -/
example : ∃ s : Spec, s.normed = true ∧ s.ndout ≠ 1 ∧ s.ndout ≠ 0 ∧ s.np = 9 ∧ 1 < s.ndim :=
  ⟨⟨2, 3, true, true⟩, rfl, by simp, by simp, rfl, by simp⟩

end BF.SoftMax
