import Verif.Splines
import Verif.Props.Poly
import Mathlib.Analysis.Calculus.ContDiff.Polynomial
import Mathlib.Analysis.Calculus.ContDiff.Defs
import Mathlib.Analysis.Calculus.IteratedDeriv.Defs

/-!
# C36: splines
-/

namespace BF.Splines

open BF.Poly Finset

/-! ## Specification -/

/-- A truncated power: zero before the knot. -/
noncomputable def trunc (n : ℕ) (k x : ℝ) : ℝ := if k ≤ x then (x - k) ^ n else 0

/-- The functions of which the columns are the differences: first the power of x, then the truncated powers at the
inner knots, then nothing. -/
noncomputable def bump (n : ℕ) (knots : List ℝ) (j : ℕ) (x : ℝ) : ℝ :=
  if j = 0 then x ^ n else if j + 1 < knots.length then trunc n (knots.getD j 0) x else 0

/-! ## Columns -/

theorem product_pow (n : ℕ) (d : ℝ) : product n d = d ^ n := by
  have : ∀ a : ℝ, (List.replicate n d).foldl (· * ·) a = a * d ^ n := by
    induction n with
    | zero => intro a; simp
    | succ n ih => intro a; rw [List.replicate_succ, List.foldl_cons, ih]; ring
  simp [product, this]

theorem splineLoop_eq (n : ℕ) (x : ℝ) (ks : List ℝ) (hs : ks.Pairwise (· ≤ ·)) (xc : ℝ) (inn : Bool)
    (hin : inn = false → ∀ k ∈ ks, x < k) :
    splineLoop n x ks xc inn = List.zipWith (· - ·) ((if inn then xc else 0) :: ks.map fun k => trunc n k x)
      ((ks.map fun k => trunc n k x) ++ [0]) := by
  induction ks generalizing xc inn with
  | nil => simp [splineLoop]
  | cons k ks ih =>
    obtain ⟨h1, h2⟩ := List.pairwise_cons.1 hs
    rw [splineLoop]
    by_cases hk : x ≥ k
    · simp only [if_pos hk, product_pow]
      rw [ih h2 _ true (by simp)]
      simp only [List.map_cons, List.cons_append, List.zipWith_cons_cons, if_true]
      have : trunc n k x = (x - k) ^ n := by rw [trunc, if_pos hk]
      rw [this]
    · simp only [if_neg hk]
      rw [ih h2 xc false (fun _ k' hk' => lt_of_lt_of_le (not_le.1 hk) (h1 k' hk'))]
      have : trunc n k x = 0 := by rw [trunc, if_neg hk]
      simp [this]

/-- C36: the first columns are the powers of x, the next ones the differences of truncated powers at one inner knot
and the next. -/
theorem C36_columns (order : ℕ) (knots : List ℝ) (h2 : 2 ≤ knots.length) (hs : knots.Pairwise (· ≤ ·)) (x : ℝ) :
    splinePartial order knots x = some (((List.range order).map fun i => x ^ i) ++
      (List.range (knots.length - 1)).map fun j => bump order knots j x - bump order knots (j + 1) x) := by
  have hinner : knots.tail.dropLast.Pairwise (· ≤ ·) :=
    (hs.sublist ((List.dropLast_sublist _).trans (List.tail_sublist _)))
  rw [splinePartial, if_neg (by omega), powers_range, splineLoop_eq order x _ hinner _ true (by simp)]
  simp only [one_mul, if_true, product_pow]
  congr 2
  apply List.ext_getElem?
  intro j
  have hlen : knots.tail.dropLast.length = knots.length - 2 := by simp; omega
  have hget : ∀ i, i < knots.length - 2 → knots.tail.dropLast[i]? = some (knots.getD (i + 1) 0) := by
    intro i hi
    rw [List.getElem?_dropLast, if_pos (by simp; omega)]
    simp [List.getD_eq_getElem?_getD, List.getElem?_eq_getElem (show i + 1 < knots.length by omega)]
  rw [List.getElem?_zipWith, List.getElem?_map]
  by_cases hj : j < knots.length - 1
  · rw [List.getElem?_range hj]
    have hA : (x ^ order :: List.map (fun k => trunc order k x) knots.tail.dropLast)[j]?
        = some (bump order knots j x) := by
      cases j with
      | zero => simp [bump]
      | succ j =>
        rw [List.getElem?_cons_succ, List.getElem?_map, hget j (by omega)]
        simp only [Option.map_some, bump]
        rw [if_neg (by omega), if_pos (by omega)]
    have hB : (List.map (fun k => trunc order k x) knots.tail.dropLast ++ [0])[j]?
        = some (bump order knots (j + 1) x) := by
      by_cases hj2 : j < knots.length - 2
      · rw [List.getElem?_append_left (by rw [List.length_map, hlen]; exact hj2), List.getElem?_map, hget j hj2]
        simp only [Option.map_some, bump]
        rw [if_neg (by omega), if_pos (by omega)]
      · rw [List.getElem?_append_right (by rw [List.length_map, hlen]; omega), List.length_map, hlen,
          show j - (knots.length - 2) = 0 by omega]
        simp only [bump]
        rw [if_neg (by omega), if_neg (by omega)]
        rfl
    rw [hA, hB]
    rfl
  · rw [List.getElem?_eq_none (l := List.range _) (by simpa using hj)]
    rw [List.getElem?_eq_none (l := _ :: _) (by rw [List.length_cons, List.length_map, hlen]; omega)]
    rfl

theorem splineResult_sum (order : ℕ) (knots : List ℝ) (h2 : 2 ≤ knots.length) (hs : knots.Pairwise (· ≤ ·)) (x : ℝ)
    (p : ℕ → ℝ) : splineResult order knots x p = some (∑ i ∈ range order, p i * x ^ i +
      ∑ j ∈ range (knots.length - 1), p (order + j) * (bump order knots j x - bump order knots (j + 1) x)) := by
  rw [splineResult, C36_columns order knots h2 hs x, Option.map_some, linear_append, linear_range, linear_range,
    List.length_map, List.length_range]

/-! ## Smoothness -/

theorem trunc_deriv (n : ℕ) (k x : ℝ) : HasDerivAt (trunc (n + 2) k) ((n + 2) * trunc (n + 1) k x) x := by
  have hp : HasDerivAt (fun t => (t - k) ^ (n + 2)) ((n + 2) * (x - k) ^ (n + 1)) x := by
    refine (((hasDerivAt_id' x).sub_const k).fun_pow (n + 2)).congr_deriv ?_
    push_cast
    simp
  rcases lt_trichotomy x k with h | h | h
  · have e : trunc (n + 1) k x = 0 := by rw [trunc, if_neg (not_le.2 h)]
    rw [e, mul_zero]
    refine (hasDerivAt_const x (0 : ℝ)).congr_of_eventuallyEq ?_
    filter_upwards [Iio_mem_nhds h] with t ht
    rw [trunc, if_neg (not_le.2 ht)]
  · subst h
    have e : trunc (n + 1) x x = 0 := by simp [trunc]
    rw [e, mul_zero]
    have hp' : HasDerivAt (fun t => (t - x) ^ (n + 2)) 0 x := hp.congr_deriv (by simp)
    rw [hasDerivAt_iff_isLittleO] at hp' ⊢
    refine (Asymptotics.IsBigO.of_bound 1 (Filter.Eventually.of_forall fun t => ?_)).trans_isLittleO hp'
    simp only [trunc, le_refl, if_true, sub_self, smul_zero, sub_zero, one_mul]
    split_ifs with ht
    · rw [zero_pow (by omega)]
    · rw [zero_pow (by omega)]
      simp
  · have e : trunc (n + 1) k x = (x - k) ^ (n + 1) := by rw [trunc, if_pos h.le]
    rw [e]
    refine hp.congr_of_eventuallyEq ?_
    filter_upwards [Ioi_mem_nhds h] with t ht
    rw [trunc, if_pos (le_of_lt ht)]

theorem trunc_continuous (n : ℕ) (k : ℝ) : Continuous (trunc (n + 1) k) := by
  have : trunc (n + 1) k = fun x => (max (x - k) 0) ^ (n + 1) := by
    funext x
    unfold trunc
    split_ifs with h
    · rw [max_eq_left (sub_nonneg.2 h)]
    · rw [max_eq_right (by linarith [not_le.1 h]), zero_pow (by omega)]
  rw [this]
  fun_prop

theorem trunc_smooth (n : ℕ) (k : ℝ) : ContDiff ℝ n (trunc (n + 1) k) := by
  induction n with
  | zero => exact contDiff_zero.2 (trunc_continuous 0 k)
  | succ n ih =>
    rw [show ((n + 1 : ℕ) : WithTop ℕ∞) = (n : WithTop ℕ∞) + 1 by push_cast; rfl, contDiff_succ_iff_deriv]
    refine ⟨fun x => (trunc_deriv n k x).differentiableAt, ?_, ?_⟩
    · intro h
      exact absurd h (by simp)
    · have : deriv (trunc (n + 1 + 1) k) = fun x => ((n : ℝ) + 2) * trunc (n + 1) k x := by
        funext x
        exact (trunc_deriv n k x).deriv
      rw [this]
      exact contDiff_const.mul ih

theorem bump_smooth (n : ℕ) (knots : List ℝ) (j : ℕ) : ContDiff ℝ n (bump (n + 1) knots j) := by
  unfold bump
  by_cases h0 : j = 0
  · simp only [h0, if_true]
    exact contDiff_id.pow (n + 1)
  · simp only [h0, if_false]
    by_cases h1 : j + 1 < knots.length
    · simp only [h1, if_true]
      exact trunc_smooth n _
    · simp only [h1, if_false]
      exact contDiff_const

/-- C36: a spline of order n + 1 has n continuous derivatives, in the knots too. (So one of order 1 is continuous.) -/
theorem C36_smooth (n : ℕ) (knots : List ℝ) (h2 : 2 ≤ knots.length) (hs : knots.Pairwise (· ≤ ·)) (p : ℕ → ℝ) :
    ∃ f : ℝ → ℝ, (∀ x, splineResult (n + 1) knots x p = some (f x)) ∧ ContDiff ℝ n f := by
  refine ⟨_, fun x => splineResult_sum (n + 1) knots h2 hs x p, ?_⟩
  refine ContDiff.add ?_ ?_
  · exact ContDiff.sum fun i _ => contDiff_const.mul (contDiff_id.pow i)
  · exact ContDiff.sum fun j _ => contDiff_const.mul ((bump_smooth n knots j).sub (bump_smooth n knots (j + 1)))

/-- C36: between two neighbouring knots it is a polynomial of at most that degree. -/
theorem C36_piece (order : ℕ) (knots : List ℝ) (h2 : 2 ≤ knots.length) (hs : knots.Pairwise (· ≤ ·)) (p : ℕ → ℝ)
    (a b : ℝ) (hab : ∀ k ∈ knots, k ≤ a ∨ b ≤ k) :
    ∃ P : Polynomial ℝ, P.natDegree ≤ order ∧
      ∀ x, a ≤ x → x < b → splineResult order knots x p = some (P.eval x) := by
  classical
  -- the polynomial of one of the functions
  let Q : ℕ → Polynomial ℝ := fun j =>
    if j = 0 then Polynomial.X ^ order
    else if j + 1 < knots.length then
      (if knots.getD j 0 ≤ a then (Polynomial.X - Polynomial.C (knots.getD j 0)) ^ order else 0)
    else 0
  have hQd : ∀ j, (Q j).natDegree ≤ order := by
    intro j
    simp only [Q]
    split_ifs
    · exact (Polynomial.natDegree_pow_le).trans (by simp)
    · exact (Polynomial.natDegree_pow_le).trans (by simp)
    · simp
    · simp
  have hQ : ∀ j x, a ≤ x → x < b → bump order knots j x = (Q j).eval x := by
    intro j x hax hxb
    simp only [Q, bump]
    by_cases h0 : j = 0
    · simp [h0]
    simp only [h0, if_false]
    by_cases h1 : j + 1 < knots.length
    · simp only [h1, if_true]
      have hm : knots.getD j 0 ∈ knots := by
        rw [List.getD_eq_getElem?_getD, List.getElem?_eq_getElem (show j < knots.length by omega), Option.getD_some]
        exact List.getElem_mem _
      rcases hab _ hm with h | h
      · rw [if_pos h, trunc, if_pos (h.trans hax)]
        simp
      · by_cases h' : knots.getD j 0 ≤ a
        · rw [if_pos h', trunc, if_pos (h'.trans hax)]
          simp
        · rw [if_neg h', trunc, if_neg (not_le.2 (lt_of_lt_of_le hxb h))]
          simp
    · simp [h1]
  refine ⟨∑ i ∈ range order, Polynomial.C (p i) * Polynomial.X ^ i +
    ∑ j ∈ range (knots.length - 1), Polynomial.C (p (order + j)) * (Q j - Q (j + 1)), ?_, ?_⟩
  · refine (Polynomial.natDegree_add_le _ _).trans (max_le ?_ ?_)
    · refine Polynomial.natDegree_sum_le_of_forall_le _ _ fun i hi => ?_
      refine (Polynomial.natDegree_C_mul_X_pow_le _ _).trans (by have := mem_range.1 hi; omega)
    · refine Polynomial.natDegree_sum_le_of_forall_le _ _ fun j _ => ?_
      refine (Polynomial.natDegree_C_mul_le _ _).trans ?_
      exact (Polynomial.natDegree_sub_le _ _).trans (max_le (hQd _) (hQd _))
  · intro x hax hxb
    rw [splineResult_sum order knots h2 hs x p]
    simp only [hQ _ x hax hxb]
    simp [Polynomial.eval_finset_sum]

/-! ## The derivative -/

theorem bump_deriv (n : ℕ) (knots : List ℝ) (j : ℕ) (x : ℝ) :
    HasDerivAt (bump (n + 2) knots j) ((n + 2) * bump (n + 1) knots j x) x := by
  unfold bump
  by_cases h0 : j = 0
  · simp only [h0, if_true]
    refine (hasDerivAt_pow (n + 2) x).congr_deriv ?_
    push_cast
    simp
  · simp only [h0, if_false]
    by_cases h1 : j + 1 < knots.length
    · simp only [h1, if_true]
      exact trunc_deriv n _ x
    · simp only [h1, if_false]
      exact (hasDerivAt_const x (0 : ℝ)).congr_deriv (by ring)

/-- C36: of cubic splines the derivative is the derivative, in the knots too; and of splines of any order from 2 on
with two knots. -/
theorem C36_derivative_partial (n : ℕ) (knots : List ℝ) (h2 : 2 ≤ knots.length) (hs : knots.Pairwise (· ≤ ·))
    (hn : n + 2 = 3 ∨ knots.length = 2) (x : ℝ) (p : ℕ → ℝ) :
    ∃ (f : ℝ → ℝ) (d : ℝ), (∀ t, splineResult (n + 2) knots t p = some (f t)) ∧
      splineDerivative (n + 2) knots x p = some d ∧ HasDerivAt f d x := by
  have hd : splineDerivative (n + 2) knots x p = splineResult (n + 1) knots x
      (fun k => p (1 + k) * if 1 + k < n + 2 + 1 then ((1 + k : ℕ) : ℝ) else 3) := rfl
  refine ⟨_, _, fun t => splineResult_sum (n + 2) knots h2 hs t p,
    hd.trans (splineResult_sum (n + 1) knots h2 hs x _), ?_⟩
  · have ha := sum_deriv (range (n + 2)) (fun i t => p i * t ^ i) (fun i => p i * (i * x ^ (i - 1))) x
      (fun i _ => (hasDerivAt_pow i x).const_mul (p i))
    have hb := sum_deriv (range (knots.length - 1))
      (fun j t => p (n + 2 + j) * (bump (n + 2) knots j t - bump (n + 2) knots (j + 1) t))
      (fun j => p (n + 2 + j) * ((n + 2) * bump (n + 1) knots j x - (n + 2) * bump (n + 1) knots (j + 1) x)) x
      (fun j _ => ((bump_deriv n knots j x).fun_sub (bump_deriv n knots (j + 1) x)).const_mul _)
    refine (ha.fun_add hb).congr_deriv ?_
    congr 1
    · rw [sum_range_succ']
      simp only [Nat.cast_zero, zero_mul, mul_zero, add_zero, Nat.add_sub_cancel]
      apply sum_congr rfl
      intro k hk
      have := mem_range.1 hk
      rw [if_pos (by omega), add_comm 1 k]
      ring
    · apply sum_congr rfl
      intro j hj
      have hj' := mem_range.1 hj
      have hf : (if 1 + (n + 1 + j) < n + 2 + 1 then ((1 + (n + 1 + j) : ℕ) : ℝ) else 3) = (n : ℝ) + 2 := by
        rcases hn with hn | hn
        · have : n = 1 := by omega
          subst this
          by_cases h0 : j = 0
          · subst h0; norm_num
          · rw [if_neg (by omega)]; norm_num
        · have : j = 0 := by omega
          subst this
          rw [if_pos (by omega)]
          push_cast
          ring
      rw [hf, show 1 + (n + 1 + j) = n + 2 + j by ring]
      ring

/-- C36, where it fails: for other orders the derivative is wrong beyond the first inner knot, as the factor is
always 3 there. A parabola with a knot in 1: the derivative in 2 should be 2 and is 3. -/
theorem C36_counterexample :
    ∃ (knots : List ℝ) (p : ℕ → ℝ) (x d : ℝ) (f : ℝ → ℝ), knots.Pairwise (· ≤ ·) ∧
      (∀ t, splineResult 2 knots t p = some (f t)) ∧ splineDerivative 2 knots x p = some d ∧
      HasDerivAt f 2 x ∧ d = 3 := by
  have hs : [(0 : ℝ), 1, 2].Pairwise (· ≤ ·) := by norm_num
  refine ⟨[0, 1, 2], fun k => if k = 3 then 1 else 0, 2, 3, _, hs,
    fun t => splineResult_sum 2 _ (by simp) hs t _, ?_, ?_, rfl⟩
  · unfold splineDerivative
    simp only
    rw [splineResult_sum 1 _ (by simp) hs]
    norm_num [sum_range_succ, bump, trunc]
  · have e : (fun t : ℝ => ∑ i ∈ range 2, (if i = 3 then (1 : ℝ) else 0) * t ^ i +
        ∑ j ∈ range ([(0 : ℝ), 1, 2].length - 1), (if 2 + j = 3 then (1 : ℝ) else 0) *
          (bump 2 [0, 1, 2] j t - bump 2 [0, 1, 2] (j + 1) t)) = trunc 2 1 := by
      funext t
      norm_num [sum_range_succ, bump]
    rw [e]
    exact (trunc_deriv 0 1 2).congr_deriv (by norm_num [trunc])

/-! ## The hypotheses are met -/

example : splineResult 3 [0, 1, 2, 3] (3 / 2) (fun k => k) = some (65 / 4) := by
  rw [splineResult_sum 3 _ (by simp) (by norm_num)]
  norm_num [sum_range_succ, bump, trunc]

example : [(0 : ℝ), 1, 2, 3].Pairwise (· ≤ ·) ∧ ∀ k ∈ [(0 : ℝ), 1, 2, 3], k ≤ 1 ∨ 2 ≤ k := by norm_num

end BF.Splines
