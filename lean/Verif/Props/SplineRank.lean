import Verif.Props.SplineLab
import Verif.Props.CoxZeros
import Mathlib.LinearAlgebra.FiniteDimensional.Basic
import Mathlib.LinearAlgebra.Matrix.ToLin
import Mathlib.Topology.MetricSpace.Pseudo.Defs

/-!
# Interpolation with splines

The knots made for a set of sites allow interpolation of all values.
-/

namespace BF.SplineLab

open BF.BSplines BF.Cox Finset

theorem rank_get (tau : List ℝ) (order : ℕ) (h : Sites tau order) (i : ℕ) :
    ext (theKnots tau order) i = if i ≤ order then tau.getD 0 0
      else if i < tau.length then (∑ k ∈ range order, tau.getD (i - order + k) 0) / order
      else tau.getD (tau.length - 1) 0 := by
  have hl := theKnots_length tau order h
  have h2 := h.2.1
  rcases Nat.lt_or_ge i (tau.length + order + 1) with hi | hi
  · rw [ext_get _ _ (by omega), theKnots_get tau order h i hi]
  · rw [ext, hl, theKnots_get tau order h _ (by omega), if_neg (by omega), if_neg (by omega), if_neg (by omega),
      if_neg (by omega)]

theorem rank_knots (tau : List ℝ) (order : ℕ) (h : Sites tau order) :
    Knots (ext (theKnots tau order)) (tau.length - 1) := by
  have hg := rank_get tau order h
  have hm := ext_mono _ (theKnots_sorted tau order h)
  obtain ⟨h1, h2, h3⟩ := h
  refine ⟨hm, ?_, fun i hi => ?_⟩
  · rw [hg, hg, if_neg (show ¬ tau.length - 1 + 1 ≤ order by omega),
      if_neg (show ¬ tau.length - 1 + 1 < tau.length by omega)]
    by_cases a : tau.length - 1 ≤ order
    · rw [if_pos a]
      exact getD_lt h3 (by omega) (by omega)
    · rw [if_neg a, if_pos (by omega)]
      exact (mean_bounds tau h3 order _ h1 (by omega)).2.trans_lt (getD_lt h3 (by omega) (by omega))
  · rw [hg, hg, if_neg (by omega), if_neg (by omega), if_neg (by omega), if_neg (by omega)]

theorem rank_simple (tau : List ℝ) (order : ℕ) (h : Sites tau order) :
    Simple (ext (theKnots tau order)) (tau.length - 1) := by
  have hg := rank_get tau order h
  have hK := rank_knots tau order h
  obtain ⟨h1, h2, h3⟩ := h
  intro x h0 hx i hi hi2
  have a : order < i := by
    by_contra a
    rw [hg, if_pos (by omega)] at hi
    rw [hg, if_pos (Nat.zero_le _)] at h0
    linarith
  have b : i < tau.length := by
    by_contra b
    rw [hK.stop i (by omega)] at hi
    linarith
  by_cases c : i + 1 < tau.length
  · have : ext (theKnots tau order) i < ext (theKnots tau order) (i + 1) := by
      rw [hg, hg, if_neg (by omega), if_pos b, if_neg (by omega), if_pos c]
      refine div_lt_div_of_pos_right ?_ (by exact_mod_cast h1)
      refine sum_lt_sum_of_nonempty ⟨0, mem_range.2 h1⟩ fun k hk => ?_
      have := mem_range.1 hk
      exact getD_lt h3 (by omega) (by omega)
    linarith
  · rw [hK.stop (i + 1) (by omega)] at hi2
    linarith

theorem half_zeroth (T : ℕ → ℝ) (e : ℕ) (x : ℝ) (hx : x < T (e + 1)) : half T x = zeroth T e x := by
  funext i
  rw [half, zeroth]
  congr 1
  rw [eq_iff_iff]
  constructor
  · rintro ⟨a, b⟩
    exact ⟨a, Or.inl b⟩
  · rintro ⟨a, b | ⟨rfl, b⟩⟩
    · exact ⟨a, b⟩
    · linarith

theorem rank_last (tau : List ℝ) (order : ℕ) (h : Sites tau order) :
    ext (theKnots tau order) (tau.length - 1 + 1) = tau.getD (tau.length - 1) 0 := by
  have h2 := h.2.1
  rw [rank_get tau order h, if_neg (by omega), if_neg (by omega)]

/-- The value of a spline with coefficients `c`. -/
theorem rank_call (tau : List ℝ) (order : ℕ) (h : Sites tau order) (c : ℕ → ℝ) (x : ℝ)
    (hx : x < tau.getD (tau.length - 1) 0) :
    ∑ j ∈ range tau.length, (Bspline.call { knots := theKnots tau order, order := order, last := false } x).getD j 0 * c j
      = spl (ext (theKnots tau order)) (tau.length - 1) order (tau.length - 1 + 1) c x := by
  have h2 := h.2.1
  have hl := theKnots_length tau order h
  rw [spl, Nat.sub_add_cancel (by omega)]
  apply sum_congr rfl
  intro j hj
  have := mem_range.1 hj
  rw [call_half _ rfl _ _ (by simp only [hl]; omega), half_zeroth _ _ _ (by rw [rank_last tau order h]; exact hx), mul_comm]

theorem spl_first (T : ℕ → ℝ) (e p : ℕ) (hT : Knots T e) (hP : T p = T 0) (hpe : T 0 < T (p + 1)) (c : ℕ → ℝ) :
    spl T e p (e + 1) c (T 0) = c 0 := by
  have ho : ∀ i, T i = T 0 ↔ i ≤ p := by
    intro i
    constructor
    · intro hi
      by_contra h
      have := hT.mono (show p + 1 ≤ i by omega)
      linarith
    · intro hi
      exact le_antisymm (hP ▸ hT.mono hi) (hT.mono (Nat.zero_le _))
  have hpe' : p ≤ e := by
    by_contra h
    have a := hT.mono (show e + 1 ≤ p by omega)
    have b := hT.mono (Nat.zero_le e)
    have := hT.lt
    linarith
  have hz : ∀ j, j ≠ 0 → cox T (zeroth T e (T 0)) (T 0) p j = 0 := by
    intro j hj
    by_contra h
    have := left_end hT p ho hpe' p j h
    omega
  have hu := unity hT (T 0) le_rfl (hT.mono (Nat.zero_le _)) p hP (e + 1) (by omega)
  rw [sum_eq_single 0 (fun j _ hj => hz j hj) (fun h => absurd (mem_range.2 (by omega)) h)] at hu
  rw [spl, sum_eq_single 0 (fun j _ hj => by rw [hz j hj, mul_zero]) (fun h => absurd (mem_range.2 (by omega)) h), hu,
    mul_one]

theorem spl_last (T : ℕ → ℝ) (e p : ℕ) (hT : Knots T e) (hP : T p = T 0) (c : ℕ → ℝ) :
    spl T e p (e + 1) c (T (e + 1)) = c e := by
  have hz : ∀ j, j ≠ e → cox T (zeroth T e (T (e + 1))) (T (e + 1)) p j = 0 := by
    intro j hj
    by_contra h
    exact hj (right_end hT p j h)
  have hu := unity hT (T (e + 1)) (hT.mono (Nat.zero_le _)) le_rfl p hP (e + 1) (by omega)
  rw [sum_eq_single e (fun j _ hj => hz j hj) (fun h => absurd (mem_range.2 (by omega)) h)] at hu
  rw [spl, sum_eq_single e (fun j _ hj => by rw [hz j hj, mul_zero]) (fun h => absurd (mem_range.2 (by omega)) h), hu,
    mul_one]

/-- A spline that is zero at all sites is zero. -/
theorem rank_zero (tau : List ℝ) (order : ℕ) (h : Sites tau order) (c : ℕ → ℝ) (hc : ∀ j, tau.length ≤ j → c j = 0)
    (hz : ∀ i, i < tau.length →
      spl (ext (theKnots tau order)) (tau.length - 1) order (tau.length - 1 + 1) c (tau.getD i 0) = 0) (j : ℕ) :
    c j = 0 := by
  have hK := rank_knots tau order h
  have hS := rank_simple tau order h
  have hl := rank_last tau order h
  have hlen := theKnots_length tau order h
  have hg := rank_get tau order h
  obtain ⟨t, he, -, -, -, -, hleft, hright⟩ := C117_knots tau order h
  rw [aptknt_eq tau order h, Option.some.injEq] at he
  subst he
  obtain ⟨h1, h2, h3⟩ := h
  obtain ⟨p, rfl⟩ : ∃ p, order = p + 1 := ⟨order - 1, by omega⟩
  have hP : ext (theKnots tau (p + 1)) (p + 1) = ext (theKnots tau (p + 1)) 0 := by
    rw [hg, hg, if_pos le_rfl, if_pos (by omega)]
  have h00 : ext (theKnots tau (p + 1)) 0 = tau.getD 0 0 := by rw [hg, if_pos (by omega)]
  have c0 : c 0 = 0 := by
    have := hz 0 (by omega)
    rw [← h00, spl_first _ _ _ hK hP] at this
    · exact this
    · rw [h00, ext_get _ _ (by omega)]
      have := hright 0 (by omega)
      rwa [zero_add] at this
  have ce : c (tau.length - 1) = 0 := by
    have := hz (tau.length - 1) (by omega)
    rwa [← hl, spl_last _ _ _ hK hP] at this
  refine whitney hK hS p hP (fun i => tau.getD i 0) (fun i j hij hj => getD_lt h3 hij (by omega)) c ?_
    (fun j hj => hc j (by omega)) (fun i hi => hz i (by omega)) j
  intro i hi
  have i0 : 0 < i := by
    by_contra h
    exact hi (by rw [show i = 0 by omega, c0])
  have ie : i + 1 < tau.length := by
    by_contra h
    rcases Nat.lt_or_ge i tau.length with h4 | h4
    · exact hi (by rw [show i = tau.length - 1 by omega, ce])
    · exact hi (hc i h4)
  rw [ext_get _ _ (by omega), ext_get _ _ (by omega)]
  exact ⟨hleft i i0 (by omega), hright i (by omega)⟩

/-- Values at all sites: at the last one as a limit from below, as the functions of `spcol` are zero at the site itself. -/
def Through (t : List ℝ) (order : ℕ) (tau : List ℝ) (y : ℕ → ℝ) (c : ℕ → ℝ) : Prop :=
  (∀ i, i + 1 < tau.length → ∑ j ∈ range tau.length, ((spcol t order tau).getD i []).getD j 0 * c j = y i) ∧
  Filter.Tendsto (fun x => ∑ j ∈ range tau.length,
      (Bspline.call { knots := t, order := order, last := false } x).getD j 0 * c j)
    (nhdsWithin (tau.getD (tau.length - 1) 0) (Set.Iio (tau.getD (tau.length - 1) 0))) (nhds (y (tau.length - 1)))

theorem through_iff (tau : List ℝ) (order : ℕ) (h : Sites tau order) (y c : ℕ → ℝ) :
    Through (theKnots tau order) order tau y c ↔ ∀ i, i < tau.length →
      spl (ext (theKnots tau order)) (tau.length - 1) order (tau.length - 1 + 1) c (tau.getD i 0) = y i := by
  have hK := rank_knots tau order h
  have hS := rank_simple tau order h
  have hl := rank_last tau order h
  have hg := rank_get tau order h
  obtain ⟨h1, h2, h3⟩ := h
  have hrow : ∀ i, i + 1 < tau.length → ∑ j ∈ range tau.length,
      ((spcol (theKnots tau order) order tau).getD i []).getD j 0 * c j
        = spl (ext (theKnots tau order)) (tau.length - 1) order (tau.length - 1 + 1) c (tau.getD i 0) := by
    intro i hi
    rw [spcol_row _ _ _ h3 i (by omega)]
    exact rank_call tau order ⟨h1, h2, h3⟩ c _ (getD_lt h3 (by omega) (by omega))
  obtain ⟨p, rfl⟩ : ∃ p, order = p + 1 := ⟨order - 1, by omega⟩
  have hlim : Filter.Tendsto (fun x => ∑ j ∈ range tau.length,
      (Bspline.call { knots := theKnots tau (p + 1), order := p + 1, last := false } x).getD j 0 * c j)
      (nhdsWithin (tau.getD (tau.length - 1) 0) (Set.Iio (tau.getD (tau.length - 1) 0)))
      (nhds (spl (ext (theKnots tau (p + 1))) (tau.length - 1) (p + 1) (tau.length - 1 + 1) c
        (tau.getD (tau.length - 1) 0))) := by
    have hc := spl_cont hK hS p (tau.length - 1 + 1) c _ (Set.right_mem_Icc.2 (hK.mono (Nat.zero_le _)))
    rw [hl] at hc
    have hlt : ext (theKnots tau (p + 1)) 0 < tau.getD (tau.length - 1) 0 := by
      rw [← hl]
      exact (hK.mono (Nat.zero_le _)).trans_lt hK.lt
    have hle : nhdsWithin (tau.getD (tau.length - 1) 0) (Set.Iio (tau.getD (tau.length - 1) 0))
        ≤ nhdsWithin (tau.getD (tau.length - 1) 0)
          (Set.Icc (ext (theKnots tau (p + 1)) 0) (tau.getD (tau.length - 1) 0)) := by
      refine le_inf inf_le_left ?_
      rw [Filter.le_principal_iff]
      filter_upwards [self_mem_nhdsWithin, mem_nhdsWithin_of_mem_nhds (lt_mem_nhds hlt)] with x a b
      exact ⟨le_of_lt b, le_of_lt a⟩
    refine (hc.mono_left hle).congr' ?_
    filter_upwards [self_mem_nhdsWithin] with x hx
    exact (rank_call tau (p + 1) ⟨h1, h2, h3⟩ c x hx).symm
  have hne : (nhdsWithin (tau.getD (tau.length - 1) 0) (Set.Iio (tau.getD (tau.length - 1) 0))).NeBot := inferInstance
  constructor
  · rintro ⟨a, b⟩ i hi
    rcases Nat.lt_or_ge (i + 1) tau.length with h4 | h4
    · rw [← hrow i h4, a i h4]
    · obtain rfl : i = tau.length - 1 := by omega
      exact tendsto_nhds_unique hlim b
  · intro a
    refine ⟨fun i hi => by rw [hrow i hi, a i (by omega)], ?_⟩
    rw [← a (tau.length - 1) (by omega)]
    exact hlim

/-- C117, but for the last site: for sites in ascending order, more than the order of the spline, and any values at the
sites there is exactly one spline on the knots of `aptknt` that goes through all values: the rows of the matrix of `spcol`
times its coefficients are the values, for all sites but the last, where it has the value as a limit from below. (The
last row of the matrix itself is zero: `C117_counterexample_last`.) -/
theorem C117_interpolation_partial (tau : List ℝ) (order : ℕ) (h : Sites tau order) (y : ℕ → ℝ) :
    ∃ t, aptknt id tau order = some t ∧
      (∃ c : ℕ → ℝ, Through t order tau y c) ∧
      ∀ c c' : ℕ → ℝ, Through t order tau y c → Through t order tau y c' → ∀ j, j < tau.length → c j = c' j := by
  refine ⟨_, aptknt_eq tau order h, ?_, ?_⟩
  · have h2 := h.2.1
    -- the linear map from coefficients to values
    let up : (Fin tau.length → ℝ) → ℕ → ℝ := fun c j => if hj : j < tau.length then c ⟨j, hj⟩ else 0
    let A : Matrix (Fin tau.length) (Fin tau.length) ℝ := Matrix.of fun i j =>
      cox (ext (theKnots tau order)) (zeroth (ext (theKnots tau order)) (tau.length - 1) (tau.getD i 0)) (tau.getD i 0)
        order j
    have hA : ∀ c i, Matrix.toLin' A c i
        = spl (ext (theKnots tau order)) (tau.length - 1) order (tau.length - 1 + 1) (up c) (tau.getD i 0) := by
      intro c i
      rw [Matrix.toLin'_apply, Matrix.mulVec, dotProduct, spl, Nat.sub_add_cancel (by omega), ← Fin.sum_univ_eq_sum_range
        (fun j => up c j * cox (ext (theKnots tau order)) (zeroth (ext (theKnots tau order)) (tau.length - 1)
          (tau.getD i 0)) (tau.getD i 0) order j)]
      apply sum_congr rfl
      intro j _
      simp only [A, Matrix.of_apply, up, Fin.is_lt, dif_pos]
      rw [mul_comm]
    have hinj : Function.Injective (Matrix.toLin' A) := by
      rw [injective_iff_map_eq_zero]
      intro c hc
      have hz := rank_zero tau order h (up c) (fun j hj => dif_neg (by omega)) (fun i hi => by
        have := congrFun hc ⟨i, hi⟩
        rw [hA c ⟨i, hi⟩] at this
        exact this)
      funext j
      have := hz j
      simp only [up, Fin.is_lt, dif_pos] at this
      exact this
    obtain ⟨c, hc⟩ := LinearMap.surjective_of_injective hinj fun i => y i
    refine ⟨up c, (through_iff tau order h y (up c)).2 fun i hi => ?_⟩
    have := congrFun hc ⟨i, hi⟩
    rw [hA c ⟨i, hi⟩] at this
    exact this
  · intro c c' hc hc' j hj
    rw [through_iff tau order h] at hc hc'
    have := rank_zero tau order h (fun j => if j < tau.length then c j - c' j else 0)
      (fun j hj => if_neg (by omega)) (fun i hi => by
        have e1 : spl (ext (theKnots tau order)) (tau.length - 1) order (tau.length - 1 + 1)
            (fun j => if j < tau.length then c j - c' j else 0) (tau.getD i 0)
            = spl (ext (theKnots tau order)) (tau.length - 1) order (tau.length - 1 + 1) c (tau.getD i 0)
              - spl (ext (theKnots tau order)) (tau.length - 1) order (tau.length - 1 + 1) c' (tau.getD i 0) := by
          rw [spl, spl, spl, ← sum_sub_distrib]
          apply sum_congr rfl
          intro k hk
          have := mem_range.1 hk
          rw [if_pos (by have := h.2.1; omega), sub_mul]
        rw [e1, hc i hi, hc' i hi, sub_self]) j
    rw [if_pos hj] at this
    linarith

/-- A parabola through five points. -/
example (y : ℕ → ℝ) : ∃ t, aptknt id [0, 1, 3, 4, 7] 2 = some t ∧ ∃ c : ℕ → ℝ, Through t 2 [0, 1, 3, 4, 7] y c := by
  obtain ⟨t, h1, h2, -⟩ := C117_interpolation_partial [0, 1, 3, 4, 7] 2
    ⟨by norm_num, by simp, by simp; norm_num⟩ y
  exact ⟨t, h1, h2⟩

end BF.SplineLab
