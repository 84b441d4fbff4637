import Verif.Nested
import Verif.Props.NestedMore
import Mathlib.MeasureTheory.Integral.Bochner.Basic
import Mathlib.MeasureTheory.Integral.Prod
import Mathlib.MeasureTheory.Integral.IntervalIntegral.FundThmCalculus
import Mathlib.MeasureTheory.Constructions.Pi
import Mathlib.MeasureTheory.Measure.Lebesgue.Basic
import Mathlib.Analysis.SpecialFunctions.Integrals.Basic
import Mathlib.Analysis.SpecialFunctions.Log.Deriv
import Mathlib.Data.Nat.Choose.Sum
import Mathlib.Data.List.Sort

noncomputable section

namespace BF.Props.Shrink
open BF.Nested MeasureTheory
open scoped ENNReal

/-! ## Specification -/

/-- Number `k` of the list, from the worst on: number 0 is the smallest. -/
def worst (k : ℕ) (l : List ℝ) : ℝ := (l.mergeSort (· ≤ ·)).getD k 0

/-- The part of the prior where the likelihood is larger than `l`. -/
def volumeAbove {Θ : Type*} [MeasurableSpace Θ] (prior : Measure Θ) (L : Θ → ℝ) (l : ℝ) : ℝ :=
  (prior {θ | l < L θ}).toReal

/-! ## Order statistics of uniform draws -/

/-- Number `k` from the largest on. -/
def best (k : ℕ) (l : List ℝ) : ℝ := (l.mergeSort (fun a b => b ≤ a)).getD k 0

theorem sorted_lt_iff (l : List ℝ) (hl : l.Pairwise fun a b => b ≤ a) (k : ℕ) (hk : k < l.length) (t : ℝ) :
    l[k] < t ↔ l.countP (fun x => decide (t ≤ x)) ≤ k := by
  constructor
  · intro h
    have e : l = l.take k ++ l.drop k := (List.take_append_drop k l).symm
    have hz : (l.drop k).countP (fun x => decide (t ≤ x)) = 0 := by
      rw [List.countP_eq_zero]
      intro x hx
      obtain ⟨i, hi, rfl⟩ := List.mem_iff_getElem.1 hx
      simp only [List.getElem_drop, decide_eq_true_eq, not_le]
      refine lt_of_le_of_lt ?_ h
      rcases Nat.eq_zero_or_pos i with rfl | hp
      · simp
      · exact (List.pairwise_iff_getElem.1 hl) k (k + i) hk (by simp at hi; omega) (by omega)
    rw [e, List.countP_append, hz, add_zero]
    exact List.countP_le_length.trans (by simp)
  · intro h
    by_contra hc
    push Not at hc
    have hall : (l.take (k + 1)).countP (fun x => decide (t ≤ x)) = (l.take (k + 1)).length := by
      rw [List.countP_eq_length]
      intro x hx
      obtain ⟨i, hi, rfl⟩ := List.mem_iff_getElem.1 hx
      simp only [List.getElem_take, decide_eq_true_eq]
      refine hc.trans ?_
      have hik : i ≤ k := by simp at hi; omega
      rcases Nat.lt_or_eq_of_le hik with hlt | rfl
      · exact (List.pairwise_iff_getElem.1 hl) i k (by omega) hk hlt
      · exact le_rfl
    have hle : (l.take (k + 1)).countP (fun x => decide (t ≤ x)) ≤ l.countP (fun x => decide (t ≤ x)) :=
      (List.take_sublist _ _).countP_le
    rw [hall, List.length_take] at hle
    omega

theorem best_lt_iff {N : ℕ} (k : ℕ) (hk : k < N) (u : Fin N → ℝ) (t : ℝ) :
    best k (List.ofFn u) < t ↔ (Finset.univ.filter fun i => t ≤ u i).card ≤ k := by
  have hs : ((List.ofFn u).mergeSort (fun a b => b ≤ a)).Pairwise fun a b => b ≤ a := by
    have := List.pairwise_mergeSort (le := fun a b : ℝ => decide (b ≤ a))
      (by intro a b c h1 h2; simp only [decide_eq_true_eq] at *; exact h2.trans h1)
      (by intro a b; simp only [Bool.or_eq_true, decide_eq_true_eq]; exact le_total b a) (List.ofFn u)
    simpa using this
  have hlen : k < ((List.ofFn u).mergeSort (fun a b => b ≤ a)).length := by simpa using hk
  have hp : ((List.ofFn u).mergeSort (fun a b => b ≤ a)).Perm (List.ofFn u) := List.mergeSort_perm _ _
  rw [best, List.getD_eq_getElem?_getD, List.getElem?_eq_getElem hlen, Option.getD_some,
    sorted_lt_iff _ hs k hlen, hp.countP_eq]
  have : (List.ofFn u).countP (fun x => decide (t ≤ x)) = (Finset.univ.filter fun i => t ≤ u i).card := by
    rw [List.ofFn_eq_map, List.countP_map, List.countP_eq_length_filter]
    rfl
  rw [this]

/-- The uniform distribution over the unit interval. -/
abbrev unit : Measure ℝ := volume.restrict (Set.Ioo 0 1)

instance : IsProbabilityMeasure unit := ⟨by simp [unit]⟩

theorem unit_Iio (t : ℝ) (ht : t ∈ Set.Ioo (0 : ℝ) 1) : unit (Set.Iio t) = ENNReal.ofReal t := by
  rw [Measure.restrict_apply measurableSet_Iio]
  have : Set.Iio t ∩ Set.Ioo 0 1 = Set.Ioo 0 t := by
    ext x; simp only [Set.mem_inter_iff, Set.mem_Iio, Set.mem_Ioo]
    constructor
    · rintro ⟨a, b, _⟩; exact ⟨b, a⟩
    · rintro ⟨a, b⟩; exact ⟨b, a, b.trans ht.2⟩
  rw [this, Real.volume_Ioo, sub_zero]

theorem unit_Ici (t : ℝ) (ht : t ∈ Set.Ioo (0 : ℝ) 1) : unit (Set.Ici t) = ENNReal.ofReal (1 - t) := by
  rw [Measure.restrict_apply measurableSet_Ici]
  have : Set.Ici t ∩ Set.Ioo 0 1 = Set.Ico t 1 := by
    ext x; simp only [Set.mem_inter_iff, Set.mem_Ici, Set.mem_Ioo, Set.mem_Ico]
    constructor
    · rintro ⟨a, _, b⟩; exact ⟨a, b⟩
    · rintro ⟨a, b⟩; exact ⟨a, lt_of_lt_of_le ht.1 a, b⟩
  rw [this, Real.volume_Ico]

theorem best_set {N : ℕ} (k : ℕ) (hk : k < N) (t : ℝ) :
    {u : Fin N → ℝ | best k (List.ofFn u) < t}
      = ⋃ S ∈ (Finset.univ : Finset (Finset (Fin N))).filter (fun S => S.card ≤ k),
        Set.univ.pi fun i => if i ∈ S then Set.Ici t else Set.Iio t := by
  ext u
  simp only [Set.mem_setOf_eq, best_lt_iff k hk, Set.mem_iUnion, Finset.mem_filter, Finset.mem_univ,
    true_and, Set.mem_univ_pi, exists_prop]
  constructor
  · intro h
    refine ⟨_, h, fun i => ?_⟩
    by_cases hi : t ≤ u i
    · simp [hi]
    · simp [hi]; exact not_le.1 hi
  · rintro ⟨S, hS, hu⟩
    have : (Finset.univ.filter fun i => t ≤ u i) = S := by
      ext i
      have := hu i
      by_cases hi : i ∈ S
      · rw [if_pos hi] at this; simpa [hi] using this
      · rw [if_neg hi] at this; simpa [hi] using this
    rw [this]; exact hS

theorem best_measurable {N : ℕ} (k : ℕ) (hk : k < N) :
    Measurable fun u : Fin N → ℝ => best k (List.ofFn u) := by
  refine measurable_of_Iio fun t => ?_
  have : (fun u : Fin N → ℝ => best k (List.ofFn u)) ⁻¹' Set.Iio t
      = {u : Fin N → ℝ | best k (List.ofFn u) < t} := rfl
  rw [this, best_set k hk]
  refine Finset.measurableSet_biUnion _ fun S _ => MeasurableSet.univ_pi fun i => ?_
  split_ifs
  · exact measurableSet_Ici
  · exact measurableSet_Iio

/-- The probability that number `k` of the draws, from the largest on, is below `t`. -/
theorem best_prob {N : ℕ} (k : ℕ) (hk : k < N) (t : ℝ) (ht : t ∈ Set.Ioo (0 : ℝ) 1) :
    Measure.pi (fun _ : Fin N => unit) {u | best k (List.ofFn u) < t}
      = ENNReal.ofReal (∑ j ∈ Finset.range (k + 1), (N.choose j : ℝ) * ((1 - t) ^ j * t ^ (N - j))) := by
  have h1 : 0 < t := ht.1
  have h2 : 0 < 1 - t := sub_pos.2 ht.2
  rw [best_set k hk, measure_biUnion_finset]
  · have hpi : ∀ S : Finset (Fin N), Measure.pi (fun _ : Fin N => unit)
        (Set.univ.pi fun i => if i ∈ S then Set.Ici t else Set.Iio t)
        = ENNReal.ofReal ((1 - t) ^ S.card * t ^ (N - S.card)) := by
      intro S
      rw [Measure.pi_pi]
      have e : ∀ i, unit (if i ∈ S then Set.Ici t else Set.Iio t)
          = if i ∈ S then ENNReal.ofReal (1 - t) else ENNReal.ofReal t := by
        intro i; split_ifs
        · exact unit_Ici t ht
        · exact unit_Iio t ht
      simp only [e]
      rw [Finset.prod_ite, Finset.prod_const, Finset.prod_const, Finset.filter_mem_eq_inter,
        Finset.univ_inter]
      have hc : (Finset.univ.filter fun i => i ∉ S).card = N - S.card := by
        rw [Finset.filter_not, Finset.filter_mem_eq_inter, Finset.univ_inter, ← Finset.compl_eq_univ_sdiff,
          Finset.card_compl, Fintype.card_fin]
      rw [hc, ENNReal.ofReal_mul (by positivity), ENNReal.ofReal_pow h2.le, ENNReal.ofReal_pow h1.le]
    simp only [hpi]
    rw [← ENNReal.ofReal_sum_of_nonneg (fun S _ => by positivity), Finset.sum_filter]
    congr 1
    have hp := Finset.sum_powerset_apply_card
      (fun m => if m ≤ k then (1 - t) ^ m * t ^ (N - m) else 0) (x := (Finset.univ : Finset (Fin N)))
    rw [Finset.powerset_univ] at hp
    rw [hp, Finset.card_univ, Fintype.card_fin]
    rw [← Finset.sum_subset (Finset.range_subset_range.2 (by omega : k + 1 ≤ N + 1))]
    · refine Finset.sum_congr rfl fun j hj => ?_
      rw [if_pos (by have := Finset.mem_range.1 hj; omega), nsmul_eq_mul]
    · intro j _ hj
      rw [if_neg (by have := mt Finset.mem_range.2 hj; omega), smul_zero]
  · intro S _ T _ hST
    rw [Function.onFun, Set.disjoint_left]
    intro u hu hu'
    apply hST
    ext i
    have a := hu i trivial
    have b := hu' i trivial
    dsimp only at a b
    by_cases hi : i ∈ S <;> by_cases hj : i ∈ T
    · simp [hi, hj]
    · rw [if_pos hi] at a; rw [if_neg hj] at b
      exact absurd (Set.mem_Ici.1 a) (not_le.2 b)
    · rw [if_neg hi] at a; rw [if_pos hj] at b
      exact absurd (Set.mem_Ici.1 b) (not_le.2 a)
    · simp [hi, hj]
  · intro S _
    refine MeasurableSet.univ_pi fun i => ?_
    split_ifs
    · exact measurableSet_Ici
    · exact measurableSet_Iio

/-! ## The integrals -/

theorem beta_nat (b : ℕ) : ∀ a : ℕ, ∫ t in (0 : ℝ)..1, t ^ a * (1 - t) ^ b
    = (a.factorial * b.factorial : ℝ) / (a + b + 1).factorial := by
  induction b with
  | zero =>
    intro a
    simp only [pow_zero, mul_one, Nat.factorial_zero, Nat.cast_one, add_zero]
    rw [integral_pow, Nat.factorial_succ]
    have := Nat.factorial_ne_zero a
    push_cast
    field_simp
    simp
  | succ b ih =>
    intro a
    have hd : ∀ t : ℝ, HasDerivAt (fun t : ℝ => t ^ (a + 1) * (1 - t) ^ (b + 1))
        ((a + 1) * (t ^ a * (1 - t) ^ (b + 1)) - (b + 1) * (t ^ (a + 1) * (1 - t) ^ b)) t := by
      intro t
      have h1 : HasDerivAt (fun t : ℝ => t ^ (a + 1)) ((a + 1) * t ^ a) t := by
        simpa using hasDerivAt_pow (a + 1) t
      have h2 : HasDerivAt (fun t : ℝ => (1 - t) ^ (b + 1)) ((b + 1) * (1 - t) ^ b * -1) t := by
        have := ((hasDerivAt_id t).const_sub 1).fun_pow (b + 1)
        simpa using this
      refine (h1.mul h2).congr_deriv ?_
      ring
    have hI := intervalIntegral.integral_eq_sub_of_hasDerivAt (a := 0) (b := 1) (fun t _ => hd t)
      (Continuous.intervalIntegrable (by fun_prop) _ _)
    rw [intervalIntegral.integral_sub (Continuous.intervalIntegrable (by fun_prop) _ _)
      (Continuous.intervalIntegrable (by fun_prop) _ _), intervalIntegral.integral_const_mul,
      intervalIntegral.integral_const_mul, ih (a + 1)] at hI
    simp only [sub_self, zero_pow (Nat.succ_ne_zero _), mul_zero, zero_mul] at hI
    have ha : ((a : ℝ) + 1) ≠ 0 := by positivity
    have : ∫ t in (0 : ℝ)..1, t ^ a * (1 - t) ^ (b + 1)
        = (b + 1) * (((a + 1).factorial * b.factorial : ℝ) / (a + 1 + b + 1).factorial) / (a + 1) := by
      rw [eq_div_iff ha]; linarith
    rw [this, Nat.factorial_succ a, Nat.factorial_succ b, show a + 1 + b + 1 = a + (b + 1) + 1 by ring]
    push_cast
    field_simp

theorem choose_integral (N j : ℕ) (hj : j < N) :
    ∫ t in (0 : ℝ)..1, (N.choose j : ℝ) * ((1 - t) ^ j * t ^ (N - j - 1)) = 1 / ((N : ℝ) - j) := by
  rw [intervalIntegral.integral_const_mul]
  have e : ∀ t : ℝ, (1 - t) ^ j * t ^ (N - j - 1) = t ^ (N - j - 1) * (1 - t) ^ j := fun t => mul_comm _ _
  simp only [e]
  rw [beta_nat, show N - j - 1 + j + 1 = N by omega]
  obtain ⟨m, rfl⟩ : ∃ m, N = m + 1 + j := ⟨N - j - 1, by omega⟩
  rw [show m + 1 + j - j - 1 = m by omega]
  have hc := Nat.add_choose_mul_factorial_mul_factorial (m + 1) j
  have hc' : ((m + 1 + j).choose j : ℝ) * (m + 1).factorial * j.factorial = (m + 1 + j).factorial := by
    exact_mod_cast hc
  rw [Nat.factorial_succ] at hc'
  push_cast at hc' ⊢
  have h1 : ((m + 1 + j).factorial : ℝ) ≠ 0 := by exact_mod_cast Nat.factorial_ne_zero _
  rw [← hc'] at h1 ⊢
  have h2 : (m.factorial : ℝ) ≠ 0 := by exact_mod_cast Nat.factorial_ne_zero _
  have h3 : (j.factorial : ℝ) ≠ 0 := by exact_mod_cast Nat.factorial_ne_zero _
  have h4 : (m : ℝ) + 1 ≠ 0 := by positivity
  have h5 : ((m + 1 + j).choose j : ℝ) ≠ 0 := by
    exact_mod_cast (Nat.choose_pos (by omega : j ≤ m + 1 + j)).ne'
  have h6 : (m : ℝ) + 1 + j - j = m + 1 := by ring
  rw [h6]
  field_simp

theorem log_layer (x : ℝ) (hx : x ∈ Set.Ioo (0 : ℝ) 1) :
    ENNReal.ofReal (-Real.log x)
      = ∫⁻ t in Set.Ioo (0 : ℝ) 1, if x < t then ENNReal.ofReal (1 / t) else 0 := by
  have e : (fun t : ℝ => if x < t then ENNReal.ofReal (1 / t) else 0)
      = (Set.Ioi x).indicator fun t => ENNReal.ofReal (1 / t) := by
    funext t
    by_cases h : x < t
    · rw [if_pos h, Set.indicator_of_mem (Set.mem_Ioi.2 h)]
    · rw [if_neg h, Set.indicator_of_notMem (fun h' => h (Set.mem_Ioi.1 h'))]
  have hs : Set.Ioi x ∩ Set.Ioo 0 1 = Set.Ioo x 1 := by
    ext t; simp only [Set.mem_inter_iff, Set.mem_Ioi, Set.mem_Ioo]
    exact ⟨fun h => ⟨h.1, h.2.2⟩, fun h => ⟨h.1, hx.1.trans h.1, h.2⟩⟩
  rw [e, lintegral_indicator measurableSet_Ioi, Measure.restrict_restrict measurableSet_Ioi, hs,
    setLIntegral_congr Ioo_ae_eq_Ioc]
  have hint : IntervalIntegrable (fun t : ℝ => 1 / t) volume x 1 := by
    refine intervalIntegral.intervalIntegrable_one_div (fun t ht => ?_) continuousOn_id
    rw [Set.uIcc_of_le hx.2.le] at ht
    exact (lt_of_lt_of_le hx.1 ht.1).ne'
  rw [← ofReal_integral_eq_lintegral_ofReal]
  · rw [← intervalIntegral.integral_of_le hx.2.le, integral_one_div_of_pos hx.1 one_pos, Real.log_div one_ne_zero hx.1.ne',
      Real.log_one, zero_sub]
  · exact (intervalIntegrable_iff_integrableOn_Ioc_of_le hx.2.le).1 hint
  · rw [Filter.EventuallyLE, ae_restrict_iff' measurableSet_Ioc]
    refine Filter.Eventually.of_forall fun t ht => ?_
    exact (one_div_pos.2 (hx.1.trans ht.1)).le

theorem best_mem {N : ℕ} (k : ℕ) (hk : k < N) (u : Fin N → ℝ) : ∃ i, best k (List.ofFn u) = u i := by
  have hlen : k < ((List.ofFn u).mergeSort (fun a b => b ≤ a)).length := by simpa using hk
  have : best k (List.ofFn u) ∈ (List.ofFn u).mergeSort (fun a b => b ≤ a) := by
    rw [best, List.getD_eq_getElem?_getD, List.getElem?_eq_getElem hlen, Option.getD_some]
    exact List.getElem_mem _
  rw [List.mem_mergeSort, List.mem_ofFn] at this
  obtain ⟨i, hi⟩ := this
  exact ⟨i, hi.symm⟩

theorem best_log_lintegral {N : ℕ} (k : ℕ) (hk : k < N) :
    ∫⁻ u, ENNReal.ofReal (-Real.log (best k (List.ofFn u))) ∂Measure.pi (fun _ : Fin N => unit)
      = ENNReal.ofReal (∑ j ∈ Finset.range (k + 1), 1 / ((N : ℝ) - j)) := by
  set μ := Measure.pi (fun _ : Fin N => unit) with hμ
  have hin : ∀ᵐ u ∂μ, ∀ i, u i ∈ Set.Ioo (0 : ℝ) 1 := by
    refine ae_all_iff.2 fun i => ?_
    have h1 : ∀ᵐ x ∂unit, x ∈ Set.Ioo (0 : ℝ) 1 := ae_restrict_mem measurableSet_Ioo
    exact (Measure.quasiMeasurePreserving_eval (fun _ : Fin N => unit) i).ae h1
  have hm := best_measurable k hk
  have hmeas : Measurable (Function.uncurry fun (u : Fin N → ℝ) (t : ℝ) =>
      if best k (List.ofFn u) < t then ENNReal.ofReal (1 / t) else 0) := by
    refine Measurable.ite (measurableSet_lt (hm.comp measurable_fst) measurable_snd) ?_ measurable_const
    exact ENNReal.measurable_ofReal.comp (measurable_const.div measurable_snd)
  have h1 : ∫⁻ u, ENNReal.ofReal (-Real.log (best k (List.ofFn u))) ∂μ
      = ∫⁻ u, (∫⁻ t in Set.Ioo (0 : ℝ) 1,
          if best k (List.ofFn u) < t then ENNReal.ofReal (1 / t) else 0) ∂μ := by
    refine lintegral_congr_ae ?_
    filter_upwards [hin] with u hu
    obtain ⟨i, hi⟩ := best_mem k hk u
    rw [hi]
    exact log_layer _ (hu i)
  rw [h1, lintegral_lintegral_swap hmeas.aemeasurable]
  have h2 : ∀ t ∈ Set.Ioo (0 : ℝ) 1,
      ∫⁻ u, (if best k (List.ofFn u) < t then ENNReal.ofReal (1 / t) else 0) ∂μ
        = ENNReal.ofReal (∑ j ∈ Finset.range (k + 1),
            (N.choose j : ℝ) * ((1 - t) ^ j * t ^ (N - j - 1))) := by
    intro t ht
    have e : (fun u : Fin N → ℝ => if best k (List.ofFn u) < t then ENNReal.ofReal (1 / t) else 0)
        = {u | best k (List.ofFn u) < t}.indicator fun _ => ENNReal.ofReal (1 / t) := by
      funext u
      by_cases h : best k (List.ofFn u) < t
      · rw [if_pos h, Set.indicator_of_mem (by exact h)]
      · rw [if_neg h, Set.indicator_of_notMem (by exact h)]
    rw [e, lintegral_indicator_const (measurableSet_lt hm measurable_const), hμ, best_prob k hk t ht,
      ← ENNReal.ofReal_mul (one_div_pos.2 ht.1).le, Finset.mul_sum]
    congr 1
    refine Finset.sum_congr rfl fun j hj => ?_
    have hj' := Finset.mem_range.1 hj
    have : t ^ (N - j) = t ^ (N - j - 1) * t := by
      rw [← pow_succ]; congr 1; omega
    rw [this]
    have := ht.1.ne'
    field_simp
  rw [setLIntegral_congr_fun measurableSet_Ioo h2, setLIntegral_congr Ioo_ae_eq_Ioc,
    ← ofReal_integral_eq_lintegral_ofReal]
  · congr 1
    rw [← intervalIntegral.integral_of_le zero_le_one, intervalIntegral.integral_finset_sum]
    · refine Finset.sum_congr rfl fun j hj => ?_
      exact choose_integral N j (by have := Finset.mem_range.1 hj; omega)
    · intro j _
      exact Continuous.intervalIntegrable (by fun_prop) _ _
  · refine (intervalIntegrable_iff_integrableOn_Ioc_of_le zero_le_one).1 ?_
    exact Continuous.intervalIntegrable (by fun_prop) _ _
  · rw [Filter.EventuallyLE, ae_restrict_iff' measurableSet_Ioc]
    refine Filter.Eventually.of_forall fun t ht => Finset.sum_nonneg fun j _ => ?_
    have : 0 ≤ 1 - t := by linarith [ht.2]
    have := ht.1
    positivity

/-- The mean of the logarithm of number `k`, from the largest on, of `N` uniform draws. -/
theorem best_log {N : ℕ} (k : ℕ) (hk : k < N) :
    ∫ u, Real.log (best k (List.ofFn u)) ∂Measure.pi (fun _ : Fin N => unit)
      = -∑ j ∈ Finset.range (k + 1), 1 / ((N : ℝ) - j) := by
  have hin : ∀ᵐ u ∂Measure.pi (fun _ : Fin N => unit), ∀ i, u i ∈ Set.Ioo (0 : ℝ) 1 := by
    refine ae_all_iff.2 fun i => ?_
    have h1 : ∀ᵐ x ∂unit, x ∈ Set.Ioo (0 : ℝ) 1 := ae_restrict_mem measurableSet_Ioo
    exact (Measure.quasiMeasurePreserving_eval (fun _ : Fin N => unit) i).ae h1
  rw [← neg_neg (∫ u, Real.log (best k (List.ofFn u)) ∂Measure.pi (fun _ : Fin N => unit)),
    ← integral_neg, integral_eq_lintegral_of_nonneg_ae, best_log_lintegral k hk, ENNReal.toReal_ofReal]
  · refine Finset.sum_nonneg fun j hj => ?_
    have h : j < N := by have := Finset.mem_range.1 hj; omega
    have : (j : ℝ) < N := by exact_mod_cast h
    exact (one_div_pos.2 (by linarith)).le
  · filter_upwards [hin] with u hu
    obtain ⟨i, hi⟩ := best_mem k hk u
    rw [hi]
    exact neg_nonneg.2 (Real.log_nonpos (hu i).1.le (hu i).2.le)
  · exact ((Real.measurable_log.comp (best_measurable k hk)).neg).aestronglyMeasurable

/-! ## The prior volume above a fair draw -/

section volumes
variable {Θ : Type*} [MeasurableSpace Θ] (prior : Measure Θ) [IsProbabilityMeasure prior] (L : Θ → ℝ)

theorem volume_antitone : Antitone (volumeAbove prior L) := by
  intro a b h
  refine ENNReal.toReal_mono (measure_ne_top _ _) (measure_mono fun θ hθ => ?_)
  exact lt_of_le_of_lt h hθ

theorem volume_le_one (l : ℝ) : volumeAbove prior L l ≤ 1 := by
  have := ENNReal.toReal_mono ENNReal.one_ne_top (prob_le_one (μ := prior) (s := {θ | l < L θ}))
  simpa [volumeAbove] using this

theorem volume_measurable (hL : Measurable L) : Measurable fun θ => volumeAbove prior L (L θ) :=
  (volume_antitone prior L).measurable.comp hL

theorem volume_le_iff (l a : ℝ) (ha : 0 ≤ a) :
    volumeAbove prior L l ≤ a ↔ prior {θ | l < L θ} ≤ ENNReal.ofReal a :=
  ENNReal.le_ofReal_iff_toReal_le (measure_ne_top _ _) ha |>.symm

/-- The prior volume above a fair draw is below `a` with probability `a`. -/
theorem volume_prob (hL : Measurable L) (hties : ∀ l, prior {θ | L θ = l} = 0) (a : ℝ)
    (ha : a ∈ Set.Ioo (0 : ℝ) 1) :
    prior {θ | volumeAbove prior L (L θ) ≤ a} = ENNReal.ofReal a := by
  have hm : ∀ l, MeasurableSet {θ | l < L θ} := fun l => measurableSet_lt measurable_const hL
  have hm' : ∀ l, MeasurableSet {θ | l ≤ L θ} := fun l => measurableSet_le measurable_const hL
  set S := {l | prior {θ | l < L θ} ≤ ENNReal.ofReal a} with hS
  have hup : ∀ l ∈ S, ∀ l', l ≤ l' → l' ∈ S := by
    intro l hl l' h
    refine le_trans (measure_mono fun θ hθ => ?_) hl
    exact lt_of_le_of_lt h hθ
  have hne : S.Nonempty := by
    have ht := tendsto_measure_iInter_atTop (μ := prior) (s := fun n : ℕ => {θ | (n : ℝ) < L θ})
      (fun n => (hm n).nullMeasurableSet)
      (by intro m n h θ hθ; exact lt_of_le_of_lt (Nat.cast_le.2 h) (show (n : ℝ) < L θ from hθ)) ⟨0, measure_ne_top _ _⟩
    have he : ⋂ n : ℕ, {θ | (n : ℝ) < L θ} = ∅ := by
      ext θ
      simp only [Set.mem_iInter, Set.mem_setOf_eq, Set.mem_empty_iff_false, iff_false, not_forall, not_lt]
      exact exists_nat_ge (L θ)
    rw [he, measure_empty] at ht
    obtain ⟨n, hn⟩ := (ht.eventually_lt_const (ENNReal.ofReal_pos.2 ha.1)).exists
    exact ⟨n, hn.le⟩
  have hbd : BddBelow S := by
    have ht := tendsto_measure_iUnion_atTop (μ := prior) (s := fun n : ℕ => {θ | -(n : ℝ) < L θ})
      (by intro m n h θ hθ; exact lt_of_le_of_lt (neg_le_neg (Nat.cast_le.2 h)) (show -(m : ℝ) < L θ from hθ))
    have he : ⋃ n : ℕ, {θ | -(n : ℝ) < L θ} = Set.univ := by
      ext θ
      simp only [Set.mem_iUnion, Set.mem_setOf_eq, Set.mem_univ, iff_true]
      obtain ⟨n, hn⟩ := exists_nat_gt (-L θ)
      exact ⟨n, by linarith⟩
    rw [he, measure_univ] at ht
    have h1 : ENNReal.ofReal a < 1 := by
      rw [← ENNReal.ofReal_one]; exact (ENNReal.ofReal_lt_ofReal_iff one_pos).2 ha.2
    obtain ⟨n, hn⟩ := (ht.eventually_const_lt h1).exists
    refine ⟨-(n : ℝ), fun l hl => ?_⟩
    by_contra hc
    push Not at hc
    have := hup l hl (-(n : ℝ)) hc.le
    exact absurd hn (not_lt.2 this)
  set l0 := sInf S with hl0
  have habove : ∀ l, l0 < l → l ∈ S := by
    intro l hl
    obtain ⟨l', h1, h2⟩ := exists_lt_of_csInf_lt hne hl
    exact hup l' h1 l h2.le
  have hbelow : ∀ l, l < l0 → l ∉ S := fun l hl h => absurd (csInf_le hbd h) (not_le.2 hl)
  have heq : prior {θ | l0 ≤ L θ} = prior {θ | l0 < L θ} := by
    apply le_antisymm
    · have : {θ | l0 ≤ L θ} ⊆ {θ | l0 < L θ} ∪ {θ | L θ = l0} := by
        intro θ hθ
        rcases lt_or_eq_of_le (show l0 ≤ L θ from hθ) with h | h
        · exact Or.inl h
        · exact Or.inr h.symm
      refine (measure_mono this).trans ((measure_union_le _ _).trans ?_)
      rw [hties, add_zero]
    · exact measure_mono fun θ hθ => le_of_lt (show l0 < L θ from hθ)
  have hle : prior {θ | l0 < L θ} ≤ ENNReal.ofReal a := by
    have ht := tendsto_measure_iUnion_atTop (μ := prior)
      (s := fun n : ℕ => {θ | l0 + 1 / ((n : ℝ) + 1) < L θ}) (by
        intro m n h θ hθ
        have : 1 / ((n : ℝ) + 1) ≤ 1 / ((m : ℝ) + 1) :=
          one_div_le_one_div_of_le (by positivity) (by have : (m : ℝ) ≤ n := Nat.cast_le.2 h; linarith)
        have h2 : l0 + 1 / ((m : ℝ) + 1) < L θ := hθ
        show l0 + 1 / ((n : ℝ) + 1) < L θ
        linarith)
    have he : ⋃ n : ℕ, {θ | l0 + 1 / ((n : ℝ) + 1) < L θ} = {θ | l0 < L θ} := by
      ext θ
      simp only [Set.mem_iUnion, Set.mem_setOf_eq]
      constructor
      · rintro ⟨n, hn⟩
        have : 0 < 1 / ((n : ℝ) + 1) := by positivity
        linarith
      · intro h
        obtain ⟨n, hn⟩ := exists_nat_one_div_lt (sub_pos.2 h)
        exact ⟨n, by linarith⟩
    rw [he] at ht
    refine le_of_tendsto ht (Filter.Eventually.of_forall fun n => ?_)
    exact habove _ (by have : 0 < 1 / ((n : ℝ) + 1) := by positivity
                       linarith)
  have hge : ENNReal.ofReal a ≤ prior {θ | l0 ≤ L θ} := by
    have ht := tendsto_measure_iInter_atTop (μ := prior)
      (s := fun n : ℕ => {θ | l0 - 1 / ((n : ℝ) + 1) < L θ}) (fun n => (hm _).nullMeasurableSet) (by
        intro m n h θ hθ
        have : 1 / ((n : ℝ) + 1) ≤ 1 / ((m : ℝ) + 1) :=
          one_div_le_one_div_of_le (by positivity) (by have : (m : ℝ) ≤ n := Nat.cast_le.2 h; linarith)
        have h2 : l0 - 1 / ((n : ℝ) + 1) < L θ := hθ
        show l0 - 1 / ((m : ℝ) + 1) < L θ
        linarith) ⟨0, measure_ne_top _ _⟩
    have he : ⋂ n : ℕ, {θ | l0 - 1 / ((n : ℝ) + 1) < L θ} = {θ | l0 ≤ L θ} := by
      ext θ
      simp only [Set.mem_iInter, Set.mem_setOf_eq]
      constructor
      · intro h
        by_contra hc
        push Not at hc
        obtain ⟨n, hn⟩ := exists_nat_one_div_lt (sub_pos.2 hc)
        have := h n
        linarith
      · intro h n
        have : 0 < 1 / ((n : ℝ) + 1) := by positivity
        linarith
    rw [he] at ht
    refine ge_of_tendsto ht (Filter.Eventually.of_forall fun n => ?_)
    have : l0 - 1 / ((n : ℝ) + 1) ∉ S := hbelow _ (by have : 0 < 1 / ((n : ℝ) + 1) := by positivity
                                                      linarith)
    exact (not_le.1 this).le
  have hval : prior {θ | l0 < L θ} = ENNReal.ofReal a := le_antisymm hle (heq ▸ hge)
  apply le_antisymm
  · rw [← hval, ← heq]
    refine measure_mono fun θ hθ => ?_
    by_contra hc
    exact hbelow _ (not_le.1 hc) ((volume_le_iff prior L _ a ha.1.le).1 hθ)
  · rw [← hval]
    refine measure_mono fun θ hθ => ?_
    exact (volume_le_iff prior L _ a ha.1.le).2 (habove _ hθ)

/-- The prior volume above a fair draw is uniform. -/
theorem volume_uniform (hL : Measurable L) (hties : ∀ l, prior {θ | L θ = l} = 0) :
    MeasurePreserving (fun θ => volumeAbove prior L (L θ)) prior unit := by
  have hX := volume_measurable prior L hL
  refine ⟨hX, ?_⟩
  have : IsProbabilityMeasure (prior.map fun θ => volumeAbove prior L (L θ)) :=
    Measure.isProbabilityMeasure_map hX.aemeasurable
  refine Measure.ext_of_Iic _ _ fun a => ?_
  rw [Measure.map_apply hX measurableSet_Iic, Measure.restrict_apply measurableSet_Iic]
  have hpre : (fun θ => volumeAbove prior L (L θ)) ⁻¹' Set.Iic a = {θ | volumeAbove prior L (L θ) ≤ a} := rfl
  rw [hpre]
  rcases le_or_gt a 0 with h | h
  · have he : Set.Iic a ∩ Set.Ioo (0 : ℝ) 1 = ∅ := by
      ext x
      simp only [Set.mem_inter_iff, Set.mem_Iic, Set.mem_Ioo, Set.mem_empty_iff_false, iff_false]
      rintro ⟨h1, h2, _⟩
      linarith
    rw [he, measure_empty]
    by_contra hc
    have hpos : 0 < (prior {θ | volumeAbove prior L (L θ) ≤ a}).toReal :=
      ENNReal.toReal_pos hc (measure_ne_top _ _)
    set p := (prior {θ | volumeAbove prior L (L θ) ≤ a}).toReal with hp
    have hq := volume_prob prior L hL hties (min p 1 / 2)
      ⟨by have := lt_min hpos one_pos; linarith, by have := min_le_right p 1; linarith⟩
    have hmono : prior {θ | volumeAbove prior L (L θ) ≤ a}
        ≤ prior {θ | volumeAbove prior L (L θ) ≤ min p 1 / 2} :=
      measure_mono fun θ hθ => le_trans (show _ ≤ a from hθ)
        (by have := lt_min hpos one_pos; linarith)
    rw [hq] at hmono
    have := ENNReal.toReal_mono ENNReal.ofReal_ne_top hmono
    rw [ENNReal.toReal_ofReal (by have := lt_min hpos one_pos; linarith), ← hp] at this
    have h2 := min_le_left p 1
    linarith
  rcases lt_or_ge a 1 with h1 | h1
  · rw [volume_prob prior L hL hties a ⟨h, h1⟩]
    have he : Set.Iic a ∩ Set.Ioo (0 : ℝ) 1 = Set.Ioc 0 a := by
      ext x
      simp only [Set.mem_inter_iff, Set.mem_Iic, Set.mem_Ioo, Set.mem_Ioc]
      exact ⟨fun h => ⟨h.2.1, h.1⟩, fun h' => ⟨h'.2, h'.1, lt_of_le_of_lt h'.2 h1⟩⟩
    rw [he, Real.volume_Ioc, sub_zero]
  · have he : Set.Iic a ∩ Set.Ioo (0 : ℝ) 1 = Set.Ioo 0 1 := by
      apply Set.inter_eq_right.2
      intro x hx
      exact hx.2.le.trans h1
    have hu : {θ | volumeAbove prior L (L θ) ≤ a} = Set.univ := by
      ext θ
      simp only [Set.mem_setOf_eq, Set.mem_univ, iff_true]
      exact (volume_le_one prior L _).trans h1
    rw [he, hu, measure_univ, Real.volume_Ioo]; simp

/-- The volume above number `k`, from the worst on, is number `k` of the volumes, from the largest on. -/
theorem volume_worst (k : ℕ) (l : List ℝ) (hk : k < l.length) :
    volumeAbove prior L (worst k l) = best k (l.map (volumeAbove prior L)) := by
  have hs : (l.mergeSort (· ≤ ·)).Pairwise (· ≤ ·) := by
    have := List.pairwise_mergeSort (le := fun a b : ℝ => decide (a ≤ b))
      (by intro a b c h1 h2; simp only [decide_eq_true_eq] at *; exact h1.trans h2)
      (by intro a b; simp only [Bool.or_eq_true, decide_eq_true_eq]; exact le_total a b) l
    simpa using this
  have hp : (l.mergeSort (· ≤ ·)).Perm l := List.mergeSort_perm _ _
  have hs' : ((l.map (volumeAbove prior L)).mergeSort (fun a b => b ≤ a)).Pairwise fun a b => b ≤ a := by
    have := List.pairwise_mergeSort (le := fun a b : ℝ => decide (b ≤ a))
      (by intro a b c h1 h2; simp only [decide_eq_true_eq] at *; exact h2.trans h1)
      (by intro a b; simp only [Bool.or_eq_true, decide_eq_true_eq]; exact le_total b a)
      (l.map (volumeAbove prior L))
    simpa using this
  have hp' : ((l.map (volumeAbove prior L)).mergeSort (fun a b => b ≤ a)).Perm (l.map (volumeAbove prior L)) :=
    List.mergeSort_perm _ _
  have heq : (l.mergeSort (· ≤ ·)).map (volumeAbove prior L)
      = (l.map (volumeAbove prior L)).mergeSort (fun a b => b ≤ a) := by
    refine List.Perm.eq_of_pairwise (le := fun a b : ℝ => b ≤ a) (fun a b _ _ h1 h2 => le_antisymm h2 h1) ?_ hs' ?_
    · rw [List.pairwise_map]
      exact hs.imp fun h => volume_antitone prior L h
    · exact (hp.map _).trans hp'.symm
  have hlen : k < (l.mergeSort (· ≤ ·)).length := by simpa using hk
  rw [best, ← heq, worst, List.getD_eq_getElem?_getD, List.getD_eq_getElem?_getD, List.getElem?_map,
    List.getElem?_eq_getElem hlen, Option.map_some, Option.getD_some, Option.getD_some]

/-- **The mean of the log of the volume.** -/
theorem volume_log (hL : Measurable L) (hties : ∀ l, prior {θ | L θ = l} = 0) (N k : ℕ) (hk : k < N) :
    ∫ θ, Real.log (volumeAbove prior L (worst k (List.ofFn fun i => L (θ i))))
        ∂Measure.pi (fun _ : Fin N => prior)
      = -∑ j ∈ Finset.range (k + 1), 1 / ((N : ℝ) - j) := by
  have hpres := measurePreserving_pi (fun _ : Fin N => prior) (fun _ : Fin N => unit)
    (f := fun _ θ => volumeAbove prior L (L θ)) (fun _ => volume_uniform prior L hL hties)
  rw [← best_log k hk, ← hpres.map_eq, integral_map hpres.measurable.aemeasurable]
  · refine integral_congr_ae (Filter.Eventually.of_forall fun θ => ?_)
    dsimp only
    rw [volume_worst prior L k _ (by simpa using hk), List.map_ofFn]
    rfl
  · exact (Real.measurable_log.comp (best_measurable k hk)).aestronglyMeasurable

end volumes

/-! ## The sampler -/

variable {α σ : Type*}

theorem evLoop_width (o : Opts) (ws : List (Walker α ℝ)) : ∀ (kw : ℕ) (s : St α σ),
    (evLoop o kw ws s).logWidth
      = s.logWidth - ∑ j ∈ Finset.range ws.length, 1 / ((o.ensemble : ℝ) - (kw + j : ℕ)) := by
  induction ws with
  | nil => intro kw s; simp [evLoop]
  | cons w ws ih =>
    intro kw s
    rw [evLoop, ih, List.length_cons, Finset.sum_range_succ', evStep]
    have : ∀ j, kw + 1 + j = kw + (j + 1) := fun j => by omega
    simp only [this, add_zero]
    ring

/-- **The shrinkage is the mean of the log.** When the walkers are fair draws from the prior (or from the
part of it that is left), then the update of the evidence with the `k + 1` worst of them lowers the log of
the volume by the mean of the log of the part of the prior that is above the last of them. -/
theorem C121_update {Θ : Type*} [MeasurableSpace Θ] (prior : Measure Θ) [IsProbabilityMeasure prior]
    (L : Θ → ℝ) (hL : Measurable L) (hties : ∀ l, prior {θ | L θ = l} = 0) (o : Opts) (k : ℕ)
    (hk : k < o.ensemble) (s s' : St α σ) (h : updateEvidence o (k + 1) s = some s') :
    s'.logWidth - s.logWidth
      = ∫ θ, Real.log (volumeAbove prior L (worst k (List.ofFn fun i => L (θ i))))
        ∂Measure.pi (fun _ : Fin o.ensemble => prior) := by
  unfold updateEvidence at h
  by_cases h0 : k + 1 = 0 ∨ s.walkers.items.length < k + 1
  · rw [if_pos h0] at h; cases h
  rw [if_neg h0] at h
  push Not at h0
  obtain rfl := Option.some.inj h
  rw [evLoop_width, volume_log prior L hL hties o.ensemble k hk, List.length_take, min_eq_left h0.2]
  simp only [zero_add]
  ring

/-- **The volume after any number of iterations.** After each iteration of the sampler the width is the
first width times the exponential of the sum of the mean logs, one for each iteration. -/
theorem C121_run {Θ : Type*} [MeasurableSpace Θ] (prior : ℕ → Measure Θ)
    [∀ i, IsProbabilityMeasure (prior i)] (L : Θ → ℝ) (hL : Measurable L)
    (hties : ∀ i l, prior i {θ | L θ = l} = 0) (e : Env α σ) (o : Opts) (s0 s : St α σ)
    (h0 : Fresh o s0) (hr : Reach e o s0 s) :
    s.logWidth = Real.log (1 - Real.exp (-1 / (o.ensemble : ℝ)))
      + ∑ i ∈ Finset.range s.iteration,
        ∫ θ, Real.log (volumeAbove (prior i) L (worst (o.discard - 1) (List.ofFn fun n => L (θ n))))
          ∂Measure.pi (fun _ : Fin o.ensemble => prior i) := by
  induction hr with
  | refl =>
    obtain ⟨wl, low, r, hl, rfl⟩ := h0
    simp [initState]
  | @step t t' _ _ hb ih =>
    obtain ⟨hd0, hdl, hde, w, wl1, r1, _, _, hit, _, _, s1, hs1, _, _, _, hwd, _⟩ := body_spec e o _ _ hb
    rw [hwd, hit, Finset.sum_range_succ, hs1, evLoop_width, ← add_assoc, ← ih,
      volume_log (prior _) L hL (hties _) o.ensemble (o.discard - 1) (by omega)]
    have hlen : ((sortWalkers t.walkers).items.take o.discard).length = o.discard := by
      rw [List.length_take, min_eq_left]
      simpa [sortWalkers] using hdl
    rw [hlen, show o.discard - 1 + 1 = o.discard by omega]
    simp only [zero_add]
    ring

/-- The hypotheses are met by the uniform prior and a likelihood that rises: no value has a volume. -/
example : Measurable (fun θ : ℝ => θ) ∧ ∀ l, unit {θ : ℝ | θ = l} = 0 := by
  refine ⟨measurable_id, fun l => ?_⟩
  rw [Set.setOf_eq_eq_singleton]
  exact measure_singleton l

/-- With ten walkers, of which two are discarded, the log of the volume goes down by 1/10 + 1/9. -/
example (prior : Measure ℝ) [IsProbabilityMeasure prior] (h : ∀ l, prior {θ | θ = l} = 0) :
    ∫ θ, Real.log (volumeAbove prior (fun x => x) (worst 1 (List.ofFn fun i => θ i)))
      ∂Measure.pi (fun _ : Fin 10 => prior) = -(1 / 10 + 1 / 9) := by
  rw [volume_log prior (fun x => x) measurable_id h 10 1 (by norm_num)]
  norm_num [Finset.sum_range_succ]

/-- **Ties break it.** When all likelihoods are the same, nothing of the prior is above the worst of them:
the volume that is left is zero, and yet the sampler takes it to shrink by 1/N, as always. -/
theorem C121_counterexample_ties {Θ : Type*} [MeasurableSpace Θ] (prior : Measure Θ) (c : ℝ) (N k : ℕ)
    (hk : k < N) (θ : Fin N → Θ) :
    volumeAbove prior (fun _ => c) (worst k (List.ofFn fun i => (fun _ => c) (θ i))) = 0 := by
  have : worst k (List.ofFn fun i => (fun _ : Θ => c) (θ i)) = c := by
    have hlen : k < ((List.ofFn fun _ : Fin N => c).mergeSort (· ≤ ·)).length := by simpa using hk
    have hm : ((List.ofFn fun _ : Fin N => c).mergeSort (· ≤ ·))[k] ∈ List.ofFn fun _ : Fin N => c :=
      (List.mergeSort_perm _ _).mem_iff.1 (List.getElem_mem hlen)
    rw [List.mem_ofFn] at hm
    obtain ⟨_, h⟩ := hm
    dsimp only
    rw [worst, List.getD_eq_getElem?_getD, List.getElem?_eq_getElem hlen, Option.getD_some, ← h]
  rw [this, volumeAbove]
  simp

end BF.Props.Shrink
