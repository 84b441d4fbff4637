import Verif.Props.Shrink
import Verif.Props.NestedRuns

/-!
# How close the evidence is

The evidence that nested sampling has collected, against the integral of the likelihood over the prior.
-/

noncomputable section

namespace BF.Props.Accuracy
open BF.Nested MeasureTheory BF.Props.Shrink

/-! ## Steps under and over an increasing function -/

/-- The value before number `j`; before the first it is 0. -/
def prev (a : ℕ → ℝ) (j : ℕ) : ℝ := if j = 0 then 0 else a (j - 1)

theorem prev_succ (a : ℕ → ℝ) (j : ℕ) : prev a (j + 1) = a j := by simp [prev]

theorem telescope (a : ℕ → ℝ) (n : ℕ) : ∑ j ∈ Finset.range n, (a j - prev a j) = prev a n := by
  induction n with
  | zero => simp [prev]
  | succ n ih => rw [Finset.sum_range_succ, ih, prev_succ]; ring

/-- Abel's sum. -/
theorem abel (a X : ℕ → ℝ) (n : ℕ) :
    ∑ j ∈ Finset.range n, a j * (X j - X (j + 1)) + prev a n * X n
      = ∑ j ∈ Finset.range n, (a j - prev a j) * X j := by
  induction n with
  | zero => simp [prev]
  | succ n ih =>
    rw [Finset.sum_range_succ, Finset.sum_range_succ, ← ih, prev_succ]
    ring

theorem steps_nonneg (l : ℕ → ℝ) (n : ℕ) (hm : ∀ i j, i ≤ j → j < n → l i ≤ l j) (j : ℕ) (hj : j < n) :
    0 ≤ Real.exp (l j) - prev (fun j => Real.exp (l j)) j := by
  unfold prev
  split_ifs with h
  · simp [Real.exp_nonneg]
  · rw [sub_nonneg]
    exact Real.exp_le_exp.2 (hm _ _ (by omega) hj)

/-- The steps at the levels that are passed stay under the exponential. -/
theorem steps_under (l : ℕ → ℝ) (x : ℝ) (n : ℕ) (hm : ∀ i j, i ≤ j → j < n → l i ≤ l j) :
    ∑ j ∈ Finset.range n, (Real.exp (l j) - prev (fun j => Real.exp (l j)) j) * (if l j < x then 1 else 0)
      ≤ Real.exp x := by
  induction n with
  | zero => simpa using (Real.exp_pos x).le
  | succ n ih =>
    by_cases h : l n < x
    · have hall : ∑ j ∈ Finset.range (n + 1),
          (Real.exp (l j) - prev (fun j => Real.exp (l j)) j) * (if l j < x then (1 : ℝ) else 0)
          = ∑ j ∈ Finset.range (n + 1), (Real.exp (l j) - prev (fun j => Real.exp (l j)) j) := by
        refine Finset.sum_congr rfl fun j hj => ?_
        rw [Finset.mem_range] at hj
        rw [if_pos (lt_of_le_of_lt (hm j n (by omega) (by omega)) h), mul_one]
      rw [hall, telescope, prev_succ]
      exact Real.exp_le_exp.2 h.le
    · rw [Finset.sum_range_succ, if_neg h, mul_zero, add_zero]
      exact ih fun i j hij hj => hm i j hij (by omega)

/-- Is the level before number `j` passed; before the first there is none. -/
def passed (l : ℕ → ℝ) (x : ℝ) (j : ℕ) : Prop := j = 0 ∨ l (j - 1) < x

instance (l : ℕ → ℝ) (x : ℝ) (j : ℕ) : Decidable (passed l x j) := by unfold passed; infer_instance

theorem steps_over_low (l : ℕ → ℝ) (x : ℝ) (n : ℕ) (hm : ∀ i j, i ≤ j → j < n + 1 → l i ≤ l j)
    (hx : x ≤ l n) : Real.exp x ≤ ∑ j ∈ Finset.range (n + 1),
      (Real.exp (l j) - prev (fun j => Real.exp (l j)) j) * (if passed l x j then 1 else 0) := by
  induction n with
  | zero => simpa [prev, passed] using hx
  | succ n ih =>
    by_cases h : l n < x
    · have hall : ∑ j ∈ Finset.range (n + 1 + 1),
          (Real.exp (l j) - prev (fun j => Real.exp (l j)) j) * (if passed l x j then (1 : ℝ) else 0)
          = ∑ j ∈ Finset.range (n + 1 + 1), (Real.exp (l j) - prev (fun j => Real.exp (l j)) j) := by
        refine Finset.sum_congr rfl fun j hj => ?_
        rw [Finset.mem_range] at hj
        rw [if_pos (show passed l x j from Or.inr (lt_of_le_of_lt (hm (j - 1) n (by omega) (by omega)) h)), mul_one]
      rw [hall, telescope, prev_succ]
      exact Real.exp_le_exp.2 hx
    · have := ih (fun i j hij hj => hm i j hij (by omega)) (not_lt.1 h)
      rw [Finset.sum_range_succ]
      have hp : ¬ passed l x (n + 1) := by simp [passed]; exact not_lt.1 h
      rw [if_neg hp, mul_zero, add_zero]
      exact this

/-- The steps before the levels that are passed stay over the exponential. -/
theorem steps_over (l : ℕ → ℝ) (x M : ℝ) (n : ℕ) (hm : ∀ i j, i ≤ j → j < n → l i ≤ l j) (hx : x ≤ M) :
    Real.exp x ≤ ∑ j ∈ Finset.range n,
      (Real.exp (l j) - prev (fun j => Real.exp (l j)) j) * (if passed l x j then 1 else 0)
      + (Real.exp M - prev (fun j => Real.exp (l j)) n) * (if passed l x n then 1 else 0) := by
  rcases Nat.eq_zero_or_pos n with rfl | hn
  · simpa [prev, passed] using hx
  obtain ⟨m, rfl⟩ : ∃ m, n = m + 1 := ⟨n - 1, by omega⟩
  by_cases h : l m < x
  · have hall : ∑ j ∈ Finset.range (m + 1),
        (Real.exp (l j) - prev (fun j => Real.exp (l j)) j) * (if passed l x j then (1 : ℝ) else 0)
        = ∑ j ∈ Finset.range (m + 1), (Real.exp (l j) - prev (fun j => Real.exp (l j)) j) := by
      refine Finset.sum_congr rfl fun j hj => ?_
      rw [Finset.mem_range] at hj
      rw [if_pos (show passed l x j from Or.inr (lt_of_le_of_lt (hm (j - 1) m (by omega) (by omega)) h)), mul_one]
    rw [hall, telescope, if_pos (show passed l x (m + 1) from Or.inr h), mul_one]
    have := Real.exp_le_exp.2 hx
    linarith
  · have hp : ¬ passed l x (m + 1) := by simp [passed]; exact not_lt.1 h
    rw [if_neg hp, mul_zero, add_zero]
    exact steps_over_low l x m hm (not_lt.1 h)

/-! ## The integral of the likelihood -/

section integral
variable {Θ : Type*} [MeasurableSpace Θ] (prior : Measure Θ) [IsProbabilityMeasure prior] (L : Θ → ℝ)

theorem indicator_integrable (hL : Measurable L) (l : ℝ) :
    Integrable (fun θ => if l < L θ then (1 : ℝ) else 0) prior := by
  refine Integrable.of_bound (C := 1) ?_ ?_
  · exact (Measurable.ite (measurableSet_lt measurable_const hL) measurable_const
      measurable_const).aestronglyMeasurable
  · refine Filter.Eventually.of_forall fun θ => ?_
    split_ifs <;> simp

theorem indicator_integral (hL : Measurable L) (l : ℝ) :
    ∫ θ, (if l < L θ then (1 : ℝ) else 0) ∂prior = volumeAbove prior L l := by
  have h : (fun θ => if l < L θ then (1 : ℝ) else 0) = Set.indicator {θ | l < L θ} fun _ => 1 := by
    ext θ; simp [Set.indicator]
  rw [h, integral_indicator_const _ (measurableSet_lt measurable_const hL)]
  simp [volumeAbove, Measure.real]

/-- The part of the prior above the level before number `j`. -/
def volumeBefore (l : ℕ → ℝ) (j : ℕ) : ℝ := if j = 0 then 1 else volumeAbove prior L (l (j - 1))

theorem passed_integrable (hL : Measurable L) (l : ℕ → ℝ) (j : ℕ) :
    Integrable (fun θ => if passed l (L θ) j then (1 : ℝ) else 0) prior := by
  rcases Nat.eq_zero_or_pos j with rfl | hj
  · simp [passed]
  · have : (fun θ => if passed l (L θ) j then (1 : ℝ) else 0)
        = fun θ => if l (j - 1) < L θ then (1 : ℝ) else 0 := by
      ext θ; simp [passed, hj.ne']
    rw [this]
    exact indicator_integrable prior L hL _

theorem passed_integral (hL : Measurable L) (l : ℕ → ℝ) (j : ℕ) :
    ∫ θ, (if passed l (L θ) j then (1 : ℝ) else 0) ∂prior = volumeBefore prior L l j := by
  rcases Nat.eq_zero_or_pos j with rfl | hj
  · simp [passed, volumeBefore]
  · have : (fun θ => if passed l (L θ) j then (1 : ℝ) else 0)
        = fun θ => if l (j - 1) < L θ then (1 : ℝ) else 0 := by
      ext θ; simp [passed, hj.ne']
    rw [this, indicator_integral prior L hL, volumeBefore, if_neg hj.ne']

theorem likelihood_integrable (hL : Measurable L) (M : ℝ) (hM : ∀ θ, L θ ≤ M) :
    Integrable (fun θ => Real.exp (L θ)) prior := by
  refine Integrable.of_bound (C := Real.exp M) (Real.measurable_exp.comp hL).aestronglyMeasurable ?_
  refine Filter.Eventually.of_forall fun θ => ?_
  rw [Real.norm_eq_abs, abs_of_pos (Real.exp_pos _)]
  exact Real.exp_le_exp.2 (hM θ)

theorem integral_under (hL : Measurable L) (M : ℝ) (hM : ∀ θ, L θ ≤ M) (l : ℕ → ℝ) (n : ℕ)
    (hm : ∀ i j, i ≤ j → j < n → l i ≤ l j) :
    ∑ j ∈ Finset.range n, (Real.exp (l j) - prev (fun j => Real.exp (l j)) j) * volumeAbove prior L (l j)
      ≤ ∫ θ, Real.exp (L θ) ∂prior := by
  have h : ∑ j ∈ Finset.range n, (Real.exp (l j) - prev (fun j => Real.exp (l j)) j)
        * volumeAbove prior L (l j)
      = ∫ θ, ∑ j ∈ Finset.range n, (Real.exp (l j) - prev (fun j => Real.exp (l j)) j)
        * (if l j < L θ then 1 else 0) ∂prior := by
    rw [integral_finsetSum]
    · refine Finset.sum_congr rfl fun j _ => ?_
      rw [integral_const_mul, indicator_integral prior L hL]
    · intro j _
      exact (indicator_integrable prior L hL _).const_mul _
  rw [h]
  refine integral_mono ?_ (likelihood_integrable prior L hL M hM) fun θ => steps_under l (L θ) n hm
  exact integrable_finsetSum _ fun j _ => (indicator_integrable prior L hL _).const_mul _

theorem integral_over (hL : Measurable L) (M : ℝ) (hM : ∀ θ, L θ ≤ M) (l : ℕ → ℝ) (n : ℕ)
    (hm : ∀ i j, i ≤ j → j < n → l i ≤ l j) :
    ∫ θ, Real.exp (L θ) ∂prior ≤ ∑ j ∈ Finset.range n,
      (Real.exp (l j) - prev (fun j => Real.exp (l j)) j) * volumeBefore prior L l j
      + (Real.exp M - prev (fun j => Real.exp (l j)) n) * volumeBefore prior L l n := by
  have hi : Integrable (fun θ => ∑ j ∈ Finset.range n,
      (Real.exp (l j) - prev (fun j => Real.exp (l j)) j) * (if passed l (L θ) j then (1 : ℝ) else 0)) prior :=
    integrable_finsetSum _ fun j _ => (passed_integrable prior L hL l j).const_mul _
  have hj := (passed_integrable prior L hL l n).const_mul (Real.exp M - prev (fun j => Real.exp (l j)) n)
  refine (integral_mono (likelihood_integrable prior L hL M hM) (hi.add hj)
    fun θ => steps_over l (L θ) M n hm (hM θ)).trans (le_of_eq ?_)
  rw [integral_add' hi hj, integral_finsetSum _ fun j _ => (passed_integrable prior L hL l j).const_mul _,
    integral_const_mul, passed_integral prior L hL]
  congr 1
  refine Finset.sum_congr rfl fun j _ => ?_
  rw [integral_const_mul, passed_integral prior L hL]

end integral

/-! ## The sampler -/

/-- The same, for volumes that are known within a factor. -/
theorem within {Θ : Type*} [MeasurableSpace Θ] (prior : Measure Θ) [IsProbabilityMeasure prior] (L : Θ → ℝ) (hL : Measurable L) (M : ℝ)
    (hM : ∀ θ, L θ ≤ M) (l : ℕ → ℝ) (n : ℕ) (hm : ∀ i j, i ≤ j → j < n → l i ≤ l j) (hlM : ∀ j < n, l j ≤ M)
    (N : ℕ) (δ : ℝ) (hδ : 0 ≤ δ)
    (hvol : ∀ j < n, Real.exp (-δ) * Real.exp (-((j : ℝ) + 1) / N) ≤ volumeAbove prior L (l j) ∧
      volumeAbove prior L (l j) ≤ Real.exp δ * Real.exp (-((j : ℝ) + 1) / N)) :
    Real.exp (-(δ + 1 / N)) * ∑ j ∈ Finset.range n, Real.exp (l j)
        * (Real.exp (-(j : ℝ) / N) - Real.exp (-((j : ℝ) + 1) / N)) ≤ ∫ θ, Real.exp (L θ) ∂prior ∧
    ∫ θ, Real.exp (L θ) ∂prior ≤ Real.exp δ * (∑ j ∈ Finset.range n, Real.exp (l j)
        * (Real.exp (-(j : ℝ) / N) - Real.exp (-((j : ℝ) + 1) / N)) + Real.exp M * Real.exp (-(n : ℝ) / N)) := by
  set a : ℕ → ℝ := fun j => Real.exp (l j) with ha
  set X : ℕ → ℝ := fun j => Real.exp (-(j : ℝ) / N) with hX
  have hX1 : ∀ j : ℕ, Real.exp (-((j : ℝ) + 1) / N) = X (j + 1) := by
    intro j; rw [hX]; push_cast; rfl
  have hstep := steps_nonneg l n hm
  have hab := abel a X n
  simp only [hX1] at hvol ⊢
  have hprev : 0 ≤ prev a n := by
    unfold prev; split_ifs
    · exact le_rfl
    · exact (Real.exp_pos _).le
  have hprevM : prev a n ≤ Real.exp M := by
    unfold prev; split_ifs with h
    · exact (Real.exp_pos _).le
    · exact Real.exp_le_exp.2 (hlM _ (by omega))
  have hXpos : ∀ j, 0 < X j := fun j => Real.exp_pos _
  constructor
  · refine le_trans ?_ (integral_under prior L hL M hM l n hm)
    have h1 : Real.exp (-(δ + 1 / N)) * ∑ j ∈ Finset.range n, a j * (X j - X (j + 1))
        ≤ Real.exp (-(δ + 1 / N)) * ∑ j ∈ Finset.range n, (a j - prev a j) * X j := by
      refine mul_le_mul_of_nonneg_left ?_ (Real.exp_pos _).le
      rw [← hab]
      have := mul_nonneg hprev (hXpos n).le
      linarith
    refine h1.trans ?_
    rw [Finset.mul_sum]
    refine Finset.sum_le_sum fun j hj => ?_
    rw [Finset.mem_range] at hj
    have hshift : Real.exp (-(δ + 1 / N)) * X j = Real.exp (-δ) * X (j + 1) := by
      rw [← hX1, hX]
      dsimp only
      rw [← Real.exp_add, ← Real.exp_add]
      congr 1
      ring
    calc Real.exp (-(δ + 1 / N)) * ((a j - prev a j) * X j)
        = (a j - prev a j) * (Real.exp (-(δ + 1 / N)) * X j) := by ring
      _ ≤ _ := by rw [hshift]; exact mul_le_mul_of_nonneg_left (hvol j hj).1 (hstep j hj)
  · refine (integral_over prior L hL M hM l n hm).trans ?_
    have hbefore : ∀ j ≤ n, volumeBefore prior L l j ≤ Real.exp δ * X j := by
      intro j hj
      unfold volumeBefore
      split_ifs with h
      · rw [h, hX]
        simpa using hδ
      · have := (hvol (j - 1) (by omega)).2
        rwa [show j - 1 + 1 = j by omega] at this
    have h1 : ∑ j ∈ Finset.range n, (a j - prev a j) * volumeBefore prior L l j
        ≤ Real.exp δ * ∑ j ∈ Finset.range n, (a j - prev a j) * X j := by
      rw [Finset.mul_sum]
      refine Finset.sum_le_sum fun j hj => ?_
      rw [Finset.mem_range] at hj
      calc (a j - prev a j) * volumeBefore prior L l j
          ≤ (a j - prev a j) * (Real.exp δ * X j) :=
            mul_le_mul_of_nonneg_left (hbefore j hj.le) (hstep j hj)
        _ = _ := by ring
    have h2 : (Real.exp M - prev a n) * volumeBefore prior L l n
        ≤ (Real.exp M - prev a n) * (Real.exp δ * X n) :=
      mul_le_mul_of_nonneg_left (hbefore n le_rfl) (by linarith)
    rw [← hab] at h1
    calc _ ≤ Real.exp δ * (∑ j ∈ Finset.range n, a j * (X j - X (j + 1)) + prev a n * X n)
          + (Real.exp M - prev a n) * (Real.exp δ * X n) := add_le_add h1 h2
      _ = _ := by ring

variable {α σ : Type*}

/-- The evidence of a run with one walker discarded each time, as a sum over steps of the volume. -/
theorem evidence_steps (e : Env α σ) (o : Opts) (hmax : o.maxsize = none) (hd : o.discard = 1)
    (hN : 0 < o.ensemble) (s0 s : St α σ) (h0 : Fresh o s0) (hr : Reach e o s0 s) (l : ℕ → ℝ)
    (hl : ∀ (j : ℕ) (x : Sample α), s.samples.items[j]? = some x → x.logL = l j) :
    s.samples.items.length = s.iteration ∧
    evidenceZ s = ∑ j ∈ Finset.range s.iteration, Real.exp (l j)
      * (Real.exp (-(j : ℝ) / o.ensemble) - Real.exp (-((j : ℝ) + 1) / o.ensemble)) := by
  obtain ⟨hlen, hw⟩ := C04_weights_closed_form e o hmax s0 s h0 hr
  rw [hd, one_mul] at hlen
  refine ⟨hlen, ?_⟩
  rw [(C04_evidence_is_sum e o hmax hN s0 s h0 hr).1, totalWeight, ← hlen, Finset.sum_range]
  have hmap : (s.samples.items.map fun x => Real.exp x.logW) = List.ofFn fun j : Fin s.samples.items.length =>
      Real.exp (s.samples.items[j].logW) := by
    apply List.ext_getElem <;> simp
  rw [hmap, List.sum_ofFn]
  refine Finset.sum_congr rfl fun j _ => ?_
  have hj : s.samples.items[(j : ℕ)]? = some s.samples.items[j] := List.getElem?_eq_getElem j.2
  have hq := q_lt_one o hN
  rw [hw j _ hj, hl j _ hj, hd]
  have hdep : depth o.ensemble 1 (j : ℕ) = (j : ℝ) / o.ensemble := by
    generalize (j : ℕ) = k
    induction k with
    | zero => simp [depth]
    | succ k ih => rw [depth_succ, ih]; simp [Nat.mod_one]; ring
  rw [hdep, Real.exp_sub, Real.exp_add, Real.exp_log hq]
  have h1 : Real.exp (-((j : ℕ) : ℝ) / o.ensemble) = (Real.exp (((j : ℕ) : ℝ) / o.ensemble))⁻¹ := by
    rw [← Real.exp_neg]; congr 1; ring
  have h2 : Real.exp (-(((j : ℕ) : ℝ) + 1) / o.ensemble)
      = Real.exp (-((j : ℕ) : ℝ) / o.ensemble) * Real.exp (-1 / o.ensemble) := by
    rw [← Real.exp_add]; congr 1; ring
  rw [h2, h1]
  ring

/-- **The evidence is right within the error of the volumes and 1/N.** Let one walker be discarded in each
iteration. If, for each walker that was discarded, the true part of the prior above it is the part that
the sampler assumes within a factor `exp δ`, then the evidence that was collected is not more than
`exp (δ + 1/N)` times the true evidence, and the true evidence is not more than `exp δ` times what was
collected plus the highest likelihood times the volume that is left. -/
theorem C123_evidence {Θ : Type*} [MeasurableSpace Θ] (prior : Measure Θ) [IsProbabilityMeasure prior]
    (L : Θ → ℝ) (hL : Measurable L) (M : ℝ) (hM : ∀ θ, L θ ≤ M)
    (e : Env α σ) (he : OnlyAsked e) (o : Opts) (hmax : o.maxsize = none) (hd : o.discard = 1)
    (hN : 0 < o.ensemble) (s0 s : St α σ) (h0 : Fresh o s0) (hr : Reach e o s0 s)
    (hreal : ∀ x ∈ s.samples.items, ∃ θ, L θ = x.logL) (δ : ℝ) (hδ : 0 ≤ δ)
    (hvol : ∀ (j : ℕ) (x : Sample α), s.samples.items[j]? = some x →
      Real.exp (-δ) * Real.exp (-((j : ℝ) + 1) / o.ensemble) ≤ volumeAbove prior L x.logL ∧
      volumeAbove prior L x.logL ≤ Real.exp δ * Real.exp (-((j : ℝ) + 1) / o.ensemble)) :
    Real.exp (-(δ + 1 / o.ensemble)) * evidenceZ s ≤ ∫ θ, Real.exp (L θ) ∂prior ∧
    ∫ θ, Real.exp (L θ) ∂prior
      ≤ Real.exp δ * (evidenceZ s + Real.exp M * Real.exp (-(s.iteration : ℝ) / o.ensemble)) := by
  set l : ℕ → ℝ := fun j => (s.samples.items.map Sample.logL).getD j 0 with hldef
  have hl : ∀ (j : ℕ) (x : Sample α), s.samples.items[j]? = some x → x.logL = l j := by
    intro j x hx
    rw [hldef]
    dsimp only
    rw [List.getD_eq_getElem?_getD, List.getElem?_map, hx]
    rfl
  obtain ⟨hlen, hZ⟩ := evidence_steps e o hmax hd hN s0 s h0 hr l hl
  have hget : ∀ j < s.iteration, ∃ x, s.samples.items[j]? = some x := fun j hj =>
    ⟨_, List.getElem?_eq_getElem (by omega)⟩
  have hsort := (C52_samples_ascend_partial e he o hmax s0 s h0 hr).1
  rw [hZ]
  refine within prior L hL M hM l s.iteration ?_ ?_ o.ensemble δ hδ ?_
  · intro i j hij hj
    rcases Nat.lt_or_eq_of_le hij with h | rfl
    · have := List.pairwise_iff_getElem.1 hsort i j (by simp; omega) (by simp; omega) h
      rw [hldef]
      dsimp only
      rw [List.getD_eq_getElem?_getD, List.getD_eq_getElem?_getD,
        List.getElem?_eq_getElem (by simp; omega), List.getElem?_eq_getElem (by simp; omega)]
      exact this
    · exact le_rfl
  · intro j hj
    obtain ⟨x, hx⟩ := hget j hj
    obtain ⟨θ, hθ⟩ := hreal x (List.mem_iff_getElem?.2 ⟨j, hx⟩)
    rw [← hl j x hx, ← hθ]
    exact hM θ
  · intro j hj
    obtain ⟨x, hx⟩ := hget j hj
    rw [← hl j x hx]
    exact hvol j x hx

theorem evLoop_between (o : Opts) (M : ℝ) :
    ∀ (ws : List (Walker α ℝ)) (kw : ℕ) (s : St α σ), (∀ w ∈ ws, w.logL ≤ M) →
      evidenceZ s ≤ evidenceZ (evLoop o kw ws s) ∧
      evidenceZ (evLoop o kw ws s) + Real.exp M * totalShare s.samples.items
        ≤ evidenceZ s + Real.exp M * totalShare (evLoop o kw ws s).samples.items := by
  intro ws
  induction ws with
  | nil => intro kw s _; exact ⟨le_refl _, le_refl _⟩
  | cons w ws ih =>
    intro kw s hw
    obtain ⟨h1, h2⟩ := ih (kw + 1) (evStep o kw w s) fun v hv => hw v (List.mem_cons_of_mem _ hv)
    rw [evidence_step] at h1 h2
    rw [share_step] at h2
    have hpos := Real.exp_pos (s.logWidth + w.logL)
    have hle : Real.exp (s.logWidth + w.logL) ≤ Real.exp M * Real.exp s.logWidth := by
      rw [Real.exp_add, mul_comm]
      exact mul_le_mul_of_nonneg_right (Real.exp_le_exp.2 (hw w List.mem_cons_self)) (Real.exp_pos _).le
    simp only [evLoop]
    constructor
    · linarith
    · nlinarith

/-- **The same for the evidence of the complete run**, to which the walkers that are left are added at the end.
It is off by at most the highest likelihood times the volume that was left, apart from the factors above. -/
theorem C123_final {Θ : Type*} [MeasurableSpace Θ] (prior : Measure Θ) [IsProbabilityMeasure prior]
    (L : Θ → ℝ) (hL : Measurable L) (M : ℝ) (hM : ∀ θ, L θ ≤ M)
    (e : Env α σ) (he : OnlyAsked e) (o : Opts) (hmax : o.maxsize = none) (hd : o.discard = 1)
    (hN : 0 < o.ensemble) (s0 s s' : St α σ) (h0 : Fresh o s0) (hr : Reach e o s0 s) (hf : finish o s = some s')
    (hreal : ∀ x ∈ s.samples.items, ∃ θ, L θ = x.logL) (hleft : ∀ w ∈ s.walkers.items, ∃ θ, L θ = w.logL)
    (δ : ℝ) (hδ : 0 ≤ δ)
    (hvol : ∀ (j : ℕ) (x : Sample α), s.samples.items[j]? = some x →
      Real.exp (-δ) * Real.exp (-((j : ℝ) + 1) / o.ensemble) ≤ volumeAbove prior L x.logL ∧
      volumeAbove prior L x.logL ≤ Real.exp δ * Real.exp (-((j : ℝ) + 1) / o.ensemble)) :
    Real.exp (-(δ + 1 / o.ensemble)) * (evidenceZ s' - Real.exp M * Real.exp (-(s.iteration : ℝ) / o.ensemble))
      ≤ ∫ θ, Real.exp (L θ) ∂prior ∧
    ∫ θ, Real.exp (L θ) ∂prior
      ≤ Real.exp δ * (evidenceZ s' + Real.exp M * Real.exp (-(s.iteration : ℝ) / o.ensemble)) := by
  obtain ⟨h1, h2⟩ := C123_evidence prior L hL M hM e he o hmax hd hN s0 s h0 hr hreal δ hδ hvol
  have hZ : evidenceZ s ≤ evidenceZ s' ∧
      evidenceZ s' ≤ evidenceZ s + Real.exp M * Real.exp (-(s.iteration : ℝ) / o.ensemble) := by
    simp only [finish] at hf
    split at hf
    · exact absurd hf (by simp)
    · rename_i s1 hs1
      have hz1 : evidenceZ s' = evidenceZ s1 := by
        split at hf
        · exact absurd hf (by simp)
        · obtain rfl := Option.some.inj hf
          rfl
      obtain ⟨_, hshare⟩ := C04_final_evidence_is_sum e o hmax hN s0 s s1 h0 hr hs1
      have ht := C49_tiles_partial e o hmax hd hN s0 s h0 hr
      simp only [updateEvidence] at hs1
      split at hs1
      · exact absurd hs1 (by simp)
      · obtain rfl := Option.some.inj hs1
        obtain ⟨b1, b2⟩ := evLoop_between o M (s.walkers.items.take o.ensemble) 0 s fun w hw => by
          obtain ⟨θ, hθ⟩ := hleft w (List.mem_of_mem_take hw)
          rw [← hθ]; exact hM θ
        have hrem : 0 < remaining o (evLoop o 0 (s.walkers.items.take o.ensemble) s) :=
          div_pos (Real.exp_pos _) (q_lt_one o hN)
        have hs : totalShare (evLoop o 0 (s.walkers.items.take o.ensemble) s).samples.items
            - totalShare s.samples.items ≤ Real.exp (-(s.iteration : ℝ) / o.ensemble) := by
          rw [← ht.2]; linarith
        have := mul_le_mul_of_nonneg_left hs (Real.exp_pos M).le
        rw [hz1]
        constructor
        · exact b1
        · nlinarith
  constructor
  · refine le_trans ?_ h1
    exact mul_le_mul_of_nonneg_left (by linarith) (Real.exp_pos _).le
  · refine le_trans h2 ?_
    exact mul_le_mul_of_nonneg_left (by linarith) (Real.exp_pos _).le

/-- A likelihood of two levels, of which the higher one has the volume that the first discarded of three
walkers is taken to leave. -/
def twoLevels (θ : ℝ) : ℝ := if θ < Real.exp (-1 / 3) then 2 else 1

theorem twoLevels_volume : volumeAbove unit twoLevels 1 = Real.exp (-1 / 3) := by
  have hset : {θ | (1 : ℝ) < twoLevels θ} = Set.Iio (Real.exp (-1 / 3)) := by
    ext θ
    unfold twoLevels
    simp only [Set.mem_setOf_eq, Set.mem_Iio]
    split_ifs with h <;> simp [h]
  have hlt : Real.exp (-1 / 3) < 1 := by
    rw [Real.exp_lt_one_iff]; norm_num
  rw [volumeAbove, hset, Measure.restrict_apply measurableSet_Iio]
  have : Set.Iio (Real.exp (-1 / 3)) ∩ Set.Ioo (0 : ℝ) 1 = Set.Ioo 0 (Real.exp (-1 / 3)) := by
    ext x
    simp only [Set.mem_inter_iff, Set.mem_Iio, Set.mem_Ioo]
    exact ⟨fun h => ⟨h.2.1, h.1⟩, fun h => ⟨h.2, h.1, h.2.trans hlt⟩⟩
  rw [this, Real.volume_Ioo, sub_zero, ENNReal.toReal_ofReal (Real.exp_pos _).le]

/-- The hypotheses of `C123_evidence` are met, without error in the volumes, by the demonstration run of
three walkers after one iteration. -/
example : ∃ s, Reach demoEnv (demoOpts 3 1) demoStart s ∧ s.iteration = 1 ∧
    (∀ x ∈ s.samples.items, ∃ θ, twoLevels θ = x.logL) ∧
    ∀ (j : ℕ) (x : Sample ℕ), s.samples.items[j]? = some x →
      volumeAbove unit twoLevels x.logL = Real.exp (-((j : ℝ) + 1) / (demoOpts 3 1).ensemble) := by
  obtain ⟨s, s', hr, hb, _⟩ := demo_run
  obtain ⟨t, ht, _, _, hit, hs⟩ := demo_body
  obtain rfl : s = t := Option.some.inj (hb.symm.trans ht)
  have hone : ∀ (j : ℕ) (x : Sample ℕ), s.samples.items[j]? = some x → j = 0 ∧ x.logL = 1 := by
    intro j x hx
    have h1 : (s.samples.items.map Sample.logL)[j]? = some x.logL := by rw [List.getElem?_map, hx]; rfl
    rw [hs] at h1
    rcases j with _ | j
    · exact ⟨rfl, (Option.some.inj h1).symm⟩
    · simp at h1
  refine ⟨s, hr, hit, fun x hx => ?_, fun j x hx => ?_⟩
  · obtain ⟨j, hj⟩ := List.mem_iff_getElem?.1 hx
    refine ⟨2, ?_⟩
    have : ¬ (2 : ℝ) < Real.exp (-1 / 3) := by
      have : Real.exp (-1 / 3) < 1 := by rw [Real.exp_lt_one_iff]; norm_num
      linarith
    rw [(hone j x hj).2, twoLevels, if_neg this]
  · obtain ⟨rfl, hl⟩ := hone j x hx
    rw [hl, twoLevels_volume]
    congr 1
    simp [demoOpts]

end BF.Props.Accuracy
