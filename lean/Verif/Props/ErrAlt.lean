import Verif.ErrAlt
import Verif.Props.ErrSum

/-!
# C112: the alternative calculation of the gradient of the log likelihood
-/

noncomputable section

namespace BF.ErrDis

open Real

variable {X : Type*}

/-! ## The loop -/

theorem loop_params (val : ℤ → Option ℝ) (slot : ℤ → ℕ) (ps rest : List ℤ) (hp : ∀ k ∈ ps, 0 ≤ k)
    (v : ℤ → ℝ) (hv : ∀ k ∈ ps, val k = some (v k)) (done tail : List ℝ) :
    altLoop val slot (ps ++ rest) done.length (done ++ List.replicate ps.length 0 ++ tail)
      = altLoop val slot rest (done.length + ps.length) (done ++ ps.map v ++ tail) := by
  induction ps generalizing done with
  | nil => simp
  | cons k ps ih =>
    have hk := hp k (by simp)
    have e1 : putAt (done ++ List.replicate (k :: ps).length 0 ++ tail) done.length (v k)
        = some ((done ++ [v k]) ++ List.replicate ps.length 0 ++ tail) := by
      unfold putAt
      rw [if_pos (by simp)]
      congr 1
      rw [List.append_assoc, List.set_append_right _ _ (le_refl _)]
      simp [List.replicate_succ]
    rw [List.cons_append, altLoop, hv k (by simp)]
    dsimp only
    rw [if_pos hk, e1]
    dsimp only
    have := ih (fun j hj => hp j (by simp [hj])) (fun j hj => hv j (by simp [hj])) (done ++ [v k])
    rw [List.length_append, List.length_singleton] at this
    rw [this]
    simp only [List.length_cons, List.map_cons, List.append_assoc, List.cons_append, List.nil_append]
    congr 1
    omega

/-- Only parameters. -/
theorem fill_params (val : ℤ → Option ℝ) (slot : ℤ → ℕ) (ps : List ℤ) (hp : ∀ k ∈ ps, 0 ≤ k)
    (v : ℤ → ℝ) (hv : ∀ k ∈ ps, val k = some (v k)) : altFill val slot ps = some (ps.map v) := by
  have := loop_params val slot ps [] hp v hv [] []
  simp only [List.append_nil, List.nil_append, List.length_nil, altLoop] at this
  exact this

/-- Parameters and one hyperparameter. -/
theorem fill_one (val : ℤ → Option ℝ) (slot : ℤ → ℕ) (ps : List ℤ) (hp : ∀ k ∈ ps, 0 ≤ k) (hs : slot (-1) = 1)
    (v : ℤ → ℝ) (hv : ∀ k ∈ ps ++ [-1], val k = some (v k)) :
    altFill val slot (ps ++ [-1]) = some ((ps ++ [-1]).map v) := by
  have := loop_params val slot ps [-1] hp v (fun k hk => hv k (by simp [hk])) [] [0]
  simp only [List.nil_append, List.length_nil] at this
  unfold altFill
  rw [List.length_append, List.length_singleton, List.replicate_succ', this]
  simp only [altLoop]
  rw [hv (-1) (by simp)]
  dsimp only
  rw [if_neg (by norm_num), hs]
  simp [putEnd]

/-- Parameters and two hyperparameters. -/
theorem fill_two (val : ℤ → Option ℝ) (slot : ℤ → ℕ) (ps : List ℤ) (hp : ∀ k ∈ ps, 0 ≤ k) (hs : slot (-1) = 1)
    (hs2 : slot (-2) = 2) (v : ℤ → ℝ) (hv : ∀ k ∈ ps ++ [-2, -1], val k = some (v k)) :
    altFill val slot (ps ++ [-2, -1]) = some ((ps ++ [-2, -1]).map v) := by
  have := loop_params val slot ps [-2, -1] hp v (fun k hk => hv k (by simp [hk])) [] [0, 0]
  simp only [List.nil_append, List.length_nil] at this
  unfold altFill
  have e : List.replicate (ps ++ [-2, -1]).length (0 : ℝ) = List.replicate ps.length 0 ++ [0, 0] := by
    simp [List.replicate_succ', List.append_assoc]
  rw [e, this]
  simp only [altLoop]
  rw [hv (-1) (by simp), hv (-2) (by simp)]
  dsimp only
  rw [hs, hs2]
  have h1 : ¬ (0 : ℤ) ≤ -1 := by norm_num
  have h2 : ¬ (0 : ℤ) ≤ -2 := by norm_num
  simp only [h1, h2, if_false]
  simp [putEnd]

/-! ## C112 -/

/-- The indices of the fitted parameters: those of the model, and possibly the scale at the end, as a sampler makes them (C42). -/
def FitList (fitIndex : List ℤ) : Prop :=
  ∃ ps : List ℤ, (∀ k ∈ ps, 0 ≤ k) ∧ (fitIndex = ps ∨ fitIndex = ps ++ [-1])

theorem fill_list (val : ℤ → Option ℝ) (slot : ℤ → ℕ) (fi : List ℤ) (hfi : FitList fi) (hs : slot (-1) = 1)
    (v : ℤ → ℝ) (hv : ∀ k ∈ fi, val k = some (v k)) : altFill val slot fi = some (fi.map v) := by
  obtain ⟨ps, hp, rfl | rfl⟩ := hfi
  · exact fill_params val slot fi hp v hv
  · exact fill_one val slot ps hp hs v hv

theorem take_allBut (P : Prob X) (a : List ℝ) (nh : ℕ) (hlen : a.length = P.np + nh) : a.take P.np = allBut a nh := by
  unfold allBut
  rw [hlen]
  simp

/-- C112 for the Gauss distribution. -/
theorem C112_gauss (P : Prob X) (a : List ℝ) (hlen : a.length = P.np + 1) (fi : List ℤ) (hfi : FitList fi) :
    gaussGradAlt P a fi = some (partialLogL (gaussPd P a) P fi) := by
  unfold gaussGradAlt partialLogL
  apply fill_list _ _ fi hfi rfl
  intro k _
  split_ifs with hk
  · congr 1
    apply sum_congr'
    intro d _
    simp only [gaussPd, if_pos hk, take_allBut P a 1 hlen]
  · congr 1
    apply sum_congr'
    intro d _
    simp only [gaussPd, if_neg hk]
    have hr : ∀ r w s c : ℝ, r * (c / s / s) - w * (c / s) = (r / s - w) * c / s := by
      intro r w s c
      ring
    exact hr _ _ _ _

/-- C112 for the Cauchy distribution, where the scale is one number. -/
theorem C112_cauchy (P : Prob X) (a : List ℝ) (fi : List ℤ) (hfi : FitList fi)
    (hacc : P.acc = .array → ∀ k ∈ fi, 0 ≤ k) :
    cauchyGradAlt P a fi = some (partialLogL (cauchyPd P a) P fi) := by
  unfold cauchyGradAlt partialLogL
  apply fill_list _ _ fi hfi rfl
  intro k hk
  have hsum : ∀ (l : List (Datum X)) (s : ℝ), (l.length : ℝ) / s = (l.map fun _ => 1.0 / s).sum := by
    intro l s
    rw [List.map_const', List.sum_replicate, nsmul_eq_mul, show (1.0 : ℝ) = 1 by norm_num, mul_one_div]
  have hsub : ∀ (l : List (Datum X)) (f g : Datum X → ℝ), (l.map f).sum - (l.map g).sum
      = (l.map fun d => f d - g d).sum := by
    intro l f g
    induction l with
    | nil => simp
    | cons d l ih =>
      simp only [List.map_cons, List.sum_cons, ← ih]
      ring
  split_ifs with h0
  · congr 1
    rw [← List.sum_map_mul_left]
    apply sum_congr'
    intro d _
    simp only [cauchyPd, if_pos h0]
    ring
  · rcases ha : P.acc with _ | s | _
    · simp only [hsum]
      rw [hsub]
      congr 1
      apply sum_congr'
      intro d _
      simp only [cauchyPd, if_neg h0, scaleOf, Prob.hasAccuracy, ha]
      norm_num
    · simp only [hsum]
      rw [hsub]
      congr 1
      apply sum_congr'
      intro d _
      simp only [cauchyPd, if_neg h0, scaleOf, Prob.hasAccuracy, Prob.accuracy, ha]
      norm_num
    · exact absurd (hacc ha k hk) h0

/-- C112 for the Poisson distribution, which has no hyperparameters. -/
theorem C112_poisson (P : Prob X) (a : List ℝ) (fi : List ℤ) :
    poissonGradAlt P a fi = partialLogL (poissonPd P a) P fi := rfl

/-- C112 for the Uniform distribution; the list may not be empty. -/
theorem C112_uniform (P : Prob X) (a : List ℝ) (fi : List ℤ) (hfi : FitList fi) (hne : fi ≠ []) :
    uniformGradAlt P a fi = some (partialLogL (uniformPd P a) P fi) := by
  have h0 : ∀ ps : List ℤ, (∀ k ∈ ps, 0 ≤ k) → partialLogL (uniformPd P a) P ps = List.replicate ps.length 0 := by
    intro ps hp
    unfold partialLogL
    rw [List.eq_replicate_iff]
    refine ⟨by simp, ?_⟩
    intro b hb
    obtain ⟨k, hk, rfl⟩ := List.mem_map.1 hb
    have : (P.data.map (uniformPd P a k)) = P.data.map fun _ => 0 :=
      List.map_congr_left fun d _ => by simp [uniformPd, hp k hk]
    rw [this]
    simp
  obtain ⟨ps, hp, rfl | rfl⟩ := hfi
  · unfold uniformGradAlt
    dsimp only
    rcases hl : fi.getLast? with _ | k
    · rw [List.getLast?_eq_none_iff] at hl
      exact absurd hl hne
    · have hk := hp k (List.mem_of_getLast? hl)
      dsimp only
      rw [if_neg (by omega), h0 fi hp]
  · unfold uniformGradAlt
    have hlast : (ps ++ [(-1 : ℤ)]).getLast? = some (-1) := by simp
    rw [hlast]
    dsimp only
    rw [if_pos rfl]
    have e : partialLogL (uniformPd P a) P (ps ++ [-1])
        = partialLogL (uniformPd P a) P ps ++ [-P.sumweight / fromEnd a 1] := by
      unfold partialLogL
      rw [List.map_append, List.map_singleton]
      congr 2
      rw [neg_div, div_eq_mul_inv, sumweight_mul, sum_neg']
      apply sum_congr'
      intro d _
      simp only [uniformPd]
      rw [if_neg (by norm_num)]
      ring
    rw [e, h0 ps hp, List.length_append, List.length_singleton, List.replicate_succ']
    simp [putEnd]

/-- The element for each index in the Exponential distribution. -/
theorem exp_element (P : Prob X) (a : List ℝ) (k : ℤ) (hacc : P.acc = .array → k ≠ -2) :
    (if 0 ≤ k then
      some (P.data.map fun d => fromEnd a 1 * (if P.hasW then |P.residual (allBut a 2) d / expScale P a d| ^ fromEnd a 1 * d.w
        else |P.residual (allBut a 2) d / expScale P a d| ^ fromEnd a 1) / P.residual (allBut a 2) d * P.dM (allBut a 2) d k).sum
    else if k = -2 then
      match P.acc with
      | .none => some (-P.sumweight / fromEnd a 2 + fromEnd a 1 * (P.data.map fun d =>
          if P.hasW then |P.residual (allBut a 2) d / expScale P a d| ^ fromEnd a 1 * d.w
        else |P.residual (allBut a 2) d / expScale P a d| ^ fromEnd a 1).sum / fromEnd a 2)
      | .scalar s => some (-P.sumweight / s + fromEnd a 1 * (P.data.map fun d =>
          if P.hasW then |P.residual (allBut a 2) d / expScale P a d| ^ fromEnd a 1 * d.w
        else |P.residual (allBut a 2) d / expScale P a d| ^ fromEnd a 1).sum / s)
      | .array => none
    else
      some (P.sumweight * (fromEnd a 1 + psi (1 / fromEnd a 1)) / (fromEnd a 1 * fromEnd a 1)
        - (P.data.map fun d => (if P.hasW then |P.residual (allBut a 2) d / expScale P a d| ^ fromEnd a 1 * d.w
        else |P.residual (allBut a 2) d / expScale P a d| ^ fromEnd a 1)
          * log |P.residual (allBut a 2) d / expScale P a d|).sum))
      = some (P.data.map (expPd P a k)).sum := by
  have hadd : ∀ (l : List (Datum X)) (f g : Datum X → ℝ), (l.map f).sum + (l.map g).sum
      = (l.map fun d => f d + g d).sum := by
    intro l f g
    induction l with
    | nil => simp
    | cons d l ih =>
      simp only [List.map_cons, List.sum_cons, ← ih]
      ring
  have hscale : ∀ s : ℝ, (∀ d, expScale P a d = s) → k = -2 →
      -P.sumweight / s + fromEnd a 1 * (P.data.map fun d =>
          if P.hasW then |P.residual (allBut a 2) d / expScale P a d| ^ fromEnd a 1 * d.w
        else |P.residual (allBut a 2) d / expScale P a d| ^ fromEnd a 1).sum / s = (P.data.map (expPd P a k)).sum := by
    intro s hs hk
    have e : -P.sumweight / s = (P.data.map fun d => -(P.wgt d * s⁻¹)).sum := by
      rw [neg_div, div_eq_mul_inv, sumweight_mul, sum_neg']
    rw [e, mul_div_assoc, mul_comm (fromEnd a 1), div_mul_eq_mul_div, mul_div_assoc, ← List.sum_map_mul_right, hadd]
    apply sum_congr'
    intro d _
    subst hk
    have h1 : ¬ (0 : ℤ) ≤ -2 := by norm_num
    simp only [expPd, h1, if_false, if_true, hs d]
    ring
  by_cases h0 : 0 ≤ k
  · rw [if_pos h0]
    congr 1
    apply sum_congr'
    intro d _
    simp only [expPd, if_pos h0]
  rw [if_neg h0]
  by_cases h2 : k = -2
  · rw [if_pos h2]
    rcases ha : P.acc with _ | s | _
    · dsimp only
      rw [hscale (fromEnd a 2) (fun d => by simp [expScale, Prob.hasAccuracy, ha]) h2]
    · dsimp only
      rw [hscale s (fun d => by simp [expScale, Prob.hasAccuracy, Prob.accuracy, ha]) h2]
    · exact absurd h2 (hacc ha)
  · rw [if_neg h2]
    congr 1
    rw [mul_div_assoc, sumweight_mul, sub_eq_add_neg, sum_neg', hadd]
    apply sum_congr'
    intro d _
    simp only [expPd, if_neg h0, if_neg h2]
    ring

/-- C112 for the Exponential distribution, where the scale is one number: with both hyperparameters, with only the power, or with
none of them. -/
theorem C112_exponential_partial (P : Prob X) (a : List ℝ) (fi : List ℤ)
    (hfi : FitList fi ∨ ∃ ps : List ℤ, (∀ k ∈ ps, 0 ≤ k) ∧ fi = ps ++ [-2, -1])
    (hacc : P.acc = .array → ∀ k ∈ fi, k ≠ -2) :
    expGradAlt P a fi = some (partialLogL (expPd P a) P fi) := by
  unfold expGradAlt partialLogL
  rcases hfi with hfi | ⟨ps, hp, rfl⟩
  · apply fill_list _ _ fi hfi rfl
    intro k hk
    exact exp_element P a k fun h => hacc h k hk
  · apply fill_two _ _ ps hp rfl rfl
    intro k hk
    exact exp_element P a k fun h => hacc h k hk

/-- C112 for the Laplace distribution: only for the parameters of the model. For the scale it is `C28_counterexample_laplace`. -/
theorem C112_laplace_partial (P : Prob X) (a : List ℝ) (fi : List ℤ) (hfi : ∀ k ∈ fi, 0 ≤ k) :
    laplaceGradAlt P a fi = some (partialLogL (laplacePd P a) P fi) := by
  unfold laplaceGradAlt partialLogL
  apply fill_params _ _ fi hfi
  intro k hk
  have := C28_alt_laplace_gradient P a k (hfi k hk)
  simp only [partialLogL, List.map_cons, List.map_nil, List.cons.injEq, and_true] at this
  rw [this]

/-- C112 fails for the Laplace distribution with its scale: the alternative is not divided by the scale. -/
theorem C112_counterexample_laplace : ∃ a : List ℝ,
    laplaceGradAlt plainDemo a [-1] = some [1 / 2] ∧ partialLogL (laplacePd plainDemo a) plainDemo [-1] = [1 / 4] := by
  obtain ⟨h1, h2⟩ := C28_counterexample_laplace
  refine ⟨[0, 2], ?_, h2⟩
  unfold laplaceGradAlt
  rw [show ([-1] : List ℤ) = [] ++ [-1] from rfl,
    fill_one _ _ [] (by simp) rfl (fun k => laplacePartialAlt plainDemo [0, 2] k) (fun _ _ => rfl)]
  simp [h1]

/-- C112 fails for the Exponential distribution when the power is fixed and the scale is not: then the element for the scale is
written over the one for the last parameter. -/
theorem C112_counterexample_exponential : ∃ a : List ℝ,
    expGradAlt plainDemo a [0, -2] = some [1 / 4, 0] ∧ partialLogL (expPd plainDemo a) plainDemo [0, -2] = [1 / 2, 1 / 4] := by
  refine ⟨[0, 2, 1], ?_, ?_⟩
  · have h1 : ¬ (0 : ℤ) ≤ -2 := by norm_num
    simp only [expGradAlt, altFill, altLoop, h1, if_false, le_refl, if_true]
    simp [putAt, putEnd, plainDemo, circleDemo, Prob.residual, Prob.fold, allBut, expScale, Prob.hasAccuracy, fromEnd,
      Prob.sumweight, Prob.dM]
    norm_num
  · simp [partialLogL, expPd, plainDemo, circleDemo, Prob.residual, Prob.fold, allBut, expScale, Prob.hasAccuracy, fromEnd,
      Prob.wgt, Prob.dM]
    norm_num

/-- C112 fails for the Bernoulli distribution: the alternative gives an element for every parameter, also for those that are not in the
list; the sign is wrong too, see `C28_counterexample_bernoulli`. -/
theorem C112_counterexample_bernoulli (P : Prob X) (a : List ℝ) (fi : List ℤ) (h : fi.length ≠ P.np) :
    bernoulliGradAlt P a fi ≠ partialLogL (bernoulliPd P a) P fi := by
  intro e
  have := congrArg List.length e
  simp only [bernoulliGradAlt, partialLogL, List.length_map, List.length_range] at this
  exact h this.symm

/-- The gradients are those of real problems. -/
example : gaussGradAlt plainDemo [0, 2] [0, -1] = some [3 / 4, 5 / 8] := by
  rw [C112_gauss plainDemo [0, 2] rfl [0, -1] ⟨[0], by simp, Or.inr rfl⟩]
  simp [partialLogL, gaussPd, plainDemo, circleDemo, Prob.weightedResSq, Prob.residual, Prob.fold, gaussS2, fromEnd, Prob.wgt,
    Prob.dM, Prob.varyy, Prob.accuracy]
  norm_num

example : plainDemo.acc = .array → ∀ k ∈ ([0, -2, -1] : List ℤ), k ≠ -2 := by
  intro h
  simp [plainDemo, circleDemo] at h

end BF.ErrDis
