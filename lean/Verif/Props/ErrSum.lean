import Verif.ErrDis
import Mathlib.Algebra.BigOperators.Group.List.Lemmas
import Mathlib.Algebra.BigOperators.Ring.List
import Mathlib.Tactic.Ring
import Mathlib.Tactic.Linarith
import Mathlib.Tactic.FieldSimp
import Mathlib.Tactic.Positivity
import Mathlib.Tactic.NormNum

/-!
# C28: the log likelihood is additive over the data

and the alternative formulas give the same value.
-/

namespace BF.ErrDis

open Real

variable {X : Type*}

/-- The same problem with other data. -/
def Prob.withData (P : Prob X) (l : List (Datum X)) : Prob X := { P with data := l }

/-- The likelihood of zero, or the exponent of the log likelihood. -/
noncomputable def like : Option ℝ → ℝ
  | none => 0
  | some v => exp v

/-- `L P` is the log likelihood of the problem `P` as function of the parameters. It is additive over the
data: for all problems, the likelihood of the combination of two data sets is the product of the two. -/
def Additive (L : Prob X → List ℝ → Option ℝ) : Prop :=
  ∀ (P : Prob X) (l1 l2 : List (Datum X)) (a : List ℝ),
    like (L (P.withData (l1 ++ l2)) a) = like (L (P.withData l1) a) * like (L (P.withData l2) a)

/-- The log likelihood does not depend on the order of the data. -/
def OrderFree (L : Prob X → List ℝ → Option ℝ) : Prop :=
  ∀ (P : Prob X) (l1 l2 : List (Datum X)) (a : List ℝ), l1.Perm l2 →
    L (P.withData l1) a = L (P.withData l2) a

theorem like_sumOpt (l : List (Option ℝ)) : like (sumOpt l) = (l.map like).prod := by
  induction l with
  | nil => simp [sumOpt, like]
  | cons o l ih =>
    rcases o with _ | v
    · simp [sumOpt, like]
    · rw [List.map_cons, List.prod_cons, ← ih]
      rcases h : sumOpt l with _ | u
      · simp [sumOpt, h, like]
      · simp [sumOpt, h, like, exp_add]

theorem sumOpt_some (l : List ℝ) : sumOpt (l.map some) = some l.sum := by
  induction l with
  | nil => rfl
  | cons a l ih => simp [sumOpt, ih]

theorem sumOpt_perm {l1 l2 : List (Option ℝ)} (h : l1.Perm l2) : sumOpt l1 = sumOpt l2 := by
  induction h with
  | nil => rfl
  | cons o _ ih =>
    rcases o with _ | v
    · rfl
    · simp [sumOpt, ih]
  | swap a b l =>
    rcases a with _ | a <;> rcases b with _ | b
    · rfl
    · simp [sumOpt]
    · simp [sumOpt]
    · rcases h : sumOpt l with _ | u
      · simp [sumOpt, h]
      · simp only [sumOpt, h, Option.map_some, Option.some.injEq]
        ring
  | trans _ _ h1 h2 => rw [h1, h2]

theorem additive_of (ld : Prob X → List ℝ → Datum X → Option ℝ)
    (h : ∀ P l, ld (P.withData l) = ld P) : Additive fun P a => logLhoodOpt (ld P a) P := by
  intro P l1 l2 a
  simp only [logLhoodOpt, h, like_sumOpt]
  simp [Prob.withData]

theorem orderFree_of (ld : Prob X → List ℝ → Datum X → Option ℝ)
    (h : ∀ P l, ld (P.withData l) = ld P) : OrderFree fun P a => logLhoodOpt (ld P a) P := by
  intro P l1 l2 a hp
  simp only [logLhoodOpt, h]
  exact sumOpt_perm (hp.map _)

theorem logLhood_opt (ld : Datum X → ℝ) (P : Prob X) :
    some (logLhood ld P) = logLhoodOpt (fun d => some (ld d)) P := by
  rw [logLhood, logLhoodOpt, ← sumOpt_some, List.map_map]
  rfl

theorem additive_of' (ld : Prob X → List ℝ → Datum X → ℝ)
    (h : ∀ P l, ld (P.withData l) = ld P) : Additive fun P a => some (logLhood (ld P a) P) := by
  simp only [logLhood_opt]
  exact additive_of (fun P a d => some (ld P a d)) fun P l => by simp only [h]

theorem orderFree_of' (ld : Prob X → List ℝ → Datum X → ℝ)
    (h : ∀ P l, ld (P.withData l) = ld P) : OrderFree fun P a => some (logLhood (ld P a) P) := by
  simp only [logLhood_opt]
  exact orderFree_of (fun P a d => some (ld P a d)) fun P l => by simp only [h]

/-- Two independent data sets. -/
theorem C28_additive :
    Additive (X := X) (fun P a => some (logLhood (gaussLd P a) P)) ∧
    Additive (X := X) (fun P a => some (logLhood (laplaceLd P a) P)) ∧
    Additive (X := X) (fun P a => some (logLhood (cauchyLd P a) P)) ∧
    Additive (X := X) (fun P a => some (logLhood (expLd P a) P)) ∧
    Additive (X := X) (fun P a => logLhoodOpt (uniformLd P a) P) ∧
    (∀ lf, Additive (X := X) fun P a => logLhoodOpt (poissonLd lf P a) P) ∧
    Additive (X := X) (fun P a => logLhoodOpt (bernoulliLd P a) P) ∧
    Additive (X := X) (fun P a => some (logLhood (mixLd gaussDist laplaceDist P a) P)) :=
  ⟨additive_of' _ fun _ _ => rfl, additive_of' _ fun _ _ => rfl, additive_of' _ fun _ _ => rfl,
    additive_of' _ fun _ _ => rfl, additive_of _ fun _ _ => rfl, fun _ => additive_of _ fun _ _ => rfl,
    additive_of _ fun _ _ => rfl, additive_of' _ fun _ _ => rfl⟩

/-- Any order of the data. -/
theorem C28_order :
    OrderFree (X := X) (fun P a => some (logLhood (gaussLd P a) P)) ∧
    OrderFree (X := X) (fun P a => some (logLhood (laplaceLd P a) P)) ∧
    OrderFree (X := X) (fun P a => some (logLhood (cauchyLd P a) P)) ∧
    OrderFree (X := X) (fun P a => some (logLhood (expLd P a) P)) ∧
    OrderFree (X := X) (fun P a => logLhoodOpt (uniformLd P a) P) ∧
    (∀ lf, OrderFree (X := X) fun P a => logLhoodOpt (poissonLd lf P a) P) ∧
    OrderFree (X := X) (fun P a => logLhoodOpt (bernoulliLd P a) P) ∧
    OrderFree (X := X) (fun P a => some (logLhood (mixLd gaussDist laplaceDist P a) P)) :=
  ⟨orderFree_of' _ fun _ _ => rfl, orderFree_of' _ fun _ _ => rfl, orderFree_of' _ fun _ _ => rfl,
    orderFree_of' _ fun _ _ => rfl, orderFree_of _ fun _ _ => rfl,
    fun _ => orderFree_of _ fun _ _ => rfl, orderFree_of _ fun _ _ => rfl,
    orderFree_of' _ fun _ _ => rfl⟩

/-! ## The alternative formulas -/

theorem sumweight_mul (P : Prob X) (c : ℝ) :
    P.sumweight * c = (P.data.map fun d => P.wgt d * c).sum := by
  unfold Prob.sumweight Prob.wgt
  rcases P.hasW with _ | _
  · simp
  · simp only [if_true]
    rw [List.sum_map_mul_right]

theorem sum_congr' {l : List (Datum X)} {f g : Datum X → ℝ} (h : ∀ d ∈ l, f d = g d) :
    (l.map f).sum = (l.map g).sum := by
  rw [List.map_congr_left h]

theorem sum_neg' (l : List (Datum X)) (f : Datum X → ℝ) :
    -(l.map f).sum = (l.map fun d => -f d).sum := by
  rw [← neg_one_mul, ← List.sum_map_mul_left]
  simp

theorem C28_alt_gauss (P : Prob X) (a : List ℝ) : gaussAlt P a = logLhood (gaussLd P a) P := by
  have hn : gaussAlt P a = -0.5 * ((P.data.map fun d => (P.weightedResSq a d).1 / gaussS2 P a d).sum
      + (P.data.map fun d => P.wgt d * (LOG2PI + log (gaussS2 P a d))).sum) := by
    unfold gaussAlt
    congr 2
    rcases h : P.acc with _ | c | _
    · simp only [sumweight_mul, gaussS2, Prob.varyy, Prob.accuracy, h]
    · simp only [sumweight_mul, gaussS2, Prob.varyy, Prob.accuracy, h]
    · simp only [Prob.wgt]
      rcases P.hasW with _ | _ <;> simp
  rw [hn, ← List.sum_map_add, ← List.sum_map_mul_left, logLhood]
  apply sum_congr'
  intro d _
  simp only [gaussLd, Prob.wgt]
  rcases P.hasW with _ | _
  · simp only [Bool.false_eq_true, if_false]
    ring
  · simp only [if_true]
    ring

theorem allBut_take (P : Prob X) (a : List ℝ) (n : ℕ) (h : a.length = P.np + n) :
    allBut a n = a.take P.np := by
  simp [allBut, h]

/-- For positive scales and non-negative weights. -/
theorem C28_alt_laplace (P : Prob X) (a : List ℝ) (hlen : a.length = P.np + 1)
    (hs : ∀ d ∈ P.data, 0 < scaleOf P a d) (hw : P.hasW = true → ∀ d ∈ P.data, 0 ≤ d.w) :
    laplaceAlt P a = logLhood (laplaceLd P a) P := by
  have hn : laplaceAlt P a = -((P.data.map fun d => P.wgt d * (log 2 + log (scaleOf P a d))).sum
      + (P.data.map fun d => |if P.hasW then P.residual (allBut a 1) d / scaleOf P a d * d.w
          else P.residual (allBut a 1) d / scaleOf P a d|).sum) := by
    unfold laplaceAlt laplaceSumRes
    congr 2
    rcases h : P.acc with _ | c | _
    · simp [sumweight_mul, scaleOf, Prob.hasAccuracy, h]
    · simp [sumweight_mul, scaleOf, Prob.hasAccuracy, Prob.accuracy, h]
    · simp only [Prob.wgt]
      rcases P.hasW with _ | _ <;> simp
  rw [hn, ← List.sum_map_add, sum_neg', logLhood]
  apply sum_congr'
  intro d hd
  have hsd := hs d hd
  simp only [laplaceLd, Prob.wgt, allBut_take P a 1 hlen]
  rcases hW : P.hasW with _ | _
  · simp only [Bool.false_eq_true, if_false, abs_div, abs_of_pos hsd]
    ring
  · simp only [if_true, abs_mul, abs_div, abs_of_pos hsd, abs_of_nonneg (hw hW d hd)]
    ring

/-- For positive scales. -/
theorem C28_alt_cauchy (P : Prob X) (a : List ℝ) (hs : ∀ d ∈ P.data, 0 < scaleOf P a d) :
    cauchyAlt P a = logLhood (cauchyLd P a) P := by
  have hlen : ∀ c : ℝ, (P.data.length : ℝ) * c = (P.data.map fun _ => c).sum := by
    intro c
    simp
  unfold cauchyAlt logLhood
  rcases h : P.acc with _ | c | _
  · simp only [hlen, sub_eq_add_neg]
    rw [sum_neg', ← List.sum_map_add]
    apply sum_congr'
    intro d _
    simp [cauchyLd, scaleOf, Prob.hasAccuracy, h]
    ring_nf
  · simp only [hlen, sub_eq_add_neg]
    rw [sum_neg', ← List.sum_map_add]
    apply sum_congr'
    intro d _
    simp [cauchyLd, scaleOf, Prob.hasAccuracy, Prob.accuracy, h]
    ring_nf
  · have e : -(P.data.length : ℝ) * log π = (P.data.map fun _ => -log π).sum := by
      simp
    simp only [e]
    rw [← List.sum_map_add]
    apply sum_congr'
    intro d hd
    have hsd := hs d hd
    simp only [cauchyLd]
    rw [log_div hsd.ne' (by positivity), pow_two, pow_two]
    ring

theorem C28_alt_poisson (lf : ℝ → ℝ) (P : Prob X) (a : List ℝ) :
    poissonAlt lf P a = logLhoodOpt (poissonLd lf P a) P := by
  unfold poissonAlt logLhoodOpt
  generalize P.data = l
  induction l with
  | nil => simp [sumOpt]
  | cons d l ih =>
    by_cases hd : P.f d.x a ≤ 0
    · simp [hd, poissonLd, sumOpt]
    · simp only [List.map_cons, poissonLd, if_neg hd, sumOpt] at ih ⊢
      rw [← ih]
      by_cases hl : l.any (fun d => decide (P.f d.x a ≤ 0)) = true
      · simp [hl]
      · simp [hd, hl]

theorem C28_alt_exponential (P : Prob X) (a : List ℝ) :
    expAlt P a = logLhood (expLd P a) P := by
  have hn : expAlt P a = (P.data.map fun d => P.wgt d * log (0.5 * fromEnd a 1 / expScale P a d)).sum
      - P.sumweight * gammaln (1 / fromEnd a 1) - expChipow P a (expScale P a) := by
    unfold expAlt
    congr 2
    rcases h : P.acc with _ | c | _
    · simp [sumweight_mul, expScale, Prob.hasAccuracy, h]
    · simp [sumweight_mul, expScale, Prob.hasAccuracy, Prob.accuracy, h]
    · simp only [Prob.wgt]
      rcases P.hasW with _ | _ <;> simp
  rw [hn, sumweight_mul, expChipow, sub_eq_add_neg, sub_eq_add_neg, sum_neg', ← List.sum_map_add,
    sum_neg', ← List.sum_map_add, logLhood]
  apply sum_congr'
  intro d _
  have e : 0.5 * fromEnd a 1 / expScale P a d = fromEnd a 1 / (2 * expScale P a d) := by
    rw [mul_comm, mul_div_assoc, div_eq_mul_inv, div_eq_mul_inv, mul_inv]
    norm_num
  simp only [expLd, Prob.wgt, e]
  rcases P.hasW with _ | _
  · simp only [Bool.false_eq_true, if_false]
    ring
  · simp only [if_true]
    ring

/-- When the data are not cyclic. -/
theorem C28_alt_uniform_partial (P : Prob X) (a : List ℝ) (hc : P.cyclic = none) :
    uniformAlt P a = logLhoodOpt (uniformLd P a) P := by
  have hn : uniformAlt P a = if P.data.all (fun d => decide (|P.residual (allBut a 1) d| < scaleOf P a d))
      then some (P.data.map fun d => -log (2 * scaleOf P a d) * P.wgt d).sum else none := by
    have hsw : ∀ c : ℝ, c * P.sumweight = (P.data.map fun d => c * P.wgt d).sum := by
      intro c
      rw [mul_comm, sumweight_mul]
      exact sum_congr' fun d _ => mul_comm _ _
    unfold uniformAlt
    congr 1
    rcases h : P.acc with _ | c | _
    · simp only [hsw, scaleOf, Prob.hasAccuracy, h, Bool.false_eq_true, if_false]
    · simp only [hsw, scaleOf, Prob.hasAccuracy, Prob.accuracy, h, if_true]
    · simp only [sum_neg', Prob.wgt]
      rcases P.hasW with _ | _
      · simp
      · simp
  rw [hn, logLhoodOpt]
  simp only [Prob.residual, Prob.fold, hc]
  generalize P.data = l
  induction l with
  | nil => simp [sumOpt]
  | cons d l ih =>
    by_cases hd : |d.y - P.f d.x (allBut a 1)| < scaleOf P a d
    · have hu : uniformLd P a d = some (-log (2 * scaleOf P a d) * P.wgt d) := by
        simp only [uniformLd, if_pos hd, Prob.wgt]
        rcases P.hasW with _ | _ <;> simp
      simp only [List.map_cons, hu, sumOpt, List.all_cons, hd, decide_true,
        Bool.true_and, List.sum_cons] at ih ⊢
      rw [← ih]
      by_cases hl : l.all (fun d => decide (|d.y - P.f d.x (allBut a 1)| < scaleOf P a d)) = true
      · rw [if_pos hl, if_pos hl]
        simp only [Option.map_some]
      · rw [if_neg hl, if_neg hl]
        rfl
    · simp [hd, uniformLd, sumOpt]

/-- Data 5 and model 0, on a circle of length 6. -/
def circleDemo : Prob ℝ where
  data := [⟨0, 5, 1, 1⟩]
  np := 1
  f := fun _ p => p.getD 0 0
  df := fun _ _ => [1]
  hasW := false
  acc := .none
  cyclic := some 6

/-- With cyclic data the uniform distribution forgets the correction: a point at distance 1 has
likelihood 0 while the alternative formula finds 1/4. -/
theorem C28_counterexample_uniform :
    logLhoodOpt (uniformLd circleDemo [0, 2]) circleDemo = none ∧
    uniformAlt circleDemo [0, 2] = some (-log 4) := by
  constructor
  · simp [logLhoodOpt, circleDemo, uniformLd, sumOpt, allBut, scaleOf, Prob.hasAccuracy, fromEnd]
    norm_num
    rfl
  · simp [uniformAlt, circleDemo, allBut, scaleOf, Prob.hasAccuracy, fromEnd, Prob.residual, Prob.fold,
      Cyclic.cyclize, Prob.sumweight]
    norm_num

/-- The gradient to the model parameters in the Laplace distribution. -/
theorem C28_alt_laplace_gradient (P : Prob X) (a : List ℝ) (k : ℤ) (hk : 0 ≤ k) :
    [laplacePartialAlt P a k] = partialLogL (laplacePd P a) P [k] := by
  simp only [laplacePartialAlt, if_pos hk, partialLogL, List.map_cons, List.map_nil]
  congr 1
  apply sum_congr'
  intro d _
  simp only [laplacePd, if_pos hk]
  ring

/-- One datum with residual 3. -/
def plainDemo : Prob ℝ := { circleDemo with data := [⟨0, 3, 1, 1⟩], cyclic := none }

/-- The alternative for the gradient to the scale lacks a division by the scale. -/
theorem C28_counterexample_laplace :
    laplacePartialAlt plainDemo [0, 2] (-1) = 1 / 2 ∧
    partialLogL (laplacePd plainDemo [0, 2]) plainDemo [-1] = [1 / 4] := by
  constructor
  · simp [laplacePartialAlt, laplaceSumRes, plainDemo, circleDemo, Prob.residual, Prob.fold, allBut,
      scaleOf, Prob.hasAccuracy, fromEnd, Prob.sumweight, abs_div]
    norm_num
  · simp [partialLogL, laplacePd, plainDemo, circleDemo, Prob.residual, Prob.fold, allBut,
      scaleOf, Prob.hasAccuracy, fromEnd, Prob.wgt, copysign]
    norm_num

/-- The alternative for the gradient in the Bernoulli distribution has the wrong sign. -/
theorem C28_counterexample_bernoulli :
    bernoulliPartialAlt plainDemo [1 / 2] 0 = 2 ∧
    partialLogL (bernoulliPd plainDemo [1 / 2]) plainDemo [0] = [-2] := by
  constructor
  · simp [bernoulliPartialAlt, plainDemo, circleDemo, Prob.dM]
    norm_num
  · simp [partialLogL, bernoulliPd, plainDemo, circleDemo, Prob.dM]
    norm_num

example : laplaceAlt plainDemo [0, 2] = logLhood (laplaceLd plainDemo [0, 2]) plainDemo := by
  apply C28_alt_laplace
  · rfl
  · intro d _
    simp [scaleOf, plainDemo, circleDemo, Prob.hasAccuracy, fromEnd]
  · simp [plainDemo, circleDemo]

end BF.ErrDis
