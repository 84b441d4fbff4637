import Verif.Scales
import Verif.Props.ErrSum
import Mathlib.Analysis.SpecialFunctions.Log.Basic
import Mathlib.Analysis.Real.Pi.Bounds
import Mathlib.Algebra.BigOperators.Group.List.Lemmas

/-!
# C125: in the likelihoods a point with weight n is the same as n points

For all distributions that say that they accept weights, except the mixed one. With `C28_order` the order does not
matter.
-/

noncomputable section

namespace BF.ErrDis

open Real

variable {X : Type*}

/-- The data, each with its number as weight. -/
def counted (l : List (ℕ × Datum X)) : List (Datum X) := l.map fun c => { c.2 with w := (c.1 : ℝ) }

/-- The data, each as many times as its number tells. -/
def copies (l : List (ℕ × Datum X)) : List (Datum X) := l.flatMap fun c => List.replicate c.1 c.2

/-- The problem with the numbers as weights. -/
def Prob.weighted (P : Prob X) (l : List (ℕ × Datum X)) : Prob X := { P with data := counted l, hasW := true }

/-- The problem with the points repeated, without weights. -/
def Prob.repeated (P : Prob X) (l : List (ℕ × Datum X)) : Prob X := { P with data := copies l, hasW := false }

theorem weighted_hasW (P : Prob X) (l : List (ℕ × Datum X)) : (P.weighted l).hasW = true := rfl

theorem repeated_hasW (P : Prob X) (l : List (ℕ × Datum X)) : (P.repeated l).hasW = false := rfl

/-- A sum over the points in which each is multiplied by its weight. -/
theorem sum_counted (F G : Datum X → ℝ) (h : ∀ (k : ℕ) (d : Datum X), F { d with w := k } = k * G d)
    (l : List (ℕ × Datum X)) : ((counted l).map F).sum = ((copies l).map G).sum := by
  induction l with
  | nil => rfl
  | cons c l ih =>
    have e : copies (c :: l) = List.replicate c.1 c.2 ++ copies l := rfl
    rw [e, List.map_append, List.sum_append, ← ih, List.map_replicate, List.sum_replicate, nsmul_eq_mul]
    show F _ + _ = _
    rw [h]
    rfl

theorem gauss_w (P : Prob X) (l : List (ℕ × Datum X)) (a : List ℝ) (k : ℕ) (d : Datum X) :
    gaussLd (P.weighted l) a { d with w := k } = k * gaussLd (P.repeated l) a d := by
  have e : gaussS2 (P.weighted l) a { d with w := k } = gaussS2 (P.repeated l) a d := rfl
  have e' : (P.weighted l).residual (a.take P.np) { d with w := k } = (P.repeated l).residual (a.take P.np) d := rfl
  have e2 : ((P.weighted l).weightedResSq a { d with w := k }).1
      = k * ((P.repeated l).weightedResSq a d).1 := by
    show (P.weighted l).residual (a.take P.np) { d with w := k } * k * (P.weighted l).residual (a.take P.np) { d with w := k } = k * ((P.repeated l).residual (a.take P.np) d * (P.repeated l).residual (a.take P.np) d)
    rw [e']; ring
  simp only [gaussLd, weighted_hasW, repeated_hasW, if_true, Bool.false_eq_true, if_false, e, e2]
  ring

theorem laplace_w (P : Prob X) (l : List (ℕ × Datum X)) (a : List ℝ) (k : ℕ) (d : Datum X) :
    laplaceLd (P.weighted l) a { d with w := k } = k * laplaceLd (P.repeated l) a d := by
  have e : scaleOf (P.weighted l) a { d with w := k } = scaleOf (P.repeated l) a d := rfl
  have e' : (P.weighted l).residual (a.take (P.weighted l).np) { d with w := k }
    = (P.repeated l).residual (a.take (P.repeated l).np) d := rfl
  simp only [laplaceLd, weighted_hasW, repeated_hasW, if_true, Bool.false_eq_true, if_false, e, e']
  ring

theorem exp_w (P : Prob X) (l : List (ℕ × Datum X)) (a : List ℝ) (k : ℕ) (d : Datum X) :
    expLd (P.weighted l) a { d with w := k } = k * expLd (P.repeated l) a d := by
  have e : expScale (P.weighted l) a { d with w := k } = expScale (P.repeated l) a d := rfl
  have e' : (P.weighted l).residual (allBut a 2) { d with w := k } = (P.repeated l).residual (allBut a 2) d := rfl
  simp only [expLd, weighted_hasW, repeated_hasW, if_true, Bool.false_eq_true, if_false, e, e']
  ring

/-- The log likelihood of a problem with weights is that of the problem in which the points are repeated. -/
theorem C125_likelihood (P : Prob X) (l : List (ℕ × Datum X)) (a : List ℝ) :
    logLhood (gaussLd (P.weighted l) a) (P.weighted l) = logLhood (gaussLd (P.repeated l) a) (P.repeated l) ∧
    logLhood (laplaceLd (P.weighted l) a) (P.weighted l) = logLhood (laplaceLd (P.repeated l) a) (P.repeated l) ∧
    logLhood (expLd (P.weighted l) a) (P.weighted l) = logLhood (expLd (P.repeated l) a) (P.repeated l) :=
  ⟨sum_counted _ _ (gauss_w P l a) l, sum_counted _ _ (laplace_w P l a) l, sum_counted _ _ (exp_w P l a) l⟩

theorem sumOpt_append (l l' : List (Option ℝ)) :
    sumOpt (l ++ l') = (sumOpt l).bind fun u => (sumOpt l').map (u + ·) := by
  induction l with
  | nil => simp [sumOpt]
  | cons o l ih =>
    rcases o with _ | v
    · rfl
    · simp only [List.cons_append, sumOpt, ih]
      rcases sumOpt l with _ | u <;> rcases sumOpt l' with _ | u' <;> simp [add_assoc]

theorem sumOpt_replicate (k : ℕ) (v : ℝ) : sumOpt (List.replicate k (some v)) = some (k * v) := by
  induction k with
  | zero => simp [sumOpt]
  | succ n ih =>
    rw [List.replicate_succ, sumOpt, ih]
    simp only [Option.map_some, Option.some.injEq]
    push_cast
    ring

/-- The uniform distribution, when no weight is zero. -/
theorem C125_uniform_partial (P : Prob X) (l : List (ℕ × Datum X)) (hl : ∀ c ∈ l, c.1 ≠ 0) (a : List ℝ) :
    logLhoodOpt (uniformLd (P.weighted l) a) (P.weighted l)
      = logLhoodOpt (uniformLd (P.repeated l) a) (P.repeated l) := by
  have key : ∀ q r : List (ℕ × Datum X), (∀ c ∈ r, c.1 ≠ 0) →
      sumOpt ((counted r).map (uniformLd (P.weighted q) a)) = sumOpt ((copies r).map (uniformLd (P.repeated q) a)) := by
    intro q r
    induction r with
    | nil => intro _; rfl
    | cons c r ih =>
      intro hr
      have ih := ih fun c hc => hr c (List.mem_cons_of_mem _ hc)
      have e : copies (c :: r) = List.replicate c.1 c.2 ++ copies r := rfl
      rw [e, List.map_append, sumOpt_append, ← ih, List.map_replicate]
      show sumOpt (uniformLd (P.weighted q) a { c.2 with w := (c.1 : ℝ) } :: _) = _
      have es : scaleOf (P.weighted q) a { c.2 with w := (c.1 : ℝ) } = scaleOf (P.repeated q) a c.2 := rfl
      by_cases hb : |c.2.y - P.f c.2.x (allBut a 1)| < scaleOf (P.repeated q) a c.2
      · have h1 : uniformLd (P.weighted q) a { c.2 with w := (c.1 : ℝ) }
            = some (-log (2 * scaleOf (P.repeated q) a c.2) * c.1) := by
          unfold uniformLd
          rw [es]
          exact (if_pos hb).trans rfl
        have h2 : uniformLd (P.repeated q) a c.2 = some (-log (2 * scaleOf (P.repeated q) a c.2)) := by
          unfold uniformLd
          exact (if_pos hb).trans rfl
        rw [h1, h2, sumOpt_replicate, sumOpt]
        rw [mul_comm]
        rfl
      · have h1 : uniformLd (P.weighted q) a { c.2 with w := (c.1 : ℝ) } = none := by
          unfold uniformLd
          rw [es]
          exact if_neg hb
        have h2 : uniformLd (P.repeated q) a c.2 = none := by
          unfold uniformLd
          exact if_neg hb
        obtain ⟨n, hn⟩ := Nat.exists_eq_succ_of_ne_zero (hr c List.mem_cons_self)
        rw [h1, h2, hn, List.replicate_succ]
        rfl
  exact key l l hl

/-! ## Gradients -/

theorem copysign_w (k : ℕ) (r : ℝ) : copysign k r = k * copysign 1 r := by
  unfold copysign
  have : |(k : ℝ)| = k := abs_of_nonneg (Nat.cast_nonneg k)
  split <;> simp [this]

theorem gaussPd_w (P : Prob X) (l : List (ℕ × Datum X)) (a : List ℝ) (i : ℤ) (k : ℕ) (d : Datum X) :
    gaussPd (P.weighted l) a i { d with w := k } = k * gaussPd (P.repeated l) a i d := by
  have e : gaussS2 (P.weighted l) a { d with w := k } = gaussS2 (P.repeated l) a d := rfl
  have e' : (P.weighted l).residual (a.take (P.weighted l).np) { d with w := k }
    = (P.repeated l).residual (a.take (P.repeated l).np) d := rfl
  have e3 : (P.weighted l).dM (a.take (P.weighted l).np) { d with w := k } i
    = (P.repeated l).dM (a.take (P.repeated l).np) d i := rfl
  simp only [gaussPd, Prob.weightedResSq, Prob.wgt, weighted_hasW, repeated_hasW, if_true, Bool.false_eq_true,
    if_false, e, e', e3]
  split <;> ring

theorem laplacePd_w (P : Prob X) (l : List (ℕ × Datum X)) (a : List ℝ) (i : ℤ) (k : ℕ) (d : Datum X) :
    laplacePd (P.weighted l) a i { d with w := k } = k * laplacePd (P.repeated l) a i d := by
  have e : scaleOf (P.weighted l) a { d with w := k } = scaleOf (P.repeated l) a d := rfl
  have e' : (P.weighted l).residual (allBut a 1) { d with w := k } = (P.repeated l).residual (allBut a 1) d := rfl
  have e3 : (P.weighted l).dM (allBut a 1) { d with w := k } i = (P.repeated l).dM (allBut a 1) d i := rfl
  simp only [laplacePd, Prob.wgt, weighted_hasW, repeated_hasW, if_true, Bool.false_eq_true, if_false, e, e', e3,
    copysign_w]
  split <;> ring

theorem expPd_w (P : Prob X) (l : List (ℕ × Datum X)) (a : List ℝ) (i : ℤ) (k : ℕ) (d : Datum X) :
    expPd (P.weighted l) a i { d with w := k } = k * expPd (P.repeated l) a i d := by
  have e : expScale (P.weighted l) a { d with w := k } = expScale (P.repeated l) a d := rfl
  have e' : (P.weighted l).residual (allBut a 2) { d with w := k } = (P.repeated l).residual (allBut a 2) d := rfl
  have e3 : (P.weighted l).dM (allBut a 2) { d with w := k } i = (P.repeated l).dM (allBut a 2) d i := rfl
  simp only [expPd, Prob.wgt, weighted_hasW, repeated_hasW, if_true, Bool.false_eq_true, if_false, e, e', e3]
  split
  · ring
  · split <;> ring

theorem uniformPd_w (P : Prob X) (l : List (ℕ × Datum X)) (a : List ℝ) (i : ℤ) (k : ℕ) (d : Datum X) :
    uniformPd (P.weighted l) a i { d with w := k } = k * uniformPd (P.repeated l) a i d := by
  simp only [uniformPd, Prob.wgt, weighted_hasW, repeated_hasW, if_true, Bool.false_eq_true, if_false]
  split <;> ring

theorem partial_w (pd : Prob X → List ℝ → ℤ → Datum X → ℝ) (P : Prob X) (l : List (ℕ × Datum X)) (a : List ℝ)
    (h : ∀ i (k : ℕ) (d : Datum X), pd (P.weighted l) a i { d with w := k } = k * pd (P.repeated l) a i d)
    (fitIndex : List ℤ) :
    partialLogL (pd (P.weighted l) a) (P.weighted l) fitIndex
      = partialLogL (pd (P.repeated l) a) (P.repeated l) fitIndex :=
  List.map_congr_left fun i _ => sum_counted _ _ (h i) l

/-- The gradient of the log likelihood is the same too. -/
theorem C125_gradient (P : Prob X) (l : List (ℕ × Datum X)) (a : List ℝ) (fitIndex : List ℤ) :
    partialLogL (gaussPd (P.weighted l) a) (P.weighted l) fitIndex
      = partialLogL (gaussPd (P.repeated l) a) (P.repeated l) fitIndex ∧
    partialLogL (laplacePd (P.weighted l) a) (P.weighted l) fitIndex
      = partialLogL (laplacePd (P.repeated l) a) (P.repeated l) fitIndex ∧
    partialLogL (expPd (P.weighted l) a) (P.weighted l) fitIndex
      = partialLogL (expPd (P.repeated l) a) (P.repeated l) fitIndex ∧
    partialLogL (uniformPd (P.weighted l) a) (P.weighted l) fitIndex
      = partialLogL (uniformPd (P.repeated l) a) (P.repeated l) fitIndex :=
  ⟨partial_w gaussPd P l a (gaussPd_w P l a) _, partial_w laplacePd P l a (laplacePd_w P l a) _,
    partial_w expPd P l a (expPd_w P l a) _, partial_w uniformPd P l a (uniformPd_w P l a) _⟩

/-! ## Chi squared and noise scales -/

theorem sumweight_w (P : Prob X) (l : List (ℕ × Datum X)) : (P.weighted l).sumweight = (P.repeated l).sumweight := by
  simp only [Prob.sumweight, weighted_hasW, repeated_hasW, if_true, Bool.false_eq_true, if_false]
  show ((counted l).map Datum.w).sum = _
  rw [sum_counted Datum.w (fun _ => 1) (fun k d => by simp) l]
  simp [Prob.repeated]

theorem chisq_w (P : Prob X) (l : List (ℕ × Datum X)) (nh : ℕ) (a : List ℝ) :
    getChisq (P.weighted l) nh a = getChisq (P.repeated l) nh a := by
  unfold getChisq
  refine sum_counted _ _ (fun k d => ?_) l
  generalize (if nh > 0 then allBut a nh else a) = p
  have e' : (P.weighted l).residual (p.take (P.weighted l).np) { d with w := k }
    = (P.repeated l).residual (p.take (P.repeated l).np) d := rfl
  simp only [Prob.weightedResSq, weighted_hasW, repeated_hasW, if_true, Bool.false_eq_true, if_false, e']
  ring

theorem sumRes_w (P : Prob X) (l : List (ℕ × Datum X)) (a : List ℝ) :
    laplaceSumRes (P.weighted l) a (fun _ => 1) = laplaceSumRes (P.repeated l) a fun _ => 1 := by
  unfold laplaceSumRes
  refine sum_counted _ _ (fun k d => ?_) l
  have e' : (P.weighted l).residual (allBut a 1) { d with w := k } = (P.repeated l).residual (allBut a 1) d := rfl
  simp only [weighted_hasW, repeated_hasW, if_true, Bool.false_eq_true, if_false, e']
  rw [abs_mul, show |(k : ℝ)| = k from abs_of_nonneg (Nat.cast_nonneg k), mul_comm]

theorem chipow_w (P : Prob X) (l : List (ℕ × Datum X)) (a : List ℝ) :
    expChipow (P.weighted l) a (fun _ => 1) = expChipow (P.repeated l) a fun _ => 1 := by
  unfold expChipow
  refine sum_counted _ _ (fun k d => ?_) l
  have e' : (P.weighted l).residual (allBut a 2) { d with w := k } = (P.repeated l).residual (allBut a 2) d := rfl
  simp only [weighted_hasW, repeated_hasW, if_true, Bool.false_eq_true, if_false, e']
  ring

/-- Chi squared and the best noise scales are the same. -/
theorem C125_scale (P : Prob X) (l : List (ℕ × Datum X)) (a : List ℝ) :
    (∀ nh, getChisq (P.weighted l) nh a = getChisq (P.repeated l) nh a) ∧
    gaussScale (P.weighted l).sumweight (P.weighted l) a = gaussScale (P.repeated l).sumweight (P.repeated l) a ∧
    laplaceScale (P.weighted l).sumweight (P.weighted l) a = laplaceScale (P.repeated l).sumweight (P.repeated l) a ∧
    powerScale (P.weighted l).sumweight (P.weighted l) a = powerScale (P.repeated l).sumweight (P.repeated l) a := by
  refine ⟨fun nh => chisq_w P l nh a, ?_, ?_, ?_⟩
  · simp only [gaussScale, chisq_w, sumweight_w]
  · simp only [laplaceScale, sumRes_w, sumweight_w]
  · simp only [powerScale, chipow_w, sumweight_w]

/-! ## What is not so -/

/-- One point at 0 with value `y`; the model is its parameter. -/
def onePoint (y : ℝ) : Datum ℝ := ⟨0, y, 1, 1⟩

/-- A constant. -/
def flatProb : Prob ℝ := ⟨[], 1, fun _ p => p.getD 0 0, fun _ _ => [1], false, .none, none⟩

/-- A mixture of two Gauss distributions: half of the points have scale 1, the others scale 2. A point with weight 2
has not the likelihood of two points: either both belong to the first distribution or both to the second. -/
theorem C125_counterexample_mixed :
    logLhood (mixLd gaussDist gaussDist (flatProb.weighted [(2, onePoint 0)]) [0, 1, 2, 1 / 2])
        (flatProb.weighted [(2, onePoint 0)])
      ≠ logLhood (mixLd gaussDist gaussDist (flatProb.repeated [(2, onePoint 0)]) [0, 1, 2, 1 / 2])
        (flatProb.repeated [(2, onePoint 0)]) := by
  have p1 : mixP1 (X := ℝ) gaussDist [0, 1, 2, 1 / 2] = [0, 1] := by simp [mixP1, gaussDist, allBut]
  have p2 : mixP2 (X := ℝ) gaussDist gaussDist [0, 1, 2, 1 / 2] = [0, 2] := by simp [mixP2, gaussDist, allBut]
  have pf : fromEnd [0, 1, 2, (1 / 2 : ℝ)] 1 = 1 / 2 := by simp [fromEnd]
  have hm : ∀ (P : Prob ℝ) d, mixLd gaussDist gaussDist P [0, 1, 2, 1 / 2] d
      = log (exp (gaussLd P [0, 1] d + log (1 / 2)) + exp (gaussLd P [0, 2] d + log (1 / 2))) := by
    intro P d
    unfold mixLd
    rw [p1, p2, pf, if_neg (by norm_num), if_neg (by norm_num)]
    norm_num [logaddexp, gaussDist]
  have hg : gaussLd (flatProb.repeated [(2, onePoint 0)]) [0, 2] (onePoint 0)
      = gaussLd (flatProb.repeated [(2, onePoint 0)]) [0, 1] (onePoint 0) - log 2 := by
    have : log (2 * 2 : ℝ) = log 2 + log 2 := log_mul (by norm_num) (by norm_num)
    simp only [gaussLd, gaussS2, Prob.varyy, Prob.accuracy, flatProb, Prob.repeated, onePoint, fromEnd,
      Prob.weightedResSq, Prob.residual, Prob.fold]
    norm_num
    norm_num at this
    rw [this]
    ring
  have hl : logLhood (mixLd gaussDist gaussDist (flatProb.weighted [(2, onePoint 0)]) [0, 1, 2, 1 / 2])
        (flatProb.weighted [(2, onePoint 0)])
      = mixLd gaussDist gaussDist (flatProb.weighted [(2, onePoint 0)]) [0, 1, 2, 1 / 2]
        { onePoint 0 with w := ((2 : ℕ) : ℝ) } := by
    simp [logLhood, Prob.weighted, counted]
  have hr : logLhood (mixLd gaussDist gaussDist (flatProb.repeated [(2, onePoint 0)]) [0, 1, 2, 1 / 2])
        (flatProb.repeated [(2, onePoint 0)])
      = 2 * mixLd gaussDist gaussDist (flatProb.repeated [(2, onePoint 0)]) [0, 1, 2, 1 / 2] (onePoint 0) := by
    simp [logLhood, Prob.repeated, copies, List.replicate]
    ring
  rw [hl, hr, hm, hm, gauss_w, gauss_w, hg]
  generalize gaussLd (flatProb.repeated [(2, onePoint 0)]) [0, 1] (onePoint 0) = g
  have hu := exp_pos g
  have e1 : exp (((2 : ℕ) : ℝ) * g + log (1 / 2)) = exp g ^ 2 / 2 := by
    rw [exp_add, exp_log (by norm_num), ← exp_nat_mul]
    ring
  have e2 : exp (((2 : ℕ) : ℝ) * (g - log 2) + log (1 / 2)) = exp g ^ 2 / 8 := by
    rw [exp_add, exp_log (by norm_num), exp_nat_mul, exp_sub, exp_log (by norm_num)]
    ring
  have e3 : exp (g + log (1 / 2)) = exp g / 2 := by
    rw [exp_add, exp_log (by norm_num)]
    ring
  have e4 : exp (g - log 2 + log (1 / 2)) = exp g / 4 := by
    rw [exp_add, exp_log (by norm_num), exp_sub, exp_log (by norm_num)]
    ring
  rw [e1, e2, e3, e4]
  intro h
  have h := congrArg exp h
  rw [exp_log (by positivity), show (2 : ℝ) * log (exp g / 2 + exp g / 4) = ((2 : ℕ) : ℝ) * log (exp g / 2 + exp g / 4)
    by norm_num, exp_nat_mul, exp_log (by positivity)] at h
  nlinarith [sq_pos_of_pos hu]

/-- The Cauchy, Poisson and Bernoulli distributions take no notice of weights. -/
theorem C125_counterexample_ignored (P : Prob X) (l : List (ℕ × Datum X)) (a : List ℝ) :
    logLhood (cauchyLd (P.weighted l) a) (P.weighted l)
      = logLhood (cauchyLd (P.repeated (l.map fun c => (1, c.2))) a) (P.repeated (l.map fun c => (1, c.2))) ∧
    (∀ lf, logLhoodOpt (poissonLd lf (P.weighted l) a) (P.weighted l)
      = logLhoodOpt (poissonLd lf (P.repeated (l.map fun c => (1, c.2))) a) (P.repeated (l.map fun c => (1, c.2)))) ∧
    logLhoodOpt (bernoulliLd (P.weighted l) a) (P.weighted l)
      = logLhoodOpt (bernoulliLd (P.repeated (l.map fun c => (1, c.2))) a) (P.repeated (l.map fun c => (1, c.2))) := by
  have e : copies (l.map fun c => (1, c.2)) = l.map Prod.snd := by
    induction l with
    | nil => rfl
    | cons c l ih =>
      show c.2 :: copies (l.map fun c => (1, c.2)) = _
      rw [ih]; rfl
  refine ⟨?_, fun lf => ?_, ?_⟩
  · show ((counted l).map _).sum = ((copies _).map _).sum
    rw [e, counted, List.map_map, List.map_map]
    rfl
  · show sumOpt ((counted l).map _) = sumOpt ((copies _).map _)
    rw [e, counted, List.map_map, List.map_map]
    rfl
  · show sumOpt ((counted l).map _) = sumOpt ((copies _).map _)
    rw [e, counted, List.map_map, List.map_map]
    rfl

/-- So a point with weight 2 is one point for the Cauchy distribution, not two. -/
theorem C125_counterexample_cauchy :
    logLhood (cauchyLd (flatProb.weighted [(2, onePoint 0)]) [0, 1]) (flatProb.weighted [(2, onePoint 0)]) = -log π ∧
    logLhood (cauchyLd (flatProb.repeated [(2, onePoint 0)]) [0, 1]) (flatProb.repeated [(2, onePoint 0)])
      = -2 * log π ∧ -log π ≠ -2 * log π := by
  have hp : 0 < log π := log_pos (by linarith [pi_gt_three])
  refine ⟨?_, ?_, by linarith⟩
  · simp [logLhood, cauchyLd, Prob.weighted, counted, flatProb, onePoint, allBut, Prob.residual, Prob.fold, scaleOf,
      Prob.hasAccuracy, fromEnd]
  · simp [logLhood, cauchyLd, Prob.repeated, copies, flatProb, onePoint, allBut, Prob.residual, Prob.fold, scaleOf,
      Prob.hasAccuracy, fromEnd, List.replicate]
    ring

/-- Points that are there three times and once meet the condition of `C125_uniform_partial`. -/
example : ∀ c ∈ [(3, onePoint 0), (1, onePoint 1)], c.1 ≠ 0 := by simp

/-- The uniform distribution: a point with weight 0, which should not count, makes the likelihood not finite when it is
too far from the model (it is not a number in numpy); it also decides the scale. -/
theorem C125_counterexample_uniform :
    logLhoodOpt (uniformLd (flatProb.weighted [(1, onePoint 0), (0, onePoint 5)]) [0, 1])
        (flatProb.weighted [(1, onePoint 0), (0, onePoint 5)]) = none ∧
    logLhoodOpt (uniformLd (flatProb.repeated [(1, onePoint 0), (0, onePoint 5)]) [0, 1])
        (flatProb.repeated [(1, onePoint 0), (0, onePoint 5)]) = some (-log 2) ∧
    uniformScale (flatProb.weighted [(1, onePoint 0), (0, onePoint 5)]) [0, 1] = 5 ∧
    uniformScale (flatProb.repeated [(1, onePoint 0), (0, onePoint 5)]) [0, 1] = 0 := by
  refine ⟨?_, ?_, ?_, ?_⟩
  · simp [logLhoodOpt, Prob.weighted, counted, uniformLd, scaleOf, Prob.hasAccuracy, flatProb, onePoint, fromEnd,
      allBut, sumOpt]
  · simp [logLhoodOpt, Prob.repeated, copies, uniformLd, scaleOf, Prob.hasAccuracy, flatProb, onePoint, fromEnd,
      allBut, sumOpt]
  · simp [uniformScale, Prob.weighted, counted, flatProb, onePoint, allBut, Prob.residual, Prob.fold]
  · simp [uniformScale, Prob.repeated, copies, flatProb, onePoint, allBut, Prob.residual, Prob.fold]

end BF.ErrDis
