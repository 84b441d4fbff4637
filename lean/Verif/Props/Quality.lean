import Verif.Props.Repeats
import Verif.Props.RepeatsErr

/-!
# C126: weights equal to the inverse squares of the accuracies give the same fit

The manual: "When choosing weight = accuracy^-2, the difference only matters in the calculation of the evidence."
-/

noncomputable section

namespace BF.Quality

open BF.Fitters Finset BF.Repeats

variable {X : Type}

/-- The same data, in `d` with accuracies `a`, in `e` with the weights that are the inverse squares of them. -/
structure SameQuality (d e : Data X) (a : ℕ → ℝ) : Prop where
  n : e.n = d.n
  x : e.x = d.x
  y : e.y = d.y
  acc : d.accuracy = some a
  noWgt : d.weights = none
  wgt : e.weights = some fun i => (a i)⁻¹ ^ 2
  noAcc : e.accuracy = none

theorem SameQuality.fitWgts {d e : Data X} {a : ℕ → ℝ} (h : SameQuality d e a) : d.fitWgts = e.fitWgts := by
  funext i
  unfold Data.fitWgts
  rw [h.acc, h.noWgt, h.wgt, h.noAcc]
  simp only
  rw [inv_pow, sq, one_div, one_mul]

theorem SameQuality.hessian {d e : Data X} {a : ℕ → ℝ} (h : SameQuality d e a) (m : Lin X) (s : Fitter) (fi : List ℤ) :
    getHessian m d s fi = getHessian m e s fi := by
  funext j k
  simp only [getHessian, getDesign, allWgts, h.fitWgts, h.n, h.x]

theorem SameQuality.vector {d e : Data X} {a : ℕ → ℝ} (h : SameQuality d e a) (m : Lin X) (s : Fitter) (fi : List ℤ)
    (yd : ℕ → ℝ) : getVector m d s fi yd = getVector m e s fi yd := by
  funext j
  simp only [getVector, getDesign, h.n, h.x]

/-- The linear fit is the same. -/
theorem C126_fit (solve : ℕ → (ℕ → ℕ → ℝ) → (ℕ → ℝ) → Option (ℕ → ℝ)) (m : Lin X) {d e : Data X} {a : ℕ → ℝ}
    (h : SameQuality d e a) (s : Fitter) (keep : Option (List (ℤ × ℝ))) :
    fit solve m d s keep = fit solve m e s keep := by
  simp only [fit, h.hessian, h.vector, h.fitWgts, h.n, h.x, h.y]

theorem chi_quality (m : Lin X) {d e : Data X} {a : ℕ → ℝ} (h : SameQuality d e a) (p : ℕ → ℝ) :
    chiSquared m d p = chiSquared m e p := by
  simp only [chiSquared, h.fitWgts, h.n, h.x, h.y]

theorem SameQuality.lmHessian {d e : Data X} {a : ℕ → ℝ} (h : SameQuality d e a) (m : LM.Nl X) (s : Fitter) (p : ℕ → ℝ)
    (fi : List ℤ) : LM.hessian m d s p fi = LM.hessian m e s p fi := by
  funext j k
  simp only [LM.hessian, LM.design, allWgts, h.fitWgts, h.n, h.x]

theorem SameQuality.lmVector {d e : Data X} {a : ℕ → ℝ} (h : SameQuality d e a) (m : LM.Nl X) (s : Fitter) (p : ℕ → ℝ)
    (fi : List ℤ) (yd : ℕ → ℝ) : LM.vector m d s p fi yd = LM.vector m e s p fi yd := by
  funext j
  simp only [LM.vector, LM.design, h.n, h.x]

theorem lm_chiExtra (m : LM.Nl X) {d e : Data X} {a : ℕ → ℝ} (h : SameQuality d e a) (s : Fitter) (p : ℕ → ℝ) :
    LM.chiExtra m d s p = LM.chiExtra m e s p := by
  simp only [LM.chiExtra, LM.chisq, h.fitWgts, h.n, h.x, h.y]

section LM

variable (solve : ℕ → (ℕ → ℕ → ℝ) → (ℕ → ℝ) → Option (ℕ → ℝ)) (m : LM.Nl X) (s : Fitter)
  (lims : Option (ℕ → LM.Lim)) (fi : List ℤ)

theorem trialLoop_quality {d e : Data X} {a : ℕ → ℝ} (h : SameQuality d e a) (params vec : ℕ → ℝ) (chi : ℝ)
    (same : Bool) (left : ℕ) :
    ∀ hes lamda mp, LM.trialLoop ⟨solve, m, d, s, lims, fi⟩ params vec chi same left hes lamda mp
      = LM.trialLoop ⟨solve, m, e, s, lims, fi⟩ params vec chi same left hes lamda mp := by
  induction left with
  | zero => intro hes lamda mp; rfl
  | succ n ih =>
    intro hes lamda mp
    simp only [LM.trialLoop, lm_chiExtra m h, ih]

theorem trialfit_quality {d e : Data X} {a : ℕ → ℝ} (h : SameQuality d e a) (params mp : ℕ → ℝ) (chi : ℝ)
    (same : Bool) (left : ℕ) (lamda : ℝ) :
    LM.trialfit ⟨solve, m, d, s, lims, fi⟩ params mp chi same left lamda
      = LM.trialfit ⟨solve, m, e, s, lims, fi⟩ params mp chi same left lamda := by
  simp only [LM.trialfit, h.lmHessian, h.lmVector, h.fitWgts, h.n, h.x, h.y,
    trialLoop_quality solve m s lims fi h]

theorem mainLoop_quality {d e : Data X} {a : ℕ → ℝ} (h : SameQuality d e a) (tolerance : ℝ) (fuel : ℕ) :
    ∀ left lamda chi trypar mp same steps,
      LM.mainLoop ⟨solve, m, d, s, lims, fi⟩ tolerance fuel left lamda chi trypar mp same steps
      = LM.mainLoop ⟨solve, m, e, s, lims, fi⟩ tolerance fuel left lamda chi trypar mp same steps := by
  induction fuel with
  | zero => intros; rfl
  | succ n ih =>
    intro left lamda chi trypar mp same steps
    simp only [LM.mainLoop, trialfit_quality solve m s lims fi h, ih]

/-- The Levenberg-Marquardt fit is the same, step for step. -/
theorem C126_lm {d e : Data X} {a : ℕ → ℝ} (h : SameQuality d e a) (keep : Option (List (ℤ × ℝ)))
    (par0 : Option (ℕ → ℝ)) (tolerance : ℝ) (maxiter : ℕ) :
    LM.fit solve m d s lims keep par0 tolerance maxiter = LM.fit solve m e s lims keep par0 tolerance maxiter := by
  simp only [LM.fit, LM.fitLoop, lm_chiExtra m h, mainLoop_quality solve m _ lims _ h]

end LM

/-! ## After the fit -/

open Evidence

/-- Parameters, chi squared and Hessian are the same after the fit. The likelihood differs by a term in which the
parameters do not occur. -/
theorem C126_after_partial (solve : ℕ → (ℕ → ℕ → ℝ) → (ℕ → ℝ) → Option (ℕ → ℝ)) (m : Lin X) {i j : Inp X} {a : ℕ → ℝ}
    (hacc : i.acc = .array a) (hj : j.acc = .none) (h : SameQuality i.data j.data a) (c : Start)
    (keep : Option (List (ℤ × ℝ))) :
    (fitState solve m c i keep = none ↔ fitState solve m c j keep = none) ∧
    ∀ t u, fitState solve m c i keep = some t → fitState solve m c j keep = some u →
      u.base = t.base ∧ u.chisq = t.chisq ∧ u.hessian = t.hessian ∧
      ∀ var, getLogLikelihood u var = getLogLikelihood t var
        + (∑ k ∈ range i.n, Real.log (a k)
          - (∑ k ∈ range i.n, (a k)⁻¹ ^ 2 - i.n) / 2 * Real.log (2 * Real.pi * var)) := by
  have hf := C126_fit solve m h c.base keep
  constructor
  · simp only [fitState, hf, Option.map_eq_none_iff]
  · intro t u ht hu
    unfold fitState at ht hu
    rw [hf] at ht
    rcases hs : fit solve m j.data c.base keep with _ | s
    · rw [hs] at ht; cases ht
    · rw [hs] at ht hu
      have ht := Option.some.inj ht
      have hu := Option.some.inj hu
      have hH : ∀ fi, hessianOf m i.data s fi = hessianOf m j.data s fi := by
        intro fi
        simp only [hessianOf, hessMat, h.hessian]
      have hchi : u.chisq = t.chisq := by rw [← ht, ← hu]; exact (chi_quality m h _).symm
      refine ⟨by rw [← ht, ← hu], hchi, by rw [← ht, ← hu]; exact (hH _).symm, fun var => ?_⟩
      have ti : t.inp = i := by rw [← ht]
      have ui : u.inp = j := by rw [← hu]
      have si : i.sumwgt = i.n := by
        have : i.weights = none := h.noWgt
        simp [Inp.sumwgt, this]
      have sj : j.sumwgt = ∑ k ∈ range i.n, (a k)⁻¹ ^ 2 := by
        have h1 : j.weights = some fun i => (a i)⁻¹ ^ 2 := h.wgt
        have h2 : j.n = i.n := h.n
        simp [Inp.sumwgt, h1, h2]
      unfold getLogLikelihood slacc
      rw [ti, ui, hacc, hj, si, sj, hchi]
      ring

/-- Three measurements of a constant. -/
def half : Inp ℝ := ⟨3, fun i => i, fun i => i, none, .array fun _ => 1 / 2⟩

/-- The same with weights. -/
def four : Inp ℝ := ⟨3, fun i => i, fun i => i, some fun _ => (1 / 2)⁻¹ ^ 2, .none⟩

/-- The hypotheses are met by `half` and `four`. -/
theorem half_four : SameQuality half.data four.data fun _ => 1 / 2 := ⟨rfl, rfl, rfl, rfl, rfl, rfl, rfl⟩

theorem mean_of_three (i : Inp ℝ) (hn : i.n = 3) (hy : ∀ k, i.y k = k) (hw : ∀ k, i.data.fitWgts k = 4) (t : State ℝ)
    (h : fitState solve1 constant (start 1 (fun _ => 0) none none none) i none = some t) :
    t.chisq = 8 ∧ t.base.npfit = 1 ∧ t.inp = i := by
  have hd : i.data.n = 3 := hn
  have hyd : ∀ k, i.data.y k = k := hy
  have h := Option.some.inj h
  rw [← h]
  refine ⟨?_, rfl, rfl⟩
  simp [chiSquared, hd, hyd, hw, start, initFitter, keepFixed, fitprolog, constant, insertParameters, Lin.result,
    sum_range_succ, getVector, getHessian, getDesign, allWgts, zeroed, pyIdx]
  norm_num

/-- It is not so that only the evidence differs. Accuracies do not change the number of observations, weights do, so the
noise scale differs, and with it all standard deviations. -/
theorem C126_counterexample_scale : ∃ t u,
    fitState solve1 constant (start 1 (fun _ => 0) none none none) half none = some t ∧
    fitState solve1 constant (start 1 (fun _ => 0) none none none) four none = some u ∧
    getScale t = some 2 ∧ getScale u = some (√(8 / 11)) := by
  have sc : ∀ t : State ℝ, t.chisq = 8 → ∀ D : ℝ, 0 < D → t.dof = D → getScale t = some (√(8 / D)) := by
    intro t h1 D hD hd
    rw [getScale, hd, h1, if_neg (not_le.2 hD)]
  obtain ⟨t, ht⟩ : ∃ t, fitState solve1 constant (start 1 (fun _ => 0) none none none) half none = some t := ⟨_, rfl⟩
  obtain ⟨u, hu⟩ : ∃ t, fitState solve1 constant (start 1 (fun _ => 0) none none none) four none = some t := ⟨_, rfl⟩
  refine ⟨t, u, ht, hu, ?_, ?_⟩
  · obtain ⟨h1, h2, h3⟩ := mean_of_three half rfl (fun _ => rfl)
      (fun _ => by simp [half, Inp.data, Acc.each, Data.fitWgts]; norm_num) _ ht
    rw [sc t h1 2 (by norm_num) (by rw [State.dof, h3, h2]; simp [half, Inp.sumwgt]; norm_num)]
    congr 1
    rw [show (8 / 2 : ℝ) = 2 ^ 2 by norm_num]
    exact Real.sqrt_sq (by norm_num)
  · obtain ⟨h1, h2, h3⟩ := mean_of_three four rfl (fun _ => rfl)
      (fun _ => by simp [four, Inp.data, Acc.each, Data.fitWgts]; norm_num) _ hu
    exact sc u h1 11 (by norm_num) (by rw [State.dof, h3, h2]; simp [four, Inp.sumwgt]; norm_num)

end BF.Quality

namespace BF.ErrDis

open Real

variable {X : Type*}

/-- The problem with the accuracies of the data and without weights. -/
def Prob.accurate (P : Prob X) : Prob X := { P with hasW := false, acc := .array }

/-- The problem with the inverse squares of the accuracies as weights. -/
def Prob.byWeight (P : Prob X) : Prob X :=
  { P with hasW := true, acc := .none, data := P.data.map fun d => { d with w := d.acc⁻¹ ^ 2 } }

/-- For the Gauss distribution the logarithms of the likelihood with accuracies (and no noise but that) and with weights
(and noise scale 1) differ by a number that does not depend on the parameters of the model. -/
theorem C126_gauss (P : Prob X) (p : List ℝ) (hp : p.length = P.np) :
    logLhood (gaussLd P.accurate (p ++ [0])) P.accurate
      = logLhood (gaussLd P.byWeight (p ++ [1])) P.byWeight
        + (P.data.map fun d => (d.acc⁻¹ ^ 2 - 1) / 2 * LOG2PI - log (d.acc ^ 2) / 2).sum := by
  have hl : logLhood (gaussLd P.byWeight (p ++ [1])) P.byWeight
      = (P.data.map fun d => gaussLd P.byWeight (p ++ [1]) { d with w := d.acc⁻¹ ^ 2 }).sum := by
    unfold logLhood
    rw [show P.byWeight.data = P.data.map fun d => { d with w := d.acc⁻¹ ^ 2 } from rfl, List.map_map]
    rfl
  rw [hl, ← List.sum_map_add]
  unfold logLhood
  refine congrArg List.sum (List.map_congr_left fun d _ => ?_)
  have t1 : (p ++ [0]).take P.accurate.np = p := by rw [show P.accurate.np = p.length from hp.symm]; simp
  have t2 : (p ++ [1]).take P.byWeight.np = p := by rw [show P.byWeight.np = p.length from hp.symm]; simp
  have e' : P.byWeight.residual p { d with w := d.acc⁻¹ ^ 2 } = P.accurate.residual p d := rfl
  have f0 : fromEnd (p ++ [(0 : ℝ)]) 1 = 0 := by simp [fromEnd]
  have f1 : fromEnd (p ++ [(1 : ℝ)]) 1 = 1 := by simp [fromEnd]
  have w0 : P.accurate.hasW = false := rfl
  have w1 : P.byWeight.hasW = true := rfl
  have s0 : gaussS2 P.accurate (p ++ [0]) d = 0 * 0 + d.acc * d.acc := by
    rw [gaussS2, f0]; rfl
  have s1 : gaussS2 P.byWeight (p ++ [1]) { d with w := d.acc⁻¹ ^ 2 } = 1 * 1 + 0 * 0 := by
    rw [gaussS2, f1]; rfl
  simp only [gaussLd, Prob.weightedResSq, s0, s1, t1, t2, e', w0, w1, if_true, Bool.false_eq_true, if_false]
  rw [show (1 * 1 + 0 * 0 : ℝ) = 1 by norm_num, log_one, show (0 * 0 + d.acc * d.acc : ℝ) = d.acc ^ 2 by ring]
  rw [div_eq_mul_inv, ← inv_pow]
  ring

/-- So the parameters with the largest likelihood are the same. -/
theorem C126_gauss_best (P : Prob X) (p q : List ℝ) (hp : p.length = P.np) (hq : q.length = P.np) :
    logLhood (gaussLd P.accurate (p ++ [0])) P.accurate ≤ logLhood (gaussLd P.accurate (q ++ [0])) P.accurate ↔
    logLhood (gaussLd P.byWeight (p ++ [1])) P.byWeight ≤ logLhood (gaussLd P.byWeight (q ++ [1])) P.byWeight := by
  rw [C126_gauss P p hp, C126_gauss P q hq, add_le_add_iff_right]

/-- Three points at 0 with accuracy 1, and one at 3 with accuracy 1/2. -/
def uneven : Prob ℝ :=
  { flatProb with data := [⟨0, 0, 1, 1⟩, ⟨1, 0, 1, 1⟩, ⟨2, 0, 1, 1⟩, ⟨3, 3, 1, 1 / 2⟩] }

/-- For the Laplace distribution it is not so: with accuracies 0 is a better value for the constant than 3, with weights
it is the other way round. -/
theorem C126_counterexample_laplace :
    logLhood (laplaceLd uneven.accurate [3, 1]) uneven.accurate
      < logLhood (laplaceLd uneven.accurate [0, 1]) uneven.accurate ∧
    logLhood (laplaceLd uneven.byWeight [0, 1]) uneven.byWeight
      < logLhood (laplaceLd uneven.byWeight [3, 1]) uneven.byWeight := by
  constructor
  · simp [logLhood, laplaceLd, uneven, flatProb, Prob.accurate, scaleOf, Prob.hasAccuracy, Prob.accuracy,
      Prob.residual, Prob.fold]
    norm_num
    linarith
  · simp [logLhood, laplaceLd, uneven, flatProb, Prob.byWeight, scaleOf, Prob.hasAccuracy, Prob.accuracy,
      Prob.residual, Prob.fold, fromEnd]
    norm_num
    linarith

end BF.ErrDis
