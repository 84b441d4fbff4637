import Mathlib.Analysis.Real.Pi.Bounds
import Verif.Props.MaxLike

/-!
# More properties of maximum likelihood fitters

C84: the hessian that is handed to a minimiser. C85: the noise scale and the log likelihood after the fit.
C86: limits in a fit by scipy.
-/

noncomputable section

namespace BF.ErrDis

open Real

variable {X : Type*}

/-! ## Hessians of models that are linear in the parameters -/

/-- The partials do not depend on the parameters, and they are the partials. -/
def Prob.Linear (P : Prob X) (B : X → List ℝ) : Prop := (∀ x p, P.df x p = B x) ∧ ∀ p, p.length = P.np → P.Smooth p

theorem chi_second (P : Prob X) (B : X → List ℝ) (hB : P.Linear B) (params : List ℝ)
    (hnp : params.length = P.np) (index : List ℕ) (par : List ℝ) (h : Fitted params index par) (a b : ℕ)
    (ha : a < index.length) (v : ℝ) (hv : par[b]? = some v) :
    HasDerivAt (fun t => (chiDfunc P params index (par.set b t)).getD a 0) (2 * chiHess P index par a b) v := by
  have hbl : b < index.length := by
    rw [← h.length]
    exact (List.getElem?_eq_some_iff.1 hv).1
  have hb : index[b]? = some index[b] := List.getElem?_eq_getElem hbl
  set k := index[b] with hk
  have hkd : index.getD b 0 = k := by simp [List.getD_eq_getElem?_getD, hb]
  set q := insertPars params index par with hq
  have hqk : q[k]? = some v := insert_get params index par h b k v hb hv
  have hql : q.length = P.np := by rw [hq, insert_length]; exact hnp
  have h1 : ∀ t, (chiDfunc P params index (par.set b t)).getD a 0
      = 2 * (P.data.map fun d => (B d.x).getD (index.getD a 0) 0
          * ((P.f d.x (q.set k t) - d.y) * P.fitWgt d)).sum := by
    intro t
    simp only [chiDfunc, insert_move params index par h b k t hb, ← hq, hB.1]
    simp [List.getD_eq_getElem?_getD, ha]
  simp only [h1]
  refine HasDerivAt.const_mul 2 ?_
  unfold chiHess
  simp only [hB.1]
  apply hasDerivAt_listSum P.data (fun d t => (B d.x).getD (index.getD a 0) 0
          * ((P.f d.x (q.set k t) - d.y) * P.fitWgt d))
  intro d hd
  have h2 := hasDerivAt_f P q (hB.2 q hql) d hd k v hqk
  rw [hB.1] at h2
  rw [hkd]
  exact ((h2.sub_const d.y).mul_const _).const_mul _

/-- The hessian of chi-squared is half the second derivative of the function. -/
theorem C84_hessian_partial (P : Prob X) (B : X → List ℝ) (hB : P.Linear B) (params : List ℝ)
    (hnp : params.length = P.np) (index : List ℕ) (par : List ℝ) (h : Fitted params index par) (a b : ℕ)
    (ha : a < index.length) (v : ℝ) (hv : par[b]? = some v) :
    HasDerivAt (fun t => (chiDfunc P params index (par.set b t)).getD a 0 / 2) (chiHess P index par a b) v := by
  refine ((chi_second P B hB params hnp index par h a b ha v hv).div_const 2).congr_deriv ?_
  ring

/-- So it is never the second derivative itself, unless that is zero. -/
theorem C84_counterexample_half (P : Prob X) (B : X → List ℝ) (hB : P.Linear B) (params : List ℝ)
    (hnp : params.length = P.np) (index : List ℕ) (par : List ℝ) (h : Fitted params index par) (a b : ℕ)
    (ha : a < index.length) (v : ℝ) (hv : par[b]? = some v) (h0 : chiHess P index par a b ≠ 0) :
    ¬ HasDerivAt (fun t => (chiDfunc P params index (par.set b t)).getD a 0) (chiHess P index par a b) v := by
  intro h1
  have := h1.unique (chi_second P B hB params hnp index par h a b ha v hv)
  apply h0
  linarith

theorem gauss_second (P : Prob X) (hc : P.cyclic = none) (B : X → List ℝ) (hB : P.Linear B) (params : List ℝ)
    (hnp : params.length = P.np) (index : List ℕ) (par : List ℝ) (h : Fitted params index par) (scale : ℝ)
    (a b : ℕ) (ha : a < index.length) (v : ℝ) (hv : par[b]? = some v) :
    HasDerivAt (fun t => (Kind.gauss.dfunc P params index [scale] (par.set b t)).getD a 0)
      ((P.data.map fun d => (B d.x).getD (index.getD a 0) 0 * (B d.x).getD (index.getD b 0) 0 * P.fitWgt d).sum
        / (scale * scale)) v := by
  have hbl : b < index.length := by
    rw [← h.length]
    exact (List.getElem?_eq_some_iff.1 hv).1
  have hb : index[b]? = some index[b] := List.getElem?_eq_getElem hbl
  set k := index[b] with hk
  have hkd : index.getD b 0 = k := by simp [List.getD_eq_getElem?_getD, hb]
  set q := insertPars params index par with hq
  have hqk : q[k]? = some v := insert_get params index par h b k v hb hv
  have hql : q.length = P.np := by rw [hq, insert_length]; exact hnp
  have h1 : ∀ t, (Kind.gauss.dfunc P params index [scale] (par.set b t)).getD a 0
      = -(P.data.map fun d => (d.y - P.f d.x (q.set k t)) * P.fitWgt d * (B d.x).getD (index.getD a 0) 0
          / (scale * scale)).sum := by
    intro t
    have hn : (index.map fun k : ℕ => (k : ℤ))[a]? = some ((index[a] : ℕ) : ℤ) := by simp [ha]
    simp only [Kind.dfunc, Kind.pd, partialLogL, insert_move params index par h b k t hb, ← hq]
    rw [List.getD_eq_getElem?_getD, List.getElem?_map, List.getElem?_map, hn]
    simp only [Option.map_some, Option.getD_some]
    congr 1
    simp only [Prob.land, List.map_map]
    congr 1
    apply List.map_congr_left
    intro d _
    have ht : ((q.set k t) ++ [scale]).take P.np = q.set k t := take_left' _ _ _ (by simp [hql])
    simp only [Function.comp_apply, gaussPd, gaussS2, fromEnd_one, Prob.weightedResSq, Prob.residual, Prob.fold, hc,
      Prob.dM, ht, hB.1, Prob.varyy, Prob.accuracy, if_true, if_pos (show (0 : ℤ) ≤ ((index[a] : ℕ) : ℤ) by omega),
      Int.toNat_natCast]
    simp [List.getD_eq_getElem?_getD, ha]
  simp only [h1]
  have h2 : ∀ l : List (Datum X), (l.map fun d => (B d.x).getD (index.getD a 0) 0 * (B d.x).getD (index.getD b 0) 0
      * P.fitWgt d).sum / (scale * scale)
      = -(l.map fun d => -((B d.x).getD k 0) * P.fitWgt d * (B d.x).getD (index.getD a 0) 0
          / (scale * scale)).sum := by
    intro l
    rw [hkd]
    induction l with
    | nil => simp
    | cons d l ih =>
      simp only [List.map_cons, List.sum_cons, add_div, ih]
      ring
  rw [h2]
  refine HasDerivAt.fun_neg ?_
  apply hasDerivAt_listSum P.data (fun d t => (d.y - P.f d.x (q.set k t)) * P.fitWgt d
      * (B d.x).getD (index.getD a 0) 0 / (scale * scale))
  intro d hd
  have h3 := hasDerivAt_f P q (hB.2 q hql) d hd k v hqk
  rw [hB.1] at h3
  exact (((h3.const_sub d.y).mul_const _).mul_const _).div_const _

theorem gauss_hess (P : Prob X) (B : X → List ℝ) (hB : P.Linear B) (params : List ℝ)
    (hnp : params.length = P.np) (index : List ℕ) (par : List ℝ) (h : Fitted params index par) (h0 : index ≠ [])
    (scale : ℝ) :
    gaussHess P params index [scale] par = some fun a b =>
      -((P.data.map fun d => (B d.x).getD (index.getD a 0) 0 * (B d.x).getD (index.getD b 0) 0
        * (P.fitWgt d * P.fitWgt d)).sum / (scale * scale)) := by
  have hql : (insertPars params index par).length = P.np := by rw [insert_length]; exact hnp
  have hlast : ¬ (index = [] ∨ index.getLast? = some P.land.np) := by
    rw [show P.land.np = P.np from rfl]
    rintro (h1 | h1)
    · exact h0 h1
    · have := h.range P.np (List.mem_of_getLast? h1)
      omega
  unfold gaussHess hessianLogL
  rw [if_neg hlast]
  simp only [Option.map_some, Option.some.injEq, Prob.land, if_true, hB.1, List.map_map]
  funext a b
  congr 2
  · congr 1
    apply List.map_congr_left
    intro d _
    simp only [Function.comp_apply]
    ring
  · simp [← hql]

/-- Without weights and accuracies the hessian of the Gauss distribution is minus the second derivative of the
function. -/
theorem C84_hessian_gauss_partial (P : Prob X) (hc : P.cyclic = none) (hw : P.hasW = false) (hacc : P.acc = .none)
    (B : X → List ℝ) (hB : P.Linear B) (params : List ℝ) (hnp : params.length = P.np) (index : List ℕ)
    (par : List ℝ) (h : Fitted params index par) (h0 : index ≠ []) (scale : ℝ) :
    ∃ H, gaussHess P params index [scale] par = some H ∧
      ∀ (a b : ℕ) (v : ℝ), a < index.length → par[b]? = some v →
        HasDerivAt (fun t => (Kind.gauss.dfunc P params index [scale] (par.set b t)).getD a 0) (-H a b) v := by
  refine ⟨_, gauss_hess P B hB params hnp index par h h0 scale, ?_⟩
  intro a b v ha hv
  refine (gauss_second P hc B hB params hnp index par h scale a b ha v hv).congr_deriv ?_
  have h1 : ∀ d : Datum X, P.fitWgt d = 1 := by
    intro d
    simp only [Prob.fitWgt, hacc, hw]
    norm_num
  simp [h1]

theorem demo_linear : demo.Linear fun x => [x] := by
  refine ⟨fun x p => rfl, ?_⟩
  intro p hp
  have : ∃ a, p = [a] := by
    rcases p with _ | ⟨a, _ | ⟨b, l⟩⟩
    · simp [demo] at hp
    · exact ⟨a, rfl⟩
    · simp [demo] at hp
  obtain ⟨a, rfl⟩ := this
  exact demo_smooth a

theorem demo_fitted (a b : ℝ) : Fitted [a] [0] [b] := ⟨by simp, by simp, rfl, fun _ => rfl⟩

/-- With weights the hessian of the Gauss distribution is not even minus the second derivative, which is 6 for these
data: it holds the squares of the weights. -/
theorem C84_counterexample_weights :
    HasDerivAt (fun t => (Kind.gauss.dfunc demo [1] [0] [1] ([1].set 0 t)).getD 0 0) 6 1 ∧
    ∃ H, gaussHess demo [1] [0] [1] [1] = some H ∧ H 0 0 = -8 := by
  constructor
  · refine (gauss_second demo rfl _ demo_linear [1] rfl [0] [1] (demo_fitted 1 1) 1 0 0 (by simp) 1 rfl).congr_deriv ?_
    simp [demo, Prob.fitWgt]
    norm_num
  · refine ⟨_, gauss_hess demo _ demo_linear [1] rfl [0] [1] (demo_fitted 1 1) (by simp) 1, ?_⟩
    simp [demo, Prob.fitWgt]
    norm_num

/-! ## After the fit -/

theorem insert_self (params : List ℝ) (index : List ℕ) : insertPars params index params = params := by
  simp [insertPars]

theorem fitWgt_none (P : Prob X) (hacc : P.acc = .none) (d : Datum X) : P.fitWgt d = P.wgt d := by
  simp only [Prob.fitWgt, Prob.wgt, hacc]
  split <;> norm_num

theorem land_ld (P : Prob X) (hacc : P.acc = .none) (e : Kind) (a : List ℝ) (d : Datum X) :
    e.ld P.land a { d with w := P.fitWgt d } = e.ld P a d := by
  have h1 : P.land.hasAccuracy = P.hasAccuracy := by simp [Prob.land, Prob.hasAccuracy, hacc]
  have h2 : ∀ d' : Datum X, P.land.accuracy d' = 0 := fun d' => rfl
  have h3 : ∀ d' : Datum X, P.accuracy d' = 0 := fun d' => by simp [Prob.accuracy, hacc]
  have h4 : P.land.hasW = true := rfl
  have h5 : ∀ p w, P.land.residual p { d with w := w } = P.residual p d := fun p w => rfl
  have h6 : P.land.np = P.np := rfl
  rw [fitWgt_none P hacc]
  rcases e
  · simp only [Kind.ld, gaussLd, gaussS2, Prob.weightedResSq, Prob.varyy, h2, h3, h4, h5, h6, Prob.wgt]
    rcases P.hasW with _ | _ <;> simp
  · simp only [Kind.ld, laplaceLd, scaleOf, h1, h2, h3, h4, h5, h6, Prob.wgt]
    rcases P.hasW with _ | _ <;> simp
  · simp only [Kind.ld, cauchyLd, scaleOf, h1, h2, h3, h5]
  · simp only [Kind.ld, expLd, expScale, h1, h2, h3, h4, h5, Prob.wgt]
    rcases P.hasW with _ | _ <;> simp

theorem land_like (P : Prob X) (hacc : P.acc = .none) (e : Kind) (a : List ℝ) :
    logLhood (e.ld P.land a) P.land = logLhood (e.ld P a) P := by
  unfold logLhood
  rw [show P.land.data = P.data.map fun d => { d with w := P.fitWgt d } from rfl, List.map_map]
  congr 1
  apply List.map_congr_left
  intro d _
  exact land_ld P hacc e a d

/-- After a fit without accuracies, with or without weights and kept parameters, the log likelihood is the one of
the error distribution at the parameters of the model and the given scale. -/
theorem C85_likelihood_partial (bisect : (ℝ → ℝ) → ℝ → ℝ → Option ℝ) (P : Prob X) (hacc : P.acc = .none) (e : Kind)
    (params : List ℝ) (index : List ℕ) (hypar : List ℝ) :
    e.getLogLikelihood bisect P params index hypar false = some (logLhood (e.ld P (params ++ hypar)) P, hypar) := by
  simp only [Kind.getLogLikelihood, Kind.func, insert_self, land_like P hacc, Bool.false_eq_true, if_false, neg_neg]

theorem land_sumweight (P : Prob X) (hacc : P.acc = .none) : P.land.sumweight = P.sumweight := by
  rw [sumweight_eq, sumweight_eq, show P.land.data = P.data.map fun d => { d with w := P.fitWgt d } from rfl,
    List.map_map]
  congr 1
  apply List.map_congr_left
  intro d _
  simp only [Function.comp_apply]
  rw [← fitWgt_none P hacc]
  rfl

theorem land_chisq (P : Prob X) (hacc : P.acc = .none) (nh : ℕ) (a : List ℝ) : getChisq P.land nh a = getChisq P nh a := by
  unfold getChisq
  dsimp only
  rw [show P.land.data = P.data.map fun d => { d with w := P.fitWgt d } from rfl, List.map_map]
  congr 1
  apply List.map_congr_left
  intro d _
  have h5 : ∀ p w, P.land.residual p { d with w := w } = P.residual p d := fun p w => rfl
  have h4 : P.land.hasW = true := rfl
  have h6 : P.land.np = P.np := rfl
  simp only [Function.comp_apply, Prob.weightedResSq, h4, h5, h6, fitWgt_none P hacc, Prob.wgt]
  rcases P.hasW with _ | _ <;> simp

theorem land_sumres (P : Prob X) (hacc : P.acc = .none) (a : List ℝ) :
    laplaceSumRes P.land a (fun _ => 1) = laplaceSumRes P a (fun _ => 1) := by
  unfold laplaceSumRes
  rw [show P.land.data = P.data.map fun d => { d with w := P.fitWgt d } from rfl, List.map_map]
  congr 1
  apply List.map_congr_left
  intro d _
  have h5 : ∀ p w, P.land.residual p { d with w := w } = P.residual p d := fun p w => rfl
  have h4 : P.land.hasW = true := rfl
  simp only [Function.comp_apply, h4, h5, fitWgt_none P hacc, Prob.wgt]
  rcases P.hasW with _ | _ <;> simp

theorem land_chipow (P : Prob X) (hacc : P.acc = .none) (a : List ℝ) :
    expChipow P.land a (fun _ => 1) = expChipow P a (fun _ => 1) := by
  unfold expChipow
  rw [show P.land.data = P.data.map fun d => { d with w := P.fitWgt d } from rfl, List.map_map]
  congr 1
  apply List.map_congr_left
  intro d _
  have h5 : ∀ p w, P.land.residual p { d with w := w } = P.residual p d := fun p w => rfl
  have h4 : P.land.hasW = true := rfl
  simp only [Function.comp_apply, h4, h5, fitWgt_none P hacc, Prob.wgt]
  rcases P.hasW with _ | _ <;> simp

/-- The noise scale after a fit with weights and without accuracies: the standard deviation that belongs to the scale
with the largest likelihood. -/
theorem C85_scale_partial (bisect : (ℝ → ℝ) → ℝ → ℝ → Option ℝ) (P : Prob X) (hacc : P.acc = .none)
    (hw : P.hasW = true) (params : List ℝ) (hnp : params.length = P.np) (hn : P.Noisy params) (s0 : ℝ) :
    (∃ s, BestScale (fun t => logLhood (gaussLd P (params ++ [t])) P) s ∧
      Kind.gauss.getScale bisect P params [s0] = some (toSigma s, [s0])) ∧
    (∃ s, BestScale (fun t => logLhood (laplaceLd P (params ++ [t])) P) s ∧
      Kind.laplace.getScale bisect P params [s0] = some (laplaceSigma s, [s0])) := by
  have hsum : P.landSum = P.sumweight := by
    simp only [Prob.landSum, hw, if_true, land_sumweight P hacc]
  constructor
  · refine ⟨_, C82_gauss P hacc params hnp hn s0, ?_⟩
    simp only [Kind.getScale, gaussScale, hsum, land_chisq P hacc]
  · refine ⟨_, C82_laplace P hacc params hnp hn s0, ?_⟩
    simp only [Kind.getScale, laplaceScale, hsum, land_sumres P hacc]

/-- Without weights the noise scale is too large, by the root of the number of data for the Gauss distribution and by
the number of data for the Laplace distribution. -/
theorem C85_counterexample_scale (bisect : (ℝ → ℝ) → ℝ → ℝ → Option ℝ) (P : Prob X) (hacc : P.acc = .none)
    (hw : P.hasW = false) (params : List ℝ) (hnp : params.length = P.np) (hn : P.Noisy params) (s0 : ℝ) :
    (∃ s, BestScale (fun t => logLhood (gaussLd P (params ++ [t])) P) s ∧
      Kind.gauss.getScale bisect P params [s0] = some (√P.data.length * toSigma s, [s0])) ∧
    (∃ s, BestScale (fun t => logLhood (laplaceLd P (params ++ [t])) P) s ∧
      Kind.laplace.getScale bisect P params [s0] = some (P.data.length * laplaceSigma s, [s0])) := by
  have hsum : P.landSum = 1 := by
    simp only [Prob.landSum, hw, hacc]
    norm_num
  have hN : P.sumweight = P.data.length := by simp [Prob.sumweight, hw]
  have hpos : (0 : ℝ) < P.data.length := by
    rw [← hN]
    exact sumweight_pos P params hn
  constructor
  · refine ⟨_, C82_gauss P hacc params hnp hn s0, ?_⟩
    simp only [Kind.getScale, gaussScale, hsum, land_chisq P hacc, hN, toSigma, div_one]
    rw [← sqrt_mul hpos.le, mul_div_cancel₀ _ hpos.ne']
  · refine ⟨_, C82_laplace P hacc params hnp hn s0, ?_⟩
    simp only [Kind.getScale, laplaceScale, hsum, land_sumres P hacc, hN, laplaceSigma, div_one]
    congr 2
    field_simp

/-- With one accuracy for all data, and without weights, the noise scale is the root of the sum of the squares of the
residuals: neither their mean square, nor measured in units of the accuracy. -/
theorem C85_counterexample_scale_accuracy (bisect : (ℝ → ℝ) → ℝ → ℝ → Option ℝ) (P : Prob X) (a : ℝ) (ha : a ≠ 0)
    (hacc : P.acc = .scalar a) (hw : P.hasW = false) (params : List ℝ) (hnp : params.length = P.np) (s0 : ℝ) :
    Kind.gauss.getScale bisect P params [s0] = some (√(P.data.map fun d => P.residual params d ^ 2).sum, [s0]) := by
  have hsum : P.landSum = 1 / (a * a) := by
    simp only [Prob.landSum, hw, hacc]
    norm_num
  have h1 : getChisq P.land 1 (params ++ [s0]) = (P.data.map fun d => P.residual params d ^ 2).sum * (1 / (a * a)) := by
    unfold getChisq
    dsimp only
    rw [show P.land.data = P.data.map fun d => { d with w := P.fitWgt d } from rfl, List.map_map, ← List.sum_map_mul_right]
    congr 1
    apply List.map_congr_left
    intro d _
    have h5 : ∀ p w, P.land.residual p { d with w := w } = P.residual p d := fun p w => rfl
    have h4 : P.land.hasW = true := rfl
    have h7 : allBut (params ++ [s0]) 1 = params := by simp [allBut]
    have h8 : params.take P.land.np = params := List.take_of_length_le (by rw [hnp]; exact le_rfl)
    simp only [Function.comp_apply, Prob.weightedResSq, h4, h5, if_pos (show 1 > 0 by norm_num), h7, h8, Prob.fitWgt, hacc, hw]
    norm_num
    ring
  simp only [Kind.getScale, gaussScale, hsum, h1, toSigma]
  rw [mul_div_cancel_right₀ _ (by positivity)]

/-- The log likelihood with `autoscale` after a fit with the Laplace distribution is not the largest one: the
standard deviation is used as scale. -/
theorem C85_counterexample_autoscale (bisect : (ℝ → ℝ) → ℝ → ℝ → Option ℝ) (P : Prob X) (hacc : P.acc = .none)
    (hw : P.hasW = true) (params : List ℝ) (hnp : params.length = P.np) (hn : P.Noisy params) (index : List ℕ)
    (s0 : ℝ) :
    ∃ s L hy, BestScale (fun t => logLhood (laplaceLd P (params ++ [t])) P) s ∧
      Kind.laplace.getLogLikelihood bisect P params index [s0] true = some (L, hy) ∧
      L < logLhood (laplaceLd P (params ++ [s])) P := by
  obtain ⟨s, hb, hs⟩ := (C85_scale_partial bisect P hacc hw params hnp hn s0).2
  refine ⟨s, logLhood (laplaceLd P (params ++ [laplaceSigma s])) P, [laplaceSigma s], hb, ?_, ?_⟩
  · simp only [Kind.getLogLikelihood, hs, if_true, Option.map_some, Kind.func, insert_self, land_like P hacc, neg_neg,
      List.set_cons_zero]
    rfl
  · apply hb.2
    · unfold laplaceSigma
      have := hb.1
      positivity
    · unfold laplaceSigma
      intro h
      have h1 : √2 = 1 := by
        have := hb.1.ne'
        field_simp at h
        exact h
      rw [sqrt_eq_one] at h1
      norm_num at h1

/-- After a fit with the exponential distribution, asking for the scale changes the log likelihood. -/
theorem C85_counterexample_question (bisect : (ℝ → ℝ) → ℝ → ℝ → Option ℝ) (P : Prob X) (hacc : P.acc = .none)
    (hw : P.hasW = true) (params : List ℝ) (hn : P.Noisy params) (index : List ℕ)
    (s0 : ℝ) (hs0 : 0 < s0) (hne : s0 ≠ powerScale P.sumweight P (params ++ [s0, 1])) :
    ∃ σ hy L L', Kind.exponential.getScale bisect P params [s0, 1] = some (σ, hy) ∧
      Kind.exponential.getLogLikelihood bisect P params index [s0, 1] false = some (L, [s0, 1]) ∧
      Kind.exponential.getLogLikelihood bisect P params index hy false = some (L', hy) ∧ L < L' := by
  have hsum : P.landSum = P.sumweight := by
    simp only [Prob.landSum, hw, if_true, land_sumweight P hacc]
  have hb := C82_exponential_partial P hacc params hn s0
  refine ⟨_, _, _, _, rfl, C85_likelihood_partial bisect P hacc _ params index _,
    C85_likelihood_partial bisect P hacc _ params index _, ?_⟩
  have h1 : powerScale P.landSum P.land (params ++ [s0, 1]) = powerScale P.sumweight P (params ++ [s0, 1]) := by
    simp only [powerScale, hsum, land_chipow P hacc]
  simp only [List.set_cons_zero, h1]
  exact hb.2 s0 hs0 hne

/-- One datum on the model, with an accuracy of 2. -/
def precise : Prob ℝ := { single 0 with acc := .scalar 2 }

/-- With an accuracy the log likelihood of a fit with the Gauss distribution is wrong: for a datum on the model, with
accuracy 2 and scale 1, the likelihood is larger than the top of the normal distribution with width 2, let alone a
larger one. -/
theorem C85_counterexample_accuracy (bisect : (ℝ → ℝ) → ℝ → ℝ → Option ℝ) (σ : ℝ) (hσ : 2 ≤ σ) :
    ∃ L, Kind.gauss.getLogLikelihood bisect precise [0] [0] [1] false = some (L, [1]) ∧
      (√(2 * π * σ ^ 2))⁻¹ < exp L := by
  refine ⟨-(1 / 8) * log (2 * π), ?_, ?_⟩
  · simp only [Kind.getLogLikelihood, Kind.func, insert_self, Bool.false_eq_true, if_false, neg_neg, Kind.ld]
    simp [logLhood, precise, single, Prob.land, Prob.fitWgt, gaussLd, gaussS2, Prob.weightedResSq, Prob.residual,
      Prob.fold, Prob.varyy, Prob.accuracy, LOG2PI, fromEnd]
    norm_num
    ring
  · rw [← exp_log (show 0 < √(2 * π * σ ^ 2) by positivity), ← exp_neg, exp_lt_exp, log_sqrt (by positivity),
      log_mul (by positivity) (by positivity), log_pow]
    have h1 : 0 < log (2 * π) := log_pos (by linarith [pi_gt_three])
    have h2 : 0 < log σ := log_pos (by linarith)
    push_cast
    linarith

/-! ## Scipy -/

/-- Parameters that are not fitted keep their values. -/
theorem C86_kept (minimize : (List ℝ → ℝ) → List ℝ → Option (List (List ℝ)) → Option (List ℝ))
    (hm : MinimizeSpec minimize) (func : List ℝ → ℝ) (params low high : List ℝ) (index : List ℕ)
    (hnd : index.Nodup) (hr : ∀ k ∈ index, k < params.length)
    (hf : index.length = params.length → index = List.range params.length) (limits : Bool) (p : List ℝ)
    (h : scipyFit minimize func params low high index limits = some p) (k : ℕ) (hk : k ∉ index) :
    p[k]? = params[k]? := by
  simp only [scipyFit, Option.map_eq_some_iff] at h
  obtain ⟨x, hx, rfl⟩ := h
  have hl := hm.length _ _ _ _ hx
  exact C84_kept params index x ⟨hnd, hr, by simpa using hl, hf⟩ k hk

/-- With limits it raises, unless precisely two parameters are fitted. -/
theorem C86_counterexample_number (minimize : (List ℝ → ℝ) → List ℝ → Option (List (List ℝ)) → Option (List ℝ))
    (hm : MinimizeSpec minimize) (func : List ℝ → ℝ) (params low high : List ℝ) (index : List ℕ)
    (h2 : index.length ≠ 2) : scipyFit minimize func params low high index true = none := by
  unfold scipyFit
  simp only [if_true]
  rw [hm.pairs _ _ _ (Or.inr ⟨index.map fun k => low.getD k 0, by simp, by simpa using h2⟩)]
  rfl

/-- With two parameters it takes the low limits for the limits on the first, and the high ones for those on the
second: for limits 0, 1 and 4, 6 the best values within the bounds for this function have a first parameter of 3. -/
theorem C86_counterexample_two (minimize : (List ℝ → ℝ) → List ℝ → Option (List (List ℝ)) → Option (List ℝ))
    (hm : MinimizeSpec minimize)
    (hbest : ∀ f x0 bounds x, minimize f x0 (some bounds) = some x → ∀ y : List ℝ, y.length = x0.length →
      (∀ i b, bounds[i]? = some b → b.getD 0 0 ≤ y.getD i 0 ∧ y.getD i 0 ≤ b.getD 1 0) → f x ≤ f y)
    (params : List ℝ) (hp : params.length = 2) (p : List ℝ)
    (h : scipyFit minimize (fun q => (q.getD 0 0 - 3) ^ 2 + (q.getD 1 0 - 5) ^ 2) params [0, 4] [1, 6] [0, 1] true
      = some p) :
    p.getD 0 0 = 3 := by
  simp only [scipyFit, if_true, Option.map_eq_some_iff] at h
  obtain ⟨x, hx, rfl⟩ := h
  have hl := hm.length _ _ _ _ hx
  have h1 := hbest _ _ _ _ hx [3, 5] (by simp) (by
    intro i b hb
    rcases i with _ | _ | i
    · simp at hb
      subst hb
      norm_num
    · simp at hb
      subst hb
      norm_num
    · simp at hb)
  have hxl : x.length = 2 := by simpa using hl
  rw [insertPars, if_pos (by omega)]
  simp only [List.getD_cons_zero, List.getD_cons_succ] at h1
  nlinarith [sq_nonneg (x.getD 0 0 - 3), sq_nonneg (x.getD 1 0 - 5)]

/-! ## A concrete case -/

example : Fitted [5, 6, 7] [0, 2] [1, 2] := ⟨by decide, by decide, rfl, by simp⟩

example : insertPars [5, 6, 7] [0, 2] [1, 2] = [1, 6, 2] := by simp [insertPars, putAll]

example : Grad (Kind.gauss.func demo [1] [0] [1]) [2] (Kind.gauss.dfunc demo [1] [0] [1] [2]) :=
  C84_gauss demo [1] rfl [0] [2] (demo_fitted 1 2) (by simpa [insertPars] using demo_smooth 2)
    (by simpa [insertPars] using demo_off 2) 1 2 one_ne_zero

/-- There is a minimiser as documented, which finds the best values within the bounds, and finds them for the
function of the counterexample. -/
example : ∃ minimize, MinimizeSpec minimize ∧
    (∀ f x0 bounds x, minimize f x0 (some bounds) = some x → ∀ y : List ℝ, y.length = x0.length →
      (∀ i b, bounds[i]? = some b → b.getD 0 0 ≤ y.getD i 0 ∧ y.getD i 0 ≤ b.getD 1 0) → f x ≤ f y) ∧
    ∃ p, scipyFit minimize (fun q => (q.getD 0 0 - 3) ^ 2 + (q.getD 1 0 - 5) ^ 2) [7, 8] [0, 4] [1, 6] [0, 1] true
      = some p := by
  classical
  let good : (List ℝ → ℝ) → List ℝ → Option (List (List ℝ)) → List ℝ → Prop := fun f x0 bounds x =>
    x.length = x0.length ∧ ∀ B, bounds = some B → B.length = x0.length ∧ (∀ b ∈ B, b.length = 2) ∧
      (∀ i b, B[i]? = some b → b.getD 0 0 ≤ x.getD i 0 ∧ x.getD i 0 ≤ b.getD 1 0) ∧
      ∀ y : List ℝ, y.length = x0.length →
      (∀ i b, B[i]? = some b → b.getD 0 0 ≤ y.getD i 0 ∧ y.getD i 0 ≤ b.getD 1 0) → f x ≤ f y
  have spec : ∀ f x0 bounds x, (if h : ∃ x, good f x0 bounds x then some h.choose else none) = some x →
      good f x0 bounds x := by
    intro f x0 bounds x h
    split at h
    · rename_i he
      have := he.choose_spec
      simp only [Option.some.injEq] at h
      rwa [h] at this
    · simp at h
  refine ⟨fun f x0 bounds => if h : ∃ x, good f x0 bounds x then some h.choose else none, ⟨?_, ?_, ?_⟩, ?_, ?_⟩
  · intro f x0 B hB
    rw [dif_neg]
    rintro ⟨x, -, hx⟩
    obtain ⟨h1, h2, -⟩ := hx B rfl
    rcases hB with h | ⟨b, hb, h⟩
    · exact h h1
    · exact h (h2 b hb)
  · intro f x0 B x h
    exact (spec _ _ _ _ h).1
  · intro f x0 B x h
    exact ((spec _ _ _ _ h).2 B rfl).2.2.1
  · intro f x0 B x h
    exact ((spec _ _ _ _ h).2 B rfl).2.2.2
  · have hgood : ∃ x, good (fun q => (q.getD 0 0 - 3) ^ 2 + (q.getD 1 0 - 5) ^ 2) [7, 8] (some [[0, 4], [1, 6]]) x := by
      refine ⟨[3, 5], rfl, ?_⟩
      intro B hB
      simp only [Option.some.injEq] at hB
      subst hB
      refine ⟨rfl, by simp, ?_, ?_⟩
      · intro i b hb
        rcases i with _ | _ | i
        · simp at hb
          subst hb
          norm_num
        · simp at hb
          subst hb
          norm_num
        · simp at hb
      · intro y _ _
        norm_num
        positivity
    rw [← Option.isSome_iff_exists]
    simp only [scipyFit, if_true]
    simp only [List.map_cons, List.map_nil, List.getD_cons_zero, List.getD_cons_succ]
    rw [dif_pos (by simpa using hgood)]
    rfl

end BF.ErrDis
