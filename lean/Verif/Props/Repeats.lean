import Verif.Evidence
import Verif.LM
import Verif.Props.Fitters
import Mathlib.Algebra.BigOperators.Ring.Finset
import Mathlib.Algebra.Order.BigOperators.Ring.Finset
import Mathlib.Tactic.Ring
import Mathlib.Tactic.Linarith
import Mathlib.Tactic.NormNum

/-!
# C125: a point with weight n is the same as n points

The manual: "when a point has a weight of n, this is equivalent to a case where that particular point is present in
the dataset n times. This concept is extended to non-integral values of the weights." Here for the fitters; the
likelihoods are in `Verif.Props.RepeatsErr`.
-/

noncomputable section

namespace BF.Repeats

open BF.Fitters Finset

variable {X : Type*}

/-- The weight of a point: 1 when there are no weights. -/
def weight (d : Data X) (i : ℕ) : ℝ := (d.weights.map fun w => w i).getD 1

/-- Each point of `e` is a copy of a point of `d`, with the same x, y and accuracy: the j-th of the point `src j`. -/
structure CopiesOf (d e : Data X) (src : ℕ → ℕ) : Prop where
  mem : ∀ j < e.n, src j < d.n
  x : ∀ j < e.n, e.x j = d.x (src j)
  y : ∀ j < e.n, e.y j = d.y (src j)
  acc : ∀ j < e.n, (e.accuracy.map fun a => a j) = d.accuracy.map fun a => a (src j)

/-- `e` has no weights, and has the points of `d` as many times, and in any order, as the weights of `d` tell. -/
structure Repeats (d e : Data X) : Prop where
  copies : ∃ (src k : ℕ → ℕ), CopiesOf d e src ∧
    (∀ i < d.n, ((range e.n).filter fun j => src j = i).card = k i) ∧
    ∃ w, d.weights = some w ∧ ∀ i < d.n, w i = k i
  plain : e.weights = none

/-- The same for numbers that are not whole: the weight of a point of `d` is distributed over its copies in `e`. -/
def Split (d e : Data X) : Prop :=
  ∃ src, CopiesOf d e src ∧ ∀ i < d.n, weight d i = ∑ j ∈ (range e.n).filter (fun j => src j = i), weight e j

theorem Repeats.split {d e : Data X} (h : Repeats d e) : Split d e := by
  obtain ⟨src, k, hc, hk, w, hw, hwk⟩ := h.copies
  refine ⟨src, hc, fun i hi => ?_⟩
  simp [weight, hw, h.plain, hwk i hi, hk i hi]

/-- The inverse square of the accuracy. -/
def prec (d : Data X) (i : ℕ) : ℝ := (d.accuracy.map fun a => 1 / (a i * a i)).getD 1

theorem fitWgts_eq (d : Data X) (i : ℕ) : d.fitWgts i = weight d i * prec d i := by
  unfold Data.fitWgts weight prec
  rcases d.weights with _ | w <;> rcases d.accuracy with _ | a <;> simp [div_eq_mul_inv]

theorem prec_copy {d e : Data X} {src : ℕ → ℕ} (h : CopiesOf d e src) (j : ℕ) (hj : j < e.n) :
    prec e j = prec d (src j) := by
  have := h.acc j hj
  unfold prec
  rcases hd : d.accuracy with _ | a <;> rcases he : e.accuracy with _ | b <;> simp_all

/-- Weighted sums over the points are the same. -/
theorem sum_split {d e : Data X} {src : ℕ → ℕ} (h : CopiesOf d e src)
    (hw : ∀ i < d.n, weight d i = ∑ j ∈ (range e.n).filter (fun j => src j = i), weight e j)
    (F F' : ℕ → ℝ) (hF : ∀ j < e.n, F' j = F (src j)) :
    ∑ i ∈ range d.n, F i * d.fitWgts i = ∑ j ∈ range e.n, F' j * e.fitWgts j := by
  rw [← sum_fiberwise_of_maps_to (s := range e.n) (t := range d.n) (g := src)
    (fun j hj => mem_range.2 (h.mem j (mem_range.1 hj)))]
  refine sum_congr rfl fun i hi => ?_
  rw [fitWgts_eq, hw i (mem_range.1 hi), sum_mul, mul_sum]
  refine sum_congr rfl fun j hj => ?_
  obtain ⟨hj', rfl⟩ := mem_filter.1 hj
  have hj := mem_range.1 hj'
  rw [fitWgts_eq, hF j hj, prec_copy h j hj]

theorem weight_total {d e : Data X} (h : Split d e) :
    ∑ i ∈ range d.n, weight d i = ∑ j ∈ range e.n, weight e j := by
  obtain ⟨src, h, hw⟩ := h
  rw [← sum_fiberwise_of_maps_to (s := range e.n) (t := range d.n) (g := src)
    (fun j hj => mem_range.2 (h.mem j (mem_range.1 hj)))]
  exact sum_congr rfl fun i hi => hw i (mem_range.1 hi)

theorem sum_extra (n k : ℕ) (f : ℕ → ℝ) :
    ∑ i ∈ range (n + k), f i = ∑ i ∈ range n, f i + ∑ i ∈ range k, f (n + i) := sum_range_add f n k

/-! ## The linear fitter -/

theorem hessian_split (m : Lin X) {d e : Data X} (h : Split d e) (s : Fitter) (fi : List ℤ) :
    getHessian m d s fi = getHessian m e s fi := by
  obtain ⟨src, h, hw⟩ := h
  funext a b
  unfold getHessian
  rw [sum_extra, sum_extra]
  congr 1
  · have := sum_split h hw (fun i => m.part (d.x i) (pyIdx m.np (fi.getD a 0)) * m.part (d.x i) (pyIdx m.np (fi.getD b 0)))
      (fun i => m.part (e.x i) (pyIdx m.np (fi.getD a 0)) * m.part (e.x i) (pyIdx m.np (fi.getD b 0)))
      (fun j hj => by simp only [h.x j hj])
    refine (sum_congr rfl fun i hi => ?_).trans (this.trans (sum_congr rfl fun i hi => ?_))
    · have := mem_range.1 hi
      simp only [getDesign, allWgts, if_pos this]; ring
    · have := mem_range.1 hi
      simp only [getDesign, allWgts, if_pos this]; ring
  · refine sum_congr rfl fun i _ => ?_
    simp [getDesign, allWgts]

theorem chi_split (m : Lin X) {d e : Data X} (h : Split d e) (p : ℕ → ℝ) : chiSquared m d p = chiSquared m e p := by
  obtain ⟨src, h, hw⟩ := h
  exact sum_split h hw (fun i => (d.y i - m.result (d.x i) p) ^ 2) (fun i => (e.y i - m.result (e.x i) p) ^ 2)
    fun j hj => by simp only [h.x j hj, h.y j hj]

theorem vector_split (m : Lin X) {d e : Data X} (h : Split d e) (s : Fitter) (fi : List ℤ) (p : ℕ → ℝ) :
    (getVector m d s fi fun i =>
      if i < d.n then (d.y i - m.result (d.x i) p) * d.fitWgts i else s.normdata (i - d.n) * s.normweight (i - d.n))
    = getVector m e s fi fun i =>
      if i < e.n then (e.y i - m.result (e.x i) p) * e.fitWgts i else s.normdata (i - e.n) * s.normweight (i - e.n) := by
  obtain ⟨src, h, hw⟩ := h
  funext a
  unfold getVector
  rw [sum_extra, sum_extra]
  congr 1
  · have := sum_split h hw (fun i => m.part (d.x i) (pyIdx m.np (fi.getD a 0)) * (d.y i - m.result (d.x i) p))
      (fun i => m.part (e.x i) (pyIdx m.np (fi.getD a 0)) * (e.y i - m.result (e.x i) p))
      (fun j hj => by simp only [h.x j hj, h.y j hj])
    refine (sum_congr rfl fun i hi => ?_).trans (this.trans (sum_congr rfl fun i hi => ?_))
    · have := mem_range.1 hi
      simp only [getDesign, if_pos this]; ring
    · have := mem_range.1 hi
      simp only [getDesign, if_pos this]; ring
  · refine sum_congr rfl fun i _ => ?_
    simp [getDesign]

/-- The linear fitter makes the same of both, whatever the linear solver, with kept parameters and with extra data of
`normalize`. -/
theorem C125_fit_split (solve : ℕ → (ℕ → ℕ → ℝ) → (ℕ → ℝ) → Option (ℕ → ℝ)) (m : Lin X) {d e : Data X} (h : Split d e)
    (s : Fitter) (keep : Option (List (ℤ × ℝ))) : fit solve m d s keep = fit solve m e s keep := by
  unfold fit
  simp only [hessian_split m h, vector_split m h]

/-- Whole numbers: a linear fit with weights is the fit in which the points are repeated. -/
theorem C125_fit (solve : ℕ → (ℕ → ℕ → ℝ) → (ℕ → ℝ) → Option (ℕ → ℝ)) (m : Lin X) {d e : Data X} (h : Repeats d e)
    (s : Fitter) (keep : Option (List (ℤ × ℝ))) : fit solve m d s keep = fit solve m e s keep :=
  C125_fit_split solve m h.split s keep

/-! ## The Levenberg-Marquardt fitter -/

theorem lm_hessian_split (m : LM.Nl X) {d e : Data X} (h : Split d e) (s : Fitter) (p : ℕ → ℝ) (fi : List ℤ) :
    LM.hessian m d s p fi = LM.hessian m e s p fi := by
  obtain ⟨src, h, hw⟩ := h
  funext a b
  unfold LM.hessian
  rw [sum_extra, sum_extra]
  congr 1
  · have := sum_split h hw
      (fun i => m.part (d.x i) p (pyIdx m.np (fi.getD a 0)) * m.part (d.x i) p (pyIdx m.np (fi.getD b 0)))
      (fun i => m.part (e.x i) p (pyIdx m.np (fi.getD a 0)) * m.part (e.x i) p (pyIdx m.np (fi.getD b 0)))
      (fun j hj => by simp only [h.x j hj])
    refine (sum_congr rfl fun i hi => ?_).trans (this.trans (sum_congr rfl fun i hi => ?_))
    · have := mem_range.1 hi
      simp only [LM.design, allWgts, if_pos this]; ring
    · have := mem_range.1 hi
      simp only [LM.design, allWgts, if_pos this]; ring
  · refine sum_congr rfl fun i _ => ?_
    simp [LM.design, allWgts]

theorem lm_chisq_split (m : LM.Nl X) {d e : Data X} (h : Split d e) (p : ℕ → ℝ) : LM.chisq m d p = LM.chisq m e p := by
  obtain ⟨src, h, hw⟩ := h
  exact sum_split h hw (fun i => (d.y i - m.result (d.x i) p) ^ 2) (fun i => (e.y i - m.result (e.x i) p) ^ 2)
    fun j hj => by simp only [h.x j hj, h.y j hj]

theorem lm_chiExtra_split (m : LM.Nl X) {d e : Data X} (h : Split d e) (s : Fitter) (p : ℕ → ℝ) :
    LM.chiExtra m d s p = LM.chiExtra m e s p := by
  unfold LM.chiExtra
  rw [lm_chisq_split m h]

theorem lm_vector_split (m : LM.Nl X) {d e : Data X} (h : Split d e) (s : Fitter) (mp p : ℕ → ℝ) (fi : List ℤ)
    (g : ℕ → ℝ) :
    (LM.vector m d s mp fi fun i =>
      if i < d.n then (d.y i - m.result (d.x i) p) * d.fitWgts i else g (i - d.n))
    = LM.vector m e s mp fi fun i =>
      if i < e.n then (e.y i - m.result (e.x i) p) * e.fitWgts i else g (i - e.n) := by
  obtain ⟨src, h, hw⟩ := h
  funext a
  unfold LM.vector
  rw [sum_extra, sum_extra]
  congr 1
  · have := sum_split h hw (fun i => m.part (d.x i) mp (pyIdx m.np (fi.getD a 0)) * (d.y i - m.result (d.x i) p))
      (fun i => m.part (e.x i) mp (pyIdx m.np (fi.getD a 0)) * (e.y i - m.result (e.x i) p))
      (fun j hj => by simp only [h.x j hj, h.y j hj])
    refine (sum_congr rfl fun i hi => ?_).trans (this.trans (sum_congr rfl fun i hi => ?_))
    · have := mem_range.1 hi
      simp only [LM.design, if_pos this]; ring
    · have := mem_range.1 hi
      simp only [LM.design, if_pos this]; ring
  · refine sum_congr rfl fun i _ => ?_
    simp [LM.design]

variable (solve : ℕ → (ℕ → ℕ → ℝ) → (ℕ → ℝ) → Option (ℕ → ℝ)) (m : LM.Nl X) (s : Fitter)
  (lims : Option (ℕ → LM.Lim)) (fi : List ℤ)

theorem trialLoop_split {d e : Data X} (h : Split d e) (params vec : ℕ → ℝ) (chi : ℝ) (same : Bool) (left : ℕ) :
    ∀ hes lamda mp, LM.trialLoop ⟨solve, m, d, s, lims, fi⟩ params vec chi same left hes lamda mp
      = LM.trialLoop ⟨solve, m, e, s, lims, fi⟩ params vec chi same left hes lamda mp := by
  induction left with
  | zero => intro hes lamda mp; rfl
  | succ n ih =>
    intro hes lamda mp
    simp only [LM.trialLoop, lm_chiExtra_split m h, ih]

theorem trialfit_split {d e : Data X} (h : Split d e) (params mp : ℕ → ℝ) (chi : ℝ) (same : Bool) (left : ℕ)
    (lamda : ℝ) : LM.trialfit ⟨solve, m, d, s, lims, fi⟩ params mp chi same left lamda
      = LM.trialfit ⟨solve, m, e, s, lims, fi⟩ params mp chi same left lamda := by
  have hv := lm_vector_split m h s mp params fi fun i =>
    (s.normdata i - ∑ k ∈ range m.np, s.normdfdp i k * params k) * s.normweight i
  simp only [LM.trialfit, lm_hessian_split m h, hv, trialLoop_split solve m s lims fi h]

theorem mainLoop_split {d e : Data X} (h : Split d e) (tolerance : ℝ) (fuel : ℕ) :
    ∀ left lamda chi trypar mp same steps,
      LM.mainLoop ⟨solve, m, d, s, lims, fi⟩ tolerance fuel left lamda chi trypar mp same steps
      = LM.mainLoop ⟨solve, m, e, s, lims, fi⟩ tolerance fuel left lamda chi trypar mp same steps := by
  induction fuel with
  | zero => intros; rfl
  | succ n ih =>
    intro left lamda chi trypar mp same steps
    simp only [LM.mainLoop, trialfit_split solve m s lims fi h, ih]

/-- The Levenberg-Marquardt fitter goes through the same steps and ends in the same way. -/
theorem C125_lm_split {d e : Data X} (h : Split d e) (keep : Option (List (ℤ × ℝ))) (par0 : Option (ℕ → ℝ))
    (tolerance : ℝ) (maxiter : ℕ) :
    LM.fit solve m d s lims keep par0 tolerance maxiter = LM.fit solve m e s lims keep par0 tolerance maxiter := by
  simp only [LM.fit, LM.fitLoop, lm_chiExtra_split m h, mainLoop_split solve m _ lims _ h]

/-- Whole numbers: a non-linear fit with weights is the fit in which the points are repeated. -/
theorem C125_lm {d e : Data X} (h : Repeats d e) (keep : Option (List (ℤ × ℝ))) (par0 : Option (ℕ → ℝ))
    (tolerance : ℝ) (maxiter : ℕ) :
    LM.fit solve m d s lims keep par0 tolerance maxiter = LM.fit solve m e s lims keep par0 tolerance maxiter :=
  C125_lm_split solve m s lims h.split keep par0 tolerance maxiter

/-! ## After the fit: scale, covariance, standard deviations, likelihood and evidence -/

section After

open Evidence

variable {X : Type} (solve : ℕ → (ℕ → ℕ → ℝ) → (ℕ → ℝ) → Option (ℕ → ℝ)) (m : Lin X)

theorem sumwgt_eq (i : Inp X) : i.sumwgt = ∑ k ∈ range i.n, weight i.data k := by
  unfold Inp.sumwgt weight Inp.data
  rcases i.weights with _ | w <;> simp

/-- No accuracies, or one for all points. -/
def SameAcc (i j : Inp X) : Prop :=
  (i.acc = .none ∧ j.acc = .none) ∨ ∃ a, i.acc = .scalar a ∧ j.acc = .scalar a

theorem logL_congr (t : State X) (j : Inp X) (hs : t.inp.sumwgt = j.sumwgt) (ha : SameAcc t.inp j) (v : ℝ) :
    getLogLikelihood { t with inp := j } v = getLogLikelihood t v := by
  unfold getLogLikelihood slacc
  rcases ha with ⟨h1, h2⟩ | ⟨a, h1, h2⟩ <;> simp only [h1, h2, hs]

theorem logZ_congr (np : ℕ) (t : State X) (j : Inp X) (hs : t.inp.sumwgt = j.sumwgt) (ha : SameAcc t.inp j)
    (limits : Option Limits) (noise : Option (ℝ × ℝ)) :
    getLogZ np { t with inp := j } limits noise = getLogZ np t limits noise := by
  have hl := logL_congr t j hs ha
  have hd : State.dof { t with inp := j } = t.dof := by simp only [State.dof, hs]
  have hn : noisePart { t with inp := j } noise = noisePart t noise := by
    rcases noise with _ | ⟨lo, hi⟩
    · rfl
    · simp only [noisePart, makeVariance, getScale, hd]
  have hp : prirange { t with inp := j } limits = prirange t limits := by rcases limits with _ | _ | _ <;> rfl
  have hr : ∀ r, sumRange np { t with inp := j } limits r = sumRange np t limits r := fun _ => rfl
  unfold getLogZ
  rw [hd, hn, hp]
  simp only [hl, hr]

/-- After the linear fit the parameters, chi squared, the noise scale, the covariance matrix and the standard deviations
are the same, and so are the log likelihood and the evidence, unless there is an array of accuracies. -/
theorem C125_after_split {i j : Inp X} (h : Split i.data j.data) (c : Start) (keep : Option (List (ℤ × ℝ))) :
    (fitState solve m c i keep = none ↔ fitState solve m c j keep = none) ∧
    ∀ t u, fitState solve m c i keep = some t → fitState solve m c j keep = some u →
      u.base = t.base ∧ u.chisq = t.chisq ∧ u.hessian = t.hessian ∧
      getScale u = getScale t ∧
      (getCovarianceMatrix m u).2 = (getCovarianceMatrix m t).2 ∧
      (getStandardDeviations m u).2 = (getStandardDeviations m t).2 ∧
      (SameAcc i j →
        (∀ var, getLogLikelihood u var = getLogLikelihood t var) ∧
        ∀ limits noise, getLogZ m.np u limits noise = getLogZ m.np t limits noise) := by
  have hsw : i.sumwgt = j.sumwgt := by
    rw [sumwgt_eq, sumwgt_eq]
    exact weight_total h
  have hf := C125_fit_split solve m h c.base keep
  constructor
  · simp only [fitState, hf, Option.map_eq_none_iff]
  · intro t u ht hu
    unfold fitState at ht hu
    rw [hf] at ht
    rcases hs : fit solve m j.data c.base keep with _ | s
    · rw [hs] at ht; cases ht
    · rw [hs] at ht hu
      have ht := Option.some.inj ht
      have hu := Option.some.inj hu
      have hH : ∀ fi, hessianOf m i.data s fi = hessianOf m j.data s fi := by
        intro fi
        simp only [hessianOf, hessMat, hessian_split m h]
      have e : u = { t with inp := j } := by
        rw [← ht, ← hu]
        simp only [chi_split m h, hH]
      have ti : t.inp = i := by rw [← ht]
      have tb : t.base = s := by rw [← ht]
      have hd : u.dof = t.dof := by rw [e]; simp only [State.dof, ti, hsw]
      have hsc : getScale u = getScale t := by
        unfold getScale
        rw [hd, e]
      have hcov : (getCovarianceMatrix m u).2 = (getCovarianceMatrix m t).2 := by
        have hv : ∀ H, makeVariance { u with hessian := H } = makeVariance { t with hessian := H } := by
          intro H
          have : getScale { u with hessian := H } = getScale { t with hessian := H } := hsc
          unfold makeVariance
          rw [this, e]
        have ub : u.base = s := by rw [e, tb]
        have ui : u.inp = j := by rw [e]
        have hI : (getInverseHessian m u u.base.fitIndex).2 = (getInverseHessian m t t.base.fitIndex).2 := by
          have hh : ∀ f : Fitter, f = s → ∀ fi, hessianOf m i.data f fi = hessianOf m j.data f fi := by
            rintro f rfl; exact hH
          have : hessianOf m u.inp.data u.base (u.base.fitIndex.getD ((List.range m.np).map fun k : ℕ => (k : ℤ)))
              = hessianOf m t.inp.data t.base (t.base.fitIndex.getD ((List.range m.np).map fun k : ℕ => (k : ℤ))) := by
            rw [ui, ti, hh _ tb, ub, tb]
          exact congrArg (fun h : Sq => if h.M.det = 0 then none else some (⟨h.K, h.M⁻¹⟩ : Sq)) this
        have hm : makeVariance (getInverseHessian m u u.base.fitIndex).1
            = makeVariance (getInverseHessian m t t.base.fitIndex).1 := by
          rw [show (getInverseHessian m t t.base.fitIndex).1 = { t with
            hessian := (getInverseHessian m u u.base.fitIndex).1.hessian } from by
              simp only [getInverseHessian, ub, ui, tb, ti, hH]]
          exact hv _
        simp only [getCovarianceMatrix, hI, hm]
      refine ⟨by rw [e], by rw [e], by rw [e], hsc, hcov, ?_, ?_⟩
      · unfold getStandardDeviations
        simp only [hcov]
        rw [e]
      · intro ha
        have ha' : SameAcc t.inp j := by rw [ti]; exact ha
        constructor
        · intro v
          rw [e]
          exact logL_congr t j (by rw [ti, hsw]) ha' v
        · intro limits noise
          rw [e]
          exact logZ_congr m.np t j (by rw [ti, hsw]) ha' limits noise

/-- Whole numbers: after a linear fit with weights all answers are those of the fit in which the points are repeated. -/
theorem C125_after_partial {i j : Inp X} (h : Repeats i.data j.data) (c : Start) (keep : Option (List (ℤ × ℝ))) :
    (fitState solve m c i keep = none ↔ fitState solve m c j keep = none) ∧
    ∀ t u, fitState solve m c i keep = some t → fitState solve m c j keep = some u →
      u.base = t.base ∧ u.chisq = t.chisq ∧ u.hessian = t.hessian ∧
      getScale u = getScale t ∧
      (getCovarianceMatrix m u).2 = (getCovarianceMatrix m t).2 ∧
      (getStandardDeviations m u).2 = (getStandardDeviations m t).2 ∧
      (SameAcc i j →
        (∀ var, getLogLikelihood u var = getLogLikelihood t var) ∧
        ∀ limits noise, getLogZ m.np u limits noise = getLogZ m.np t limits noise) :=
  C125_after_split solve m h.split c keep

end After

/-! ## What is not so -/

/-- Two measurements of a constant, 0 and 3, the second with weight 2. -/
def weighted : Data ℝ := ⟨2, fun i => i, fun i => if i = 0 then 0 else 3, some fun i => i + 1, none⟩

/-- The second measurement twice. -/
def twice : Data ℝ := ⟨3, fun i => if i = 0 then 0 else 1, fun i => if i = 0 then 0 else 3, none, none⟩

theorem weighted_twice : Repeats weighted twice where
  copies := by
    refine ⟨fun j => if j = 0 then 0 else 1, fun i => i + 1, ⟨?_, ?_, ?_, ?_⟩, ?_, fun i => i + 1, rfl, ?_⟩
    · intro j _; simp only [weighted]; split <;> omega
    · intro j _; simp only [weighted, twice]; split <;> simp
    · intro j _; simp only [weighted, twice]; split <;> simp
    · intro j _; rfl
    · intro i hi
      have : i = 0 ∨ i = 1 := by simp only [weighted] at hi; omega
      rcases this with rfl | rfl <;> decide
    · intro i _; push_cast; rfl
  plain := rfl

/-- The hypotheses of `C125_fit` hold for `weighted` and `twice`, with any solver. -/
example (solve : ℕ → (ℕ → ℕ → ℝ) → (ℕ → ℝ) → Option (ℕ → ℝ)) (s : Fitter) :
    fit solve constant weighted s none = fit solve constant twice s none :=
  C125_fit solve constant weighted_twice s none

/-- A weight of 1.5 is that of a point with weight 1 and one with weight 0.5. -/
example : Split (⟨1, fun i => i, fun _ => 7, some fun _ => 1.5, none⟩ : Data ℝ)
    ⟨2, fun _ => 0, fun _ => 7, some fun j => if j = 0 then 1 else 0.5, none⟩ := by
  refine ⟨fun _ => 0, ⟨fun _ _ => Nat.one_pos, fun _ _ => by simp, fun _ _ => rfl, fun _ _ => rfl⟩, ?_⟩
  intro i hi
  have : i = 0 := by simp only at hi; omega
  subst this
  simp [weight, sum_range_succ]
  norm_num

/-- The QR fitter counts a point with weight 2 four times: what it makes of `weighted` is not the least squares
solution for `twice`. -/
theorem C125_counterexample_qr : ∃ t : Qr,
    qrFit qrOne invOne Real.sqrt constant weighted newQr none = some t ∧
    ∃ p, chiSquared constant twice p < chiSquared constant twice t.base.params := by
  obtain ⟨t, h1, -, -, -, -, h2⟩ := qrFit_constant weighted rfl
    (by simp [weighted, Data.fitWgts]; norm_num) newQr rfl rfl rfl
  refine ⟨t, h1, fun _ => 2, ?_⟩
  simp only [weighted, Data.fitWgts] at h2
  norm_num at h2
  simp [chiSquared, Lin.result, constant, sum_range_succ, Data.fitWgts, twice, h2]
  norm_num

section

open Evidence

/-- The same with accuracy 2 for each of the points. -/
def accurate (d : Data ℝ) : Inp ℝ := ⟨d.n, d.x, d.y, d.weights, .array fun _ => 2⟩

theorem accurate_twice : Repeats (accurate weighted).data (accurate twice).data where
  copies := by
    obtain ⟨src, k, ⟨h1, h2, h3, -⟩, h5, h6⟩ := weighted_twice.copies
    exact ⟨src, k, ⟨h1, h2, h3, fun _ _ => rfl⟩, h5, h6⟩
  plain := rfl

/-- The solution of one equation with one unknown. -/
def solve1 (_ : ℕ) (H : ℕ → ℕ → ℝ) (v : ℕ → ℝ) : Option (ℕ → ℝ) := some fun _ => v 0 / H 0 0

/-- With an accuracy for each of the points the likelihood after a fit is not the same: the accuracy of the point with
weight 2 is counted once. -/
theorem C125_counterexample_accuracy (c : Start) : ∃ t u,
    fitState solve1 constant c (accurate weighted) none = some t ∧
    fitState solve1 constant c (accurate twice) none = some u ∧
    u.base = t.base ∧ ∀ var, getLogLikelihood u var = getLogLikelihood t var - Real.log 2 ∧
      getLogLikelihood u var ≠ getLogLikelihood t var := by
  refine ⟨_, _, rfl, rfl, ?_⟩
  have hp := C125_after_partial solve1 constant accurate_twice c none
  obtain ⟨hb, hc, -⟩ := hp.2 _ _ rfl rfl
  refine ⟨hb, fun var => ?_⟩
  have hl : Real.log 2 ≠ 0 := (Real.log_pos (by norm_num)).ne'
  have hw : (accurate weighted).sumwgt = 3 := by
    simp [Inp.sumwgt, accurate, weighted, sum_range_succ]; norm_num
  have ht : (accurate twice).sumwgt = 3 := by simp [Inp.sumwgt, accurate, twice]
  have key : ∀ t u : State ℝ, t.inp = accurate weighted → u.inp = accurate twice → u.chisq = t.chisq →
      getLogLikelihood u var = getLogLikelihood t var - Real.log 2 := by
    intro t u h1 h2 h3
    unfold getLogLikelihood slacc
    rw [h1, h2, h3, hw, ht]
    simp only [accurate, weighted, twice, sum_range_succ, sum_range_zero]
    ring
  have := key _ _ rfl rfl hc
  exact ⟨this, by rw [this]; intro h; exact hl (by linarith)⟩

end

end BF.Repeats
