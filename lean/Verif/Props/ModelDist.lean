import Verif.ModelDist
import Verif.Props.EvidenceMore

/-!
# C96: the likelihood of a model is its evidence
-/

noncomputable section

namespace BF.ModelDist

open BF.Fitters BF.Evidence Finset MeasureTheory Matrix

variable {X : Type}

/-! ## Specification -/

/-- A vector as the list of parameters of a model. -/
def vec {np : ℕ} (q : Fin np → ℝ) (k : ℕ) : ℝ := if h : k < np then q ⟨k, h⟩ else 0

/-- The data of the problem, with its weights. -/
def Prob.inp (p : Prob X) : Inp X := ⟨p.n, p.x, p.y, p.weights, .none⟩

/-- The evidence of a problem with noise scale `s`: the likelihood averaged over the box of the priors (where
the integral runs over all values, as in C71). -/
def evidence (p : Prob X) (s : ℝ) : ℝ :=
  (∫ q : Fin p.m.np → ℝ, likelihood p.m p.inp s (vec q)) / (p.limits.map fun e => e.2 - e.1).prod

/-- A problem that can be solved: a model with parameters, each with proper limits, more data than
parameters, and a fit that is not degenerate. -/
structure Proper (solve : ℕ → (ℕ → ℕ → ℝ) → (ℕ → ℝ) → Option (ℕ → ℝ)) (p : Prob X) : Prop where
  some : 0 < p.m.np
  limits : p.limits.length = p.m.np
  order : ∀ e ∈ p.limits, e.1 < e.2
  dof : p.m.np < p.n
  regular : ∀ s, (fit solve p.m ⟨p.n, p.x, p.y, none, none⟩ (initFitter p.m.np s none) none).isSome

/-! ## Lemmas -/

theorem free_all (np : ℕ) : free np none = List.range np := by
  simp [free, isFree_none]

theorem place_vec (np : ℕ) : Place np none np (fun q : Fin np → ℝ => vec q) := by
  refine ⟨by simp [free_all], fun q a => ?_, fun q => by simp [Agrees]⟩
  simp [free_all, vec, List.getD_eq_getElem?_getD]

theorem prod_getD (l : List ℝ) : ∏ a ∈ range l.length, l.getD a 0 = l.prod := by
  induction l with
  | nil => rfl
  | cons x l ih => rw [List.length_cons, prod_range_succ', List.prod_cons, ← ih, mul_comm]; rfl

theorem prod_ranges (l : List (ℝ × ℝ)) :
    ∏ a ∈ range l.length, (l.map fun e => e.2 - e.1).getD (min a (l.length - 1)) 0
      = (l.map fun e => e.2 - e.1).prod := by
  rw [← prod_getD, List.length_map]
  refine prod_congr rfl fun a ha => ?_
  have := mem_range.1 ha
  rw [min_eq_left (by omega)]

theorem det_of_regular (K : ℕ) (A : ℕ → ℕ → ℝ)
    (h : ∀ z : ℕ → ℝ, (∀ a < K, ∑ b ∈ range K, A a b * z b = 0) → ∀ b < K, z b = 0) :
    (Matrix.of fun a b : Fin K => A a b).det ≠ 0 := by
  intro hdet
  obtain ⟨v, hv, hz⟩ := Matrix.exists_mulVec_eq_zero_iff.2 hdet
  apply hv
  have := h (vec v) ?_
  · funext b
    simpa [vec] using this b.1 b.2
  · intro a ha
    have hz := congrFun hz ⟨a, ha⟩
    rw [← Fin.sum_univ_eq_sum_range (fun b => A a b * vec v b)]
    simpa [Matrix.mulVec, dotProduct, vec] using hz

/-- A fit that succeeds has a regular Hessian. -/
theorem det_regular (solve : ℕ → (ℕ → ℕ → ℝ) → (ℕ → ℝ) → Option (ℕ → ℝ)) (hreg : SolveRegular solve)
    (m : Lin X) (params : ℕ → ℝ) (fs : Option ℝ) (priors : Option (List ℝ)) (inp : Inp X) (t : State X)
    (h : fitState solve m (start m.np params none fs priors) inp none = some t) :
    t.hessian.M.det ≠ 0 := by
  simp only [fitState, start, Option.map_eq_some_iff] at h
  obtain ⟨s', hs', rfl⟩ := h
  unfold fit at hs'
  simp only [Option.map_eq_some_iff] at hs'
  obtain ⟨x, hx, rfl⟩ := hs'
  exact det_of_regular _ _ (hreg _ _ _ _ hx)

/-- The fit of a proper problem, without its weights. -/
theorem fit_proper (solve : ℕ → (ℕ → ℕ → ℝ) → (ℕ → ℝ) → Option (ℕ → ℝ)) (p : Prob X) (hp : Proper solve p)
    (fs : Option ℝ) : ∃ t, fitState solve p.m (start p.m.np p.params none fs none)
      ⟨p.n, p.x, p.y, none, .none⟩ none = some t := by
  obtain ⟨s, hs⟩ := Option.isSome_iff_exists.1 (hp.regular p.params)
  exact ⟨_, by
    simp only [fitState, Option.map_eq_some_iff]
    exact ⟨s, hs, rfl⟩⟩

theorem given_ranges (solve : ℕ → (ℕ → ℕ → ℝ) → (ℕ → ℝ) → Option (ℕ → ℝ)) (p : Prob X) (hp : Proper solve p) :
    GivenRanges p.m.np (free p.m.np none) none
      (fun a => (p.limits.map fun e => e.2 - e.1).getD (min a (p.limits.length - 1)) 0)
      (some (.array p.limits)) := by
  refine ⟨?_, ?_, hp.order, fun a => rfl⟩
  · intro h
    have := hp.limits
    rw [h] at this
    exact absurd this.symm hp.some.ne'
  · simp [free_all, hp.limits]

theorem good_plain (p : Prob X) : (⟨p.n, p.x, p.y, none, .none⟩ : Inp X).Good := by
  intro i _
  simp [Inp.weight, Inp.accuracy]

theorem sum_plain (p : Prob X) : (⟨p.n, p.x, p.y, none, .none⟩ : Inp X).sumwgt = p.n := rfl

/-- With its own fitter the distribution returns the evidence of that fit and its parameters. -/
theorem byFitter_value (solve : ℕ → (ℕ → ℕ → ℝ) → (ℕ → ℝ) → Option (ℕ → ℝ)) (d : Dist X) (p : Prob X)
    (t : State X) (z : ℝ)
    (ht : fitState solve p.m (newFitter d p).start ⟨p.n, p.x, p.y, none, .none⟩ none = some t)
    (hdof : ¬ t.dof ≤ 0) (hz : getLogZ p.m.np t (some (.array p.limits)) d.limits = some z)
    (allpars : List ℝ) (hlen : allpars.length = p.m.np + 1) :
    byFitter solve d p (newFitter d p) (setScale d p allpars) = some (z,
      (List.range p.m.np).map t.base.params ++ [if d.limits = none then d.scale else (getScale t).getD 0]) := by
  have hd : ∀ l : List ℝ, l.length = p.m.np + 1 → ∃ v, l.drop p.m.np = [v] := by
    intro l hl
    apply List.length_eq_one_iff.1
    simp [hl]
  unfold byFitter
  have ht' : fitState solve (newFitter d p).m (newFitter d p).start ⟨p.n, (newFitter d p).x, p.y, none, .none⟩ none
      = some t := ht
  rw [ht']
  have hz' : getLogZ (newFitter d p).m.np t (some (.array p.limits)) d.limits = some z := hz
  simp only [if_neg hdof, hz']
  have hs : storePars d p.m.np ((List.range (newFitter d p).m.np).map t.base.params) ((getScale t).getD 0)
      (setScale d p allpars) = some ((List.range p.m.np).map t.base.params
        ++ [if d.limits = none then d.scale else (getScale t).getD 0]) := by
    unfold storePars setScale
    have e : (newFitter d p).m.np = p.m.np := rfl
    simp only [List.length_map, List.length_range, e, if_true, Option.map_some, Option.some.injEq]
    by_cases hl : d.limits = none
    · simp only [hl, true_and, if_true, hlen, Nat.lt_succ_self]
      rw [List.drop_append, List.drop_of_length_le (by simp [hlen])]
      simp [hlen]
    · simp only [hl, false_and, if_false]
      obtain ⟨v, hv⟩ := hd allpars hlen
      rw [hv, List.dropLast_concat]
  rw [hs]

theorem dof_pos (solve : ℕ → (ℕ → ℕ → ℝ) → (ℕ → ℝ) → Option (ℕ → ℝ)) (hsolve : SolveSpec solve) (p : Prob X)
    (hp : Proper solve p) (fs : Option ℝ) (t : State X)
    (ht : fitState solve p.m (start p.m.np p.params none fs none) ⟨p.n, p.x, p.y, none, .none⟩ none = some t) :
    ¬ t.dof ≤ 0 := by
  obtain ⟨s, x, -, -, -, rfl, -, hn, -⟩ := fit_state solve hsolve p.m p.params none (by simp) fs none _ t ht
  have : ((p.m.np : ℕ) : ℝ) < p.n := by exact_mod_cast hp.dof
  simp only [State.dof, hn, sum_plain, free_all, List.length_range]
  linarith

theorem min_plain (solve : ℕ → (ℕ → ℕ → ℝ) → (ℕ → ℝ) → Option (ℕ → ℝ)) (hsolve : SolveSpec solve) (p : Prob X)
    (fs : Option ℝ) (t : State X)
    (ht : fitState solve p.m (start p.m.np p.params none fs none) ⟨p.n, p.x, p.y, none, .none⟩ none = some t)
    (q : ℕ → ℝ) :
    chiSquared p.m ⟨p.n, p.x, p.y, none, none⟩ t.base.params ≤ chiSquared p.m ⟨p.n, p.x, p.y, none, none⟩ q := by
  simp only [fitState, Option.map_eq_some_iff] at ht
  obtain ⟨s, hs, rfl⟩ := ht
  have h := C30_all solve hsolve p.m ⟨p.n, p.x, p.y, none, none⟩ (by intro w hw; simp at hw) _ s rfl
    (by simp [start, initFitter, keepFixed]) hs q
  rwa [chiTotal_zero _ _ _ rfl, chiTotal_zero _ _ _ rfl] at h

/-! ## C96 -/

/-- C96, for a linear model, without weights, noise scale known, and the automatic arbiter or "fitter". The
likelihood that the distribution gives to the model is the natural logarithm of the evidence; the parameters
that it leaves in the walker are those that fit the data best, with the noise scale behind them. Missing:
weights, the other arbiters, see the counterexamples. -/
theorem C96_evidence_partial (solve : ℕ → (ℕ → ℕ → ℝ) → (ℕ → ℝ) → Option (ℕ → ℝ)) (hsolve : SolveSpec solve)
    (hreg : SolveRegular solve) (sample : Sampler X) (d : Dist X) (ha : d.arbiter = .auto ∨ d.arbiter = .fitter)
    (hs : 0 < d.scale) (hl : d.limits = none) (p : Prob X) (hw : p.weights = none) (hp : Proper solve p)
    (allpars : List ℝ) (hlen : allpars.length = p.m.np + 1) :
    ∃ (v : ℝ) (pars : ℕ → ℝ),
      logLikelihood solve sample d p allpars
        = some ((v : WithBot ℝ), (List.range p.m.np).map pars ++ [d.scale]) ∧
      Real.exp v = evidence p d.scale ∧
      ∀ q, chiSquared p.m ⟨p.n, p.x, p.y, none, none⟩ pars ≤ chiSquared p.m ⟨p.n, p.x, p.y, none, none⟩ q := by
  have hfs : d.fixedScale = some d.scale := by simp [Dist.fixedScale, hl]
  obtain ⟨t, ht⟩ := fit_proper solve p hp (some d.scale)
  obtain ⟨z, hz, hexp⟩ := C71_exact_partial solve hsolve p.m p.params none (by simp) (some d.scale) hs none
    ⟨p.n, p.x, p.y, none, .none⟩ (good_plain p) (Or.inl rfl) t ht (det_regular solve hreg _ _ _ _ _ t ht)
    p.m.np _ (place_vec p.m.np) (by rw [sum_plain]; exact_mod_cast hp.dof) _ _ (given_ranges solve p hp)
  have hv := byFitter_value solve d p t z (by rw [newFitter, hfs]; exact ht) (dof_pos solve hsolve p hp _ t ht)
    (by rw [hl]; exact hz) allpars hlen
  refine ⟨z, t.base.params, ?_, ?_, min_plain solve hsolve p _ t ht⟩
  · unfold logLikelihood
    rcases ha with ha | ha <;> simp only [ha, hv, Option.map_some, hl, if_true]
  · have hpr := prod_ranges p.limits
    rw [show range p.limits.length = range p.m.np by rw [hp.limits]] at hpr
    rw [hexp, hpr]
    unfold evidence
    rw [Prob.inp, hw]
    rfl

/-- The same with limits on the noise scale: then the factor of C72 remains, that depends on the
limits and on the number of degrees of freedom only, and the noise scale behind the parameters is the one found in
the fit. -/
theorem C96_scale_partial (solve : ℕ → (ℕ → ℕ → ℝ) → (ℕ → ℝ) → Option (ℕ → ℝ)) (hsolve : SolveSpec solve)
    (hreg : SolveRegular solve) (sample : Sampler X) (d : Dist X) (ha : d.arbiter = .auto ∨ d.arbiter = .fitter)
    (lo hi : ℝ) (hlo : 0 < lo) (hhi : lo < hi) (hl : d.limits = some (lo, hi))
    (p : Prob X) (hw : p.weights = none) (hp : Proper solve p)
    (hres : ∀ q, 0 < chiSquared p.m ⟨p.n, p.x, p.y, none, none⟩ q)
    (allpars : List ℝ) (hlen : allpars.length = p.m.np + 1) :
    ∃ (v : ℝ) (pars : ℕ → ℝ),
      logLikelihood solve sample d p allpars
        = some ((v : WithBot ℝ), (List.range p.m.np).map pars
          ++ [√(chiSquared p.m ⟨p.n, p.x, p.y, none, none⟩ pars / (p.n - p.m.np))]) ∧
      Real.exp v = averageScale p.m p.inp p.m.np vec
          (fun a => (p.limits.map fun e => e.2 - e.1).getD (min a (p.limits.length - 1)) 0) lo hi
        * (factor (p.n - p.m.np) * Real.exp (-Real.log (hi / lo))) ∧
      ∀ q, chiSquared p.m ⟨p.n, p.x, p.y, none, none⟩ pars ≤ chiSquared p.m ⟨p.n, p.x, p.y, none, none⟩ q := by
  have hfs : d.fixedScale = none := by simp [Dist.fixedScale, hl]
  obtain ⟨t, ht⟩ := fit_proper solve p hp none
  have hdof := dof_pos solve hsolve p hp _ t ht
  obtain ⟨s, x, -, -, -, hst, -, hn, -⟩ := fit_state solve hsolve p.m p.params none (by simp) none none _ t ht
  have hchi : t.chisq = chiSquared p.m ⟨p.n, p.x, p.y, none, none⟩ t.base.params := by rw [hst]; rfl
  have hd : t.dof = p.n - p.m.np := by
    rw [hst]
    simp only [State.dof, hn, sum_plain, free_all, List.length_range]
  obtain ⟨z, hz, hexp⟩ := C72_scale_partial solve hsolve p.m p.params none (by simp) none none
    ⟨p.n, p.x, p.y, none, .none⟩ (good_plain p) (Or.inl rfl) t ht (det_regular solve hreg _ _ _ _ _ t ht)
    (by rw [hchi]; exact hres _) p.m.np hp.some
    _ (place_vec p.m.np) (by rw [sum_plain]; exact_mod_cast hp.dof) _ _ (given_ranges solve p hp) lo hi hlo hhi
  have hv := byFitter_value solve d p t z (by rw [newFitter, hfs]; exact ht) hdof
    (by rw [hl]; exact hz) allpars hlen
  refine ⟨z, t.base.params, ?_, ?_, min_plain solve hsolve p _ t ht⟩
  · have hsc : (getScale t).getD 0 = √(chiSquared p.m ⟨p.n, p.x, p.y, none, none⟩ t.base.params / (p.n - p.m.np)) := by
      rw [getScale, if_neg hdof, hchi, hd]
      rfl
    unfold logLikelihood
    rcases ha with ha | ha <;> simp only [ha, hv, Option.map_some, hl, reduceCtorEq, if_false, hsc]
  · rw [hexp, Prob.inp, hw]
    rfl

/-! ## A problem: a constant through two points -/

/-- Data 0 and 2, a constant between -10 and 10. -/
def two (w : Option (ℕ → ℝ)) : Prob ℝ := ⟨constant, fun _ => 0, [(-10, 10)], 2, fun _ => 0, fun i : ℕ => 2 * (i : ℝ), w⟩

theorem two_fit (s : ℕ → ℝ) :
    fit solveOne constant ⟨2, fun _ => (0 : ℝ), fun i : ℕ => 2 * (i : ℝ), none, none⟩ (initFitter 1 s none) none
      = some { initFitter 1 s none with params := fun _ => 1 } := by
  have hidx : (List.range constant.np).map (fun k : ℕ => (k : ℤ)) = [0] := by decide
  have hH : ∀ s0 : Fitter, s0.nnorm = 0 →
      getHessian constant ⟨2, fun _ => (0 : ℝ), fun i : ℕ => 2 * (i : ℝ), none, none⟩ s0 [0] 0 0 = 2 := by
    intro s0 h0
    simp only [getHessian, h0, getDesign, allWgts, Data.fitWgts, constant, sum_range_succ, sum_range_zero]
    norm_num
  unfold fit
  simp only [fitprolog, initFitter, keepFixed, hidx, List.length_singleton, solveOne]
  rw [hH _ rfl]
  rw [if_pos ⟨trivial, by norm_num⟩]
  simp only [Option.map_some, Option.some.injEq, Fitter.mk.injEq, and_true]
  refine ⟨?_, trivial, rfl⟩
  unfold insertParameters
  rw [if_pos (by rfl)]
  funext k
  simp only [getVector, getDesign, sum_range_succ, sum_range_zero, constant, Data.fitWgts, Lin.result, zeroed]
  norm_num [pyIdx]

theorem two_proper (w : Option (ℕ → ℝ)) : Proper solveOne (two w) := by
  refine ⟨by simp [two, constant], by simp [two, constant], by simp [two], by simp [two, constant], fun s => ?_⟩
  have := two_fit s
  show (fit solveOne constant ⟨2, fun _ => (0 : ℝ), fun i : ℕ => 2 * (i : ℝ), none, none⟩ (initFitter 1 s none) none).isSome
  rw [this]
  rfl

/-- The theorems are about problems that exist. -/
example : Proper solveOne (two none) ∧ (two none).weights = none ∧
    ∀ q, 0 < chiSquared (two none).m ⟨2, (two none).x, (two none).y, none, none⟩ q := by
  refine ⟨two_proper none, rfl, fun q => ?_⟩
  simp only [chiSquared, two, constant, Lin.result, Data.fitWgts, sum_range_succ, sum_range_zero]
  norm_num
  nlinarith [sq_nonneg (q 0 - 1)]

/-! ## What is not so -/

theorem logL_weights (solve : ℕ → (ℕ → ℕ → ℝ) → (ℕ → ℝ) → Option (ℕ → ℝ)) (sample : Sampler X) (d : Dist X)
    (ha : d.arbiter ≠ .nested) (p : Prob X) (w : Option (ℕ → ℝ)) (allpars : List ℝ) :
    logLikelihood solve sample d { p with weights := w } allpars = logLikelihood solve sample d p allpars := by
  unfold logLikelihood
  rcases h : d.arbiter with _ | _ | f | _
  · rfl
  · rfl
  · rfl
  · exact absurd h ha

theorem pdf_le (y f : ℝ) : 0 < normalPdf y f 1 ∧ normalPdf y f 1 ≤ 1 / √(2 * Real.pi) := by
  have hpi : 0 < √(2 * Real.pi) := Real.sqrt_pos.2 (by positivity)
  unfold normalPdf
  refine ⟨by positivity, ?_⟩
  rw [one_mul]
  apply div_le_div_of_nonneg_right _ hpi.le
  rw [Real.exp_le_one_iff]
  have := sq_nonneg (y - f)
  linarith

theorem root_two_pi : 2 < √(2 * Real.pi) := by
  rw [Real.lt_sqrt (by norm_num)]
  have := Real.pi_gt_three
  linarith

/-- The weights of the two points: 3 and 1. -/
def w31 (i : ℕ) : ℝ := if i = 0 then 3 else 1

theorem two_like (q : ℕ → ℝ) :
    0 ≤ likelihood constant (two (some w31)).inp 1 q ∧
    likelihood constant (two (some w31)).inp 1 q ≤ 1 / 4 * likelihood constant (two none).inp 1 q := by
  simp only [likelihood, Prob.inp, two, prod_range_succ, prod_range_zero, Inp.accuracy, Inp.weight, w31, mul_one,
    Option.map_some, Option.getD_some, Option.map_none, Option.getD_none, one_mul, if_true, Real.rpow_one]
  obtain ⟨a0, a1⟩ := pdf_le (2 * ((0 : ℕ) : ℝ)) (constant.result 0 q)
  obtain ⟨b0, -⟩ := pdf_le (2 * ((1 : ℕ) : ℝ)) (constant.result 0 q)
  generalize normalPdf (2 * ((0 : ℕ) : ℝ)) (constant.result 0 q) 1 = a at *
  generalize normalPdf (2 * ((1 : ℕ) : ℝ)) (constant.result 0 q) 1 = b at *
  have h12 : a ≤ 1 / 2 := a1.trans (one_div_le_one_div_of_le (by norm_num) root_two_pi.le)
  rw [if_neg one_ne_zero, Real.rpow_one, show (3 : ℝ) = ((3 : ℕ) : ℝ) by norm_num, Real.rpow_natCast]
  refine ⟨by positivity, ?_⟩
  have : a ^ 2 ≤ 1 / 4 := by nlinarith
  nlinarith [mul_nonneg (mul_nonneg a0.le b0.le) (sub_nonneg.2 this)]

/-- The weights of the problem do not matter, although the distribution says that it accepts weights. Two points
at 0 and 2 have the weights 3 and 1. The "likelihood" is more than twice the evidence, and the parameter is
the plain mean 1, although 1/2 has a smaller weighted chi-squared. -/
theorem C96_counterexample_weights (sample : Sampler ℝ) :
    (two (some w31)).inp.Good ∧ Proper solveOne (two (some w31)) ∧
    ∃ v : ℝ, logLikelihood solveOne sample ⟨.auto, 1, none⟩ (two (some w31)) [0, 1] = some ((v : WithBot ℝ), [1, 1]) ∧
      2 * evidence (two (some w31)) 1 < Real.exp v ∧
      chiSquared constant (two (some w31)).inp.data (fun _ => 1 / 2)
        < chiSquared constant (two (some w31)).inp.data (fun _ => 1) := by
  refine ⟨?_, two_proper _, ?_⟩
  · intro i _
    simp only [Inp.weight, Inp.accuracy, Prob.inp, two, w31, Option.map_some, Option.getD_some]
    split_ifs <;> norm_num
  obtain ⟨v, pars, hv, he, hmin⟩ := C96_evidence_partial solveOne solveOne_spec solveOne_regular sample
    ⟨.auto, 1, none⟩ (Or.inl rfl) one_pos rfl (two none) rfl (two_proper none) [0, 1] (by simp [two, constant])
  have hw := logL_weights solveOne sample ⟨.auto, 1, none⟩ (by simp) (two none) (some w31) [0, 1]
  have hpar : pars 0 = 1 := by
    have := hmin fun _ => 1
    simp only [chiSquared, two, constant, Lin.result, Data.fitWgts, sum_range_succ, sum_range_zero] at this
    norm_num at this
    nlinarith [sq_nonneg (pars 0 - 1)]
  refine ⟨v, ?_, ?_, ?_⟩
  · refine (hw.trans hv).trans ?_
    simp [two, constant, hpar]
  · have hpos : 0 < evidence (two none) 1 := by
      have := Real.exp_pos v
      rwa [he] at this
    have hint : Integrable fun q : Fin 1 → ℝ => likelihood constant (two none).inp 1 (vec q) := by
      by_contra hc
      have : evidence (two none) 1 = 0 := by
        unfold evidence
        have e : (∫ q : Fin (two none).m.np → ℝ, likelihood (two none).m (two none).inp 1 (vec q)) = 0 :=
          integral_undef hc
        rw [e, zero_div]
      rw [this] at hpos
      exact lt_irrefl _ hpos
    have hle : (∫ q : Fin 1 → ℝ, likelihood constant (two (some w31)).inp 1 (vec q))
        ≤ 1 / 4 * ∫ q : Fin 1 → ℝ, likelihood constant (two none).inp 1 (vec q) := by
      rw [← integral_const_mul]
      exact integral_mono_of_nonneg (Filter.Eventually.of_forall fun q => (two_like (vec q)).1)
        (hint.const_mul _) (Filter.Eventually.of_forall fun q => (two_like (vec q)).2)
    have h20 : ∀ w, ((two w).limits.map fun e => e.2 - e.1).prod = 20 := by
      intro w
      norm_num [two]
    have e0 : evidence (two none) 1 = (∫ q : Fin 1 → ℝ, likelihood constant (two none).inp 1 (vec q)) / 20 := by
      exact congrArg _ (h20 _)
    have e1 : evidence (two (some w31)) 1
        = (∫ q : Fin 1 → ℝ, likelihood constant (two (some w31)).inp 1 (vec q)) / 20 := by
      exact congrArg _ (h20 _)
    rw [he, e1]
    rw [e0] at hpos ⊢
    linarith
  · simp only [chiSquared, two, constant, Lin.result, Data.fitWgts, sum_range_succ, sum_range_zero, Inp.data,
      Prob.inp, Acc.each, w31]
    norm_num

/-- A model with the same values, at half the parameter. -/
def double : Lin ℝ := ⟨1, fun _ => 0, fun _ _ => 2⟩

theorem double_evidence : evidence { two none with m := double } 1 = evidence (two none) 1 / 2 := by
  have h := Measure.integral_comp_smul (volume : Measure (Fin 1 → ℝ))
    (fun q => likelihood constant (two none).inp 1 (vec q)) 2
  have e : ∀ q : Fin 1 → ℝ, likelihood double (two none).inp 1 (vec q)
      = likelihood constant (two none).inp 1 (vec ((2 : ℝ) • q)) := by
    intro q
    simp [likelihood, double, constant, Lin.result, vec, mul_comm]
  show (∫ q : Fin 1 → ℝ, likelihood double (two none).inp 1 (vec q)) / _
    = (∫ q : Fin 1 → ℝ, likelihood constant (two none).inp 1 (vec q)) / _ / 2
  simp only [e]
  rw [h]
  norm_num [two]
  ring

/-- A fitter object as arbiter: it holds the model it was made for. Then the model of the problem, the one that each
walker has for itself, does not matter, but for its number of parameters and their limits. Models of different
evidence are given the same likelihood. -/
theorem C96_counterexample_given (solve : ℕ → (ℕ → ℕ → ℝ) → (ℕ → ℝ) → Option (ℕ → ℝ)) (sample : Sampler X)
    (d : Dist X) (f : Ftr X) (ha : d.arbiter = .given f) (p : Prob X) (m : Lin X) (hm : m.np = p.m.np)
    (params : ℕ → ℝ) (allpars : List ℝ) :
    logLikelihood solve sample d { p with
      m := m
      params := params } allpars = logLikelihood solve sample d p allpars ∧
    0 < evidence (two none) 1 ∧ evidence { two none with m := double } 1 ≠ evidence (two none) 1 := by
  refine ⟨?_, ?_⟩
  · unfold logLikelihood
    simp only [ha, byFitter, setScale, hm]
  · obtain ⟨v, pars, -, he, -⟩ := C96_evidence_partial solveOne solveOne_spec solveOne_regular
      (fun _ _ _ => none) ⟨.auto, 1, none⟩ (Or.inl rfl) one_pos rfl (two none) rfl (two_proper none) [0, 1]
      (by simp [two, constant])
    have hpos := Real.exp_pos v
    rw [he] at hpos
    refine ⟨hpos, ?_⟩
    rw [double_evidence]
    change 0 < evidence (two none) 1 at hpos
    intro hc
    linarith

/-- A nested sampler as arbiter, that finds the evidence exactly: the value that comes back is the 10log of the
evidence, not the natural one as from the fitters; and it is the evidence for a noise scale of 1, whatever the
scale of the distribution. When the evidence is below 1, the likelihood is larger. -/
theorem C96_counterexample_nested (solve : ℕ → (ℕ → ℕ → ℝ) → (ℕ → ℝ) → Option (ℕ → ℝ)) (sample : Sampler X)
    (d : Dist X) (ha : d.arbiter = .nested) (hl : d.limits = none) (p : Prob X) (z sc : ℝ) (pars : List ℝ)
    (hs : sample p 1 none = some (z, pars, sc)) (hz : Real.exp z = evidence p 1) (allpars : List ℝ) :
    ∃ (v : ℝ) (l : List ℝ), logLikelihood solve sample d p allpars = some ((v : WithBot ℝ), l) ∧
      Real.exp v = evidence p 1 ^ (1 / Real.log 10) ∧ (evidence p 1 < 1 → evidence p 1 < Real.exp v) := by
  have h10 : 1 < Real.log 10 := by
    rw [Real.lt_log_iff_exp_lt (by norm_num)]
    have := Real.exp_one_lt_d9
    linarith
  have he : Real.exp (z / Real.log 10) = evidence p 1 ^ (1 / Real.log 10) := by
    rw [← hz, ← Real.exp_mul, mul_one_div]
  refine ⟨z / Real.log 10, pars ++ (setScale d p allpars).drop p.m.np, ?_, he, ?_⟩
  · simp only [logLikelihood, ha, byNested, hl, hs, if_true]
  · intro h1
    rw [← hz] at h1 ⊢
    rw [Real.exp_lt_one_iff] at h1
    rw [Real.exp_lt_exp, lt_div_iff₀ (by linarith)]
    nlinarith

end BF.ModelDist
