import Verif.Props.Evidence
import Mathlib.LinearAlgebra.Matrix.Determinant.Basic

/-!
# C71, C73 and C74: standard deviations, histories of questions, and what is not so
-/

namespace BF.Evidence

open BF.Fitters Finset MeasureTheory Matrix

variable {X : Type}

/-! ## C71: accuracies with weights -/

/-- One accuracy for all data, or the same one given for each: that should be the same. With weights it is
not: then the evidence differs by the sum of the weights minus the number of data, times the logarithm of
the accuracy. -/
theorem C71_counterexample_weights (solve : ℕ → (ℕ → ℕ → ℝ) → (ℕ → ℝ) → Option (ℕ → ℝ)) (m : Lin X)
    (c : Start) (inp : Inp X) (keep : Option (List (ℤ × ℝ))) (a : ℝ) (t : State X)
    (h : fitState solve m c { inp with acc := .scalar a } keep = some t) :
    ∃ t', fitState solve m c { inp with acc := .array fun _ => a } keep = some t' ∧
      ∀ limits noise, getLogZ m.np t' limits noise
        = (getLogZ m.np t limits noise).map fun z => z + (inp.sumwgt - inp.n) * Real.log a := by
  simp only [fitState, Option.map_eq_some_iff] at h
  obtain ⟨s, hs, rfl⟩ := h
  refine ⟨_, congrArg (Option.map _) hs, ?_⟩
  intro limits noise
  have hlike : ∀ (b : Fitter) (k : Bool) (fs ms : Option ℝ) (pr : Option (List ℝ)) (χ : ℝ) (H : Sq) (v : ℝ),
      getLogLikelihood ⟨b, k, fs, ms, pr, { inp with acc := .array fun _ => a }, χ, H⟩ v
      = getLogLikelihood ⟨b, k, fs, ms, pr, { inp with acc := .scalar a }, χ, H⟩ v
        + (inp.sumwgt - inp.n) * Real.log a := by
    intro b k fs ms pr χ H v
    have e : ∀ ac : Acc, Inp.sumwgt { inp with acc := ac } = inp.sumwgt := fun _ => rfl
    simp only [getLogLikelihood, slacc, e, sum_const, card_range, nsmul_eq_mul]
    ring
  have hnoise : ∀ (b : Fitter) (k : Bool) (fs ms : Option ℝ) (pr : Option (List ℝ)) (χ : ℝ) (H : Sq),
      noisePart ⟨b, k, fs, ms, pr, { inp with acc := .array fun _ => a }, χ, H⟩ noise
      = noisePart ⟨b, k, fs, ms, pr, { inp with acc := .scalar a }, χ, H⟩ noise := fun _ _ _ _ _ _ _ => rfl
  have hrange : ∀ (b : Fitter) (k : Bool) (fs ms : Option ℝ) (pr : Option (List ℝ)) (χ : ℝ) (H : Sq) r,
      sumRange m.np ⟨b, k, fs, ms, pr, { inp with acc := .array fun _ => a }, χ, H⟩ limits r
      = sumRange m.np ⟨b, k, fs, ms, pr, { inp with acc := .scalar a }, χ, H⟩ limits r :=
    fun _ _ _ _ _ _ _ _ => rfl
  have hpri : ∀ (b : Fitter) (k : Bool) (fs ms : Option ℝ) (pr : Option (List ℝ)) (χ : ℝ) (H : Sq),
      prirange ⟨b, k, fs, ms, pr, { inp with acc := .array fun _ => a }, χ, H⟩ limits
      = prirange ⟨b, k, fs, ms, pr, { inp with acc := .scalar a }, χ, H⟩ limits :=
    fun _ _ _ _ _ _ _ => by rcases limits with _ | _ | _ <;> rfl
  have hdof : ∀ (b : Fitter) (k : Bool) (fs ms : Option ℝ) (pr : Option (List ℝ)) (χ : ℝ) (H : Sq),
      State.dof ⟨b, k, fs, ms, pr, { inp with acc := .array fun _ => a }, χ, H⟩
      = State.dof ⟨b, k, fs, ms, pr, { inp with acc := .scalar a }, χ, H⟩ := fun _ _ _ _ _ _ _ => rfl
  have hd : Inp.data { inp with acc := .array fun _ => a } = Inp.data { inp with acc := .scalar a } := rfl
  unfold getLogZ
  rw [hd, hdof, hnoise, hpri]
  simp only [hlike, hrange]
  generalize State.dof _ = D
  generalize noisePart _ _ = N
  generalize prirange _ _ = R
  by_cases h0 : D ≤ 0
  · rw [if_pos h0, if_pos h0]
    rfl
  rw [if_neg h0, if_neg h0]
  rcases N with _ | ⟨s2, oc, sp⟩
  · rfl
  simp only [Option.bind_some]
  by_cases h1 : s.npfit = 0
  · rw [if_pos h1, if_pos h1]
    simp only [Option.map_some, Option.some.injEq]
    ring
  rw [if_neg h1, if_neg h1]
  rcases R with _ | R
  · rfl
  simp only [Option.bind_some]
  generalize sumRange _ _ _ _ = Q
  rcases Q with _ | Q
  · rfl
  simp only [Option.bind_some]
  by_cases h2 : (hessianOf m (Inp.data { inp with acc := .scalar a }) s (fitprolog m.np c.base keep).1).M.det ≤ 0
  · rw [if_pos h2, if_pos h2]
    rfl
  rw [if_neg h2, if_neg h2]
  simp only [Option.map_some, Option.some.injEq]
  ring

/-! ## A line of which the offset is kept in the call of `fit` -/

/-- The state after the fit. -/
theorem keep_state (solve : ℕ → (ℕ → ℕ → ℝ) → (ℕ → ℝ) → Option (ℕ → ℝ)) (params : ℕ → ℝ) (v : ℝ)
    (fs : Option ℝ) (priors : Option (List ℝ)) (inp : Inp ℝ) (t : State ℝ)
    (h : fitState solve line (start 2 params none fs priors) inp (some [(0, v)]) = some t) :
    ∃ (s : Fitter) (χ : ℝ), s.nnorm = 0 ∧ s.fitIndex = none ∧ s.npfit = 1 ∧
      t = ⟨s, false, fs, none, priors, inp, χ, hessianOf line inp.data s [1]⟩ ∧
      ∀ pr, fitState solve line (start 2 params none fs pr) inp (some [(0, v)])
        = some ⟨s, false, fs, none, pr, inp, χ, hessianOf line inp.data s [1]⟩ := by
  have e : fitprolog line.np (initFitter 2 params none) (some [(0, v)])
      = ([1], (fitprolog 2 (initFitter 2 params none) (some [(0, v)])).2) := by
    rw [← line_index (initFitter 2 params none) v]
    rfl
  simp only [fitState, start, Option.map_eq_some_iff] at h
  obtain ⟨s', hs', rfl⟩ := h
  have hs := hs'
  unfold fit at hs'
  rw [e] at hs'
  simp only [Option.map_eq_some_iff] at hs'
  obtain ⟨x, hx, rfl⟩ := hs'
  refine ⟨{ (fitprolog 2 (initFitter 2 params none) (some [(0, v)])).2 with
      params := insertParameters 2 (fitprolog 2 (initFitter 2 params none) (some [(0, v)])).2.params x [1] },
    chiSquared line inp.data
      (insertParameters 2 (fitprolog 2 (initFitter 2 params none) (some [(0, v)])).2.params x [1]),
    rfl, rfl, rfl, ?_, ?_⟩
  · rw [e]
    rfl
  · intro pr
    simp only [fitState, start, hs, Option.map_some]
    rw [e]
    rfl

/-- Of a parameter that is kept the prior range should not matter. It does when it is kept in the call of
`fit`: with a range that is `c` times as wide the evidence is lowered by the logarithm of `c`. -/
theorem C71_counterexample_keep (solve : ℕ → (ℕ → ℕ → ℝ) → (ℕ → ℝ) → Option (ℕ → ℝ)) (params : ℕ → ℝ) (v : ℝ)
    (fs : Option ℝ) (r0 r1 c : ℝ) (hr : 0 < r0) (hc : 0 < c) (inp : Inp ℝ) (t : State ℝ)
    (h : fitState solve line (start 2 params none fs (some [r0, r1])) inp (some [(0, v)]) = some t)
    (z : ℝ) (hz : getLogZ 2 t none none = some z) :
    ∃ t', fitState solve line (start 2 params none fs (some [c * r0, r1])) inp (some [(0, v)]) = some t' ∧
      getLogZ 2 t' none none = some (z - Real.log c) := by
  obtain ⟨s, χ, hn, hi, hN, rfl, hall⟩ := keep_state solve params v fs _ inp t h
  refine ⟨_, hall _, ?_⟩
  unfold getLogZ at hz ⊢
  simp only [State.dof, hN, noisePart, prirange, sumRange, hi, List.map_cons, List.map_nil,
    List.length_cons, List.length_nil, List.sum_cons, List.sum_nil, Option.bind_some, getLogLikelihood, slacc] at hz ⊢
  by_cases h0 : inp.sumwgt - ((1 : ℕ) : ℝ) ≤ 0
  · rw [if_pos h0] at hz
    cases hz
  rw [if_neg h0] at hz ⊢
  rw [if_neg (by decide)] at hz ⊢
  simp only [show ¬ (0 + 1 + 1 = 1) by decide, if_false, show ¬ (0 + 1 + 1 < 1) by decide, Option.bind_some] at hz ⊢
  by_cases h2 : (hessianOf line inp.data s [1]).M.det ≤ 0
  · rw [if_pos h2] at hz
    cases hz
  rw [if_neg h2] at hz ⊢
  rw [Real.log_mul hc.ne' hr.ne']
  rw [← Option.some.inj hz]
  congr 1
  ring

/-! ## C73: standard deviations -/

/-- C73, standard deviations: they are the roots of the diagonal of the covariance matrix, at the place of
the parameter; those of kept parameters are 0. -/
theorem C73_stdevs (solve : ℕ → (ℕ → ℕ → ℝ) → (ℕ → ℝ) → Option (ℕ → ℝ)) (hsolve : SolveSpec solve)
    (m : Lin X) (params : ℕ → ℝ) (keep : Option (List (ℤ × ℝ)))
    (hk : ∀ k, keep = some k → ProperKeep m.np k) (fs : Option ℝ)
    (priors : Option (List ℝ)) (inp : Inp X)
    (t : State X) (h : fitState solve m (start m.np params keep fs priors) inp none = some t)
    (C : Sq) (hC : (getCovarianceMatrix m t).2 = some C) :
    ∃ sd, (getStandardDeviations m t).2 = some sd ∧ C.K = (free m.np keep).length ∧
      (∀ a : Fin C.K, sd ((free m.np keep).getD a 0) = √(C.M a a)) ∧
      ∀ k < m.np, k ∉ free m.np keep → sd k = 0 := by
  obtain ⟨s, x, hn, hag, hx, rfl, hsi, hsn, -⟩ := fit_state solve hsolve m params keep hk fs priors inp t h
  have hi : s.fitIndex.getD ((List.range m.np).map fun k : ℕ => (k : ℤ)) = indexOf m.np (isFree keep) := by
    rw [hsi, index_start]
  have hCK : C.K = (indexOf m.np (isFree keep)).length := by
    unfold getCovarianceMatrix at hC
    rw [inverse_index m _ _ _ hi] at hC
    simp only [Option.bind_eq_some_iff, Option.map_eq_some_iff] at hC
    obtain ⟨inv, hinv, v, -, rfl⟩ := hC
    split_ifs at hinv
    obtain rfl := Option.some.inj hinv
    rfl
  have hroot : ∀ a : Fin C.K, rootDiag C a = √(C.M a a) := by
    intro a
    simp only [rootDiag, a.2, dif_pos]
  unfold getStandardDeviations
  simp only [hC, Option.map_some]
  refine ⟨_, rfl, by rw [hCK, index_length]; rfl, ?_⟩
  rcases keep with _ | keep
  · simp only [Option.isSome_none, if_neg Bool.false_ne_true]
    have hfree : free m.np none = List.range m.np := by simp [free, isFree_none]
    rw [hfree]
    refine ⟨?_, ?_⟩
    · intro a
      have ha : (a : ℕ) < m.np := by
        have h1 := a.2
        have h2 : (indexOf m.np (isFree none)).length = m.np := by rw [index_length]; simp [isFree_none]
        omega
      rw [← hroot]
      congr 1
      simp [List.getD, ha]
    · intro k hk hk'
      exact absurd (List.mem_range.2 hk) hk'
  · simp only [Option.isSome_some, if_true]
    have hsi' : s.fitIndex = some (indexOf m.np (isFree (some keep))) := hsi
    rw [hsi']
    obtain ⟨h1, h2⟩ := insert_spec m.np (isFree (some keep)) (fun _ => 0) (rootDiag C)
    refine ⟨?_, ?_⟩
    · intro a
      rw [← hroot]
      exact h1 a _ (filter_at m.np _ a (by rw [← hCK]; exact a.2))
    · intro k hk hk'
      apply h2 k hk
      simp only [indexOf, List.mem_map, not_exists, not_and]
      rintro a ha e
      have : a = k := by exact_mod_cast e
      subst this
      exact hk' ha

/-- C73, no bias: when the noise is on average 0, the fitted parameters are on average the true ones. -/
theorem C73_unbiased (solve : ℕ → (ℕ → ℕ → ℝ) → (ℕ → ℝ) → Option (ℕ → ℝ)) (hsolve : SolveSpec solve)
    (m : Lin X) (params : ℕ → ℝ) (keep : Option (List (ℤ × ℝ)))
    (hk : ∀ k, keep = some k → ProperKeep m.np k) (fs : Option ℝ) (priors : Option (List ℝ))
    (inp : Inp X) (p : ℕ → ℝ) (hp : Agrees (keep.getD []) p)
    {Ω : Type} [MeasurableSpace Ω] (P : Measure Ω) [IsProbabilityMeasure P] (e : ℕ → Ω → ℝ)
    (hi : ∀ i < inp.n, Integrable (e i) P) (h0 : ∀ i < inp.n, ∫ ω, e i ω ∂P = 0) (t : Ω → State X)
    (h : ∀ ω, fitState solve m (start m.np params keep fs priors) (inp.measured m p fun i => e i ω) none
      = some (t ω))
    (hdet : ∀ ω, (t ω).hessian.M.det ≠ 0) (k : ℕ) (hkn : k < m.np) :
    ∫ ω, (t ω).base.params k ∂P = p k := by
  have hfs := fun ω => fit_state solve hsolve m params keep hk fs priors _ (t ω) (h ω)
  choose S x hn hag hx ht hsi hsn hS using hfs
  obtain ⟨s, hs⟩ : ∃ s : Fitter, s = { initFitter m.np params keep with npfit := (free m.np keep).length } :=
    ⟨_, rfl⟩
  rw [← hs] at hS
  obtain rfl : S = fun _ => s := funext hS
  beta_reduce at hn hag hx ht hsi hsn
  obtain ⟨ω₀⟩ : Nonempty Ω := P.nonempty_of_neZero
  replace hn := hn ω₀
  replace hag := hag ω₀
  have hpk : ∀ k < m.np, isFree keep k = false → p k = s.params k := by
    intro k _ hfk
    rcases keep with _ | keep
    · simp [isFree] at hfk
    · exact agree_of m.np keep (hk keep rfl) _ _ hag hp k hfk
  have hdet' : (hessMat m inp.data s (indexOf m.np (isFree keep))).det ≠ 0 := by
    have := hdet ω₀
    rw [ht ω₀] at this
    exact this
  have hpar : ∀ ω, (t ω).base.params = insertParameters m.np s.params (x ω) (indexOf m.np (isFree keep)) :=
    fun ω => by rw [ht ω]
  simp only [hpar]
  by_cases hf : isFree keep k = false
  · have : ∀ ω, insertParameters m.np s.params (x ω) (indexOf m.np (isFree keep)) k = s.params k := by
      intro ω
      apply (insert_spec m.np (isFree keep) s.params (x ω)).2 k hkn
      simp [indexOf, hf]
    simp [this, hpk k hkn hf]
  · have hmem : k ∈ free m.np keep := by simp [free, hkn, hf]
    obtain ⟨a, ha, rfl⟩ := List.getElem_of_mem hmem
    have hal : a < (indexOf m.np (isFree keep)).length := by rw [index_length]; exact ha
    have hga : ((List.range m.np).filter (isFree keep)).getD a 0 = (free m.np keep)[a] := by
      rw [List.getD_eq_getElem?_getD]
      exact congrArg (fun o : Option ℕ => o.getD 0) (List.getElem?_eq_getElem ha)
    have : ∀ ω, insertParameters m.np s.params (x ω) (indexOf m.np (isFree keep)) (free m.np keep)[a]
        = p (free m.np keep)[a] + ∑ i ∈ range inp.n,
          (∑ c, (hessMat m inp.data s (indexOf m.np (isFree keep)))⁻¹ ⟨a, hal⟩ c
        * (getDesign m inp.data s (indexOf m.np (isFree keep)) i c * inp.data.fitWgts i)) * e i ω := by
      intro ω
      have h1 := fit_error m inp s (isFree keep) (x ω) p (fun i => e i ω) hn hpk (hx ω) hdet' ⟨a, hal⟩
      simp only [hga] at h1
      rw [← h1, ← hga, (insert_spec m.np (isFree keep) s.params (x ω)).1 a _ (filter_at m.np _ a hal)]
      ring
    simp only [this]
    have hint : ∀ i ∈ range inp.n, Integrable (fun ω =>
          (∑ c, (hessMat m inp.data s (indexOf m.np (isFree keep)))⁻¹ ⟨a, hal⟩ c
        * (getDesign m inp.data s (indexOf m.np (isFree keep)) i c * inp.data.fitWgts i)) * e i ω) P :=
      fun i hir => (hi i (mem_range.1 hir)).const_mul _
    rw [integral_add (integrable_const _) (integrable_finsetSum _ hint), integral_finsetSum _ hint,
      sum_eq_zero, add_zero, integral_const]
    · simp
    · intro i hir
      rw [integral_const_mul, h0 i (mem_range.1 hir), mul_zero]

/-! ## C74: histories of questions -/

/-- The questions that can be asked after a fit. -/
inductive Query where
  | scale
  | covariance
  | stdevs
  | logZ (limits : Option Limits) (noise : Option (ℝ × ℝ))

/-- The state after a question. -/
noncomputable def after (m : Lin X) (t : State X) : Query → State X
  | .scale => t
  | .covariance => (getCovarianceMatrix m t).1
  | .stdevs => (getStandardDeviations m t).1
  | .logZ _ _ => t

/-- C74, with the kept parameters (if any) given to the constructor: whatever is asked after a fit, in any
order and as often as one likes, nothing changes. So all answers are those that would be given immediately
after the fit. Missing: parameters that are kept in the call of `fit`, see the counterexample. -/
theorem C74_questions_partial (solve : ℕ → (ℕ → ℕ → ℝ) → (ℕ → ℝ) → Option (ℕ → ℝ)) (hsolve : SolveSpec solve)
    (m : Lin X) (params : ℕ → ℝ) (keep : Option (List (ℤ × ℝ)))
    (hk : ∀ k, keep = some k → ProperKeep m.np k) (fs : Option ℝ)
    (priors : Option (List ℝ)) (inp : Inp X)
    (t : State X) (h : fitState solve m (start m.np params keep fs priors) inp none = some t)
    (qs : List Query) : qs.foldl (after m) t = t := by
  have hcov : (getCovarianceMatrix m t).1 = t := by
    obtain ⟨s, x, hn, hag, hx, rfl, hsi, hsn, -⟩ := fit_state solve hsolve m params keep hk fs priors inp t h
    have hi : s.fitIndex.getD ((List.range m.np).map fun k : ℕ => (k : ℤ)) = indexOf m.np (isFree keep) := by
      rw [hsi, index_start]
    unfold getCovarianceMatrix
    rw [inverse_index m _ _ _ hi]
    rfl
  have one : ∀ q, after m t q = t := by
    intro q
    cases q with
    | scale => rfl
    | covariance => exact hcov
    | stdevs => exact hcov
    | logZ => rfl
  induction qs with
  | nil => rfl
  | cons q qs ih => rw [List.foldl_cons, one, ih]

/-- Three data at 0, 1 and 2. -/
noncomputable def three (acc : Acc) : Inp ℝ := ⟨3, fun i => i, fun i => i ^ 2, none, acc⟩

theorem det_one (s : Fitter) (hs : s.nnorm = 0) : (hessianOf line (three .none).data s [1]).M.det = 5 := by
  show (hessMat line (three .none).data s [1]).det = 5
  have : (hessMat line (three .none).data s [1]).det = getHessian line (three .none).data s [1] 0 0 :=
    det_fin_one _
  rw [this]
  simp only [getHessian, hs, three, Inp.data, getDesign, allWgts, Data.fitWgts, Acc.each, line, sum_range_succ,
    sum_range_zero]
  norm_num [pyIdx]

theorem det_both (s : Fitter) (hs : s.nnorm = 0) : (hessianOf line (three .none).data s [0, 1]).M.det = 6 := by
  show (hessMat line (three .none).data s [0, 1]).det = 6
  have : (hessMat line (three .none).data s [0, 1]).det
      = getHessian line (three .none).data s [0, 1] 0 0 * getHessian line (three .none).data s [0, 1] 1 1
      - getHessian line (three .none).data s [0, 1] 0 1 * getHessian line (three .none).data s [0, 1] 1 0 :=
    det_fin_two _
  rw [this]
  simp only [getHessian, hs, three, Inp.data, getDesign, allWgts, Data.fitWgts, Acc.each, line, sum_range_succ,
    sum_range_zero]
  norm_num [pyIdx]

/-- When the offset of a line was kept in the call of `fit`, the evidence is another one after the standard
deviations have been asked for: that replaces the hessian by that of all parameters. -/
theorem C74_counterexample (solve : ℕ → (ℕ → ℕ → ℝ) → (ℕ → ℝ) → Option (ℕ → ℝ)) (params : ℕ → ℝ) (v : ℝ)
    (fs : Option ℝ) (priors : Option (List ℝ)) (t : State ℝ)
    (h : fitState solve line (start 2 params none fs priors) (three .none) (some [(0, v)]) = some t)
    (limits : Option Limits) (z : ℝ) (hz : getLogZ 2 t limits none = some z) :
    getLogZ 2 (after line t .stdevs) limits none = some (z - 0.5 * (Real.log 6 - Real.log 5)) := by
  obtain ⟨s, χ, hn, hi, hN, rfl, hall⟩ := keep_state solve params v fs _ (three .none) t h
  have e : after line ⟨s, false, fs, none, priors, three .none, χ, hessianOf line (three .none).data s [1]⟩ .stdevs
      = ⟨s, false, fs, none, priors, three .none, χ, hessianOf line (three .none).data s [0, 1]⟩ := by
    simp only [after, getStandardDeviations, getCovarianceMatrix]
    rw [inverse_index line _ _ [0, 1] (by simp only [hi]; rfl)]
  rw [e]
  unfold getLogZ at hz ⊢
  simp only [det_one s hn, det_both s hn] at hz ⊢
  have hsr : ∀ H r, sumRange 2 ⟨s, false, fs, none, priors, three .none, χ, H⟩ limits r
      = sumRange 2 ⟨s, false, fs, none, priors, three .none, χ, hessianOf line (three .none).data s [1]⟩ limits r :=
    fun _ _ => rfl
  have hpr : ∀ H, prirange ⟨s, false, fs, none, priors, three .none, χ, H⟩ limits
      = prirange ⟨s, false, fs, none, priors, three .none, χ, hessianOf line (three .none).data s [1]⟩ limits :=
    fun _ => by rcases limits with _ | _ | _ <;> rfl
  rw [hpr]
  simp only [hsr (hessianOf line (three .none).data s [0, 1])]
  simp only [State.dof, hN, noisePart, Option.bind_some, getLogLikelihood, slacc] at hz ⊢
  by_cases h0 : (three .none).sumwgt - ((1 : ℕ) : ℝ) ≤ 0
  · rw [if_pos h0] at hz
    cases hz
  rw [if_neg h0] at hz ⊢
  rw [if_neg (by decide)] at hz ⊢
  generalize prirange _ _ = R at *
  rcases R with _ | R
  · cases hz
  simp only [Option.bind_some] at hz ⊢
  generalize sumRange _ _ _ _ = Q at *
  rcases Q with _ | Q
  · cases hz
  simp only [Option.bind_some] at hz ⊢
  rw [if_neg (by norm_num)] at hz ⊢
  rw [← Option.some.inj hz]
  congr 1
  ring

theorem root_zero (c : Sq) (h : 0 < c.K) : rootDiag c 0 = √(c.M ⟨0, h⟩ ⟨0, h⟩) := by
  unfold rootDiag
  rw [dif_pos h]

/-- And the kept parameter gets a standard deviation. -/
theorem C73_counterexample_keep (solve : ℕ → (ℕ → ℕ → ℝ) → (ℕ → ℝ) → Option (ℕ → ℝ)) (params : ℕ → ℝ) (v : ℝ)
    (fs : Option ℝ) (priors : Option (List ℝ)) (t : State ℝ)
    (h : fitState solve line (start 2 params none fs priors) (three .none) (some [(0, v)]) = some t)
    (hχ : 0 < t.chisq) :
    ∃ sd, (getStandardDeviations line t).2 = some sd ∧ 0 < sd 0 := by
  obtain ⟨s, χ, hn, hi, hN, rfl, hall⟩ := keep_state solve params v fs _ (three .none) t h
  have hd := det_both s hn
  have hd' : ¬ (hessMat line (three .none).data s [0, 1]).det = 0 := by
    have : (hessMat line (three .none).data s [0, 1]).det = 6 := hd
    rw [this]
    norm_num
  simp only [getStandardDeviations, getCovarianceMatrix]
  rw [inverse_index line _ _ [0, 1] (by simp only [hi]; rfl)]
  dsimp only
  rw [if_neg hd']
  have hdof : ¬ (three .none).sumwgt - ((1 : ℕ) : ℝ) ≤ 0 := by
    simp [three, Inp.sumwgt]
  simp only [Option.bind_some, makeVariance, getScale, State.dof, hN, if_neg hdof, Option.map_some,
    if_neg Bool.false_ne_true]
  refine ⟨_, rfl, ?_⟩
  have hs3 : (three .none).sumwgt - ((1 : ℕ) : ℝ) = 2 := by
    simp [three, Inp.sumwgt]
    norm_num
  rw [hs3, Real.mul_self_sqrt (div_nonneg hχ.le (by norm_num))]
  rw [root_zero _ (show (0 : ℕ) < 2 by norm_num)]
  apply Real.sqrt_pos.2
  have hinv : (hessMat line (three .none).data s [0, 1])⁻¹ (0 : Fin 2) (0 : Fin 2) = 5 / 6 := by
    have hd6 : (hessMat line (three .none).data s [0, 1]).det = 6 := hd
    have h1 : (hessMat line (three .none).data s [0, 1])⁻¹
        = (6 : ℝ)⁻¹ • (hessMat line (three .none).data s [0, 1]).adjugate := by
      rw [Matrix.inv_def, hd6, Ring.inverse_eq_inv']
    have h2 : (hessMat line (three .none).data s [0, 1]).adjugate (0 : Fin 2) (0 : Fin 2)
        = getHessian line (three .none).data s [0, 1] 1 1 := by
      have := adjugate_fin_two (hessMat line (three .none).data s [0, 1] : Matrix (Fin 2) (Fin 2) ℝ)
      rw [this]
      rfl
    rw [h1, Matrix.smul_apply, h2]
    simp only [getHessian, hn, three, Inp.data, getDesign, allWgts, Data.fitWgts, Acc.each, line, sum_range_succ,
      sum_range_zero]
    norm_num [pyIdx]
  show 0 < χ / 2 * (hessMat line (three .none).data s [0, 1])⁻¹ (0 : Fin 2) (0 : Fin 2)
  rw [hinv]
  have : 0 < χ := hχ
  positivity

/-! ## The hypotheses can be met -/

theorem keep_chi (p x : ℕ → ℝ) (v : ℝ) (hv : p 0 = v) (hv1 : 1 ≤ v ^ 2) (y : ℕ → ℝ) (hy : y 0 = 0) :
    1 ≤ chiSquared line ⟨3, fun i => i, y, none, none⟩ (insertParameters 2 p x [1]) := by
  have h0 : insertParameters 2 p x [1] 0 = v := by
    unfold insertParameters
    rw [if_neg (by decide)]
    simp [pyIdx, List.range_succ, hv]
  simp only [chiSquared, Lin.result, line, Data.fitWgts, sum_range_succ, sum_range_zero]
  simp only [h0, hy, Nat.cast_zero, pow_zero]
  norm_num
  nlinarith [sq_nonneg (y 1 - (v + insertParameters 2 p x [1] 1)),
    sq_nonneg (y 2 - (v + insertParameters 2 p x [1] 1 * 2))]

/-- A fit of the line with its offset kept in the call. -/
example : ∃ t, fitState solveOne line (start 2 (fun _ => 0) none none (some [10, 10])) (three .none)
    (some [(0, 1)]) = some t ∧ 0 < t.chisq ∧ ∃ z, getLogZ 2 t none none = some z := by
  have e : fitprolog line.np (initFitter 2 (fun _ => 0) none) (some [(0, 1)])
      = ([1], (fitprolog 2 (initFitter 2 (fun _ => 0) none) (some [(0, 1)])).2) := by
    rw [← line_index (initFitter 2 (fun _ => 0) none) 1]
    rfl
  have hfit : ∃ s', fit solveOne line (three .none).data (initFitter 2 (fun _ => 0) none) (some [(0, 1)]) = some s' ∧
      1 ≤ chiSquared line (three .none).data s'.params := by
    unfold fit
    rw [e]
    simp only [List.length_singleton, solveOne]
    rw [if_pos]
    · refine ⟨_, rfl, ?_⟩
      exact keep_chi _ _ 1 rfl (by norm_num) _ (by simp [three])
    · refine ⟨by trivial, ?_⟩
      have hn : (fitprolog 2 (initFitter 2 (fun _ => 0) none) (some [(0, 1)])).2.nnorm = 0 := rfl
      simp only [getHessian, hn, getDesign, allWgts, Data.fitWgts, line, three, Inp.data, Acc.each, sum_range_succ,
        sum_range_zero]
      norm_num [pyIdx]
  obtain ⟨s', hs', hchi⟩ := hfit
  have ht : fitState solveOne line (start 2 (fun _ => 0) none none (some [10, 10])) (three .none)
      (some [(0, 1)]) = some _ := congrArg (Option.map _) hs'
  refine ⟨_, ht, lt_of_lt_of_le one_pos hchi, ?_⟩
  obtain ⟨s, χ, hn, hi, hN, he, -⟩ := keep_state solveOne (fun _ => 0) 1 none _ (three .none) _ ht
  rw [he]
  have hdof : ¬ (three .none).sumwgt - ((1 : ℕ) : ℝ) ≤ 0 := by
    simp [three, Inp.sumwgt]
  unfold getLogZ
  simp only [State.dof, hN, noisePart, prirange, sumRange, hi, List.map_cons, List.map_nil, det_one s hn,
    List.length_cons, List.length_nil, List.sum_cons, List.sum_nil, Option.bind_some, if_neg hdof]
  norm_num

/-- The fit of the line with its offset kept by the constructor, for any data. -/
theorem fit_one (y : ℕ → ℝ) (fs : Option ℝ) (priors : Option (List ℝ)) :
    ∃ t, fitState solveOne line (start line.np (fun _ => 0) (some [(0, 1)]) fs priors)
      ⟨3, fun i => i, y, none, .none⟩ none = some t ∧ t.hessian.M.det ≠ 0 ∧ (y 0 = 0 → 0 < t.chisq) := by
  have hk : ∀ k, (some [(0, 1)] : Option (List (ℤ × ℝ))) = some k → ProperKeep line.np k := by
    rintro k ⟨⟩
    exact ⟨by simp, by simp [line]⟩
  have e := (prolog_start line.np (fun _ => 0) (some [(0, 1)]) hk).1
  have hi : indexOf line.np (isFree (some [(0, 1)])) = [1] := by
    decide
  rw [hi] at e
  have hdet : ∀ s : Fitter, s.nnorm = 0 → getHessian line ⟨3, fun i => i, y, none, none⟩ s [1] 0 0 = 5 := by
    intro s hn
    simp only [getHessian, hn, getDesign, allWgts, Data.fitWgts, line, sum_range_succ, sum_range_zero]
    norm_num [pyIdx]
  have hfit : ∃ s', fit solveOne line (Inp.data ⟨3, fun i => i, y, none, .none⟩)
      (initFitter line.np (fun _ => 0) (some [(0, 1)])) none = some s' ∧ s'.nnorm = 0 ∧
      (y 0 = 0 → 1 ≤ chiSquared line (Inp.data ⟨3, fun i => i, y, none, .none⟩) s'.params) := by
    unfold fit
    rw [e]
    simp only [List.length_singleton, solveOne]
    rw [if_pos]
    · refine ⟨_, rfl, rfl, ?_⟩
      intro hy
      exact keep_chi _ _ 1 rfl (by norm_num) _ hy
    · refine ⟨by trivial, ?_⟩
      have := hdet { initFitter line.np (fun _ => 0) (some [(0, 1)]) with npfit := (free line.np (some [(0, 1)])).length } rfl
      exact this.symm ▸ (by norm_num)
  obtain ⟨s', hs', hn', hchi⟩ := hfit
  have ht : fitState solveOne line (start line.np (fun _ => 0) (some [(0, 1)]) fs priors)
      ⟨3, fun i => i, y, none, .none⟩ none = some _ := congrArg (Option.map _) hs'
  refine ⟨_, ht, ?_, fun hy => lt_of_lt_of_le one_pos (hchi hy)⟩
  have hd : ∀ fi : List ℤ, fi = [1] →
      (hessianOf line (Inp.data ⟨3, fun i => i, y, none, .none⟩) s' fi).M.det = 5 := by
    rintro fi rfl
    have h1 : (hessMat line (Inp.data ⟨3, fun i => i, y, none, .none⟩) s' [1]).det
        = getHessian line (Inp.data ⟨3, fun i => i, y, none, .none⟩) s' [1] 0 0 := det_fin_one _
    exact h1.trans (hdet s' hn')
  have := hd (fitprolog line.np (start line.np (fun _ => 0) (some [(0, 1)]) fs priors).base none).1 (by
    show (fitprolog line.np (initFitter line.np (fun _ => 0) (some [(0, 1)])) none).1 = [1]
    rw [e])
  show (hessianOf line _ s' (fitprolog line.np (start line.np (fun _ => 0) (some [(0, 1)]) fs priors).base none).1).M.det ≠ 0
  rw [this]
  norm_num

/-- The hypotheses of C71 … C74 about the parameters and the ranges, for the same line. -/
example : ProperKeep line.np [(0, 1)] ∧ (three .none).Good ∧ (three .none).Combined ∧
    Place line.np (some [(0, 1)]) 1 (fun q k => if k = 1 then q 0 else 1) ∧
    GivenRanges line.np (free line.np (some [(0, 1)])) (some [10, 20])
      (fun a => if a = 0 then 20 else 10) none := by
  have hf : free line.np (some [(0, 1)]) = [1] := by
    decide
  refine ⟨⟨by simp, by simp [line]⟩, ?_, Or.inl rfl, ⟨by rw [hf]; rfl, ?_, ?_⟩, ?_⟩
  · intro i _
    simp [three, Inp.weight, Inp.accuracy]
  · intro q a
    obtain rfl : a = 0 := Subsingleton.elim _ _
    rw [hf]
    simp
  · intro q
    simp [Agrees]
  · exact ⟨[10, 20], rfl, by simp, by simp [line], by simp, fun a => by
      rw [hf]
      rcases a with _ | a <;> simp⟩

/-- Four equally probable cases, with three uncorrelated noises that are 1 or -1 and on average 0. -/
noncomputable def fourth : Measure (Fin 4) := (4 : ENNReal)⁻¹ • Measure.count

def signs (i : ℕ) (ω : Fin 4) : ℝ :=
  match i with
  | 0 => ![1, 1, -1, -1] ω
  | 1 => ![1, -1, 1, -1] ω
  | _ => ![1, -1, -1, 1] ω

theorem fourth_integral (f : Fin 4 → ℝ) : ∫ ω, f ω ∂fourth = (f 0 + f 1 + f 2 + f 3) / 4 := by
  rw [fourth, integral_smul_measure, integral_fintype Integrable.of_finite]
  simp [Fin.sum_univ_four, Measure.real]
  ring

/-- Noise as C73 wants it, for the fit of `fit_one`. -/
example : Noise fourth (three .none) 1 signs ∧ (three .none).sumwgt = (three .none).n ∧
    (∀ i < (three .none).n, 0 < (three .none).weight i ∧ 0 < (three .none).accuracy i) ∧
    ∀ i < (three .none).n, ∫ ω, signs i ω ∂fourth = 0 := by
  have hlt : ∀ i < (three .none).n, i = 0 ∨ i = 1 ∨ i = 2 := by
    intro i hi
    have : i < 3 := hi
    omega
  refine ⟨⟨fun i _ j _ => ?_, ?_, ?_⟩, rfl, ?_, ?_⟩
  · haveI : IsFiniteMeasure fourth := by
      unfold fourth
      exact Measure.smul_finite _ (by simp)
    exact Integrable.of_finite
  · intro i hi
    rw [fourth_integral]
    rcases hlt i hi with rfl | rfl | rfl <;> simp [signs, three, Inp.accuracy, Inp.weight] <;> norm_num
  · intro i hi j hj hij
    rw [fourth_integral]
    rcases hlt i hi with rfl | rfl | rfl <;> rcases hlt j hj with rfl | rfl | rfl <;>
      first | exact absurd rfl hij | (simp [signs])
  · intro i _
    simp [three, Inp.weight, Inp.accuracy]
  · intro i hi
    rw [fourth_integral]
    rcases hlt i hi with rfl | rfl | rfl <;> simp [signs]

end BF.Evidence
