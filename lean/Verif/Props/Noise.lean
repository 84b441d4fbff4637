import Verif.Props.SameFitAfter

/-!
# C131: the fit does not depend on the level of the noise
-/

noncomputable section

namespace BF.SameFit

open BF.Fitters BF.LinearModels BF.Evidence Finset Matrix

variable {X : Type}

/-! ## Specification -/

/-- All errors a times as large. Data without accuracy get accuracy a. -/
def noisier (a : ℝ) (i : Inp X) : Inp X :=
  { i with
    acc := match i.acc with
      | .none => .scalar a
      | .scalar b => .scalar (a * b)
      | .array b => .array fun k => a * b k }

/-- All weights c times as large. Data without weights get weight c. -/
def heavier (c : ℝ) (i : Inp X) : Inp X :=
  { i with
    weights := match i.weights with
      | none => some fun _ => c
      | some w => some fun k => c * w k }

/-! ## Fits with all weights multiplied -/

theorem noisier_wgts (a : ℝ) (i : Inp X) (k : ℕ) : (noisier a i).data.fitWgts k = (1 / a ^ 2) * i.data.fitWgts k := by
  obtain ⟨n, x, y, w, acc⟩ := i
  rcases w with _ | w <;> rcases acc with _ | b | b <;>
    simp only [noisier, Inp.data, Acc.each, Data.fitWgts, div_eq_mul_inv, mul_inv] <;> ring

theorem heavier_wgts (c : ℝ) (i : Inp X) (k : ℕ) : (heavier c i).data.fitWgts k = c * i.data.fitWgts k := by
  obtain ⟨n, x, y, w, acc⟩ := i
  rcases w with _ | w <;> rcases acc with _ | b | b <;>
    simp only [heavier, Inp.data, Acc.each, Data.fitWgts, div_eq_mul_inv, mul_inv] <;> ring

theorem noisier_positive {a : ℝ} (ha : a ≠ 0) {i : Inp X} (h : Positive i.data) : Positive (noisier a i).data := by
  obtain ⟨n, x, y, w, acc⟩ := i
  refine ⟨h.1, ?_⟩
  have h2 := h.2
  rcases acc with _ | b | b <;> simp only [noisier, Inp.data, Acc.each] at h2 ⊢
  · rintro _ h0 i -
    cases h0
    exact ha
  · rintro _ h0 i hi
    cases h0
    exact mul_ne_zero ha (h2 _ rfl i hi)
  · rintro _ h0 i hi
    cases h0
    exact mul_ne_zero ha (h2 _ rfl i hi)

theorem heavier_positive {c : ℝ} (hc : 0 < c) {i : Inp X} (h : Positive i.data) : Positive (heavier c i).data := by
  obtain ⟨n, x, y, w, acc⟩ := i
  refine ⟨?_, h.2⟩
  have h1 := h.1
  rcases w with _ | w <;> simp only [heavier, Inp.data] at h1 ⊢
  · rintro _ h0 i -
    cases h0
    exact hc
  · rintro _ h0 i hi
    cases h0
    exact mul_pos hc (h1 _ rfl i hi)

theorem chi_times (m : Lin X) {d e : Data X} {c : ℝ} (hn : e.n = d.n) (hx : e.x = d.x) (hy : e.y = d.y)
    (hw : ∀ k, e.fitWgts k = c * d.fitWgts k) (p : ℕ → ℝ) : chiSquared m e p = c * chiSquared m d p := by
  unfold chiSquared
  rw [mul_sum, hn, hx, hy]
  exact sum_congr rfl fun i _ => by rw [hw]; ring

theorem HM_times (m : Lin X) {d e : Data X} {c : ℝ} (hn : e.n = d.n) (hx : e.x = d.x)
    (hw : ∀ k, e.fitWgts k = c * d.fitWgts k) : HM m e = c • HM m d := by
  ext a b
  simp only [HM, Matrix.smul_apply, Matrix.of_apply, smul_eq_mul]
  rw [mul_sum, hn, hx]
  exact sum_congr rfl fun i _ => by rw [hw]; ring

theorem fits_times {solve : ℕ → (ℕ → ℕ → ℝ) → (ℕ → ℝ) → Option (ℕ → ℝ)} (hsolve : SolveSpec solve)
    (hreg : SolveRegular solve) {m : Lin X} {d e : Data X} (hd : Positive d) (he : Positive e) {c : ℝ} (hc : 0 < c)
    (hn : e.n = d.n) (hx : e.x = d.x) (hy : e.y = d.y) (hw : ∀ k, e.fitWgts k = c * d.fitWgts k) {p q : ℕ → ℝ}
    (h : Fits solve m d p) (h' : Fits solve m e q) :
    (∀ k < m.np, q k = p k) ∧ chiSquared m e q = c * chiSquared m d p := by
  have hk : ∀ k < m.np, p k = q k := by
    refine determine_eq (fits_determine hreg hd h) (min_unique m d hd p q (fits_min hsolve hd h) ?_)
    have := fits_min hsolve he h' p
    rw [chi_times m hn hx hy hw, chi_times m hn hx hy hw] at this
    exact le_of_mul_le_mul_left this hc
  refine ⟨fun k hk' => (hk k hk').symm, ?_⟩
  rw [chi_times m hn hx hy hw]
  congr 1
  unfold chiSquared
  exact sum_congr rfl fun i _ => by rw [result_congr m _ hk]

theorem sqrt_scale (a x y : ℝ) (ha : 0 < a) : Real.sqrt (1 / a ^ 2 * x / y) = Real.sqrt (x / y) / a := by
  rw [mul_div_assoc, Real.sqrt_mul (by positivity), one_div, Real.sqrt_inv, Real.sqrt_sq ha.le]
  ring

/-! ## Accuracies -/

/-- C131: with all errors a times as large the fitter finds the same parameters, and chi squared is a² times smaller. -/
theorem C131_accuracy (solve : ℕ → (ℕ → ℕ → ℝ) → (ℕ → ℝ) → Option (ℕ → ℝ)) (hsolve : SolveSpec solve)
    (hreg : SolveRegular solve) (m : Lin X) (a : ℝ) (ha : 0 < a) (inp : Inp X) (hd : Positive inp.data)
    (p0 p0' : ℕ → ℝ) (fs fs' : Option ℝ) (pr pr' : Option (List ℝ)) (t t' : State X)
    (h : fitState solve m (start m.np p0 none fs pr) inp none = some t)
    (h' : fitState solve m (start m.np p0' none fs' pr') (noisier a inp) none = some t') :
    (∀ k < m.np, t'.base.params k = t.base.params k) ∧ t'.chisq = t.chisq / a ^ 2 ∧
    getScale t' = (getScale t).map fun s => s / a := by
  obtain ⟨a1, a2, a3, a4, a5, a6, a7, a8, a9⟩ := state_facts h
  obtain ⟨b1, b2, b3, b4, b5, b6, b7, b8, b9⟩ := state_facts h'
  obtain ⟨e1, e2⟩ := fits_times hsolve hreg hd (noisier_positive ha.ne' hd) (c := 1 / a ^ 2) (by positivity) rfl rfl rfl
    (noisier_wgts a inp) a9 b9
  have hchi : t'.chisq = 1 / a ^ 2 * t.chisq := by rw [a7, b7, e2]
  refine ⟨e1, by rw [hchi]; ring, ?_⟩
  have hdof : t'.dof = t.dof := by
    unfold State.dof
    rw [a3, b3, a4, b4]
    rfl
  unfold getScale
  rw [hdof, hchi]
  split
  · rfl
  · rw [Option.map_some, sqrt_scale a _ _ ha]

theorem inv_times {K : ℕ} (H : Matrix (Fin K) (Fin K) ℝ) (c : ℝ) (hc : c ≠ 0) (hH : H.det ≠ 0) :
    (c • H)⁻¹ = c⁻¹ • H⁻¹ := by
  refine Matrix.inv_eq_left_inv ?_
  rw [Matrix.smul_mul, Matrix.mul_smul, smul_smul, inv_mul_cancel₀ hc, one_smul, Matrix.nonsing_inv_mul _ (Ne.isUnit hH)]

theorem cov_of {m : Lin X} {t : State X} (hn : t.base.nnorm = 0) (hi : t.base.fitIndex = none)
    (hmin : t.minimumScale = none) :
    (getCovarianceMatrix m t).2 = if (HM m t.inp.data).det = 0 then none
      else (getScale t).map fun s => ⟨m.np, (s * s) • (HM m t.inp.data)⁻¹⟩ := by
  have hh : hessianOf m t.inp.data t.base (t.base.fitIndex.getD ((List.range m.np).map fun k : ℕ => (k : ℤ)))
      = ⟨m.np, HM m t.inp.data⟩ := by
    rw [hi, Option.getD_none, index_all, hess_eq m t.inp.data t.base hn]
  simp only [getCovarianceMatrix, getInverseHessian]
  generalize hessianOf m t.inp.data t.base (t.base.fitIndex.getD ((List.range m.np).map fun k : ℕ => (k : ℤ))) = hes
    at hh ⊢
  subst hh
  by_cases hdet : (HM m t.inp.data).det = 0
  · rw [if_pos hdet, if_pos hdet, Option.bind_none]
  · rw [if_neg hdet, if_neg hdet, Option.bind_some]
    simp only [makeVariance, hmin, Option.map_map]
    rfl

/-- C131: the covariance matrix and the standard deviations of the parameters do not depend on the level of the
noise. -/
theorem C131_covariance (solve : ℕ → (ℕ → ℕ → ℝ) → (ℕ → ℝ) → Option (ℕ → ℝ)) (hsolve : SolveSpec solve)
    (hreg : SolveRegular solve) (m : Lin X) (a : ℝ) (ha : 0 < a) (inp : Inp X) (hd : Positive inp.data)
    (p0 p0' : ℕ → ℝ) (fs fs' : Option ℝ) (pr pr' : Option (List ℝ)) (t t' : State X)
    (h : fitState solve m (start m.np p0 none fs pr) inp none = some t)
    (h' : fitState solve m (start m.np p0' none fs' pr') (noisier a inp) none = some t') :
    (getCovarianceMatrix m t').2 = (getCovarianceMatrix m t).2 ∧
    (getStandardDeviations m t').2 = (getStandardDeviations m t).2 := by
  obtain ⟨-, -, hs⟩ := C131_accuracy solve hsolve hreg m a ha inp hd p0 p0' fs fs' pr pr' t t' h h'
  obtain ⟨a1, a2, a3, a4, a5, a6, a7, a8, a9⟩ := state_facts h
  obtain ⟨b1, b2, b3, b4, b5, b6, b7, b8, b9⟩ := state_facts h'
  have hdet := det_ne m inp.data hd (fits_determine hreg hd a9)
  have hH : HM m (noisier a inp).data = (1 / a ^ 2) • HM m inp.data := HM_times m rfl rfl (noisier_wgts a inp)
  have hdet' := det_ne m _ (noisier_positive ha.ne' hd) (fits_determine hreg (noisier_positive ha.ne' hd) b9)
  have hcov : (getCovarianceMatrix m t').2 = (getCovarianceMatrix m t).2 := by
    rw [cov_of a1 a2 a5, cov_of b1 b2 b5, a4, b4, if_neg hdet, if_neg hdet', hs, Option.map_map]
    congr 1
    funext s
    simp only [Function.comp]
    rw [hH, inv_times _ _ (by positivity) hdet, smul_smul]
    congr 2
    field_simp
  have hkeep : t.keep = false := by
    simp only [fitState, Option.map_eq_some_iff] at h
    obtain ⟨s, -, rfl⟩ := h
    rfl
  have hkeep' : t'.keep = false := by
    simp only [fitState, Option.map_eq_some_iff] at h'
    obtain ⟨s, -, rfl⟩ := h'
    rfl
  refine ⟨hcov, ?_⟩
  simp only [getStandardDeviations, hcov, hkeep, hkeep', Bool.false_eq_true, if_false]

theorem noisier_slacc {t t' : State X} {a : ℝ} (ha : 0 < a) {inp : Inp X} (hc : inp.Combined) (hg : inp.Good)
    (ht : t.inp = inp) (ht' : t'.inp = noisier a inp) : slacc t' = slacc t + inp.sumwgt * Real.log a := by
  have hc' : t'.inp.Combined := by
    rw [ht']
    rcases hc with hc | hc
    · exact Or.inl hc
    · refine Or.inr fun b => ?_
      obtain ⟨n, x, y, w, acc⟩ := inp
      rcases acc with _ | b' | b' <;> simp only [noisier, ne_eq, reduceCtorEq, not_false_eq_true]
      exact absurd rfl (hc b')
  rw [slacc_eq t' hc', slacc_eq t (by rw [ht]; exact hc), ht, ht', sumwgt_eq, sum_mul, ← sum_add_distrib]
  show ∑ i ∈ range inp.n, _ = _
  refine sum_congr rfl fun i hi => ?_
  have h1 : (noisier a inp).accuracy i = a * inp.accuracy i := by
    obtain ⟨n, x, y, w, acc⟩ := inp
    rcases acc with _ | b | b <;> simp [noisier, Inp.accuracy]
  have h2 : (noisier a inp).weight i = inp.weight i := rfl
  rw [h1, h2, Real.log_mul ha.ne' (hg i (mem_range.1 hi)).2.ne']
  ring

/-- C131: the evidence does not depend on the level of the noise either, as long as the noise scale, or the limits within
which it is searched, go with it: accuracies a times as large, and the scale a times as small. Excepted are weights
together with different accuracies, see C71. -/
theorem C131_evidence_partial (solve : ℕ → (ℕ → ℕ → ℝ) → (ℕ → ℝ) → Option (ℕ → ℝ)) (hsolve : SolveSpec solve)
    (hreg : SolveRegular solve) (m : Lin X) (a : ℝ) (ha : 0 < a) (inp : Inp X) (hcomb : inp.Combined) (hg : inp.Good)
    (hd : Positive inp.data) (p0 p0' : ℕ → ℝ) (fs : ℝ) (hfs : 0 < fs) (pr pr' : Option (List ℝ)) (t t' : State X)
    (h : fitState solve m (start m.np p0 none (some fs) pr) inp none = some t)
    (h' : fitState solve m (start m.np p0' none (some (fs / a)) pr') (noisier a inp) none = some t')
    (lo hi : ℕ → ℝ) (nl : Option (ℝ × ℝ)) (hchi : nl ≠ none → 0 < t.chisq) :
    getLogZ m.np t' (some (.array ((List.range m.np).map fun k => (lo k, hi k)))) (nl.map fun l => (l.1 / a, l.2 / a))
      = getLogZ m.np t (some (.array ((List.range m.np).map fun k => (lo k, hi k)))) nl := by
  obtain ⟨-, hc2, hs⟩ := C131_accuracy solve hsolve hreg m a ha inp hd p0 p0' _ _ pr pr' t t' h h'
  obtain ⟨a1, a2, a3, a4, a5, a6, a7, a8, a9⟩ := state_facts h
  obtain ⟨b1, b2, b3, b4, b5, b6, b7, b8, b9⟩ := state_facts h'
  have hw : (noisier a inp).sumwgt = inp.sumwgt := rfl
  have hdof : t'.dof = t.dof := by
    unfold State.dof
    rw [a3, b3, a4, b4, hw]
  have hH : HM m (noisier a inp).data = (1 / a ^ 2) • HM m inp.data := HM_times m rfl rfl (noisier_wgts a inp)
  have hdet : (HM m (noisier a inp).data).det = (1 / a ^ 2) ^ m.np * (HM m inp.data).det := by
    rw [hH, Matrix.det_smul, Fintype.card_fin]
  have hlik : ∀ v, 0 < v → getLogLikelihood t' (v / (a * a)) = getLogLikelihood t v := by
    intro v hv
    unfold getLogLikelihood
    rw [noisier_slacc ha hcomb hg a4 b4, a4, b4, hc2, hw]
    rw [show 2 * Real.pi * (v / (a * a)) = (2 * Real.pi * v) / a ^ 2 by ring,
      Real.log_div (by positivity) (by positivity), Real.log_pow]
    have : t.chisq / a ^ 2 / (v / (a * a)) = t.chisq / v := by field_simp
    rw [this]
    push_cast
    ring
  have hnoise : noisePart t' (nl.map fun l => (l.1 / a, l.2 / a)) = (noisePart t nl).map fun q => (q.1 / (a * a), q.2) := by
    cases nl with
    | none =>
      simp only [noisePart, a6, b6, Option.map_none, Option.getD_some, Option.map_some]
      congr 2
      ring
    | some l =>
      obtain ⟨l1, l2⟩ := l
      simp only [Option.map_some, noisePart, makeVariance, hs, a5, b5, hdof]
      by_cases hl : l1 ≤ 0 ∨ l2 ≤ 0
      · have hl' : l1 / a ≤ 0 ∨ l2 / a ≤ 0 :=
          hl.imp (fun e => div_nonpos_of_nonpos_of_nonneg e ha.le) fun e => div_nonpos_of_nonpos_of_nonneg e ha.le
        rw [if_pos (by tauto), if_pos (by tauto), Option.map_none]
      · push Not at hl
        have e : Real.log (l2 / a) - Real.log (l1 / a) = Real.log l2 - Real.log l1 := by
          rw [Real.log_div hl.2.ne' ha.ne', Real.log_div hl.1.ne' ha.ne']
          ring
        have e1 : ¬ l1 / a ≤ 0 := not_le.2 (div_pos hl.1 ha)
        have e2 : ¬ l2 / a ≤ 0 := not_le.2 (div_pos hl.2 ha)
        simp only [e, e1, e2, not_le.2 hl.1, not_le.2 hl.2, false_or]
        split
        · rfl
        · simp only [Option.map_map]
          congr 1
          funext s
          simp only [Function.comp]
          congr 1
          ring
  have hv : ∀ q, noisePart t nl = some q → ¬ t.dof ≤ 0 → 0 < q.1 := by
    intro q hq hdf
    cases nl with
    | none =>
      simp only [noisePart, a6, Option.getD_some, Option.some.injEq] at hq
      rw [← hq]
      positivity
    | some l =>
      obtain ⟨l1, l2⟩ := l
      have hc := hchi (by simp)
      simp only [noisePart, makeVariance, getScale, a5] at hq
      split at hq
      · cases hq
      · simp only [Option.map_some, Option.some.injEq, if_neg hdf] at hq
        rw [← hq]
        have : 0 < t.chisq / t.dof := div_pos hc (not_le.1 hdf)
        show 0 < Real.sqrt _ * Real.sqrt _
        positivity
  rw [logZ_array m.np t' m.np b3 lo hi _ b8, logZ_array m.np t m.np a3 lo hi _ a8 nl, hdof, hnoise]
  split
  · rfl
  · rename_i hdf
    cases hq : noisePart t nl with
    | none => rfl
    | some q =>
      have hq0 := hv q hq hdf
      simp only [Option.map_some, Option.bind_some]
      rw [hlik q.1 hq0]
      split
      · rfl
      · by_cases h0 : (HM m inp.data).det ≤ 0
        · rw [if_pos h0, if_pos (by rw [hdet]; exact mul_nonpos_of_nonneg_of_nonpos (by positivity) h0)]
        · push Not at h0
          rw [if_neg (not_le.2 h0), if_neg (by rw [hdet]; exact not_le.2 (by positivity)), hdet,
            Real.log_mul (by positivity) h0.ne', Real.log_pow, one_div, Real.log_inv, Real.log_pow,
            show 2 * Real.pi * (q.1 / (a * a)) = (2 * Real.pi * q.1) / a ^ 2 by ring,
            Real.log_div (by positivity) (by positivity), Real.log_pow]
          congr 1
          push_cast
          ring

/-! ## Weights -/

theorem heavier_sumwgt (c : ℝ) (i : Inp X) : (heavier c i).sumwgt = c * i.sumwgt := by
  obtain ⟨n, x, y, w, acc⟩ := i
  rcases w with _ | w
  · simp [heavier, Inp.sumwgt, mul_comm]
  · simp [heavier, Inp.sumwgt, mul_sum]

/-- C131: with all weights c times as large the fitter finds the same parameters, and chi squared is c times as large. The
number of degrees of freedom is then counted with c times as many data, also for the noise scale. -/
theorem C131_weights (solve : ℕ → (ℕ → ℕ → ℝ) → (ℕ → ℝ) → Option (ℕ → ℝ)) (hsolve : SolveSpec solve)
    (hreg : SolveRegular solve) (m : Lin X) (c : ℝ) (hc : 0 < c) (inp : Inp X) (hd : Positive inp.data)
    (p0 p0' : ℕ → ℝ) (fs fs' : Option ℝ) (pr pr' : Option (List ℝ)) (t t' : State X)
    (h : fitState solve m (start m.np p0 none fs pr) inp none = some t)
    (h' : fitState solve m (start m.np p0' none fs' pr') (heavier c inp) none = some t') :
    (∀ k < m.np, t'.base.params k = t.base.params k) ∧ t'.chisq = c * t.chisq ∧
    getScale t' = if c * inp.sumwgt - m.np ≤ 0 then none else some (Real.sqrt (c * t.chisq / (c * inp.sumwgt - m.np))) := by
  obtain ⟨a1, a2, a3, a4, a5, a6, a7, a8, a9⟩ := state_facts h
  obtain ⟨b1, b2, b3, b4, b5, b6, b7, b8, b9⟩ := state_facts h'
  obtain ⟨e1, e2⟩ := fits_times hsolve hreg hd (heavier_positive hc hd) hc rfl rfl rfl (heavier_wgts c inp) a9 b9
  have hchi : t'.chisq = c * t.chisq := by rw [a7, b7, e2]
  refine ⟨e1, hchi, ?_⟩
  have hdof : t'.dof = c * inp.sumwgt - m.np := by
    unfold State.dof
    rw [b3, b4, heavier_sumwgt]
  unfold getScale
  rw [hdof, hchi]

/-- C131: the covariance matrix after the fit with all weights c times as large is that of c times as many data: it goes
with the number of degrees of freedom. -/
theorem C131_weights_covariance (solve : ℕ → (ℕ → ℕ → ℝ) → (ℕ → ℝ) → Option (ℕ → ℝ)) (hsolve : SolveSpec solve)
    (hreg : SolveRegular solve) (m : Lin X) (c : ℝ) (hc : 0 < c) (inp : Inp X) (hd : Positive inp.data)
    (p0 p0' : ℕ → ℝ) (fs fs' : Option ℝ) (pr pr' : Option (List ℝ)) (t t' : State X)
    (h : fitState solve m (start m.np p0 none fs pr) inp none = some t)
    (h' : fitState solve m (start m.np p0' none fs' pr') (heavier c inp) none = some t')
    (hW : (m.np : ℝ) < inp.sumwgt) (hW' : (m.np : ℝ) < c * inp.sumwgt) :
    ∃ C C' : Matrix (Fin m.np) (Fin m.np) ℝ, (getCovarianceMatrix m t).2 = some ⟨m.np, C⟩ ∧
      (getCovarianceMatrix m t').2 = some ⟨m.np, C'⟩ ∧
      C' = ((inp.sumwgt - m.np) / (c * inp.sumwgt - m.np)) • C ∧ (0 < m.np → 0 < t.chisq → C ≠ 0) := by
  obtain ⟨-, -, hs⟩ := C131_weights solve hsolve hreg m c hc inp hd p0 p0' fs fs' pr pr' t t' h h'
  obtain ⟨a1, a2, a3, a4, a5, a6, a7, a8, a9⟩ := state_facts h
  obtain ⟨b1, b2, b3, b4, b5, b6, b7, b8, b9⟩ := state_facts h'
  have hdet := det_ne m inp.data hd (fits_determine hreg hd a9)
  have hH : HM m (heavier c inp).data = c • HM m inp.data := HM_times m rfl rfl (heavier_wgts c inp)
  have hdet' := det_ne m _ (heavier_positive hc hd) (fits_determine hreg (heavier_positive hc hd) b9)
  have hs0 : getScale t = some (Real.sqrt (t.chisq / (inp.sumwgt - m.np))) := by
    unfold getScale State.dof
    rw [a3, a4, if_neg (by linarith)]
  rw [if_neg (by linarith)] at hs
  have hpos : 0 < inp.sumwgt - m.np := by linarith
  have hpos' : 0 < c * inp.sumwgt - m.np := by linarith
  have hchi0 : 0 ≤ t.chisq := by
    rw [a7]
    exact sum_nonneg fun i hi => mul_nonneg (sq_nonneg _) (wgts_pos _ hd i (mem_range.1 hi)).le
  refine ⟨(t.chisq / (inp.sumwgt - m.np)) • (HM m inp.data)⁻¹,
    (Real.sqrt (c * t.chisq / (c * inp.sumwgt - m.np)) * Real.sqrt (c * t.chisq / (c * inp.sumwgt - m.np))) •
      (HM m (heavier c inp).data)⁻¹, ?_, ?_, ?_, ?_⟩
  · rw [cov_of a1 a2 a5, a4, if_neg hdet, hs0, Option.map_some, Real.mul_self_sqrt (by positivity)]
  · rw [cov_of b1 b2 b5, b4, if_neg hdet', hs, Option.map_some]
  · rw [hH, inv_times _ _ hc.ne' hdet, smul_smul, Real.mul_self_sqrt (by positivity)]
    rw [show c * t.chisq / (c * inp.sumwgt - m.np) * c⁻¹
      = (inp.sumwgt - m.np) / (c * inp.sumwgt - m.np) * (t.chisq / (inp.sumwgt - m.np)) by field_simp, ← smul_smul]
  · intro hn hx h0
    rcases smul_eq_zero.1 h0 with h1 | h1
    · exact absurd h1 (by positivity)
    · have := Matrix.nonsing_inv_mul (HM m inp.data) (Ne.isUnit hdet)
      rw [h1, Matrix.zero_mul] at this
      have := congrFun (congrFun this ⟨0, hn⟩) ⟨0, hn⟩
      simp at this

/-- The documentation: "The weights are relative weights unless fixedScale is set." That is not so: with all weights
multiplied by the same number the covariance matrix of the parameters, and with it all standard deviations, are
different ones. -/
theorem C131_counterexample_relative (solve : ℕ → (ℕ → ℕ → ℝ) → (ℕ → ℝ) → Option (ℕ → ℝ)) (hsolve : SolveSpec solve)
    (hreg : SolveRegular solve) (m : Lin X) (hnp : 0 < m.np) (c : ℝ) (hc : 0 < c) (hc1 : c ≠ 1) (inp : Inp X)
    (hd : Positive inp.data) (p0 p0' : ℕ → ℝ) (pr pr' : Option (List ℝ)) (t t' : State X)
    (h : fitState solve m (start m.np p0 none none pr) inp none = some t)
    (h' : fitState solve m (start m.np p0' none none pr') (heavier c inp) none = some t')
    (hW : (m.np : ℝ) < inp.sumwgt) (hchi : 0 < t.chisq) :
    (getCovarianceMatrix m t').2 ≠ (getCovarianceMatrix m t).2 := by
  by_cases hW' : (m.np : ℝ) < c * inp.sumwgt
  · obtain ⟨C, C', e1, e2, e3, e4⟩ := C131_weights_covariance solve hsolve hreg m c hc inp hd p0 p0' none none pr pr' t t'
      h h' hW hW'
    rw [e1, e2]
    intro e
    have e5 : C' = C := by simpa using e
    rw [e3] at e5
    have e6 : ((inp.sumwgt - m.np) / (c * inp.sumwgt - m.np) - 1) • C = 0 := by rw [sub_smul, e5, one_smul, sub_self]
    rcases smul_eq_zero.1 e6 with e7 | e7
    · rw [sub_eq_zero, div_eq_one_iff_eq (by linarith)] at e7
      have h0 : (0 : ℝ) ≤ m.np := Nat.cast_nonneg _
      have : (c - 1) * inp.sumwgt = 0 := by linarith
      rcases mul_eq_zero.1 this with e8 | e8
      · exact hc1 (by linarith)
      · linarith
    · exact e4 hnp hchi e7
  · obtain ⟨-, -, hs⟩ := C131_weights solve hsolve hreg m c hc inp hd p0 p0' none none pr pr' t t' h h'
    obtain ⟨a1, a2, a3, a4, a5, a6, a7, a8, a9⟩ := state_facts h
    obtain ⟨b1, b2, b3, b4, b5, b6, b7, b8, b9⟩ := state_facts h'
    have hdet := det_ne m inp.data hd (fits_determine hreg hd a9)
    have hdet' := det_ne m _ (heavier_positive hc hd) (fits_determine hreg (heavier_positive hc hd) b9)
    have hs0 : getScale t = some (Real.sqrt (t.chisq / (inp.sumwgt - m.np))) := by
      unfold getScale State.dof
      rw [a3, a4, if_neg (by linarith)]
    rw [if_pos (by linarith)] at hs
    rw [cov_of a1 a2 a5, cov_of b1 b2 b5, a4, b4, if_neg hdet, if_neg hdet', hs, hs0]
    simp

/-- The examples: a line through three points that are not on a line, with errors and weights 2 times as large. -/
example : ∃ solve, SolveSpec solve ∧ SolveRegular solve ∧ ∃ (inp : Inp ℝ) (t t' t'' : State ℝ),
    inp.Combined ∧ inp.Good ∧ Positive inp.data ∧ (((polynomial 1).np : ℕ) : ℝ) < inp.sumwgt ∧ 0 < t.chisq ∧
    fitState solve (polynomial 1) (start 2 (fun _ => 0) none (some 1) none) inp none = some t ∧
    fitState solve (polynomial 1) (start 2 (fun _ => 0) none (some (1 / 2)) none) (noisier 2 inp) none = some t' ∧
    fitState solve (polynomial 1) (start 2 (fun _ => 0) none none none) (heavier 2 inp) none = some t'' := by
  obtain ⟨solve, h1, h2, h3⟩ := solve_exists
  let inp : Inp ℝ := ⟨3, fun i => (i : ℝ), fun i => (i : ℝ) ^ 2, none, .none⟩
  have hd : Positive inp.data := ⟨fun w hw => (by cases hw), fun w hw => (by cases hw)⟩
  have hdet : ∀ e : Data ℝ, e.n = 3 → e.x = (fun i : ℕ => (i : ℝ)) → Determine (polynomial 1) e [] := by
    intro e hn hx
    rw [C119_polynomial]
    have : (range e.n).image e.x = {0, 1, 2} := by
      rw [hn, hx]
      ext x
      simp [Finset.range_add_one]
      tauto
    rw [different, this]
    norm_num
  have hfit : ∀ (i : Inp ℝ) (fs : Option ℝ), Positive i.data → i.n = 3 → i.x = (fun i : ℕ => (i : ℝ)) →
      ∃ t, fitState solve (polynomial 1) (start 2 (fun _ => 0) none fs none) i none = some t := by
    intro i fs hi hn hx
    obtain ⟨s, hs⟩ := (C119_fit_all solve h2 h3 (polynomial 1) i.data hi fun _ => 0).2 (hdet i.data hn hx)
    unfold fitState
    exact ⟨_, Option.map_eq_some_iff.2 ⟨s, hs, rfl⟩⟩
  obtain ⟨t, ht⟩ := hfit inp (some 1) hd rfl rfl
  obtain ⟨t', ht'⟩ := hfit (noisier 2 inp) (some (1 / 2)) (noisier_positive two_ne_zero hd) rfl rfl
  obtain ⟨t'', ht''⟩ := hfit (heavier 2 inp) none (heavier_positive two_pos hd) rfl rfl
  refine ⟨solve, h1, h2, inp, t, t', t'', Or.inl rfl, fun i hi => ⟨zero_le_one, zero_lt_one⟩, hd, ?_, ?_, ht, ht', ht''⟩
  · norm_num [inp, Inp.sumwgt, polynomial, ofPartial]
  · obtain ⟨a1, a2, a3, a4, a5, a6, a7, a8, a9⟩ := state_facts (m := polynomial 1) ht
    rw [a7]
    have hp : ∀ x, (polynomial 1).part x 0 = 1 ∧ (polynomial 1).part x 1 = x := fun x =>
      ⟨by rw [poly_part 1 x 0 (by norm_num), pow_zero], by rw [poly_part 1 x 1 le_rfl, pow_one]⟩
    generalize t.base.params = p
    have hr : ∀ x, (polynomial 1).result x p = p 0 + p 1 * x := by
      intro x
      show (0 : ℝ) + ∑ k ∈ range 2, _ = _
      rw [sum_range_succ, sum_range_one, (hp x).1, (hp x).2]
      ring
    have hc : chiSquared (polynomial 1) inp.data p = (0 - p 0) ^ 2 + (1 - (p 0 + p 1)) ^ 2 + (4 - (p 0 + p 1 * 2)) ^ 2 := by
      unfold chiSquared
      simp only [hr]
      norm_num [inp, Inp.data, Acc.each, Data.fitWgts, sum_range_succ]
    rw [hc]
    nlinarith [sq_nonneg (p 0 + 2 / 6), sq_nonneg (p 0 - 2 * (p 0 + p 1 - 1) + (p 0 + p 1 * 2 - 4) - 2), sq_nonneg (p 0),
      sq_nonneg (1 - (p 0 + p 1)), sq_nonneg (4 - (p 0 + p 1 * 2)), sq_nonneg ((0 - p 0) - 2 * (1 - (p 0 + p 1)) + (4 - (p 0 + p 1 * 2))),
      sq_nonneg ((0 - p 0) + (1 - (p 0 + p 1))), sq_nonneg ((1 - (p 0 + p 1)) + (4 - (p 0 + p 1 * 2))), sq_nonneg ((0 - p 0) - (4 - (p 0 + p 1 * 2)))]

end BF.SameFit
