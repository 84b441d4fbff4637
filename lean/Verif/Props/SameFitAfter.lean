import Verif.Props.SameFitModels
import Verif.Props.Evidence
import Mathlib.LinearAlgebra.Matrix.NonsingularInverse

/-!
# C127: scale, errors of the curve and evidence after the fit
-/

noncomputable section

namespace BF.SameFit

open BF.Fitters BF.LinearModels BF.Evidence Finset Matrix

variable {X Y : Type}

/-! ## Specification -/

/-- The input of a fit with another quantity for x. -/
def movedInp (φ : X → Y) (i : Inp X) : Inp Y := ⟨i.n, fun k => φ (i.x k), i.y, i.weights, i.acc⟩

/-- The variance of the curve at x, by the rule for the propagation of errors: derivatives to the parameters, covariance
matrix, derivatives to the parameters. -/
def spread (m : Lin X) (x : X) (C : Sq) : ℝ := ∑ a : Fin C.K, ∑ b : Fin C.K, m.part x a * C.M a b * m.part x b

/-! ## After a fit -/

/-- The matrix of the normal equations. -/
def HM (m : Lin X) (d : Data X) : Matrix (Fin m.np) (Fin m.np) ℝ :=
  Matrix.of fun a b => ∑ i ∈ range d.n, m.part (d.x i) a * (m.part (d.x i) b * d.fitWgts i)

theorem sq_of {K n : ℕ} (h : K = n) (f g : ℕ → ℕ → ℝ) (hfg : ∀ a < n, ∀ b < n, f a b = g a b) :
    (⟨K, Matrix.of fun a b => f a b⟩ : Sq) = ⟨n, Matrix.of fun a b => g a b⟩ := by
  subst h
  congr 1
  ext a b
  exact hfg a a.2 b b.2

theorem hess_eq (m : Lin X) (d : Data X) (s : Fitter) (hn : s.nnorm = 0) :
    hessianOf m d s (indexOf m.np fun _ => true) = ⟨m.np, HM m d⟩ := by
  unfold hessianOf hessMat HM
  refine sq_of (by simp [indexOf]) _ (fun a b => ∑ i ∈ range d.n, m.part (d.x i) a * (m.part (d.x i) b * d.fitWgts i))
    fun a ha b hb => ?_
  have hidx : ∀ a < m.np, pyIdx m.np ((indexOf m.np fun _ => true).getD a 0) = a := by
    intro a ha
    rw [← index_all, List.getD_eq_getElem?_getD, List.getElem?_map, List.getElem?_range ha]
    exact pyIdx_cast m.np a
  unfold getHessian
  rw [hn, Nat.add_zero]
  refine sum_congr rfl fun i hi => ?_
  simp only [getDesign, hidx a ha, hidx b hb, allWgts, if_pos (mem_range.1 hi)]

/-- What is known after a fit. -/
theorem state_facts {solve : ℕ → (ℕ → ℕ → ℝ) → (ℕ → ℝ) → Option (ℕ → ℝ)} {m : Lin X} {params : ℕ → ℝ} {fs : Option ℝ}
    {priors : Option (List ℝ)} {inp : Inp X} {t : State X}
    (h : fitState solve m (start m.np params none fs priors) inp none = some t) :
    t.base.nnorm = 0 ∧ t.base.fitIndex = none ∧ t.base.npfit = m.np ∧ t.inp = inp ∧ t.minimumScale = none ∧
    t.fixedScale = fs ∧ t.chisq = chiSquared m inp.data t.base.params ∧ t.hessian = ⟨m.np, HM m inp.data⟩ ∧
    Fits solve m inp.data t.base.params := by
  simp only [fitState, start, Option.map_eq_some_iff] at h
  obtain ⟨s, hs, rfl⟩ := h
  have hf : Fits solve m inp.data s.params := ⟨params, s, hs, rfl⟩
  have hs' := hs
  unfold fit at hs
  simp only [fitprolog, show (initFitter m.np params none).fitIndex = none from rfl, Option.map_eq_some_iff] at hs
  obtain ⟨x, -, hx⟩ := hs
  have hn : s.nnorm = 0 := by rw [← hx]; rfl
  refine ⟨hn, by rw [← hx], by rw [← hx], rfl, rfl, rfl, rfl, ?_, hf⟩
  show hessianOf m inp.data s ((List.range m.np).map fun k : ℕ => (k : ℤ)) = _
  rw [index_all]
  exact hess_eq m inp.data s hn

theorem det_ne (m : Lin X) (d : Data X) (hd : Positive d) (h : Determine m d []) : (HM m d).det ≠ 0 := by
  intro h0
  obtain ⟨v, hv, hz⟩ := Matrix.exists_mulVec_eq_zero_iff.2 h0
  rw [determine_iff m d [] ⟨by simp, by simp⟩] at h
  apply hv
  have hq : ∑ i ∈ range d.n, (∑ k, v k * m.part (d.x i) k) ^ 2 * d.fitWgts i = 0 := by
    have e : ∑ i ∈ range d.n, (∑ k, v k * m.part (d.x i) k) ^ 2 * d.fitWgts i = ∑ a, v a * (HM m d *ᵥ v) a := by
      simp only [HM, mulVec, dotProduct, Matrix.of_apply, sum_mul, mul_sum]
      rw [show (∑ a : Fin m.np, ∑ b : Fin m.np, ∑ i ∈ range d.n,
          v a * (m.part (d.x i) a * (m.part (d.x i) b * d.fitWgts i) * v b))
        = ∑ i ∈ range d.n, ∑ a : Fin m.np, ∑ b : Fin m.np,
          v a * (m.part (d.x i) a * (m.part (d.x i) b * d.fitWgts i) * v b) from by
            rw [sum_comm]
            simp_rw [sum_comm (s := range d.n)]
            rw [sum_comm]]
      refine sum_congr rfl fun i _ => ?_
      rw [pow_two, sum_mul_sum, sum_mul]
      refine sum_congr rfl fun a _ => ?_
      rw [sum_mul]
      exact sum_congr rfl fun b _ => by ring
    rw [e, hz]
    simp
  have hzero : ∀ i < d.n, ∑ k, v k * m.part (d.x i) k = 0 := by
    intro i hi
    have hpos : ∀ i ∈ range d.n, 0 ≤ (∑ k, v k * m.part (d.x i) k) ^ 2 * d.fitWgts i := fun i hi =>
      mul_nonneg (sq_nonneg _) (wgts_pos d hd i (mem_range.1 hi)).le
    have h3 := (sum_eq_zero_iff_of_nonneg hpos).1 hq i (mem_range.2 hi)
    exact pow_eq_zero_iff two_ne_zero |>.1 ((mul_eq_zero.1 h3).resolve_right (wgts_pos d hd i hi).ne')
  funext k
  have := h (extend v) (fun k _ hf => by simp at hf) (fun i hi => by
    rw [← hzero i hi, Finset.sum_range fun k => extend v k * m.part (d.x i) k]
    refine sum_congr rfl fun k _ => ?_
    rw [show extend v k = v k from congrFun (extend_fin v) k]) k k.2
  rwa [show extend v k = v k from congrFun (extend_fin v) k] at this

/-- C127: the noise scale after the fit is the same. -/
theorem C127_scale (solve : ℕ → (ℕ → ℕ → ℝ) → (ℕ → ℝ) → Option (ℕ → ℝ)) (hsolve : SolveSpec solve)
    (hreg : SolveRegular solve) (φ : X → Y) (D : Set X) (m : Lin X) (m' : Lin Y) (hm : SameCurves φ D m m')
    (inp : Inp X) (hd : Positive inp.data) (hD : ∀ i < inp.n, inp.x i ∈ D) (p0 p0' : ℕ → ℝ) (fs fs' : Option ℝ)
    (pr pr' : Option (List ℝ)) (t : State X) (t' : State Y)
    (h : fitState solve m (start m.np p0 none fs pr) inp none = some t)
    (h' : fitState solve m' (start m'.np p0' none fs' pr') (movedInp φ inp) none = some t') :
    getScale t' = getScale t := by
  obtain ⟨a1, a2, a3, a4, a5, a6, a7, a8, a9⟩ := state_facts h
  obtain ⟨b1, b2, b3, b4, b5, b6, b7, b8, b9⟩ := state_facts h'
  have e : (movedInp φ inp).data = moved φ inp.data := rfl
  rw [e] at b7 b9
  have hchi := (C127_data solve hsolve φ D m m' hm inp.data hd hD _ _ a9 b9).2
  have hnp := C127_number solve hreg φ D m m' hm inp.data hd hD _ _ a9 b9
  have hdof : t'.dof = t.dof := by
    unfold State.dof
    rw [a3, b3, a4, b4, hnp]
    rfl
  unfold getScale
  rw [hdof, a7, b7, hchi]

/-- The matrix between the functions of the two models. -/
theorem exchange {φ : X → Y} {D : Set X} {m : Lin X} {m' : Lin Y} (hm : SameCurves φ D m m') :
    (∃ T : Matrix (Fin m.np) (Fin m'.np) ℝ, ∀ x ∈ D,
      (fun k : Fin m.np => m.part x k) = T *ᵥ fun l : Fin m'.np => m'.part (φ x) l) ∧
    ∃ T : Matrix (Fin m'.np) (Fin m.np) ℝ, ∀ x ∈ D,
      (fun k : Fin m'.np => m'.part (φ x) k) = T *ᵥ fun l : Fin m.np => m.part x l := by
  constructor
  · choose q hq using hm.1
    refine ⟨Matrix.of fun k l => q (fun j => if j = (k : ℕ) then 1 else 0) l - q (fun _ => 0) l, fun x hx => ?_⟩
    funext k
    have h1 := hq (fun j => if j = (k : ℕ) then 1 else 0) x hx
    have h0 := hq (fun _ => 0) x hx
    have e1 : m.result x (fun j => if j = (k : ℕ) then 1 else 0) = m.result x (fun _ => 0) + m.part x k := by
      have := sum_part_add m x (fun _ => 0) k k.2 1
      simpa using this
    rw [e1, ← h0] at h1
    simp only [mulVec, dotProduct, Matrix.of_apply, sub_mul, sum_sub_distrib]
    simp only [Lin.result] at h1
    rw [← Finset.sum_range fun l => q (fun j => if j = (k : ℕ) then 1 else 0) l * m'.part (φ x) l,
      ← Finset.sum_range fun l => q (fun _ => 0) l * m'.part (φ x) l]
    linarith
  · choose q hq using hm.2
    refine ⟨Matrix.of fun k l => q (fun j => if j = (k : ℕ) then 1 else 0) l - q (fun _ => 0) l, fun x hx => ?_⟩
    funext k
    have h1 := hq (fun j => if j = (k : ℕ) then 1 else 0) x hx
    have h0 := hq (fun _ => 0) x hx
    have e1 : m'.result (φ x) (fun j => if j = (k : ℕ) then 1 else 0)
        = m'.result (φ x) (fun _ => 0) + m'.part (φ x) k := by
      have := sum_part_add m' (φ x) (fun _ => 0) k k.2 1
      simpa using this
    rw [e1, ← h0] at h1
    simp only [mulVec, dotProduct, Matrix.of_apply, sub_mul, sum_sub_distrib]
    simp only [Lin.result] at h1
    rw [← Finset.sum_range fun l => q (fun j => if j = (k : ℕ) then 1 else 0) l * m.part x l,
      ← Finset.sum_range fun l => q (fun _ => 0) l * m.part x l]
    linarith

/-- A matrix that sends the functions at all data to zero, is zero. -/
theorem zero_of_data (m : Lin X) (d : Data X) (h : (HM m d).det ≠ 0) {n : ℕ} (M : Matrix (Fin n) (Fin m.np) ℝ)
    (hM : ∀ i < d.n, M *ᵥ (fun k : Fin m.np => m.part (d.x i) k) = 0) : M = 0 := by
  have h1 : M * HM m d = 0 := by
    ext a b
    simp only [Matrix.mul_apply, HM, Matrix.of_apply, mul_sum, Matrix.zero_apply]
    rw [sum_comm]
    refine sum_eq_zero fun i hi => ?_
    have := congrFun (hM i (mem_range.1 hi)) a
    simp only [mulVec, dotProduct, Pi.zero_apply] at this
    have e : ∑ k, M a k * (m.part (d.x i) k * (m.part (d.x i) b * d.fitWgts i))
        = (∑ k, M a k * m.part (d.x i) k) * (m.part (d.x i) b * d.fitWgts i) := by
      rw [sum_mul]
      exact sum_congr rfl fun k _ => by ring
    rw [e, this, zero_mul]
  have hu : IsUnit (HM m d).det := isUnit_iff_ne_zero.2 h
  calc M = M * (HM m d * (HM m d)⁻¹) := by rw [Matrix.mul_nonsing_inv _ hu, Matrix.mul_one]
    _ = M * HM m d * (HM m d)⁻¹ := (Matrix.mul_assoc _ _ _).symm
    _ = 0 := by rw [h1, Matrix.zero_mul]

theorem spread_eq (m : Lin X) (x : X) (M : Matrix (Fin m.np) (Fin m.np) ℝ) :
    spread m x ⟨m.np, M⟩ = (fun k : Fin m.np => m.part x k) ⬝ᵥ (M *ᵥ fun k : Fin m.np => m.part x k) := by
  simp only [spread, dotProduct, mulVec, mul_sum, mul_assoc]

theorem inverse_spread {φ : X → Y} {D : Set X} {m : Lin X} {m' : Lin Y} (hm : SameCurves φ D m m') (d : Data X)
    (hD : ∀ i < d.n, d.x i ∈ D) (h : (HM m d).det ≠ 0) (h' : (HM m' (moved φ d)).det ≠ 0) (x : X) (hx : x ∈ D) :
    spread m' (φ x) ⟨m'.np, (HM m' (moved φ d))⁻¹⟩ = spread m x ⟨m.np, (HM m d)⁻¹⟩ := by
  obtain ⟨⟨T, hT⟩, ⟨S, hS⟩⟩ := exchange hm
  have hTS : T * S = 1 := by
    rw [← sub_eq_zero]
    refine zero_of_data m d h _ fun i hi => ?_
    rw [Matrix.sub_mulVec, ← Matrix.mulVec_mulVec, ← hS _ (hD i hi), ← hT _ (hD i hi), Matrix.one_mulVec, sub_self]
  have hST : S * T = 1 := by
    rw [← sub_eq_zero]
    refine zero_of_data m' (moved φ d) h' _ fun i hi => ?_
    show _ *ᵥ (fun k : Fin m'.np => m'.part (φ (d.x i)) k) = 0
    rw [Matrix.sub_mulVec, ← Matrix.mulVec_mulVec, ← hT _ (hD i hi), ← hS _ (hD i hi), Matrix.one_mulVec, sub_self]
  have hH : HM m d = T * HM m' (moved φ d) * Tᵀ := by
    ext a b
    simp only [Matrix.mul_apply, HM, Matrix.of_apply, Matrix.transpose_apply]
    have e : ∀ i ∈ range d.n, m.part (d.x i) a * (m.part (d.x i) b * d.fitWgts i)
        = ∑ l : Fin m'.np, (∑ k : Fin m'.np,
          T a k * (m'.part (φ (d.x i)) k * (m'.part (φ (d.x i)) l * d.fitWgts i))) * T b l := by
      intro i hi
      have ea := congrFun (hT _ (hD i (mem_range.1 hi))) a
      have eb := congrFun (hT _ (hD i (mem_range.1 hi))) b
      simp only [mulVec, dotProduct] at ea eb
      rw [ea, eb, sum_mul (s := univ) (a := d.fitWgts i), mul_sum]
      refine sum_congr rfl fun l _ => ?_
      rw [sum_mul, sum_mul]
      exact sum_congr rfl fun k _ => by ring
    rw [sum_congr rfl e, sum_comm]
    refine sum_congr rfl fun l _ => ?_
    rw [← sum_mul, sum_comm]
    refine congrArg (· * T b l) (sum_congr rfl fun k _ => ?_)
    rw [mul_sum]
    rfl
  have hinv : (HM m d)⁻¹ = Sᵀ * (HM m' (moved φ d))⁻¹ * S := by
    apply Matrix.inv_eq_right_inv
    have hu : IsUnit (HM m' (moved φ d)).det := isUnit_iff_ne_zero.2 h'
    calc HM m d * (Sᵀ * (HM m' (moved φ d))⁻¹ * S)
        = T * HM m' (moved φ d) * (Tᵀ * Sᵀ) * (HM m' (moved φ d))⁻¹ * S := by
          rw [hH]
          simp only [Matrix.mul_assoc]
      _ = T * (HM m' (moved φ d) * (HM m' (moved φ d))⁻¹) * S := by
          rw [← Matrix.transpose_mul, hST, Matrix.transpose_one, Matrix.mul_one]
          simp only [Matrix.mul_assoc]
      _ = 1 := by rw [Matrix.mul_nonsing_inv _ hu, Matrix.mul_one, hTS]
  rw [spread_eq, spread_eq, hinv, hS x hx, ← Matrix.mulVec_mulVec, ← Matrix.mulVec_mulVec, Matrix.dotProduct_mulVec _ Sᵀ,
    Matrix.vecMul_transpose]

theorem covariance_is {m : Lin X} {t : State X} (hn : t.base.nnorm = 0) (hi : t.base.fitIndex = none)
    (hmin : t.minimumScale = none) {C : Sq} (hC : (getCovarianceMatrix m t).2 = some C) :
    ∃ s, getScale t = some s ∧ (HM m t.inp.data).det ≠ 0 ∧ C = ⟨m.np, (s * s) • (HM m t.inp.data)⁻¹⟩ := by
  have hh : hessianOf m t.inp.data t.base (t.base.fitIndex.getD ((List.range m.np).map fun k : ℕ => (k : ℤ)))
      = ⟨m.np, HM m t.inp.data⟩ := by
    rw [hi, Option.getD_none, index_all, hess_eq m t.inp.data t.base hn]
  simp only [getCovarianceMatrix, getInverseHessian] at hC
  generalize hessianOf m t.inp.data t.base (t.base.fitIndex.getD ((List.range m.np).map fun k : ℕ => (k : ℤ))) = hes at hh hC
  subst hh
  obtain ⟨inv, h1, h2⟩ := Option.bind_eq_some_iff.1 hC
  by_cases hdet : (HM m t.inp.data).det = 0
  · rw [if_pos hdet] at h1
    cases h1
  · rw [if_neg hdet] at h1
    cases h1
    obtain ⟨v, h3, rfl⟩ := Option.map_eq_some_iff.1 h2
    unfold makeVariance at h3
    obtain ⟨s, hs, rfl⟩ := Option.map_eq_some_iff.1 h3
    refine ⟨s, hs, hdet, ?_⟩
    simp only [hmin]

theorem spread_smul (m : Lin X) (x : X) (v : ℝ) (M : Matrix (Fin m.np) (Fin m.np) ℝ) :
    spread m x ⟨m.np, v • M⟩ = v * spread m x ⟨m.np, M⟩ := by
  rw [spread_eq, spread_eq, Matrix.smul_mulVec, dotProduct_smul, smul_eq_mul]

/-- C127: the error of the curve, by the covariance matrix after the fit, is the same at every x, also between the
data. -/
theorem C127_spread (solve : ℕ → (ℕ → ℕ → ℝ) → (ℕ → ℝ) → Option (ℕ → ℝ)) (hsolve : SolveSpec solve)
    (hreg : SolveRegular solve) (φ : X → Y) (D : Set X) (m : Lin X) (m' : Lin Y) (hm : SameCurves φ D m m')
    (inp : Inp X) (hd : Positive inp.data) (hD : ∀ i < inp.n, inp.x i ∈ D) (p0 p0' : ℕ → ℝ) (fs fs' : Option ℝ)
    (pr pr' : Option (List ℝ)) (t : State X) (t' : State Y)
    (h : fitState solve m (start m.np p0 none fs pr) inp none = some t)
    (h' : fitState solve m' (start m'.np p0' none fs' pr') (movedInp φ inp) none = some t')
    (C C' : Sq) (hC : (getCovarianceMatrix m t).2 = some C) (hC' : (getCovarianceMatrix m' t').2 = some C')
    (x : X) (hx : x ∈ D) : spread m' (φ x) C' = spread m x C := by
  have hs := C127_scale solve hsolve hreg φ D m m' hm inp hd hD p0 p0' fs fs' pr pr' t t' h h'
  obtain ⟨a1, a2, a3, a4, a5, a6, a7, a8, a9⟩ := state_facts h
  obtain ⟨b1, b2, b3, b4, b5, b6, b7, b8, b9⟩ := state_facts h'
  obtain ⟨s, e1, e2, rfl⟩ := covariance_is a1 a2 a5 hC
  obtain ⟨s', f1, f2, rfl⟩ := covariance_is b1 b2 b5 hC'
  rw [hs, e1] at f1
  cases f1
  rw [a4] at e2 ⊢
  rw [b4] at f2 ⊢
  rw [spread_smul, spread_smul]
  congr 1
  exact inverse_spread hm inp.data hD e2 f2 x hx

/-! ## Evidence -/

theorem list_range_sum (f : ℕ → ℝ) (n : ℕ) : ((List.range n).map f).sum = ∑ k ∈ range n, f k := by
  induction n with
  | zero => simp
  | succ n ih => rw [List.range_succ, List.map_append, List.sum_append, ih, sum_range_succ]; simp

theorem sumRange_array (np : ℕ) (t : State X) (l : List (ℝ × ℝ)) (ranges : List ℝ) (hl : ranges.length = t.base.npfit) :
    sumRange np t (some (.array l)) ranges = some (ranges.map Real.log).sum := by
  unfold sumRange
  have hlen : (ranges.map Real.log).length = t.base.npfit := by rw [List.length_map, hl]
  by_cases h1 : (ranges.map Real.log).length = 1
  · simp only [if_pos h1]
    rw [if_neg (by omega)]
    obtain ⟨a, ha⟩ := List.length_eq_one_iff.1 h1
    rw [ha]
    simp
  · simp only [if_neg h1]
    rw [if_neg (by omega)]

/-- The evidence with limits for every parameter. -/
theorem logZ_array (np : ℕ) (t : State X) (K : ℕ) (hK : t.base.npfit = K) (lo hi : ℕ → ℝ) (H : Matrix (Fin K) (Fin K) ℝ)
    (hH : t.hessian = ⟨K, H⟩) (nl : Option (ℝ × ℝ)) :
    getLogZ np t (some (.array ((List.range K).map fun k => (lo k, hi k)))) nl =
      if t.dof ≤ 0 then none
      else (noisePart t nl).bind fun h =>
        if K = 0 then some (getLogLikelihood t h.1 + h.2.1)
        else if H.det ≤ 0 then none
        else some (getLogLikelihood t h.1 + (h.2.1 + (-(h.2.2 + ∑ k ∈ range K, Real.log (hi k - lo k))
          + 0.5 * (K * Real.log (2 * Real.pi * h.1) - Real.log H.det)))) := by
  unfold getLogZ
  split
  · rfl
  · congr 1
    funext h
    obtain ⟨s2, lo0, spr⟩ := h
    simp only [hK, prirange, Option.bind_some]
    rw [sumRange_array _ _ _ _ (by simp [hK]), hH]
    simp only [Option.bind_some, List.map_map]
    rw [show ((List.range K).map (Real.log ∘ (fun e : ℝ × ℝ => e.2 - e.1) ∘ fun k => (lo k, hi k))).sum
      = ∑ k ∈ range K, Real.log (hi k - lo k) from (list_range_sum _ _)]

theorem scaled_curves (φ : X → Y) (D : Set X) (m : Lin X) (m' : Lin Y) (c : ℕ → ℝ) (hnp : m'.np = m.np)
    (hc : ∀ k < m.np, c k ≠ 0) (hoff : ∀ x ∈ D, m'.off (φ x) = m.off x)
    (hpart : ∀ x ∈ D, ∀ k < m.np, m'.part (φ x) k = c k * m.part x k) : SameCurves φ D m m' := by
  constructor
  · refine fun p => ⟨fun k => p k / c k, fun x hx => ?_⟩
    simp only [Lin.result, hnp, hoff x hx]
    congr 1
    refine sum_congr rfl fun k hk => ?_
    rw [hpart x hx k (mem_range.1 hk)]
    have := hc k (mem_range.1 hk)
    field_simp
  · refine fun q => ⟨fun k => q k * c k, fun x hx => ?_⟩
    simp only [Lin.result, hnp, hoff x hx]
    congr 1
    refine sum_congr rfl fun k hk => ?_
    rw [hpart x hx k (mem_range.1 hk)]
    ring

theorem det_scaled (φ : X → Y) (m : Lin X) (m' : Lin Y) (c : ℕ → ℝ) (hnp : m'.np = m.np) (d : Data X)
    (hpart : ∀ i < d.n, ∀ k < m.np, m'.part (φ (d.x i)) k = c k * m.part (d.x i) k) :
    (HM m' (moved φ d)).det = (∏ k ∈ range m.np, c k) ^ 2 * (HM m d).det := by
  obtain ⟨np', off', part'⟩ := m'
  obtain rfl : np' = m.np := hnp
  have e : HM ⟨m.np, off', part'⟩ (moved φ d)
      = Matrix.diagonal (fun k : Fin m.np => c k) * HM m d * Matrix.diagonal fun k : Fin m.np => c k := by
    ext a b
    rw [Matrix.mul_diagonal, Matrix.diagonal_mul]
    simp only [HM, Matrix.of_apply, mul_sum, sum_mul]
    refine sum_congr rfl fun i hi => ?_
    show part' (φ (d.x i)) a * (part' (φ (d.x i)) b * d.fitWgts i) = _
    have e1 : part' (φ (d.x i)) a = _ := hpart i (mem_range.1 hi) a a.2
    have e2 : part' (φ (d.x i)) b = _ := hpart i (mem_range.1 hi) b b.2
    rw [e1, e2]
    ring
  rw [e, Matrix.det_mul, Matrix.det_mul, Matrix.det_diagonal, Finset.prod_range]
  ring

/-- C127: the evidence does not depend on the units of x: when every function of the model is multiplied by a positive
number, and the limits of its parameter divided by it, the evidence is the same, also with limits for the noise
scale. -/
theorem C127_evidence (solve : ℕ → (ℕ → ℕ → ℝ) → (ℕ → ℝ) → Option (ℕ → ℝ)) (hsolve : SolveSpec solve)
    (hreg : SolveRegular solve) (φ : X → Y) (D : Set X) (m : Lin X) (m' : Lin Y) (c : ℕ → ℝ) (hnp : m'.np = m.np)
    (hc : ∀ k < m.np, 0 < c k) (hoff : ∀ x ∈ D, m'.off (φ x) = m.off x)
    (hpart : ∀ x ∈ D, ∀ k < m.np, m'.part (φ x) k = c k * m.part x k)
    (inp : Inp X) (hd : Positive inp.data) (hD : ∀ i < inp.n, inp.x i ∈ D) (p0 p0' : ℕ → ℝ) (fs : Option ℝ)
    (pr pr' : Option (List ℝ)) (t : State X) (t' : State Y)
    (h : fitState solve m (start m.np p0 none fs pr) inp none = some t)
    (h' : fitState solve m' (start m'.np p0' none fs pr') (movedInp φ inp) none = some t')
    (lo hi : ℕ → ℝ) (hlim : ∀ k < m.np, lo k < hi k) (nl : Option (ℝ × ℝ)) :
    getLogZ m'.np t' (some (.array ((List.range m.np).map fun k => (lo k / c k, hi k / c k)))) nl
      = getLogZ m.np t (some (.array ((List.range m.np).map fun k => (lo k, hi k)))) nl := by
  have hm := scaled_curves φ D m m' c hnp (fun k hk => (hc k hk).ne') hoff hpart
  have hs := C127_scale solve hsolve hreg φ D m m' hm inp hd hD p0 p0' fs fs pr pr' t t' h h'
  obtain ⟨a1, a2, a3, a4, a5, a6, a7, a8, a9⟩ := state_facts h
  obtain ⟨b1, b2, b3, b4, b5, b6, b7, b8, b9⟩ := state_facts h'
  have e : (movedInp φ inp).data = moved φ inp.data := rfl
  rw [e] at b7 b8 b9
  have hchi : t'.chisq = t.chisq := by
    rw [a7, b7]
    exact (C127_data solve hsolve φ D m m' hm inp.data hd hD _ _ a9 b9).2
  have hdof : t'.dof = t.dof := by
    unfold State.dof
    rw [a3, b3, a4, b4, hnp]
    rfl
  have hdet := det_scaled φ m m' c hnp inp.data fun i hi => hpart _ (hD i hi)
  have hprod : 0 < ∏ k ∈ range m.np, c k := prod_pos fun k hk => hc k (mem_range.1 hk)
  have hlik : ∀ v, getLogLikelihood t' v = getLogLikelihood t v := by
    intro v
    unfold getLogLikelihood slacc
    rw [a4, b4, hchi]
    rfl
  have hnoise : noisePart t' nl = noisePart t nl := by
    cases nl with
    | none => simp only [noisePart, a6, b6]
    | some l =>
      obtain ⟨l1, l2⟩ := l
      simp only [noisePart, makeVariance, hs, a5, b5, hdof]
  have hH : t'.hessian = ⟨m'.np, HM m' (moved φ inp.data)⟩ := b8
  have key := logZ_array m'.np t' m'.np b3 (fun k => lo k / c k) (fun k => hi k / c k) _ hH nl
  simp only [hdet] at key
  rw [hnp] at key
  rw [hnp, key, logZ_array m.np t m.np a3 lo hi _ a8 nl, hdof, hnoise]
  have hsum : ∑ k ∈ range m.np, Real.log (hi k / c k - lo k / c k)
      = ∑ k ∈ range m.np, Real.log (hi k - lo k) - Real.log (∏ k ∈ range m.np, c k) := by
    rw [Real.log_prod fun k hk => (hc k (mem_range.1 hk)).ne', ← sum_sub_distrib]
    refine sum_congr rfl fun k hk => ?_
    rw [← sub_div, Real.log_div (sub_pos.2 (hlim k (mem_range.1 hk))).ne' (hc k (mem_range.1 hk)).ne']
  split
  · rfl
  · congr 1
    funext q
    rw [hlik, hsum]
    by_cases h0 : (HM m inp.data).det ≤ 0
    · rw [if_pos h0, if_pos (mul_nonpos_of_nonneg_of_nonpos (sq_nonneg _) h0)]
    · push Not at h0
      rw [if_neg (not_le.2 h0), if_neg (not_le.2 (mul_pos (pow_pos hprod 2) h0)),
        Real.log_mul (pow_pos hprod 2).ne' h0.ne', Real.log_pow]
      split
      · rfl
      · congr 1
        push_cast
        ring

/-- The input of a fit, with y in other units. -/
def Inp.times (a : ℝ) (i : Inp X) : Inp X := { i with y := fun k => a * i.y k }

/-- C127: in other units of y, with the limits and the noise scale in these units, the evidence is that of a density in
the new units: the difference is the same for all models, so that a comparison of models does not depend on the units. -/
theorem C127_evidence_y (solve : ℕ → (ℕ → ℕ → ℝ) → (ℕ → ℝ) → Option (ℕ → ℝ)) (hsolve : SolveSpec solve)
    (hreg : SolveRegular solve) (m : Lin X) (hoff : ∀ x, m.off x = 0) (a : ℝ) (ha : 0 < a)
    (inp : Inp X) (hacc : inp.acc = .none) (hd : Positive inp.data) (p0 p0' : ℕ → ℝ) (fs : ℝ) (hfs : 0 < fs)
    (pr pr' : Option (List ℝ)) (t t' : State X)
    (h : fitState solve m (start m.np p0 none (some fs) pr) inp none = some t)
    (h' : fitState solve m (start m.np p0' none (some (a * fs)) pr') (Inp.times a inp) none = some t')
    (lo hi : ℕ → ℝ) (hlim : ∀ k < m.np, lo k < hi k) (nl : Option (ℝ × ℝ)) (hpos : nl ≠ none → 0 < t.chisq) :
    getLogZ m.np t' (some (.array ((List.range m.np).map fun k => (a * lo k, a * hi k))))
        (nl.map fun l => (a * l.1, a * l.2))
      = (getLogZ m.np t (some (.array ((List.range m.np).map fun k => (lo k, hi k)))) nl).map
        fun z => z - inp.sumwgt * Real.log a := by
  obtain ⟨a1, a2, a3, a4, a5, a6, a7, a8, a9⟩ := state_facts h
  obtain ⟨b1, b2, b3, b4, b5, b6, b7, b8, b9⟩ := state_facts h'
  have hdat : (Inp.times a inp).data
      = { inp.data with y := fun i => a * inp.data.y i + m.result (inp.data.x i) fun _ => 0 } := by
    simp only [Inp.data, Inp.times, Lin.result, hoff]
    simp
  rw [hdat] at b9 b7
  have hchi : t'.chisq = a ^ 2 * t.chisq := by
    rw [a7, b7]
    exact (C127_units solve hsolve hreg m hoff inp.data hd a (fun _ => 0) _ _ a9 b9).2
  have hw : (Inp.times a inp).sumwgt = inp.sumwgt := rfl
  have hdof : t'.dof = t.dof := by
    unfold State.dof
    rw [a3, b3, a4, b4, hw]
  have hHM : HM m (Inp.times a inp).data = HM m inp.data := rfl
  rw [hHM] at b8
  have hlik : ∀ v, 0 < v → getLogLikelihood t' (a * a * v) = getLogLikelihood t v - inp.sumwgt * Real.log a := by
    intro v hv
    unfold getLogLikelihood slacc
    rw [a4, b4, hchi, hw, hacc, show (Inp.times a inp).acc = .none from hacc]
    rw [show 2 * Real.pi * (a * a * v) = a ^ 2 * (2 * Real.pi * v) by ring,
      Real.log_mul (pow_pos ha 2).ne' (by positivity), Real.log_pow]
    have : a ^ 2 * t.chisq / (a * a * v) = t.chisq / v := by field_simp
    rw [this]
    push_cast
    ring
  have hnoise : noisePart t' (nl.map fun l => (a * l.1, a * l.2)) = (noisePart t nl).map fun q => (a * a * q.1, q.2) := by
    cases nl with
    | none =>
      simp only [noisePart, a6, b6, Option.map_none, Option.getD_some, Option.map_some]
      congr 2
      ring
    | some l =>
      obtain ⟨l1, l2⟩ := l
      simp only [Option.map_some, noisePart, makeVariance, getScale, a5, b5, hdof, hchi]
      by_cases hl : l1 ≤ 0 ∨ l2 ≤ 0
      · have hl' : a * l1 ≤ 0 ∨ a * l2 ≤ 0 :=
          hl.imp (fun e => mul_nonpos_of_nonneg_of_nonpos ha.le e) fun e => mul_nonpos_of_nonneg_of_nonpos ha.le e
        rw [if_pos (by tauto), if_pos (by tauto), Option.map_none]
      · push Not at hl
        have e : Real.log (a * l2) - Real.log (a * l1) = Real.log l2 - Real.log l1 := by
          rw [Real.log_mul ha.ne' hl.2.ne', Real.log_mul ha.ne' hl.1.ne']
          ring
        have e1 : ¬ a * l1 ≤ 0 := not_le.2 (mul_pos ha hl.1)
        have e2 : ¬ a * l2 ≤ 0 := not_le.2 (mul_pos ha hl.2)
        simp only [e, e1, e2, not_le.2 hl.1, not_le.2 hl.2, false_or]
        split
        · rfl
        · split
          · rfl
          · rename_i hdf
            simp only [Option.map_some]
            congr 2
            rw [mul_div_assoc, Real.sqrt_mul (by positivity), Real.sqrt_sq ha.le]
            ring
  have hv : ∀ q, noisePart t nl = some q → ¬ t.dof ≤ 0 → 0 < q.1 := by
    intro q hq hdf
    cases nl with
    | none =>
      simp only [noisePart, a6, Option.getD_some, Option.some.injEq] at hq
      rw [← hq]
      positivity
    | some l =>
      obtain ⟨l1, l2⟩ := l
      have hc := hpos (by simp)
      simp only [noisePart, makeVariance, getScale, a5] at hq
      split at hq
      · cases hq
      · simp only [Option.map_some, Option.some.injEq] at hq
        rw [← hq]
        have : 0 < t.chisq / t.dof := div_pos hc (not_le.1 hdf)
        show 0 < Real.sqrt _ * Real.sqrt _
        positivity
  rw [logZ_array m.np t' m.np b3 (fun k => a * lo k) (fun k => a * hi k) _ b8,
    logZ_array m.np t m.np a3 lo hi _ a8 nl, hdof, hnoise]
  have hsum : ∑ k ∈ range m.np, Real.log (a * hi k - a * lo k)
      = ∑ k ∈ range m.np, Real.log (hi k - lo k) + m.np * Real.log a := by
    rw [show (m.np : ℝ) * Real.log a = ∑ k ∈ range m.np, Real.log a by simp, ← sum_add_distrib]
    refine sum_congr rfl fun k hk => ?_
    rw [← mul_sub, Real.log_mul ha.ne' (sub_pos.2 (hlim k (mem_range.1 hk))).ne', add_comm]
  split
  · rfl
  · rename_i hdf
    cases hq : noisePart t nl with
    | none => rfl
    | some q =>
      have hq0 := hv q hq hdf
      simp only [Option.map_some, Option.bind_some]
      rw [hlik q.1 hq0, hsum]
      split
      · simp only [Option.map_some]
        congr 1
        ring
      · split
        · rfl
        · simp only [Option.map_some]
          congr 1
          rw [show 2 * Real.pi * (a * a * q.1) = a ^ 2 * (2 * Real.pi * q.1) by ring,
            Real.log_mul (pow_pos ha 2).ne' (by positivity), Real.log_pow]
          push_cast
          ring

theorem poly_part (n : ℕ) (x : ℝ) (k : ℕ) (hk : k ≤ n) : (polynomial n).part x k = x ^ k := by
  simp only [polynomial, ofPartial, BF.Poly.polyPartial, BF.Poly.powers_range, List.getD_eq_getElem?_getD, List.getElem?_map]
  rw [List.getElem?_range (by omega)]
  simp

/-- C127: the evidence of a polynomial is the same when x is in other units, and the limits of the parameters too. -/
theorem C127_evidence_polynomial (solve : ℕ → (ℕ → ℕ → ℝ) → (ℕ → ℝ) → Option (ℕ → ℝ)) (hsolve : SolveSpec solve)
    (hreg : SolveRegular solve) (n : ℕ) (a : ℝ) (ha : 0 < a) (inp : Inp ℝ) (hd : Positive inp.data) (p0 p0' : ℕ → ℝ)
    (fs : Option ℝ) (pr pr' : Option (List ℝ)) (t t' : State ℝ)
    (h : fitState solve (polynomial n) (start (n + 1) p0 none fs pr) inp none = some t)
    (h' : fitState solve (polynomial n) (start (n + 1) p0' none fs pr') (movedInp (fun x => a * x) inp) none = some t')
    (lo hi : ℕ → ℝ) (hlim : ∀ k ≤ n, lo k < hi k) (nl : Option (ℝ × ℝ)) :
    getLogZ (n + 1) t' (some (.array ((List.range (n + 1)).map fun k => (lo k / a ^ k, hi k / a ^ k)))) nl
      = getLogZ (n + 1) t (some (.array ((List.range (n + 1)).map fun k => (lo k, hi k)))) nl :=
  C127_evidence solve hsolve hreg (fun x => a * x) Set.univ (polynomial n) (polynomial n) (fun k => a ^ k) rfl
    (fun k _ => pow_pos ha k) (fun x _ => rfl) (fun x _ k hk => by
      rw [poly_part n _ k (Nat.lt_succ_iff.1 hk), poly_part n _ k (Nat.lt_succ_iff.1 hk), mul_pow]) inp hd (fun _ _ => trivial) p0 p0' fs pr pr' t t' h h' lo hi
    (fun k hk => hlim k (Nat.lt_succ_iff.1 hk)) nl

/-- The evidence of the examples: a line through three points. -/
example : ∃ solve, SolveSpec solve ∧ SolveRegular solve ∧ ∃ t z,
    fitState solve (polynomial 1) (start 2 (fun _ => 0) none none none) ⟨3, three.x, three.y, none, .none⟩ none = some t ∧
    getLogZ 2 t (some (.array ((List.range 2).map fun _ => (-10, 10)))) none = some z := by
  obtain ⟨solve, h1, h2, h3⟩ := solve_exists
  have hdet : Determine (polynomial 1) three [] := by
    rw [C119_polynomial]
    have : (range three.n).image three.x = {0, 1, 2} := by
      ext x
      simp [three, Finset.range_add_one]
      tauto
    rw [different, this]
    norm_num
  obtain ⟨s, hs⟩ := (C119_fit_all solve h2 h3 (polynomial 1) three three_positive fun _ => 0).2 hdet
  obtain ⟨t, ht⟩ : ∃ t, fitState solve (polynomial 1) (start 2 (fun _ => 0) none none none)
      ⟨3, three.x, three.y, none, .none⟩ none = some t := by
    unfold fitState
    exact ⟨_, Option.map_eq_some_iff.2 ⟨s, hs, rfl⟩⟩
  obtain ⟨a1, a2, a3, a4, a5, a6, a7, a8, a9⟩ := state_facts (m := polynomial 1) ht
  have hdof : t.dof = 1 := by
    unfold State.dof
    rw [a3, a4]
    norm_num [Inp.sumwgt, polynomial, ofPartial]
  have hp : ∀ x, (polynomial 1).part x 0 = 1 ∧ (polynomial 1).part x 1 = x := fun x =>
    ⟨by rw [poly_part 1 x 0 (by norm_num), pow_zero], by rw [poly_part 1 x 1 le_rfl, pow_one]⟩
  have hH : (HM (polynomial 1) (⟨3, three.x, three.y, none, .none⟩ : Inp ℝ).data).det = 6 := by
    refine (Matrix.det_fin_two _).trans ?_
    show (∑ i ∈ range 3, (polynomial 1).part (three.x i) 0 * ((polynomial 1).part (three.x i) 0 * 1))
      * (∑ i ∈ range 3, (polynomial 1).part (three.x i) 1 * ((polynomial 1).part (three.x i) 1 * 1))
      - (∑ i ∈ range 3, (polynomial 1).part (three.x i) 0 * ((polynomial 1).part (three.x i) 1 * 1))
      * (∑ i ∈ range 3, (polynomial 1).part (three.x i) 1 * ((polynomial 1).part (three.x i) 0 * 1)) = 6
    simp only [hp]
    norm_num [sum_range_succ, three]
  have hz := logZ_array 2 t (polynomial 1).np a3 (fun _ => -10) (fun _ => 10) _ a8 none
  rw [hdof, if_neg (by norm_num)] at hz
  simp only [noisePart, Option.bind_some] at hz
  rw [if_neg (show (polynomial 1).np ≠ 0 from two_ne_zero), if_neg (not_le.2 (lt_of_lt_of_eq (by norm_num) hH.symm))] at hz
  exact ⟨solve, h1, h2, t, _, ht, hz⟩

end BF.SameFit
