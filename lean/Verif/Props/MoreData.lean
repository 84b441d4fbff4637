import Verif.Props.Evidence
import Verif.Props.DeterminedMore

/-!
# C143: more data, more terms, more kept parameters
-/

noncomputable section

namespace BF.Evidence

open BF.Fitters BF.LinearModels Finset Matrix

variable {X : Type}

/-! ## Specification -/

/-- The second set of data begins with the first one: the same x, y and weights (divided by the squares of the
accuracies). -/
def More (d e : Data X) : Prop :=
  d.n ≤ e.n ∧ ∀ i < d.n, e.x i = d.x i ∧ e.y i = d.y i ∧ e.fitWgts i = d.fitWgts i

/-- The variance of the combination `∑ z k * parameter k`, from the covariances of the fitted parameters, which are the
parameters in the list. -/
def variance (l : List ℕ) (S : Sq) (z : ℕ → ℝ) : ℝ :=
  ∑ a : Fin S.K, ∑ b : Fin S.K, z (l.getD a 0) * S.M a b * z (l.getD b 0)

/-! ## Chi squared -/

theorem chi_more (m : Lin X) (d e : Data X) (h : More d e) (he : e.Good) (p : ℕ → ℝ) :
    chiSquared m d p ≤ chiSquared m e p := by
  unfold chiSquared
  have h1 : ∑ i ∈ range d.n, (d.y i - m.result (d.x i) p) ^ 2 * d.fitWgts i
      = ∑ i ∈ range d.n, (e.y i - m.result (e.x i) p) ^ 2 * e.fitWgts i := by
    apply sum_congr rfl
    intro i hi
    obtain ⟨a, b, c⟩ := h.2 i (mem_range.1 hi)
    rw [a, b, c]
  rw [h1]
  apply sum_le_sum_of_subset_of_nonneg
  · intro i hi
    exact mem_range.2 (lt_of_lt_of_le (mem_range.1 hi) h.1)
  · intro i hi _
    exact mul_nonneg (sq_nonneg _) (wgts_nonneg e he i (mem_range.1 hi))

/-- With more data chi squared is not lower. -/
theorem C143_data (solve : ℕ → (ℕ → ℕ → ℝ) → (ℕ → ℝ) → Option (ℕ → ℝ)) (hsolve : SolveSpec solve) (m : Lin X)
    (d e : Data X) (h : More d e) (hd : d.Good) (he : e.Good) (p q : ℕ → ℝ) (s t : Fitter)
    (hs : fit solve m d (initFitter m.np p none) none = some s)
    (ht : fit solve m e (initFitter m.np q none) none = some t) :
    chiSquared m d s.params ≤ chiSquared m e t.params := by
  have := C30_all solve hsolve m d hd _ s rfl (by simp [initFitter, keepFixed]) hs t.params
  rw [chiTotal_zero _ _ _ rfl, chiTotal_zero _ _ _ rfl] at this
  exact this.trans (chi_more m d e h he _)

/-- With another model added chi squared is not higher. -/
theorem C143_terms (solve : ℕ → (ℕ → ℕ → ℝ) → (ℕ → ℝ) → Option (ℕ → ℝ)) (hsolve : SolveSpec solve) (m1 m2 : Lin X)
    (h2 : ∀ x, m2.off x = 0) (d : Data X) (hd : d.Good) (p q : ℕ → ℝ) (s t : Fitter)
    (hs : fit solve m1 d (initFitter m1.np p none) none = some s)
    (ht : fit solve (plus m1 m2) d (initFitter (plus m1 m2).np q none) none = some t) :
    chiSquared (plus m1 m2) d t.params ≤ chiSquared m1 d s.params := by
  have := C30_all solve hsolve (plus m1 m2) d hd _ t rfl (by simp [initFitter, keepFixed]) ht
    (fun k => if k < m1.np then s.params k else 0)
  rw [chiTotal_zero _ _ _ rfl, chiTotal_zero _ _ _ rfl] at this
  refine this.trans (le_of_eq ?_)
  unfold chiSquared
  apply sum_congr rfl
  intro i _
  rw [BF.SameFit.plus_result]
  have e2 : m2.result (d.x i) (fun k => if m1.np + k < m1.np then s.params (m1.np + k) else 0) = 0 := by
    simp [Lin.result, h2]
  have e1 : m1.result (d.x i) (fun k => if k < m1.np then s.params k else 0) = m1.result (d.x i) s.params := by
    unfold Lin.result
    congr 1
    apply sum_congr rfl
    intro k hk
    show (if k < m1.np then s.params k else 0) * _ = _
    rw [if_pos (mem_range.1 hk)]
  rw [e1, e2, add_zero]

/-- With more parameters kept chi squared is not lower. -/
theorem C143_kept (solve : ℕ → (ℕ → ℕ → ℝ) → (ℕ → ℝ) → Option (ℕ → ℝ)) (hsolve : SolveSpec solve) (m : Lin X)
    (d : Data X) (hd : d.Good) (p q : ℕ → ℝ) (k1 k2 : List (ℤ × ℝ)) (h1 : ProperKeep m.np k1) (h2 : ProperKeep m.np k2)
    (hsub : ∀ e ∈ k1, e ∈ k2) (s t : Fitter)
    (hs : fit solve m d (initFitter m.np p none) (some k1) = some s)
    (ht : fit solve m d (initFitter m.np q none) (some k2) = some t) :
    chiSquared m d s.params ≤ chiSquared m d t.params :=
  (C30_kept solve hsolve m d hd _ s rfl k1 h1 hs).2 t.params fun e he =>
    (C30_kept solve hsolve m d hd _ t rfl k2 h2 ht).1 e (hsub e he)

/-! ## Inverse matrices -/

theorem inverse_max {K : ℕ} (A : Matrix (Fin K) (Fin K) ℝ) (hA : A.PosSemidef) (hdet : A.det ≠ 0) (u v : Fin K → ℝ) :
    2 * (u ⬝ᵥ v) - v ⬝ᵥ A *ᵥ v ≤ u ⬝ᵥ A⁻¹ *ᵥ u := by
  set w := A⁻¹ *ᵥ u with hw
  have hu : A *ᵥ w = u := by
    rw [hw, mulVec_mulVec, mul_nonsing_inv _ (isUnit_iff_ne_zero.2 hdet), one_mulVec]
  have hsym : Aᵀ = A := by
    have := hA.isHermitian.eq
    rwa [conjTranspose_eq_transpose_of_trivial] at this
  have hswap : ∀ a b : Fin K → ℝ, a ⬝ᵥ A *ᵥ b = b ⬝ᵥ A *ᵥ a := by
    intro a b
    rw [dotProduct_mulVec, ← mulVec_transpose, hsym, dotProduct_comm]
  have h0 := hA.dotProduct_mulVec_nonneg (v - w)
  simp only [star_trivial] at h0
  rw [mulVec_sub, sub_dotProduct, dotProduct_sub, dotProduct_sub, hswap w v, hu] at h0
  rw [dotProduct_comm v u, dotProduct_comm w u] at h0
  linarith

theorem inverse_less {K L : ℕ} (A : Matrix (Fin K) (Fin K) ℝ) (B : Matrix (Fin L) (Fin L) ℝ) (hA : A.PosSemidef)
    (hdA : A.det ≠ 0) (hdB : B.det ≠ 0) (J : (Fin L → ℝ) → Fin K → ℝ) (u : Fin K → ℝ) (u' : Fin L → ℝ)
    (hJ : ∀ v, u ⬝ᵥ J v = u' ⬝ᵥ v) (hq : ∀ v, J v ⬝ᵥ A *ᵥ J v ≤ v ⬝ᵥ B *ᵥ v) :
    u' ⬝ᵥ B⁻¹ *ᵥ u' ≤ u ⬝ᵥ A⁻¹ *ᵥ u := by
  set v := B⁻¹ *ᵥ u' with hv
  have hu : B *ᵥ v = u' := by
    rw [hv, mulVec_mulVec, mul_nonsing_inv _ (isUnit_iff_ne_zero.2 hdB), one_mulVec]
  have h1 := inverse_max A hA hdA u (J v)
  have h2 := hq v
  rw [hu, dotProduct_comm v u'] at h2
  rw [hJ] at h1
  linarith

/-! ## The variances -/

theorem getD_at (l : List ℕ) (a : ℕ) (h : a < l.length) : l.getD a 0 = l[a] := by
  simp [List.getD_eq_getElem?_getD, h]

theorem hess_quad (m : Lin X) (d : Data X) (s : Fitter) (hn : s.nnorm = 0) (f : ℕ → Bool)
    (v : Fin (indexOf m.np f).length → ℝ) :
    v ⬝ᵥ hessMat m d s (indexOf m.np f) *ᵥ v = ∑ i ∈ range d.n,
      (∑ a : Fin (indexOf m.np f).length, v a * m.part (d.x i) (((List.range m.np).filter f).getD a 0)) ^ 2
        * d.fitWgts i := by
  unfold hessMat getHessian
  simp only [hn, add_zero]
  rw [quad d.n _ (getDesign m d s (indexOf m.np f)) (allWgts d s) v]
  apply sum_congr rfl
  intro i hi
  have hi := mem_range.1 hi
  simp only [allWgts, getDesign, if_pos hi]
  congr 2
  apply sum_congr rfl
  intro a _
  have ha : (a : ℕ) < ((List.range m.np).filter f).length := by
    have := a.2
    simpa [indexOf] using this
  rw [index_at m.np f a]

theorem variance_smul (l : List ℕ) (K : ℕ) (c : ℝ) (M : Matrix (Fin K) (Fin K) ℝ) (z : ℕ → ℝ) :
    variance l ⟨K, c • M⟩ z = c * ((fun a : Fin K => z (l.getD a 0)) ⬝ᵥ M *ᵥ fun a : Fin K => z (l.getD a 0)) := by
  simp only [variance, dotProduct, mulVec, Matrix.smul_apply, smul_eq_mul, mul_sum]
  refine sum_congr rfl fun a _ => sum_congr rfl fun b _ => by ring

/-- The covariance matrix as it comes out. -/
theorem cov_of (solve : ℕ → (ℕ → ℕ → ℝ) → (ℕ → ℝ) → Option (ℕ → ℝ)) (hsolve : SolveSpec solve) (m : Lin X)
    (params : ℕ → ℝ) (keep : Option (List (ℤ × ℝ))) (hk : ∀ k, keep = some k → ProperKeep m.np k) (fs : Option ℝ)
    (priors : Option (List ℝ)) (inp : Inp X) (t : State X)
    (h : fitState solve m (start m.np params keep fs priors) inp none = some t) (C : Sq) (c : ℝ)
    (hC : (getCovarianceMatrix m t).2 = some C) (hc : getScale t = some c) :
    ∃ s : Fitter, s.nnorm = 0 ∧ (hessMat m inp.data s (indexOf m.np (isFree keep))).det ≠ 0 ∧
      C = ⟨(indexOf m.np (isFree keep)).length, (c * c) • (hessMat m inp.data s (indexOf m.np (isFree keep)))⁻¹⟩ := by
  obtain ⟨s, x, hn, hag, hx, rfl, hsi, hsn, -⟩ := fit_state solve hsolve m params keep hk fs priors inp t h
  have hi : s.fitIndex.getD ((List.range m.np).map fun k : ℕ => (k : ℤ)) = indexOf m.np (isFree keep) := by
    rw [hsi, index_start]
  refine ⟨{ s with params := insertParameters m.np s.params x (indexOf m.np (isFree keep)) }, hn, ?_⟩
  unfold getCovarianceMatrix at hC
  rw [inverse_index m _ _ _ hi] at hC
  dsimp only at hC
  by_cases hdet : (hessMat m inp.data { s with
      params := insertParameters m.np s.params x (indexOf m.np (isFree keep)) } (indexOf m.np (isFree keep))).det = 0
  · rw [if_pos hdet] at hC; simp at hC
  · refine ⟨hdet, ?_⟩
    rw [if_neg hdet] at hC
    have hv : ∀ H : Sq, makeVariance { base := { s with params := insertParameters m.np s.params x (indexOf m.np (isFree keep)) }
                                       keep := keep.isSome
                                       fixedScale := fs
                                       minimumScale := none
                                       priors := priors
                                       inp := inp
                                       chisq := chiSquared m inp.data (insertParameters m.np s.params x (indexOf m.np (isFree keep)))
                                       hessian := H : State X} = some (c * c) := by
      intro H
      have : getScale { base := { s with params := insertParameters m.np s.params x (indexOf m.np (isFree keep)) }
                        keep := keep.isSome
                        fixedScale := fs
                        minimumScale := none
                        priors := priors
                        inp := inp
                        chisq := chiSquared m inp.data (insertParameters m.np s.params x (indexOf m.np (isFree keep)))
                        hessian := H : State X} = some c := hc
      simp only [makeVariance, this, Option.map_some]
    rw [hv] at hC
    simpa using hC.symm

/-- **More data, or more parameters kept, never give a larger variance**, in units of the noise scale, for any
combination of the parameters. -/
theorem C143_variance (solve : ℕ → (ℕ → ℕ → ℝ) → (ℕ → ℝ) → Option (ℕ → ℝ)) (hsolve : SolveSpec solve) (m : Lin X)
    (p1 p2 : ℕ → ℝ) (keep1 keep2 : Option (List (ℤ × ℝ))) (hk1 : ∀ k, keep1 = some k → ProperKeep m.np k)
    (hk2 : ∀ k, keep2 = some k → ProperKeep m.np k) (hsub : ∀ k, isFree keep2 k = true → isFree keep1 k = true)
    (fs1 fs2 : Option ℝ) (pr1 pr2 : Option (List ℝ)) (i j : Inp X) (hi : i.data.Good) (hj : j.data.Good)
    (hmore : More i.data j.data) (t u : State X)
    (ht : fitState solve m (start m.np p1 keep1 fs1 pr1) i none = some t)
    (hu : fitState solve m (start m.np p2 keep2 fs2 pr2) j none = some u) (C D : Sq) (c d : ℝ)
    (hC : (getCovarianceMatrix m t).2 = some C) (hD : (getCovarianceMatrix m u).2 = some D)
    (hc : getScale t = some c) (hd : getScale u = some d) (z : ℕ → ℝ) :
    variance (free m.np keep2) D z * c ^ 2 ≤ variance (free m.np keep1) C z * d ^ 2 := by
  obtain ⟨s, hs, hsd, rfl⟩ := cov_of solve hsolve m p1 keep1 hk1 fs1 pr1 i t ht C c hC hc
  obtain ⟨s', hs', hsd', rfl⟩ := cov_of solve hsolve m p2 keep2 hk2 fs2 pr2 j u hu D d hD hd
  rw [variance_smul, variance_smul]
  set A := hessMat m i.data s (indexOf m.np (isFree keep1)) with hA
  set B := hessMat m j.data s' (indexOf m.np (isFree keep2)) with hB
  set l1 := free m.np keep1 with hl1
  set l2 := free m.np keep2 with hl2
  have len1 : (indexOf m.np (isFree keep1)).length = l1.length := by simp [indexOf, hl1, free]
  have len2 : (indexOf m.np (isFree keep2)).length = l2.length := by simp [indexOf, hl2, free]
  have hnd1 : l1.Nodup := List.nodup_range.filter _
  have hin : ∀ a : Fin (indexOf m.np (isFree keep2)).length, ∃ b : Fin (indexOf m.np (isFree keep1)).length,
      l1.getD b 0 = l2.getD a 0 := by
    intro a
    have ha : (a : ℕ) < l2.length := by rw [← len2]; exact a.2
    have hm : l2.getD a 0 ∈ l1 := by
      rw [getD_at _ _ ha]
      have := List.getElem_mem ha
      simp only [hl2, hl1, free, List.mem_filter] at this ⊢
      exact ⟨this.1, hsub _ this.2⟩
    obtain ⟨b, hb, e⟩ := List.getElem_of_mem hm
    exact ⟨⟨b, by rw [len1]; exact hb⟩, by rw [getD_at _ _ hb]; exact e⟩
  choose σ hσ using hin
  let J : (Fin (indexOf m.np (isFree keep2)).length → ℝ) → Fin (indexOf m.np (isFree keep1)).length → ℝ :=
    fun v b => ∑ a, if σ a = b then v a else 0
  have hsum : ∀ (v : Fin (indexOf m.np (isFree keep2)).length → ℝ) (g : ℕ → ℝ),
      ∑ b, J v b * g (l1.getD b 0) = ∑ a, v a * g (l2.getD a 0) := by
    intro v g
    simp only [J, sum_mul]
    rw [sum_comm]
    refine sum_congr rfl fun a _ => ?_
    rw [sum_eq_single (σ a)]
    · rw [if_pos rfl, hσ]
    · intro b _ hb
      rw [if_neg (Ne.symm hb), zero_mul]
    · intro h; exact absurd (mem_univ _) h
  have key := inverse_less A B (hessian_psd m i.data hi s hs _) hsd hsd' J (fun a => z (l1.getD a 0))
    (fun a => z (l2.getD a 0)) (by
      intro v
      have := hsum v z
      simp only [dotProduct]
      simp only [mul_comm (z _)]
      exact this) (by
      intro v
      rw [hA, hB, hess_quad m i.data s hs, hess_quad m j.data s' hs']
      have e1 : ∀ k, ∑ b, J v b * m.part (i.data.x k) (((List.range m.np).filter (isFree keep1)).getD b 0)
          = ∑ a, v a * m.part (i.data.x k) (((List.range m.np).filter (isFree keep2)).getD a 0) :=
        fun k => hsum v (m.part (i.data.x k))
      simp only [e1]
      have e2 : ∑ k ∈ range i.data.n, (∑ a, v a * m.part (i.data.x k)
            (((List.range m.np).filter (isFree keep2)).getD a 0)) ^ 2 * i.data.fitWgts k
          = ∑ k ∈ range i.data.n, (∑ a, v a * m.part (j.data.x k)
            (((List.range m.np).filter (isFree keep2)).getD a 0)) ^ 2 * j.data.fitWgts k := by
        refine sum_congr rfl fun k hk => ?_
        obtain ⟨a, -, b⟩ := hmore.2 k (mem_range.1 hk)
        rw [a, b]
      rw [e2]
      apply sum_le_sum_of_subset_of_nonneg
      · intro k hk
        exact mem_range.2 (lt_of_lt_of_le (mem_range.1 hk) hmore.1)
      · intro k hk _
        exact mul_nonneg (sq_nonneg _) (wgts_nonneg _ hj k (mem_range.1 hk)))
  have hcd : 0 ≤ c * c * (d * d) := mul_nonneg (mul_self_nonneg _) (mul_self_nonneg _)
  have := mul_le_mul_of_nonneg_left key hcd
  nlinarith [this]

/-! ## The hypotheses can be met -/

/-- A constant. -/
def flat : Lin ℝ := ⟨1, fun _ => 0, fun _ _ => 1⟩

theorem flat_hess (n : ℕ) (y : ℕ → ℝ) (s : Fitter) (hn : s.nnorm = 0) :
    getHessian flat ⟨n, fun i => i, y, none, none⟩ s [0] 0 0 = n := by
  simp only [getHessian, hn, getDesign, allWgts, Data.fitWgts, flat, add_zero]
  rw [sum_congr rfl (g := fun _ => (1 : ℝ))]
  · simp
  · intro i hi
    simp [mem_range.1 hi]

/-- The constant can be fitted to two or more data, and has a covariance matrix. -/
theorem flat_fit (n : ℕ) (hn : 2 ≤ n) (y : ℕ → ℝ) :
    ∃ t C c, fitState solveOne flat (start flat.np (fun _ => 0) none none none) ⟨n, fun i => i, y, none, .none⟩ none
      = some t ∧ (getCovarianceMatrix flat t).2 = some C ∧ getScale t = some c := by
  have hpos : (n : ℝ) ≠ 0 := by
    have : n ≠ 0 := by omega
    exact_mod_cast this
  have e := (prolog_start flat.np (fun _ => 0) none (by simp)).1
  have hi : indexOf flat.np (isFree none) = [0] := by decide
  rw [hi] at e
  have hfit : ∃ s', fit solveOne flat (Inp.data ⟨n, fun i => i, y, none, .none⟩)
      (initFitter flat.np (fun _ => 0) none) none = some s' := by
    unfold fit
    rw [e]
    simp only [List.length_singleton, solveOne]
    rw [if_pos]
    · exact ⟨_, rfl⟩
    · refine ⟨by trivial, ?_⟩
      have := flat_hess n y { initFitter flat.np (fun _ => 0) none with npfit := (free flat.np none).length } rfl
      exact this.symm ▸ hpos
  obtain ⟨s', hs'⟩ := hfit
  obtain ⟨t, ht⟩ : ∃ t, fitState solveOne flat (start flat.np (fun _ => 0) none none none)
      ⟨n, fun i => i, y, none, .none⟩ none = some t := ⟨_, congrArg (Option.map _) hs'⟩
  have hlen : ((free flat.np none).length : ℝ) < (n : ℝ) := by
    have : (free flat.np none).length = 1 := by decide
    rw [this]
    exact_mod_cast hn
  have hsum : Inp.sumwgt (⟨n, fun i => i, y, none, .none⟩ : Inp ℝ) = n := by simp [Inp.sumwgt]
  obtain ⟨s, x, hn0, -, -, rfl, -, hsn, -⟩ := fit_state solveOne solveOne_spec flat _ none (by simp) none none _ t ht
  have hd : ∀ fi : List ℤ, fi = [0] →
      (hessianOf flat (Inp.data ⟨n, fun i => i, y, none, .none⟩) s fi).M.det ≠ 0 := by
    rintro fi rfl
    have h1 : (hessMat flat (Inp.data ⟨n, fun i => i, y, none, .none⟩) s [0]).det
        = getHessian flat (Inp.data ⟨n, fun i => i, y, none, .none⟩) s [0] 0 0 := det_fin_one _
    exact (h1.trans (flat_hess n y s hn0)).symm ▸ hpos
  have hchi : 0 ≤ chiSquared flat (Inp.data ⟨n, fun i => i, y, none, .none⟩)
      (insertParameters flat.np s.params x (indexOf flat.np (isFree none))) := by
    unfold chiSquared
    refine sum_nonneg fun i _ => mul_nonneg (sq_nonneg _) ?_
    simp [Data.fitWgts, Inp.data, Acc.each]
  have hcov := (covariance_value solveOne solveOne_spec flat _ none (by simp) none none _ _ ht (hd _ hi)
    (hsum.symm ▸ hlen) hchi).2
  refine ⟨_, _, _, ht, hcov, if_neg ?_⟩
  simp only [State.dof, hsn]
  rw [hsum]
  linarith

/-- Five data after two. -/
example : ∃ t u C D c d,
    fitState solveOne flat (start flat.np (fun _ => 0) none none none) ⟨2, fun i => i, fun i => i ^ 2, none, .none⟩ none
      = some t ∧
    fitState solveOne flat (start flat.np (fun _ => 0) none none none) ⟨5, fun i => i, fun i => i ^ 2, none, .none⟩ none
      = some u ∧
    (getCovarianceMatrix flat t).2 = some C ∧ (getCovarianceMatrix flat u).2 = some D ∧
    getScale t = some c ∧ getScale u = some d ∧
    More (Inp.data (⟨2, fun i => i, fun i => i ^ 2, none, .none⟩ : Inp ℝ))
      (Inp.data ⟨5, fun i => i, fun i => i ^ 2, none, .none⟩) := by
  obtain ⟨t, C, c, h1, h2, h3⟩ := flat_fit 2 (by norm_num) (fun i => i ^ 2)
  obtain ⟨u, D, d, h4, h5, h6⟩ := flat_fit 5 (by norm_num) (fun i => i ^ 2)
  exact ⟨t, u, C, D, c, d, h1, h4, h2, h5, h3, h6, by simp [Inp.data], fun i _ => ⟨rfl, rfl, rfl⟩⟩

end BF.Evidence
