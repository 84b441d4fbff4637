import Verif.MaxLike
import Verif.Props.Scales

/-!
# Properties of maximum likelihood fitters

C84: the gradient that is handed to a minimiser is the one of the function, and kept parameters are kept.
-/

noncomputable section

namespace BF.ErrDis

open Real

variable {X : Type*}

/-- `g` lists the derivatives of `F` to all its arguments, at `par`. -/
def Grad (F : List ℝ → ℝ) (par g : List ℝ) : Prop :=
  g.length = par.length ∧
  ∀ (j : ℕ) (v dv : ℝ), par[j]? = some v → g[j]? = some dv → HasDerivAt (fun t => F (par.set j t)) dv v

/-- The same for a function that may be undefined. -/
def GradOpt (F : List ℝ → Option ℝ) (par g : List ℝ) : Prop :=
  g.length = par.length ∧
  ∀ (j : ℕ) (v dv : ℝ), par[j]? = some v → g[j]? = some dv → HasDerivAtOpt (fun t => F (par.set j t)) dv v

/-- The fit index consists of different parameters; it has as many as there are fitted ones. With all of them
fitted they are in order, as in `fitprolog`. -/
structure Fitted (params : List ℝ) (index : List ℕ) (par : List ℝ) : Prop where
  nodup : index.Nodup
  range : ∀ k ∈ index, k < params.length
  length : par.length = index.length
  full : index.length = params.length → index = List.range params.length

theorem putAll_length (index : List ℕ) : ∀ (pars par : List ℝ), (putAll pars index par).length = pars.length := by
  induction index with
  | nil => intro pars par; simp [putAll]
  | cons i is ih =>
    intro pars par
    rcases par with _ | ⟨v, vs⟩
    · rfl
    · simp only [putAll]
      rw [ih]
      simp

theorem putAll_set (index : List ℕ) : ∀ (pars par : List ℝ) (k : ℕ) (t : ℝ), k ∉ index →
    putAll (pars.set k t) index par = (putAll pars index par).set k t := by
  induction index with
  | nil => intro pars par k t _; simp [putAll]
  | cons i is ih =>
    intro pars par k t hk
    rcases par with _ | ⟨v, vs⟩
    · rfl
    · simp only [putAll]
      simp only [List.mem_cons, not_or] at hk
      rw [← ih _ _ _ _ hk.2, List.set_comm _ _ hk.1]

theorem putAll_move (index : List ℕ) : ∀ (pars par : List ℝ) (j k : ℕ) (t : ℝ), index.Nodup →
    index[j]? = some k → j < par.length → putAll pars index (par.set j t) = (putAll pars index par).set k t := by
  induction index with
  | nil => intro pars par j k t _ h; simp at h
  | cons i is ih =>
    intro pars par j k t hn hj hl
    obtain ⟨hi, hn'⟩ := List.nodup_cons.1 hn
    rcases par with _ | ⟨v, vs⟩
    · simp at hl
    · rcases j with _ | j
      · simp only [List.getElem?_cons_zero, Option.some.injEq] at hj
        subst hj
        simp only [List.set_cons_zero, putAll]
        rw [← putAll_set _ _ _ _ _ hi, List.set_set]
      · simp only [List.set_cons_succ, putAll]
        exact ih _ _ _ _ _ hn' (by simpa using hj) (by simpa using hl)

theorem putAll_get (index : List ℕ) : ∀ (pars par : List ℝ) (j k : ℕ) (v : ℝ), index.Nodup →
    (∀ i ∈ index, i < pars.length) → index[j]? = some k → par[j]? = some v →
    (putAll pars index par)[k]? = some v := by
  intro pars par j k v hn hr hj hv
  have h := putAll_move index pars par j k v hn hj (List.getElem?_eq_some_iff.1 hv).1
  rw [set_self par j v hv] at h
  rw [h]
  have : k < (putAll pars index par).length := by
    rw [putAll_length]
    exact hr k (List.mem_of_getElem? hj)
  simp [this]

theorem putAll_keep (index : List ℕ) : ∀ (pars par : List ℝ) (k : ℕ), k ∉ index →
    (putAll pars index par)[k]? = pars[k]? := by
  induction index with
  | nil => intro pars par k _; simp [putAll]
  | cons i is ih =>
    intro pars par k hk
    rcases par with _ | ⟨v, vs⟩
    · rfl
    · simp only [List.mem_cons, not_or] at hk
      simp only [putAll]
      rw [ih _ _ _ hk.2, List.getElem?_set_ne (Ne.symm hk.1)]

theorem insert_length (params : List ℝ) (index : List ℕ) (par : List ℝ) :
    (insertPars params index par).length = params.length := by
  unfold insertPars
  split
  · assumption
  · exact putAll_length _ _ _

theorem insert_get (params : List ℝ) (index : List ℕ) (par : List ℝ) (h : Fitted params index par) (j k : ℕ)
    (v : ℝ) (hj : index[j]? = some k) (hv : par[j]? = some v) : (insertPars params index par)[k]? = some v := by
  unfold insertPars
  split
  · rename_i hl
    have := h.full (by rw [← h.length, hl])
    rw [this] at hj
    obtain ⟨_, hk⟩ := List.getElem?_eq_some_iff.1 hj
    simp only [List.getElem_range] at hk
    rwa [← hk]
  · exact putAll_get index params par j k v h.nodup h.range hj hv

theorem insert_move (params : List ℝ) (index : List ℕ) (par : List ℝ) (h : Fitted params index par) (j k : ℕ)
    (t : ℝ) (hj : index[j]? = some k) :
    insertPars params index (par.set j t) = (insertPars params index par).set k t := by
  have hjl : j < par.length := by
    rw [h.length]
    exact (List.getElem?_eq_some_iff.1 hj).1
  unfold insertPars
  simp only [List.length_set]
  split
  · rename_i hl
    have := h.full (by rw [← h.length, hl])
    rw [this] at hj
    obtain ⟨_, hk⟩ := List.getElem?_eq_some_iff.1 hj
    simp only [List.getElem_range] at hk
    rw [hk]
  · exact putAll_move index params par j k t h.nodup hj hjl

/-- Parameters that are not fitted keep their value, in the function that is minimised and after it. -/
theorem C84_kept (params : List ℝ) (index : List ℕ) (par : List ℝ) (h : Fitted params index par) (k : ℕ)
    (hk : k ∉ index) : (insertPars params index par)[k]? = params[k]? := by
  unfold insertPars
  split
  · rename_i hl
    have := h.full (by rw [← h.length, hl])
    rw [this] at hk
    simp only [List.mem_range, not_lt] at hk
    rw [List.getElem?_eq_none hk, List.getElem?_eq_none (by omega)]
  · exact putAll_keep index params par k hk

/-- The fitted ones get the values of the minimiser, in the order of the fit index. -/
theorem C84_fitted (params : List ℝ) (index : List ℕ) (par : List ℝ) (h : Fitted params index par) (j k : ℕ)
    (hj : index[j]? = some k) : (insertPars params index par)[k]? = par[j]? := by
  have hjl : j < par.length := by
    rw [h.length]
    exact (List.getElem?_eq_some_iff.1 hj).1
  rw [List.getElem?_eq_getElem hjl]
  exact insert_get params index par h j k _ hj (List.getElem?_eq_getElem hjl)

/-! ## Gradients -/

theorem grad_of (F : List ℝ → ℝ) (params : List ℝ) (index : List ℕ) (par hy g : List ℝ)
    (h : Fitted params index par)
    (hg : IsGradient F (insertPars params index par ++ hy) (index.map fun k : ℕ => (k : ℤ)) g) :
    Grad (fun q => -F (insertPars params index q ++ hy)) par (g.map fun x => -x) := by
  obtain ⟨hl, hd⟩ := hg
  refine ⟨by simp [hl, h.length], ?_⟩
  intro j v dv hv hdv
  have hjl : j < index.length := by
    rw [← h.length]
    exact (List.getElem?_eq_some_iff.1 hv).1
  have hj : index[j]? = some index[j] := List.getElem?_eq_getElem hjl
  set k := index[j] with hk
  have hkl : k < params.length := h.range k (List.getElem_mem hjl)
  have hkl' : k < (insertPars params index par).length := by rw [insert_length]; exact hkl
  rw [List.getElem?_map, Option.map_eq_some_iff] at hdv
  obtain ⟨g0, hg0, rfl⟩ := hdv
  have hp : place (insertPars params index par ++ hy).length ((k : ℕ) : ℤ) = k := by
    rw [place_nonneg _ _ (by omega)]
    simp
  have h1 := hd j (k : ℤ) v g0 (by simp [hj]) (by
    rw [hp, List.getElem?_append_left hkl']
    exact insert_get params index par h j k v hj hv) hg0
  rw [hp] at h1
  have h2 : (fun t => -F (insertPars params index (par.set j t) ++ hy))
      = fun t => -F ((insertPars params index par ++ hy).set k t) := by
    funext t
    rw [insert_move params index par h j k t hj, List.set_append_left _ _ hkl']
  simp only [h2]
  exact h1.fun_neg

theorem gradOpt_of (F : List ℝ → Option ℝ) (params : List ℝ) (index : List ℕ) (par hy g : List ℝ)
    (h : Fitted params index par)
    (hg : IsGradientOpt F (insertPars params index par ++ hy) (index.map fun k : ℕ => (k : ℤ)) g) :
    GradOpt (fun q => (F (insertPars params index q ++ hy)).map fun v => -v) par (g.map fun x => -x) := by
  obtain ⟨hl, hd⟩ := hg
  refine ⟨by simp [hl, h.length], ?_⟩
  intro j v dv hv hdv
  have hjl : j < index.length := by
    rw [← h.length]
    exact (List.getElem?_eq_some_iff.1 hv).1
  have hj : index[j]? = some index[j] := List.getElem?_eq_getElem hjl
  set k := index[j] with hk
  have hkl : k < params.length := h.range k (List.getElem_mem hjl)
  have hkl' : k < (insertPars params index par).length := by rw [insert_length]; exact hkl
  rw [List.getElem?_map, Option.map_eq_some_iff] at hdv
  obtain ⟨g0, hg0, rfl⟩ := hdv
  have hp : place (insertPars params index par ++ hy).length ((k : ℕ) : ℤ) = k := by
    rw [place_nonneg _ _ (by omega)]
    simp
  obtain ⟨G, hG, hG'⟩ := hd j (k : ℤ) v g0 (by simp [hj]) (by
    rw [hp, List.getElem?_append_left hkl']
    exact insert_get params index par h j k v hj hv) hg0
  rw [hp] at hG
  refine ⟨fun t => -G t, ?_, hG'.fun_neg⟩
  filter_upwards [hG] with t ht
  rw [insert_move params index par h j k t hj, ← List.set_append_left _ _ hkl', ht]
  rfl

theorem index_proper (params : List ℝ) (index : List ℕ) (par : List ℝ) (h : Fitted params index par) (np nh : ℕ)
    (hnp : params.length = np) : ProperIndex np nh (index.map fun k : ℕ => (k : ℤ)) := by
  intro k hk
  obtain ⟨i, hi, rfl⟩ := List.mem_map.1 hk
  left
  have := h.range i hi
  omega

theorem index_pos (index : List ℕ) (k : ℤ) (hk : k ∈ index.map fun k : ℕ => (k : ℤ)) : 0 ≤ k := by
  obtain ⟨i, hi, rfl⟩ := List.mem_map.1 hk
  omega

theorem land_smooth (P : Prob X) (p : List ℝ) (h : P.Smooth p) : P.land.Smooth p := by
  intro d hd
  obtain ⟨d0, h0, rfl⟩ := List.mem_map.1 hd
  exact h d0 h0

theorem land_off (P : Prob X) (p : List ℝ) (h : P.OffFold p) : P.land.OffFold p := by
  intro d hd
  obtain ⟨d0, h0, rfl⟩ := List.mem_map.1 hd
  exact h d0 h0

/-- The chi-squared landscape, with weights, accuracies and kept parameters. -/
theorem C84_chisq (P : Prob X) (params : List ℝ) (index : List ℕ) (par : List ℝ) (h : Fitted params index par)
    (hs : P.Smooth (insertPars params index par)) (hpos : 0 < chiSum P (insertPars params index par)) :
    GradOpt (chiFunc P params index) par (chiDfunc P params index par) := by
  refine ⟨by simp [chiDfunc, h.length], ?_⟩
  intro j v dv hv hdv
  have hjl : j < index.length := by
    rw [← h.length]
    exact (List.getElem?_eq_some_iff.1 hv).1
  have hj : index[j]? = some index[j] := List.getElem?_eq_getElem hjl
  set k := index[j] with hk
  have hq := insert_get params index par h j k v hj hv
  set q := insertPars params index par with hqdef
  simp only [chiDfunc, ← hqdef, List.getElem?_map, hj, Option.map_some, Option.some.injEq] at hdv
  subst hdv
  have hd : HasDerivAt (fun t => chiSum P (q.set k t))
      (2 * (P.data.map fun d => (P.df d.x q).getD k 0 * ((P.f d.x q - d.y) * P.fitWgt d)).sum) v := by
    have h1 := hasDerivAt_listSum P.data (fun d t => (d.y - P.f d.x (q.set k t)) ^ 2 * P.fitWgt d)
      (fun d => 2 * ((P.df d.x q).getD k 0 * ((P.f d.x q - d.y) * P.fitWgt d))) v (by
        intro d hd
        have h2 := hasDerivAt_f P q hs d hd k v hq
        refine (((h2.const_sub d.y).fun_pow 2).mul_const (P.fitWgt d)).congr_deriv ?_
        rw [set_self q k v hq]
        push_cast
        ring)
    refine h1.congr_deriv ?_
    rw [List.sum_map_mul_left]
  have hm : ∀ t, chiFunc P params index (par.set j t)
      = if chiSum P (q.set k t) ≤ 0 then none else some (chiSum P (q.set k t)) := by
    intro t
    simp only [chiFunc, insert_move params index par h j k t hj, ← hqdef]
  refine ⟨fun t => chiSum P (q.set k t), ?_, hd⟩
  have h0 : 0 < chiSum P (q.set k v) := by rw [set_self q k v hq]; exact hpos
  filter_upwards [hd.continuousAt.eventually (lt_mem_nhds h0)] with t ht
  rw [hm t, if_neg (not_le.2 ht)]

/-- Gauss. -/
theorem C84_gauss (P : Prob X) (params : List ℝ) (hnp : params.length = P.np) (index : List ℕ) (par : List ℝ)
    (h : Fitted params index par) (hs : P.Smooth (insertPars params index par))
    (ho : P.OffFold (insertPars params index par)) (scale power : ℝ) (hsc : scale ≠ 0) :
    Grad (Kind.gauss.func P params index (Kind.gauss.hypar scale power)) par
      (Kind.gauss.dfunc P params index (Kind.gauss.hypar scale power) par) := by
  have hl : (insertPars params index par).length = P.land.np := by rw [insert_length]; exact hnp
  apply grad_of (fun a => logLhood (gaussLd P.land a) P.land) params index par [scale] _ h
  apply C27_gauss P.land _ scale hl (land_smooth P _ hs) (land_off P _ ho)
  · intro d _
    rw [varyy_zero P.land rfl, add_zero]
    exact mul_self_pos.2 hsc
  · exact index_proper params index par h _ _ hnp

/-- The weights are not negative. -/
def Prob.GoodWeights (P : Prob X) : Prop := P.hasW = true → ∀ d ∈ P.data, 0 ≤ d.w

theorem fitWgt_nonneg (P : Prob X) (hw : P.GoodWeights) (d : Datum X) (hd : d ∈ P.data) : 0 ≤ P.fitWgt d := by
  have h1 : (0 : ℝ) ≤ if P.hasW then 1.0 * d.w else 1.0 := by
    split
    · rename_i hb
      exact mul_nonneg (by norm_num) (hw hb d hd)
    · norm_num
  unfold Prob.fitWgt
  rcases P.acc with _ | a | _
  · exact h1
  · exact div_nonneg h1 (mul_self_nonneg _)
  · exact div_nonneg h1 (mul_self_nonneg _)

/-- Laplace, where no residual is zero. -/
theorem C84_laplace (P : Prob X) (params : List ℝ) (hnp : params.length = P.np) (index : List ℕ) (par : List ℝ)
    (h : Fitted params index par) (hs : P.Smooth (insertPars params index par))
    (ho : P.OffFold (insertPars params index par)) (hw : P.GoodWeights)
    (hr : ∀ d ∈ P.data, P.residual (insertPars params index par) d ≠ 0) (scale power : ℝ) (hsc : scale ≠ 0) :
    Grad (Kind.laplace.func P params index (Kind.laplace.hypar scale power)) par
      (Kind.laplace.dfunc P params index (Kind.laplace.hypar scale power) par) := by
  have hl : (insertPars params index par).length = P.land.np := by rw [insert_length]; exact hnp
  apply grad_of (fun a => logLhood (laplaceLd P.land a) P.land) params index par [scale] _ h
  apply C27_laplace P.land _ scale hl (land_smooth P _ hs) (land_off P _ ho)
  · intro _ d hd
    obtain ⟨d0, h0, rfl⟩ := List.mem_map.1 hd
    exact fitWgt_nonneg P hw d0 h0
  · intro d _
    rw [scaleOf_none P.land rfl]
    exact hsc
  · intro d hd
    obtain ⟨d0, h0, rfl⟩ := List.mem_map.1 hd
    exact hr d0 h0
  · exact index_proper params index par h _ _ hnp
  · intro _
    exact index_pos index

/-- Cauchy. -/
theorem C84_cauchy (P : Prob X) (params : List ℝ) (hnp : params.length = P.np) (index : List ℕ) (par : List ℝ)
    (h : Fitted params index par) (hs : P.Smooth (insertPars params index par))
    (ho : P.OffFold (insertPars params index par)) (scale power : ℝ) (hsc : scale ≠ 0) :
    Grad (Kind.cauchy.func P params index (Kind.cauchy.hypar scale power)) par
      (Kind.cauchy.dfunc P params index (Kind.cauchy.hypar scale power) par) := by
  have hl : (insertPars params index par).length = P.land.np := by rw [insert_length]; exact hnp
  apply grad_of (fun a => logLhood (cauchyLd P.land a) P.land) params index par [scale] _ h
  apply C27_cauchy P.land _ scale hl (land_smooth P _ hs) (land_off P _ ho)
  · intro d _
    rw [scaleOf_none P.land rfl]
    exact hsc
  · exact index_proper params index par h _ _ hnp
  · intro _
    exact index_pos index

/-- Exponential, where no residual is zero. -/
theorem C84_exponential (P : Prob X) (params : List ℝ) (hnp : params.length = P.np) (index : List ℕ)
    (par : List ℝ) (h : Fitted params index par) (hs : P.Smooth (insertPars params index par))
    (ho : P.OffFold (insertPars params index par))
    (hr : ∀ d ∈ P.data, P.residual (insertPars params index par) d ≠ 0) (scale power : ℝ) (hsc : 0 < scale)
    (hpw : 0 < power) :
    Grad (Kind.exponential.func P params index (Kind.exponential.hypar scale power)) par
      (Kind.exponential.dfunc P params index (Kind.exponential.hypar scale power) par) := by
  have hl : (insertPars params index par).length = P.land.np := by rw [insert_length]; exact hnp
  apply grad_of (fun a => logLhood (expLd P.land a) P.land) params index par [scale, power] _ h
  apply C27_exponential P.land _ scale power hl (land_smooth P _ hs) (land_off P _ ho) hpw
  · intro d _
    rw [expScale_none P.land rfl]
    exact hsc
  · intro d hd
    obtain ⟨d0, h0, rfl⟩ := List.mem_map.1 hd
    exact hr d0 h0
  · exact index_proper params index par h _ _ hnp
  · intro _ h2
    have := index_pos index _ h2
    omega

/-- Poisson, where the model is positive. -/
theorem C84_poisson (lf : ℝ → ℝ) (P : Prob X) (params : List ℝ) (hnp : params.length = P.np) (index : List ℕ)
    (par : List ℝ) (h : Fitted params index par) (hs : P.Smooth (insertPars params index par))
    (hpos : ∀ d ∈ P.data, 0 < P.f d.x (insertPars params index par)) :
    GradOpt (optFunc (poissonLd lf) P params index []) par (optDfunc poissonPd P params index [] par) := by
  have hl : (insertPars params index par).length = P.land.np := by rw [insert_length]; exact hnp
  apply gradOpt_of (fun a => logLhoodOpt (poissonLd lf P.land a) P.land) params index par [] _ h
  simp only [List.append_nil]
  apply C27_poisson lf P.land _ hl (land_smooth P _ hs)
  · intro d hd
    obtain ⟨d0, h0, rfl⟩ := List.mem_map.1 hd
    exact hpos d0 h0
  · exact index_proper params index par h _ _ hnp

/-- Uniform, where all data are strictly within the bounds. -/
theorem C84_uniform (P : Prob X) (params : List ℝ) (hnp : params.length = P.np) (index : List ℕ)
    (par : List ℝ) (h : Fitted params index par) (hs : P.Smooth (insertPars params index par)) (scale : ℝ)
    (hin : ∀ d ∈ P.data, |d.y - P.f d.x (insertPars params index par)| < scale) :
    GradOpt (optFunc uniformLd P params index [scale]) par (optDfunc uniformPd P params index [scale] par) := by
  have hl : (insertPars params index par).length = P.land.np := by rw [insert_length]; exact hnp
  apply gradOpt_of (fun a => logLhoodOpt (uniformLd P.land a) P.land) params index par [scale] _ h
  apply C27_uniform P.land _ scale hl (land_smooth P _ hs)
  · intro d hd
    obtain ⟨d0, h0, rfl⟩ := List.mem_map.1 hd
    rw [scaleOf_none P.land rfl]
    exact hin d0 h0
  · exact index_proper params index par h _ _ hnp
  · intro _
    exact index_pos index

end BF.ErrDis
