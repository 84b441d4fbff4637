import Verif.ErrDis
import Mathlib.Analysis.Calculus.Deriv.Add
import Mathlib.Analysis.Calculus.Deriv.Mul
import Mathlib.Analysis.Calculus.Deriv.Inv
import Mathlib.Analysis.Calculus.Deriv.Pow
import Mathlib.Analysis.Calculus.Deriv.Abs
import Mathlib.Analysis.SpecialFunctions.Log.Deriv
import Mathlib.Analysis.SpecialFunctions.Pow.Deriv
import Mathlib.Analysis.SpecialFunctions.Gamma.Deriv
import Mathlib.Tactic.Ring
import Mathlib.Tactic.Linarith
import Mathlib.Tactic.FieldSimp
import Mathlib.Tactic.Positivity

/-!
# C27: log likelihood gradients are true gradients

Parameters are addressed as in python: a negative index counts from the end.
-/

namespace BF.ErrDis

open Real

variable {X : Type*}

/-- The place of python's index `k` in a list of length `n`. -/
def place (n : ℕ) (k : ℤ) : ℕ := (if 0 ≤ k then k else n + k).toNat

/-- `g` lists, for each index in `fitIndex`, the derivative of `F` to that element of the list `a`. -/
def IsGradient (F : List ℝ → ℝ) (a : List ℝ) (fitIndex : List ℤ) (g : List ℝ) : Prop :=
  g.length = fitIndex.length ∧
  ∀ (j : ℕ) (k : ℤ) (v dv : ℝ), fitIndex[j]? = some k → a[place a.length k]? = some v →
    g[j]? = some dv → HasDerivAt (fun t => F (a.set (place a.length k) t)) dv v

/-- The model is differentiable in its parameters at `p`, for all data points. -/
def Prob.Smooth (P : Prob X) (p : List ℝ) : Prop :=
  ∀ d ∈ P.data, (P.df d.x p).length = p.length ∧
    ∀ (k : ℕ) (v g : ℝ), p[k]? = some v → (P.df d.x p)[k]? = some g →
      HasDerivAt (fun t => P.f d.x (p.set k t)) g v

/-- With cyclic data: no residual is precisely half a period. -/
def Prob.OffFold (P : Prob X) (p : List ℝ) : Prop :=
  ∀ d ∈ P.data, ∀ period, P.cyclic = some period →
    d.y - P.f d.x p ≠ period / 2 ∧ d.y - P.f d.x p ≠ -(period / 2)

/-- The fit index consists of model parameters and the last `nh` hyperparameters. -/
def ProperIndex (np nh : ℕ) (fitIndex : List ℤ) : Prop :=
  ∀ k ∈ fitIndex, (0 ≤ k ∧ k < np) ∨ (-(nh : ℤ) ≤ k ∧ k < 0)

theorem hasDerivAt_listSum {D : Type*} (l : List D) (F : D → ℝ → ℝ) (G : D → ℝ) (x : ℝ)
    (h : ∀ d ∈ l, HasDerivAt (F d) (G d) x) :
    HasDerivAt (fun t => (l.map fun d => F d t).sum) (l.map G).sum x := by
  induction l with
  | nil => simpa using hasDerivAt_const x (0 : ℝ)
  | cons d l ih =>
    simp only [List.map_cons, List.sum_cons]
    exact (h d (by simp)).fun_add (ih fun e he => h e (by simp [he]))

theorem hasDerivAt_cyclize (period r : ℝ) (h1 : r ≠ period / 2) (h2 : r ≠ -(period / 2)) :
    HasDerivAt (Cyclic.cyclize period) 1 r := by
  have hid := hasDerivAt_id' r
  rcases lt_or_gt_of_ne h2 with h | h
  · have e : (fun t => t + period) =ᶠ[nhds r] Cyclic.cyclize period := by
      filter_upwards [Iio_mem_nhds h] with t ht
      simp [Cyclic.cyclize, Set.mem_Iio.1 ht]
    exact (hid.add_const period).congr_of_eventuallyEq e.symm
  · rcases lt_or_gt_of_ne h1 with h' | h'
    · have e : (fun t => t) =ᶠ[nhds r] Cyclic.cyclize period := by
        filter_upwards [Ioi_mem_nhds h, Iio_mem_nhds h'] with t ht ht'
        have a1 := Set.mem_Ioi.1 ht
        have a2 := Set.mem_Iio.1 ht'
        simp only [Cyclic.cyclize]
        rw [if_neg (by linarith), if_neg (by linarith)]
      exact hid.congr_of_eventuallyEq e.symm
    · have e : (fun t => t - period) =ᶠ[nhds r] Cyclic.cyclize period := by
        filter_upwards [Ioi_mem_nhds h, Ioi_mem_nhds h'] with t ht ht'
        have a1 := Set.mem_Ioi.1 ht
        have a2 := Set.mem_Ioi.1 ht'
        simp only [Cyclic.cyclize]
        rw [if_neg (by linarith), if_pos (by linarith)]
      exact (hid.sub_const period).congr_of_eventuallyEq e.symm

theorem hasDerivAt_residual (P : Prob X) (p : List ℝ) (hs : P.Smooth p) (ho : P.OffFold p)
    (d : Datum X) (hd : d ∈ P.data) (k : ℕ) (v : ℝ) (hv : p[k]? = some v) :
    HasDerivAt (fun t => P.residual (p.set k t) d) (-((P.df d.x p).getD k 0)) v := by
  obtain ⟨hl, h⟩ := hs d hd
  have hk : k < p.length := (List.getElem?_eq_some_iff.1 hv).1
  have hg : (P.df d.x p)[k]? = some ((P.df d.x p).getD k 0) := by
    rw [List.getD_eq_getElem?_getD, List.getElem?_eq_getElem (by omega)]
    rfl
  have h0 := (h k v _ hv hg).const_sub d.y
  have hpk : p.set k v = p := by
    rw [List.getElem?_eq_some_iff] at hv
    obtain ⟨hk, rfl⟩ := hv
    simp
  unfold Prob.residual Prob.fold
  rcases hc : P.cyclic with _ | period
  · exact h0
  · obtain ⟨o1, o2⟩ := ho d hd period hc
    have := (hasDerivAt_cyclize period (d.y - P.f d.x (p.set k v)) (by rwa [hpk])
      (by rwa [hpk])).comp v h0
    exact this.congr_deriv (one_mul _)

theorem set_left (p q : List ℝ) (k : ℕ) (t : ℝ) (h : k < p.length) :
    (p ++ q).set k t = p.set k t ++ q := by
  rw [List.set_append]
  simp [h]

theorem take_left' (p q : List ℝ) (n : ℕ) (h : p.length = n) : (p ++ q).take n = p := by
  subst h
  simp

@[simp] theorem fromEnd_one (p : List ℝ) (s : ℝ) : fromEnd (p ++ [s]) 1 = s := by
  simp [fromEnd]

@[simp] theorem allBut_one (p : List ℝ) (s : ℝ) : allBut (p ++ [s]) 1 = p := by
  simp [allBut]

@[simp] theorem fromEnd_two_one (p : List ℝ) (s q : ℝ) : fromEnd (p ++ [s, q]) 1 = q := by
  simp [fromEnd]

@[simp] theorem fromEnd_two_two (p : List ℝ) (s q : ℝ) : fromEnd (p ++ [s, q]) 2 = s := by
  simp [fromEnd]

@[simp] theorem allBut_two (p : List ℝ) (s q : ℝ) : allBut (p ++ [s, q]) 2 = p := by
  simp [allBut]

theorem place_nonneg (n : ℕ) (k : ℤ) (h : 0 ≤ k) : place n k = k.toNat := by simp [place, h]

/-- The terms `pd` are the derivatives of the terms `ld`, to the parameters `p` of the model and to the
hyperparameters `hy`, for those in `fitIndex`. -/
def TermGradient (P : Prob X) (p hy : List ℝ) (ld : List ℝ → Datum X → ℝ) (pd : ℤ → Datum X → ℝ)
    (fitIndex : List ℤ) : Prop :=
  (∀ k ∈ fitIndex, 0 ≤ k → ∀ v, p[k.toNat]? = some v → ∀ d ∈ P.data,
      HasDerivAt (fun t => ld (p.set k.toNat t ++ hy) d) (pd k d) v) ∧
  (∀ k ∈ fitIndex, k < 0 → ∀ v, hy[(hy.length + k).toNat]? = some v → ∀ d ∈ P.data,
      HasDerivAt (fun t => ld (p ++ hy.set (hy.length + k).toNat t) d) (pd k d) v)

/-- The gradient of a sum over the data, from the derivatives of the terms. -/
theorem isGradient_of_terms (P : Prob X) (p hy : List ℝ) (hlen : p.length = P.np)
    (ld : List ℝ → Datum X → ℝ) (pd : ℤ → Datum X → ℝ) (fitIndex : List ℤ)
    (hfit : ProperIndex P.np hy.length fitIndex) (h : TermGradient P p hy ld pd fitIndex) :
    IsGradient (fun a => logLhood (ld a) P) (p ++ hy) fitIndex (partialLogL pd P fitIndex) := by
  obtain ⟨h1, h2⟩ := h
  refine ⟨by simp [partialLogL], ?_⟩
  intro j k v dv hj hv hdv
  have hk : k ∈ fitIndex := List.mem_of_getElem? hj
  simp only [partialLogL, List.getElem?_map, hj, Option.map_some, Option.some.injEq] at hdv
  subst hdv
  simp only [logLhood]
  rcases hfit k hk with ⟨k0, k1⟩ | ⟨k1, k0⟩
  · rw [place_nonneg _ _ k0] at hv ⊢
    have hkl : k.toNat < p.length := by omega
    apply hasDerivAt_listSum P.data (fun d t => ld ((p ++ hy).set k.toNat t) d)
    intro d hd
    simp only [set_left p hy k.toNat _ hkl]
    rw [List.getElem?_append_left hkl] at hv
    exact h1 k hk k0 v hv d hd
  · have hpl : place (p ++ hy).length k = p.length + (hy.length + k).toNat := by
      simp only [place, List.length_append, if_neg (not_le.2 k0)]
      push_cast
      omega
    rw [hpl] at hv ⊢
    have hset : ∀ t : ℝ, (p ++ hy).set (p.length + (hy.length + k).toNat) t
        = p ++ hy.set (hy.length + k).toNat t := by
      intro t
      rw [List.set_append_right _ _ (by omega)]
      simp
    simp only [hset]
    rw [List.getElem?_append_right (by omega)] at hv
    simp only [Nat.add_sub_cancel_left] at hv
    apply hasDerivAt_listSum P.data (fun d t => ld (p ++ hy.set (hy.length + k).toNat t) d)
    intro d hd
    exact h2 k hk k0 v hv d hd

theorem set_self (p : List ℝ) (k : ℕ) (v : ℝ) (h : p[k]? = some v) : p.set k v = p := by
  obtain ⟨hk, rfl⟩ := List.getElem?_eq_some_iff.1 h
  simp

theorem neg_one (np : ℕ) (fitIndex : List ℤ) (hfit : ProperIndex np 1 fitIndex) (k : ℤ)
    (hk : k ∈ fitIndex) (k0 : k < 0) : k = -1 := by
  rcases hfit k hk with ⟨a, b⟩ | ⟨a, b⟩ <;> push_cast at a <;> omega

/-! ## Gauss -/

theorem gauss_terms (P : Prob X) (p : List ℝ) (scale : ℝ) (hlen : p.length = P.np)
    (hs : P.Smooth p) (ho : P.OffFold p) (hv : ∀ d ∈ P.data, 0 < scale * scale + P.varyy d)
    (fitIndex : List ℤ) (hfit : ProperIndex P.np 1 fitIndex) :
    TermGradient P p [scale] (gaussLd P) (gaussPd P (p ++ [scale])) fitIndex := by
  constructor
  · intro k hk k0 v hpv d hd
    have hr := hasDerivAt_residual P p hs ho d hd k.toNat v hpv
    have hpk := set_self p k.toNat v hpv
    have hs2 := (hv d hd).ne'
    simp only [gaussLd, gaussPd, gaussS2, fromEnd_one, Prob.weightedResSq, if_pos k0, Prob.dM,
      take_left' p [scale] P.np hlen,
      fun t => take_left' (p.set k.toNat t) [scale] P.np (by simp [hlen])]
    rcases hw : P.hasW with _ | _
    · simp only [Bool.false_eq_true, if_false]
      refine ((((hr.fun_mul hr).const_mul (-0.5)).div_const _).sub_const _).congr_deriv ?_
      rw [hpk]
      field_simp
      ring
    · simp only [if_true]
      refine (((((hr.mul_const d.w).fun_mul hr).const_mul (-0.5)).div_const _).sub_const
        _).congr_deriv ?_
      rw [hpk]
      field_simp
      ring
  · intro k hk k0 v hpv d hd
    obtain rfl := neg_one P.np fitIndex hfit k hk k0
    obtain rfl : scale = v := by simpa using hpv
    have hs2 := (hv d hd).ne'
    have hs3 : scale ^ 2 + P.varyy d ≠ 0 := by rw [pow_two]; exact hs2
    have hq : HasDerivAt (fun t => t * t + P.varyy d) (1 * scale + scale * 1) scale :=
      ((hasDerivAt_id' scale).fun_mul (hasDerivAt_id' scale)).add_const _
    have hlg := hq.log hs2
    simp only [gaussLd, gaussPd, gaussS2, List.length_singleton, Nat.cast_one, Int.reduceNeg,
      add_neg_cancel, Int.toNat_zero, List.set_cons_zero, fromEnd_one, Prob.weightedResSq,
      take_left' p [_] P.np hlen, if_neg (show ¬ (0 : ℤ) ≤ -1 by omega), Prob.wgt]
    rcases hw : P.hasW with _ | _
    · simp only [Bool.false_eq_true, if_false]
      refine ((((hasDerivAt_const scale _).fun_div hq hs2)).fun_sub
        ((hlg.const_add LOG2PI).const_mul 0.5)).congr_deriv ?_
      field_simp
      ring
    · simp only [if_true]
      refine ((((hasDerivAt_const scale _).fun_div hq hs2)).fun_sub
        (((hlg.const_add LOG2PI).const_mul 0.5).mul_const d.w)).congr_deriv ?_
      field_simp
      ring

/-- With and without weights, accuracies and cyclic data. -/
theorem C27_gauss (P : Prob X) (p : List ℝ) (scale : ℝ) (hlen : p.length = P.np)
    (hs : P.Smooth p) (ho : P.OffFold p) (hv : ∀ d ∈ P.data, 0 < scale * scale + P.varyy d)
    (fitIndex : List ℤ) (hfit : ProperIndex P.np 1 fitIndex) :
    IsGradient (fun a => logLhood (gaussLd P a) P) (p ++ [scale]) fitIndex
      (partialLogL (gaussPd P (p ++ [scale])) P fitIndex) :=
  isGradient_of_terms P p [scale] hlen _ _ fitIndex hfit (gauss_terms P p scale hlen hs ho hv _ hfit)

/-! ## Laplace -/

theorem hasDerivAt_abs' {F : ℝ → ℝ} {d v : ℝ} (h : HasDerivAt F d v) (h0 : F v ≠ 0) :
    HasDerivAt (fun t => |F t|) (copysign 1 (F v) * d) v := by
  rcases lt_or_gt_of_ne h0 with hn | hp
  · have := (hasDerivAt_abs_neg hn).comp v h
    exact this.congr_deriv (by simp [copysign, hn])
  · have := (hasDerivAt_abs_pos hp).comp v h
    exact this.congr_deriv (by simp [copysign, not_lt.2 hp.le])

theorem copysign_nonneg (w r : ℝ) (hw : 0 ≤ w) : copysign w r = w * copysign 1 r := by
  unfold copysign
  split_ifs <;> simp [abs_of_nonneg hw]

theorem copysign_mul_self (r : ℝ) : r * copysign 1 r = |r| := by
  unfold copysign
  split_ifs with h
  · simp [abs_of_neg h]
  · simp [abs_of_nonneg (not_lt.1 h)]

theorem scaleOf_pos (P : Prob X) (p q : List ℝ) (s : ℝ) (d : Datum X) :
    scaleOf P (q ++ [s]) d = scaleOf P (p ++ [s]) d := by
  simp [scaleOf]

theorem laplace_terms (P : Prob X) (p : List ℝ) (scale : ℝ) (hlen : p.length = P.np)
    (hs : P.Smooth p) (ho : P.OffFold p)
    (hw : P.hasW = true → ∀ d ∈ P.data, 0 ≤ d.w)
    (hsc : ∀ d ∈ P.data, scaleOf P (p ++ [scale]) d ≠ 0)
    (hr0 : ∀ d ∈ P.data, P.residual p d ≠ 0)
    (fitIndex : List ℤ) (hfit : ProperIndex P.np 1 fitIndex)
    (hacc : P.hasAccuracy = true → ∀ k ∈ fitIndex, 0 ≤ k) :
    TermGradient P p [scale] (laplaceLd P) (laplacePd P (p ++ [scale])) fitIndex := by
  constructor
  · intro k hk k0 v hpv d hd
    have hr := hasDerivAt_residual P p hs ho d hd k.toNat v hpv
    have hpk := set_self p k.toNat v hpv
    have hab := hasDerivAt_abs' hr (by rw [hpk]; exact hr0 d hd)
    rw [hpk] at hab
    have hsd := hsc d hd
    simp only [laplaceLd, laplacePd, if_pos k0, Prob.dM, allBut_one,
      fun t => take_left' (p.set k.toNat t) [scale] P.np (by simp [hlen]),
      fun t => scaleOf_pos P p (p.set k.toNat t) scale d, Prob.wgt]
    rcases hW : P.hasW with _ | _
    · simp only [Bool.false_eq_true, if_false]
      refine ((hab.fun_neg.div_const _).sub_const _).congr_deriv ?_
      ring
    · simp only [if_true]
      refine (((hab.fun_neg.div_const _).sub_const _).mul_const d.w).congr_deriv ?_
      rw [copysign_nonneg _ _ (hw hW d hd)]
      ring
  · intro k hk k0 v hpv d hd
    obtain rfl := neg_one P.np fitIndex hfit k hk k0
    obtain rfl : scale = v := by simpa using hpv
    have ha : P.hasAccuracy = false := by
      rcases h : P.hasAccuracy with _ | _
      · rfl
      · have := hacc h _ hk
        omega
    have hsd := hsc d hd
    simp only [scaleOf, ha, Bool.false_eq_true, if_false, fromEnd_one] at hsd
    simp only [laplaceLd, laplacePd, List.length_singleton, Nat.cast_one, Int.reduceNeg,
      add_neg_cancel, Int.toNat_zero, List.set_cons_zero, fromEnd_one, allBut_one, scaleOf, ha,
      take_left' p [_] P.np hlen, if_neg (show ¬ (0 : ℤ) ≤ -1 by omega), Prob.wgt,
      Bool.false_eq_true, if_false]
    have hi := hasDerivAt_id' scale
    have hl := hi.log hsd
    rcases hW : P.hasW with _ | _
    · simp only [Bool.false_eq_true, if_false]
      refine (((hasDerivAt_const scale (-|P.residual p d|)).fun_div hi hsd).fun_sub
        (hl.const_add (log 2))).congr_deriv ?_
      rw [← copysign_mul_self]
      field_simp
      ring
    · simp only [if_true]
      refine ((((hasDerivAt_const scale (-|P.residual p d|)).fun_div hi hsd).fun_sub
        (hl.const_add (log 2))).mul_const d.w).congr_deriv ?_
      rw [← copysign_mul_self, copysign_nonneg _ _ (hw hW d hd)]
      field_simp
      ring

/-- Away from residuals that are zero, where the likelihood has a kink; the scale is not fitted when
the data have accuracies. -/
theorem C27_laplace (P : Prob X) (p : List ℝ) (scale : ℝ) (hlen : p.length = P.np)
    (hs : P.Smooth p) (ho : P.OffFold p)
    (hw : P.hasW = true → ∀ d ∈ P.data, 0 ≤ d.w)
    (hsc : ∀ d ∈ P.data, scaleOf P (p ++ [scale]) d ≠ 0)
    (hr0 : ∀ d ∈ P.data, P.residual p d ≠ 0)
    (fitIndex : List ℤ) (hfit : ProperIndex P.np 1 fitIndex)
    (hacc : P.hasAccuracy = true → ∀ k ∈ fitIndex, 0 ≤ k) :
    IsGradient (fun a => logLhood (laplaceLd P a) P) (p ++ [scale]) fitIndex
      (partialLogL (laplacePd P (p ++ [scale])) P fitIndex) :=
  isGradient_of_terms P p [scale] hlen _ _ fitIndex hfit
    (laplace_terms P p scale hlen hs ho hw hsc hr0 _ hfit hacc)

/-! ## Cauchy -/

theorem cauchy_terms (P : Prob X) (p : List ℝ) (scale : ℝ)
    (hs : P.Smooth p) (ho : P.OffFold p)
    (hsc : ∀ d ∈ P.data, scaleOf P (p ++ [scale]) d ≠ 0)
    (fitIndex : List ℤ) (hfit : ProperIndex P.np 1 fitIndex)
    (hacc : P.hasAccuracy = true → ∀ k ∈ fitIndex, 0 ≤ k) :
    TermGradient P p [scale] (cauchyLd P) (cauchyPd P (p ++ [scale])) fitIndex := by
  constructor
  · intro k hk k0 v hpv d hd
    have hr := hasDerivAt_residual P p hs ho d hd k.toNat v hpv
    have hpk := set_self p k.toNat v hpv
    have hsd := hsc d hd
    simp only [cauchyLd, cauchyPd, if_pos k0, Prob.dM, allBut_one,
      fun t => scaleOf_pos P p (p.set k.toNat t) scale d]
    set s := scaleOf P (p ++ [scale]) d
    have hpos : ∀ r : ℝ, r * r + s * s ≠ 0 := by
      intro r
      have : 0 < s * s := mul_self_pos.2 hsd
      nlinarith [mul_self_nonneg r]
    refine ((((hr.fun_mul hr).add_const (s * s)).log (hpos _)).const_sub _).congr_deriv ?_
    rw [hpk]
    ring
  · intro k hk k0 v hpv d hd
    obtain rfl := neg_one P.np fitIndex hfit k hk k0
    obtain rfl : scale = v := by simpa using hpv
    have ha : P.hasAccuracy = false := by
      rcases h : P.hasAccuracy with _ | _
      · rfl
      · have := hacc h _ hk
        omega
    have hsd := hsc d hd
    simp only [scaleOf, ha, Bool.false_eq_true, if_false, fromEnd_one] at hsd
    simp only [cauchyLd, cauchyPd, List.length_singleton, Nat.cast_one, Int.reduceNeg,
      add_neg_cancel, Int.toNat_zero, List.set_cons_zero, fromEnd_one, allBut_one, scaleOf, ha,
      if_neg (show ¬ (0 : ℤ) ≤ -1 by omega), Bool.false_eq_true, if_false]
    have hi := hasDerivAt_id' scale
    have hpos : P.residual p d * P.residual p d + scale * scale ≠ 0 := by
      have : 0 < scale * scale := mul_self_pos.2 hsd
      nlinarith [mul_self_nonneg (P.residual p d)]
    refine (((hi.log hsd).sub_const _).fun_sub
      (((hi.fun_mul hi).const_add _).log hpos)).congr_deriv ?_
    norm_num
    ring

/-- The Cauchy distribution makes no use of weights. -/
theorem C27_cauchy (P : Prob X) (p : List ℝ) (scale : ℝ) (hlen : p.length = P.np)
    (hs : P.Smooth p) (ho : P.OffFold p)
    (hsc : ∀ d ∈ P.data, scaleOf P (p ++ [scale]) d ≠ 0)
    (fitIndex : List ℤ) (hfit : ProperIndex P.np 1 fitIndex)
    (hacc : P.hasAccuracy = true → ∀ k ∈ fitIndex, 0 ≤ k) :
    IsGradient (fun a => logLhood (cauchyLd P a) P) (p ++ [scale]) fitIndex
      (partialLogL (cauchyPd P (p ++ [scale])) P fitIndex) :=
  isGradient_of_terms P p [scale] hlen _ _ fitIndex hfit
    (cauchy_terms P p scale hs ho hsc _ hfit hacc)

/-! ## Exponential -/

theorem exp_terms (P : Prob X) (p : List ℝ) (scale power : ℝ)
    (hs : P.Smooth p) (ho : P.OffFold p) (hpw : 0 < power)
    (hsc : ∀ d ∈ P.data, 0 < expScale P (p ++ [scale, power]) d)
    (hr0 : ∀ d ∈ P.data, P.residual p d ≠ 0)
    (fitIndex : List ℤ) (hfit : ProperIndex P.np 2 fitIndex)
    (hacc : P.hasAccuracy = true → -2 ∉ fitIndex) :
    TermGradient P p [scale, power] (expLd P) (expPd P (p ++ [scale, power])) fitIndex := by
  have key : ∀ (x q : ℝ), x ≠ 0 → |x| ^ q = |x| ^ (q - 1) * (x * copysign 1 x) := by
    intro x q hx
    rw [copysign_mul_self, ← Real.rpow_add_one (abs_ne_zero.2 hx)]
    simp
  constructor
  · intro k hk k0 v hpv d hd
    have hr := hasDerivAt_residual P p hs ho d hd k.toNat v hpv
    have hpk := set_self p k.toNat v hpv
    have hsd := hsc d hd
    have hsame : ∀ t, expScale P (p.set k.toNat t ++ [scale, power]) d
        = expScale P (p ++ [scale, power]) d := by intro t; simp [expScale]
    simp only [expLd, expPd, if_pos k0, Prob.dM, allBut_two, fromEnd_two_one, hsame]
    set s := expScale P (p ++ [scale, power]) d
    have hrd := hr0 d hd
    have hx : P.residual p d / s ≠ 0 := div_ne_zero hrd hsd.ne'
    have hab := hasDerivAt_abs' (hr.div_const s) (by rw [hpk]; exact hx)
    have hpw' := hab.rpow_const (p := power) (Or.inl (by rw [hpk]; exact abs_ne_zero.2 hx))
    rw [hpk] at hpw'
    rw [key _ power hx]
    set A := |P.residual p d / s| ^ (power - 1)
    rcases hW : P.hasW with _ | _
    · simp only [Bool.false_eq_true, if_false]
      refine (hpw'.fun_neg.add_const _).congr_deriv ?_
      field_simp
    · simp only [if_true]
      refine ((hpw'.fun_neg.add_const _).mul_const d.w).congr_deriv ?_
      field_simp
  · intro k hk k0 v hpv d hd
    have hrd := hr0 d hd
    have hk2 : k = -1 ∨ k = -2 := by
      rcases hfit k hk with ⟨a, b⟩ | ⟨a, b⟩ <;> push_cast at a <;> omega
    rcases hk2 with rfl | rfl
    · obtain rfl : power = v := by simpa using hpv
      have hsd := hsc d hd
      have hsame : ∀ t, expScale P (p ++ [scale, t]) d = expScale P (p ++ [scale, power]) d := by
        intro t; simp [expScale]
      have hset : ∀ t : ℝ, [scale, power].set ((([scale, power] : List ℝ).length : ℤ) + -1).toNat t
          = [scale, t] := fun t => rfl
      simp only [hset, expLd, expPd, allBut_two, fromEnd_two_one, hsame, Prob.wgt,
        if_neg (show ¬ (0 : ℤ) ≤ -1 by omega), if_neg (show ¬ (-1 : ℤ) = -2 by omega)]
      set s := expScale P (p ++ [scale, power]) d
      have hx : 0 < |P.residual p d / s| := abs_pos.2 (div_ne_zero hrd hsd.ne')
      have hi := hasDerivAt_id' power
      have h1 := hi.const_rpow hx
      have h2 := (hi.div_const (2 * s)).log (by positivity)
      have hG : DifferentiableAt ℝ Gamma (1 / power) := by
        apply differentiableAt_Gamma
        intro m hm
        have : 0 < 1 / power := by positivity
        have : (0 : ℝ) ≤ m := Nat.cast_nonneg m
        linarith
      have hinv : HasDerivAt (fun t : ℝ => 1 / t) (-(1 / power ^ 2)) power := by
        simpa only [one_div] using hasDerivAt_inv hpw.ne'
      have h3 : HasDerivAt (fun t => gammaln (1 / t)) (psi (1 / power) * -(1 / power ^ 2)) power := by
        have hg : HasDerivAt gammaln (psi (1 / power)) (1 / power) := by
          unfold gammaln psi logDeriv
          exact hG.hasDerivAt.log (Gamma_pos_of_pos (by positivity)).ne'
        exact hg.comp power hinv
      rcases hW : P.hasW with _ | _
      · simp only [Bool.false_eq_true, if_false]
        refine (h1.fun_neg.fun_add (h2.fun_sub h3)).congr_deriv ?_
        field_simp
        ring
      · simp only [if_true]
        refine ((h1.fun_neg.fun_add (h2.fun_sub h3)).mul_const d.w).congr_deriv ?_
        field_simp
        ring
    · obtain rfl : scale = v := by simpa using hpv
      have ha : P.hasAccuracy = false := by
        rcases h : P.hasAccuracy with _ | _
        · rfl
        · exact absurd hk (hacc h)
      have hsd := hsc d hd
      have hsame : ∀ t, expScale P (p ++ [t, power]) d = t := by
        intro t; simp [expScale, ha]
      rw [hsame] at hsd
      have hset : ∀ t : ℝ, [scale, power].set ((([scale, power] : List ℝ).length : ℤ) + -2).toNat t
          = [t, power] := fun t => rfl
      simp only [hset, expLd, expPd, allBut_two, fromEnd_two_one, hsame, Prob.wgt,
        if_neg (show ¬ (0 : ℤ) ≤ -2 by omega), if_true]
      have hx : P.residual p d / scale ≠ 0 := div_ne_zero hrd hsd.ne'
      have hi := hasDerivAt_id' scale
      have hdv := (hasDerivAt_const scale (P.residual p d)).fun_div hi hsd.ne'
      have hab := hasDerivAt_abs' hdv hx
      have h1 := hab.rpow_const (p := power) (Or.inl (abs_ne_zero.2 hx))
      have h2 := ((hasDerivAt_const scale power).fun_div (hi.const_mul 2) (by positivity)).log
        (by positivity)
      rw [key _ power hx]
      set A := |P.residual p d / scale| ^ (power - 1)
      rcases hW : P.hasW with _ | _
      · simp only [Bool.false_eq_true, if_false]
        refine (h1.fun_neg.fun_add (h2.sub_const _)).congr_deriv ?_
        field_simp
        ring
      · simp only [if_true]
        refine ((h1.fun_neg.fun_add (h2.sub_const _)).mul_const d.w).congr_deriv ?_
        field_simp
        ring

/-- Gradients to the parameters, the scale and the power. -/
theorem C27_exponential (P : Prob X) (p : List ℝ) (scale power : ℝ) (hlen : p.length = P.np)
    (hs : P.Smooth p) (ho : P.OffFold p) (hpw : 0 < power)
    (hsc : ∀ d ∈ P.data, 0 < expScale P (p ++ [scale, power]) d)
    (hr0 : ∀ d ∈ P.data, P.residual p d ≠ 0)
    (fitIndex : List ℤ) (hfit : ProperIndex P.np 2 fitIndex)
    (hacc : P.hasAccuracy = true → -2 ∉ fitIndex) :
    IsGradient (fun a => logLhood (expLd P a) P) (p ++ [scale, power]) fitIndex
      (partialLogL (expPd P (p ++ [scale, power])) P fitIndex) :=
  isGradient_of_terms P p [scale, power] hlen _ _ fitIndex hfit
    (exp_terms P p scale power hs ho hpw hsc hr0 _ hfit hacc)

/-! ## Likelihoods that can be zero: Poisson, Bernoulli, Uniform -/

/-- The function is finite around `v` and has there the derivative `d`. -/
def HasDerivAtOpt (F : ℝ → Option ℝ) (d v : ℝ) : Prop :=
  ∃ G : ℝ → ℝ, (∀ᶠ t in nhds v, F t = some (G t)) ∧ HasDerivAt G d v

/-- `IsGradient` for a function that may be minus infinity. -/
def IsGradientOpt (F : List ℝ → Option ℝ) (a : List ℝ) (fitIndex : List ℤ) (g : List ℝ) : Prop :=
  g.length = fitIndex.length ∧
  ∀ (j : ℕ) (k : ℤ) (v dv : ℝ), fitIndex[j]? = some k → a[place a.length k]? = some v →
    g[j]? = some dv → HasDerivAtOpt (fun t => F (a.set (place a.length k) t)) dv v

theorem hasDerivAtOpt_sum {D : Type*} (l : List D) (F : D → ℝ → Option ℝ) (G : D → ℝ) (x : ℝ)
    (h : ∀ d ∈ l, HasDerivAtOpt (F d) (G d) x) :
    HasDerivAtOpt (fun t => sumOpt (l.map fun d => F d t)) (l.map G).sum x := by
  induction l with
  | nil =>
    exact ⟨fun _ => 0, Filter.Eventually.of_forall fun t => rfl, by
      simpa using hasDerivAt_const x (0 : ℝ)⟩
  | cons d l ih =>
    obtain ⟨g, hg, hg'⟩ := h d (by simp)
    obtain ⟨G', hG, hG'⟩ := ih fun e he => h e (by simp [he])
    refine ⟨fun t => g t + G' t, ?_, ?_⟩
    · filter_upwards [hg, hG] with t h1 h2
      simp only [List.map_cons, h1, sumOpt, h2, Option.map_some]
    · simp only [List.map_cons, List.sum_cons]
      exact hg'.fun_add hG'

theorem isGradientOpt_of_terms (P : Prob X) (p hy : List ℝ) (hlen : p.length = P.np)
    (ld : List ℝ → Datum X → Option ℝ) (pd : ℤ → Datum X → ℝ) (fitIndex : List ℤ)
    (hfit : ProperIndex P.np hy.length fitIndex)
    (h1 : ∀ k ∈ fitIndex, 0 ≤ k → ∀ v, p[k.toNat]? = some v → ∀ d ∈ P.data,
      HasDerivAtOpt (fun t => ld (p.set k.toNat t ++ hy) d) (pd k d) v)
    (h2 : ∀ k ∈ fitIndex, k < 0 → ∀ v, hy[(hy.length + k).toNat]? = some v → ∀ d ∈ P.data,
      HasDerivAtOpt (fun t => ld (p ++ hy.set (hy.length + k).toNat t) d) (pd k d) v) :
    IsGradientOpt (fun a => logLhoodOpt (ld a) P) (p ++ hy) fitIndex (partialLogL pd P fitIndex) := by
  refine ⟨by simp [partialLogL], ?_⟩
  intro j k v dv hj hv hdv
  have hk : k ∈ fitIndex := List.mem_of_getElem? hj
  simp only [partialLogL, List.getElem?_map, hj, Option.map_some, Option.some.injEq] at hdv
  subst hdv
  simp only [logLhoodOpt]
  rcases hfit k hk with ⟨k0, k1⟩ | ⟨k1, k0⟩
  · rw [place_nonneg _ _ k0] at hv ⊢
    have hkl : k.toNat < p.length := by omega
    apply hasDerivAtOpt_sum P.data (fun d t => ld ((p ++ hy).set k.toNat t) d)
    intro d hd
    simp only [set_left p hy k.toNat _ hkl]
    rw [List.getElem?_append_left hkl] at hv
    exact h1 k hk k0 v hv d hd
  · have hpl : place (p ++ hy).length k = p.length + (hy.length + k).toNat := by
      simp only [place, List.length_append, if_neg (not_le.2 k0)]
      push_cast
      omega
    rw [hpl] at hv ⊢
    have hset : ∀ t : ℝ, (p ++ hy).set (p.length + (hy.length + k).toNat) t
        = p ++ hy.set (hy.length + k).toNat t := by
      intro t
      rw [List.set_append_right _ _ (by omega)]
      simp
    simp only [hset]
    rw [List.getElem?_append_right (by omega)] at hv
    simp only [Nat.add_sub_cancel_left] at hv
    apply hasDerivAtOpt_sum P.data (fun d t => ld (p ++ hy.set (hy.length + k).toNat t) d)
    intro d hd
    exact h2 k hk k0 v hv d hd

theorem hasDerivAt_f (P : Prob X) (p : List ℝ) (hs : P.Smooth p)
    (d : Datum X) (hd : d ∈ P.data) (k : ℕ) (v : ℝ) (hv : p[k]? = some v) :
    HasDerivAt (fun t => P.f d.x (p.set k t)) ((P.df d.x p).getD k 0) v := by
  obtain ⟨hl, h⟩ := hs d hd
  have hk : k < p.length := (List.getElem?_eq_some_iff.1 hv).1
  apply h k v _ hv
  rw [List.getD_eq_getElem?_getD, List.getElem?_eq_getElem (by omega)]
  rfl

/-- There are no hyperparameters; the model is positive at all data points. -/
theorem C27_poisson (lf : ℝ → ℝ) (P : Prob X) (p : List ℝ) (hlen : p.length = P.np) (hs : P.Smooth p)
    (hpos : ∀ d ∈ P.data, 0 < P.f d.x p) (fitIndex : List ℤ) (hfit : ProperIndex P.np 0 fitIndex) :
    IsGradientOpt (fun a => logLhoodOpt (poissonLd lf P a) P) p fitIndex
      (partialLogL (poissonPd P p) P fitIndex) := by
  have := isGradientOpt_of_terms P p [] hlen (poissonLd lf P) (poissonPd P p) fitIndex hfit ?_ ?_
  · simpa using this
  · intro k hk k0 v hpv d hd
    have hf := hasDerivAt_f P p hs d hd k.toNat v hpv
    have hpk := set_self p k.toNat v hpv
    have h0 : 0 < P.f d.x (p.set k.toNat v) := by rw [hpk]; exact hpos d hd
    refine ⟨fun t => d.y * log (P.f d.x (p.set k.toNat t)) - P.f d.x (p.set k.toNat t) - lf d.y,
      ?_, ?_⟩
    · filter_upwards [hf.continuousAt.eventually (lt_mem_nhds h0)] with t ht
      simp only [poissonLd, List.append_nil, if_neg (not_le.2 ht)]
    · refine ((((hf.log h0.ne').const_mul d.y).fun_sub hf).sub_const _).congr_deriv ?_
      simp only [poissonPd, Prob.dM, hpk]
      ring
  · intro k hk k0 v hpv
    simp at hpv

/-- A model with one output, between 0 and 1 at all data points. -/
theorem C27_bernoulli (P : Prob X) (p : List ℝ) (hlen : p.length = P.np) (hs : P.Smooth p)
    (hpos : ∀ d ∈ P.data, 0 < P.f d.x p ∧ P.f d.x p < 1) (fitIndex : List ℤ)
    (hfit : ProperIndex P.np 0 fitIndex) :
    IsGradientOpt (fun a => logLhoodOpt (bernoulliLd P a) P) p fitIndex
      (partialLogL (bernoulliPd P p) P fitIndex) := by
  have := isGradientOpt_of_terms P p [] hlen (bernoulliLd P) (bernoulliPd P p) fitIndex hfit ?_ ?_
  · simpa using this
  · intro k hk k0 v hpv d hd
    have hf := hasDerivAt_f P p hs d hd k.toNat v hpv
    have hpk := set_self p k.toNat v hpv
    obtain ⟨h0, h1⟩ := hpos d hd
    rw [← hpk] at h0 h1
    by_cases hy : d.y = 0
    · refine ⟨fun t => log (P.f d.x (p.set k.toNat t)), ?_, ?_⟩
      · filter_upwards [hf.continuousAt.eventually (lt_mem_nhds h0)] with t ht
        simp only [bernoulliLd, List.append_nil, if_pos hy, if_neg (not_le.2 ht)]
      · refine (hf.log h0.ne').congr_deriv ?_
        simp only [bernoulliPd, Prob.dM, if_pos hy, hpk]
        norm_num
        ring
    · refine ⟨fun t => log (1 - P.f d.x (p.set k.toNat t)), ?_, ?_⟩
      · filter_upwards [hf.continuousAt.eventually (gt_mem_nhds h1)] with t ht
        have : ¬ 1 - P.f d.x (p.set k.toNat t) ≤ 0 := by
          have : P.f d.x (p.set k.toNat t) < 1 := ht
          linarith
        simp only [bernoulliLd, List.append_nil, if_neg hy, if_neg this]
      · refine ((hf.const_sub 1).log (by linarith)).congr_deriv ?_
        simp only [bernoulliPd, Prob.dM, if_neg hy, hpk]
        rw [hpk] at h1
        have : 1 - P.f d.x p ≠ 0 := by linarith
        have : P.f d.x p - 1 ≠ 0 := by linarith
        norm_num
        field_simp
        ring
  · intro k hk k0 v hpv
    simp at hpv

/-- When all data are strictly within the bounds. -/
theorem C27_uniform (P : Prob X) (p : List ℝ) (scale : ℝ) (hlen : p.length = P.np) (hs : P.Smooth p)
    (hin : ∀ d ∈ P.data, |d.y - P.f d.x p| < scaleOf P (p ++ [scale]) d)
    (fitIndex : List ℤ) (hfit : ProperIndex P.np 1 fitIndex)
    (hacc : P.hasAccuracy = true → ∀ k ∈ fitIndex, 0 ≤ k) :
    IsGradientOpt (fun a => logLhoodOpt (uniformLd P a) P) (p ++ [scale]) fitIndex
      (partialLogL (uniformPd P (p ++ [scale])) P fitIndex) := by
  apply isGradientOpt_of_terms P p [scale] hlen _ _ fitIndex hfit
  · intro k hk k0 v hpv d hd
    have hf := hasDerivAt_f P p hs d hd k.toNat v hpv
    have hpk := set_self p k.toNat v hpv
    have hin' := hin d hd
    have hc : ContinuousAt (fun t => |d.y - P.f d.x (p.set k.toNat t)|) v :=
      (continuousAt_const.sub hf.continuousAt).abs
    refine ⟨fun t => if P.hasW then -log (2 * scaleOf P (p ++ [scale]) d) * d.w
      else -log (2 * scaleOf P (p ++ [scale]) d), ?_, ?_⟩
    · filter_upwards [hc.eventually (gt_mem_nhds (show |d.y - P.f d.x (p.set k.toNat v)|
        < scaleOf P (p ++ [scale]) d by rw [hpk]; exact hin'))] with t ht
      simp only [uniformLd, allBut_one, scaleOf_pos P p (p.set k.toNat t) scale d, if_pos ht]
    · simp only [uniformPd, if_pos k0]
      exact hasDerivAt_const _ _
  · intro k hk k0 v hpv d hd
    obtain rfl := neg_one P.np fitIndex hfit k hk k0
    obtain rfl : scale = v := by simpa using hpv
    have ha : P.hasAccuracy = false := by
      rcases h : P.hasAccuracy with _ | _
      · rfl
      · have := hacc h _ hk
        omega
    have hin' := hin d hd
    have hsd : 0 < scale := by
      have := lt_of_le_of_lt (abs_nonneg _) hin'
      simpa [scaleOf, ha] using this
    simp only [scaleOf, ha, Bool.false_eq_true, if_false, fromEnd_one] at hin'
    have hi := hasDerivAt_id' scale
    refine ⟨fun t => if P.hasW then -log (2 * t) * d.w else -log (2 * t), ?_, ?_⟩
    · filter_upwards [lt_mem_nhds hin'] with t ht
      simp only [uniformLd, List.length_singleton, Nat.cast_one, Int.reduceNeg, add_neg_cancel,
        Int.toNat_zero, List.set_cons_zero, fromEnd_one, allBut_one, scaleOf, ha,
        Bool.false_eq_true, if_false, if_pos ht]
    · simp only [uniformPd, if_neg (show ¬ (0 : ℤ) ≤ -1 by omega), Prob.wgt, fromEnd_one]
      have hl := ((hi.const_mul 2).log (by positivity)).fun_neg
      rcases hW : P.hasW with _ | _
      · simp only [Bool.false_eq_true, if_false]
        refine hl.congr_deriv ?_
        field_simp
      · simp only [if_true]
        refine (hl.mul_const d.w).congr_deriv ?_
        field_simp

/-! ## Mixed -/

/-- The indices `mixParts` gives to one of the distributions: of the model and its scale. -/
theorem mixLoop_spec (e1 e2 : Dist X) (P : Prob X) (allpars : List ℝ) (ks : List ℤ)
    (hks : ∀ k ∈ ks, 0 ≤ k) (hy r1 r2 : List ℤ) :
    mixLoop e1 e2 P allpars (ks ++ hy) (ks ++ r1) (ks ++ r2)
      = (mixLoop e1 e2 P allpars hy r1 r2).map ((ks.map fun k d =>
          mixFff e1 e2 P allpars d * (fromEnd allpars 1 * exp (e1.ld P (mixP1 e2 allpars) d)
              * e1.pd P (mixP1 e2 allpars) k d
            + (1 - fromEnd allpars 1) * exp (e2.ld P (mixP2 e1 e2 allpars) d)
              * e2.pd P (mixP2 e1 e2 allpars) k d)) ++ ·) := by
  induction ks with
  | nil => simp
  | cons k ks ih =>
    simp only [List.cons_append, mixLoop, if_pos (hks k (by simp)), List.map_cons]
    rw [ih fun k hk => hks k (by simp [hk]), Option.map_map]
    rfl

theorem mixP1_eq (e2 : Dist X) (h2 : e2.nh = 1) (p : List ℝ) (s1 s2 f : ℝ) :
    mixP1 e2 (p ++ [s1, s2, f]) = p ++ [s1] := by
  have e : p ++ [s1, s2, f] = (p ++ [s1]) ++ [s2, f] := by simp
  rw [mixP1, h2, e, allBut_two]

theorem mixP2_eq (e1 e2 : Dist X) (h1 : e1.nh = 1) (h2 : e2.nh = 1) (p : List ℝ) (s1 s2 f : ℝ) :
    mixP2 e1 e2 (p ++ [s1, s2, f]) = p ++ [s2] := by
  have e1' : p ++ [s1, s2, f] = (p ++ [s1, s2]) ++ [f] := by simp
  have e2' : p ++ [s1, s2] = (p ++ [s1]) ++ [s2] := by simp
  simp only [mixP2, h1, h2]
  have e3 : allBut (p ++ [s1, s2, f]) (1 + 1) = p ++ [s1] := by
    rw [show p ++ [s1, s2, f] = (p ++ [s1]) ++ [s2, f] by simp, allBut_two]
  rw [e3, allBut_one, e1', allBut_one, e2']
  simp

theorem fromEnd_three (p : List ℝ) (s1 s2 f : ℝ) : fromEnd (p ++ [s1, s2, f]) 1 = f := by
  simp [fromEnd]

theorem mixLd_eq (e1 e2 : Dist X) (h1 : e1.nh = 1) (h2 : e2.nh = 1) (P : Prob X) (p : List ℝ)
    (s1 s2 f : ℝ) (hf0 : 0 < f) (hf1 : f < 1) (d : Datum X) :
    mixLd e1 e2 P (p ++ [s1, s2, f]) d
      = log (f * exp (e1.ld P (p ++ [s1]) d) + (1 - f) * exp (e2.ld P (p ++ [s2]) d)) := by
  simp only [mixLd, fromEnd_three, if_neg (not_le.2 hf0), if_neg (not_le.2 hf1), mixP1_eq e2 h2,
    mixP2_eq e1 e2 h1 h2, logaddexp, exp_add, exp_log hf0, exp_log (sub_pos.2 hf1)]
  rw [mul_comm, mul_comm (exp (e2.ld P (p ++ [s2]) d))]

/-- Two distributions with one hyperparameter each, with good gradients of their own, and a fraction
strictly between 0 and 1. The parameters in `ks` are fitted, and the hyperparameters: scales of the
first (-3) and the second (-2) distribution, and the fraction (-1), which is the order of the fit list.
The likelihoods must not underflow. -/
theorem C27_mixed (e1 e2 : Dist X) (h1 : e1.nh = 1) (h2 : e2.nh = 1) (P : Prob X) (p : List ℝ)
    (s1 s2 f : ℝ) (hlen : p.length = P.np) (hf0 : 0 < f) (hf1 : f < 1) (ks : List ℤ)
    (hks : ∀ k ∈ ks, 0 ≤ k ∧ k < P.np)
    (hg1 : TermGradient P p [s1] (e1.ld P) (e1.pd P (p ++ [s1])) (ks ++ [-1]))
    (hg2 : TermGradient P p [s2] (e2.ld P) (e2.pd P (p ++ [s2])) (ks ++ [-1]))
    (hmin : ∀ d ∈ P.data, floatMin < f * exp (e1.ld P (p ++ [s1]) d)
      + (1 - f) * exp (e2.ld P (p ++ [s2]) d)) :
    ∃ g, mixPartialLogL e1 e2 P (p ++ [s1, s2, f]) (ks ++ [-3, -2, -1]) = some g ∧
      IsGradient (fun a => logLhood (mixLd e1 e2 P a) P) (p ++ [s1, s2, f]) (ks ++ [-3, -2, -1]) g := by
  set a := p ++ [s1, s2, f] with ha
  set pd : ℤ → Datum X → ℝ := fun k d =>
    if 0 ≤ k then mixFff e1 e2 P a d * (f * exp (e1.ld P (p ++ [s1]) d) * e1.pd P (p ++ [s1]) k d
      + (1 - f) * exp (e2.ld P (p ++ [s2]) d) * e2.pd P (p ++ [s2]) k d)
    else if k = -1 then (exp (e1.ld P (p ++ [s1]) d) - exp (e2.ld P (p ++ [s2]) d)) * mixFff e1 e2 P a d
    else if k = -2 then
      (1 - f) * exp (e2.ld P (p ++ [s2]) d) * mixFff e1 e2 P a d * e2.pd P (p ++ [s2]) (-1) d
    else f * exp (e1.ld P (p ++ [s1]) d) * mixFff e1 e2 P a d * e1.pd P (p ++ [s1]) (-1) d with hpd
  refine ⟨partialLogL pd P (ks ++ [-3, -2, -1]), ?_, ?_⟩
  · have hfilt : (ks ++ [-3, -2, -1]).filter (fun k => decide (0 ≤ k)) = ks := by
      rw [List.filter_append, List.filter_eq_self.2]
      · simp
      · intro k hk
        simpa using (hks k hk).1
    unfold mixPartialLogL mixParts
    simp only [hfilt]
    rw [if_pos (by simp), if_pos (by simp), mixLoop_spec e1 e2 P a ks (fun k hk => (hks k hk).1)]
    simp only [mixLoop, if_neg (show ¬ (0 : ℤ) ≤ -3 by omega), if_neg (show ¬ (0 : ℤ) ≤ -2 by omega),
      if_neg (show ¬ (0 : ℤ) ≤ -1 by omega), if_neg (show ¬ (-3 : ℤ) = -1 by omega),
      if_neg (show ¬ (-3 : ℤ) = -2 by omega), if_neg (show ¬ (-2 : ℤ) = -1 by omega), if_true,
      Option.map_some, Option.some.injEq, partialLogL, List.map_append, List.map_map]
    rw [ha, mixP1_eq e2 h2, mixP2_eq e1 e2 h1 h2, fromEnd_three, ← ha]
    congr 1
    · apply List.map_congr_left
      intro k hk
      simp only [Function.comp, hpd, if_pos (hks k hk).1]
  · have hF : ∀ d ∈ P.data, mixFff e1 e2 P a d = 1 / (f * exp (e1.ld P (p ++ [s1]) d)
        + (1 - f) * exp (e2.ld P (p ++ [s2]) d)) := by
      intro d hd
      simp only [mixFff, ha, fromEnd_three, mixP1_eq e2 h2, mixP2_eq e1 e2 h1 h2]
      rw [if_pos (hmin d hd)]
      norm_num
    have hpos : ∀ d ∈ P.data, 0 < f * exp (e1.ld P (p ++ [s1]) d)
        + (1 - f) * exp (e2.ld P (p ++ [s2]) d) := by
      intro d _
      have := exp_pos (e1.ld P (p ++ [s1]) d)
      have := exp_pos (e2.ld P (p ++ [s2]) d)
      have := sub_pos.2 hf1
      positivity
    apply isGradient_of_terms P p [s1, s2, f] hlen
    · intro k hk
      rcases List.mem_append.1 hk with hk | hk
      · exact Or.inl (hks k hk)
      · right
        simp at hk ⊢
        omega
    · constructor
      · intro k hk k0 v hpv d hd
        have hk' : k ∈ ks := by
          rcases List.mem_append.1 hk with hk | hk
          · exact hk
          · simp at hk
            omega
        have hpk := set_self p k.toNat v hpv
        have d1 := hg1.1 k (by simp [hk']) k0 v hpv d hd
        have d2 := hg2.1 k (by simp [hk']) k0 v hpv d hd
        simp only [mixLd_eq e1 e2 h1 h2 P _ s1 s2 f hf0 hf1]
        refine (((d1.exp.const_mul f).fun_add (d2.exp.const_mul (1 - f))).log ?_).congr_deriv ?_
        · rw [hpk]
          exact (hpos d hd).ne'
        · simp only [hpd, if_pos k0, hpk, hF d hd]
          ring
      · intro k hk k0 v hpv d hd
        have hk' : k = -3 ∨ k = -2 ∨ k = -1 := by
          rcases List.mem_append.1 hk with hk | hk
          · have := (hks k hk).1
            omega
          · simpa using hk
        rcases hk' with rfl | rfl | rfl
        · obtain rfl : s1 = v := by simpa using hpv
          have hset : ∀ t : ℝ, [s1, s2, f].set ((([s1, s2, f] : List ℝ).length : ℤ) + -3).toNat t
              = [t, s2, f] := fun t => rfl
          simp only [hset, mixLd_eq e1 e2 h1 h2 P _ _ _ f hf0 hf1]
          have d1 := hg1.2 (-1) (by simp) (by omega) s1 (by simp) d hd
          simp only [List.length_singleton, Nat.cast_one, Int.reduceNeg, add_neg_cancel,
            Int.toNat_zero, List.set_cons_zero] at d1
          refine (((d1.exp.const_mul f).add_const _).log (hpos d hd).ne').congr_deriv ?_
          simp only [hpd, hF d hd, if_neg (show ¬ (0 : ℤ) ≤ -3 by omega),
            if_neg (show ¬ (-3 : ℤ) = -1 by omega), if_neg (show ¬ (-3 : ℤ) = -2 by omega)]
          ring
        · obtain rfl : s2 = v := by simpa using hpv
          have hset : ∀ t : ℝ, [s1, s2, f].set ((([s1, s2, f] : List ℝ).length : ℤ) + -2).toNat t
              = [s1, t, f] := fun t => rfl
          simp only [hset, mixLd_eq e1 e2 h1 h2 P _ _ _ f hf0 hf1]
          have d2 := hg2.2 (-1) (by simp) (by omega) s2 (by simp) d hd
          simp only [List.length_singleton, Nat.cast_one, Int.reduceNeg, add_neg_cancel,
            Int.toNat_zero, List.set_cons_zero] at d2
          refine (((d2.exp.const_mul (1 - f)).const_add _).log (hpos d hd).ne').congr_deriv ?_
          simp only [hpd, hF d hd, if_neg (show ¬ (0 : ℤ) ≤ -2 by omega),
            if_neg (show ¬ (-2 : ℤ) = -1 by omega), if_true]
          ring
        · obtain rfl : f = v := by simpa using hpv
          have hset : ∀ t : ℝ, [s1, s2, f].set ((([s1, s2, f] : List ℝ).length : ℤ) + -1).toNat t
              = [s1, s2, t] := fun t => rfl
          simp only [hset]
          have hi := hasDerivAt_id' f
          have hlog : HasDerivAt (fun t => log (t * exp (e1.ld P (p ++ [s1]) d)
              + (1 - t) * exp (e2.ld P (p ++ [s2]) d))) (pd (-1) d) f := by
            refine (((hi.mul_const _).fun_add ((hi.const_sub 1).mul_const _)).log
              (hpos d hd).ne').congr_deriv ?_
            simp only [hpd, hF d hd, if_neg (show ¬ (0 : ℤ) ≤ -1 by omega), if_true]
            ring
          refine hlog.congr_of_eventuallyEq ?_
          filter_upwards [lt_mem_nhds hf0, gt_mem_nhds hf1] with t t0 t1
          exact mixLd_eq e1 e2 h1 h2 P p s1 s2 t t0 t1 d

/-- A mixture of Gauss and Laplace, with free scales. -/
theorem C27_mixed_gauss_laplace (P : Prob X) (p : List ℝ) (s1 s2 f : ℝ) (hlen : p.length = P.np)
    (hf0 : 0 < f) (hf1 : f < 1) (ks : List ℤ) (hks : ∀ k ∈ ks, 0 ≤ k ∧ k < P.np)
    (hs : P.Smooth p) (ho : P.OffFold p)
    (hw : P.hasW = true → ∀ d ∈ P.data, 0 ≤ d.w) (hacc : P.hasAccuracy = false)
    (hs1 : s1 ≠ 0) (hs2 : s2 ≠ 0) (hr0 : ∀ d ∈ P.data, P.residual p d ≠ 0)
    (hmin : ∀ d ∈ P.data, floatMin < f * exp (gaussLd P (p ++ [s1]) d)
      + (1 - f) * exp (laplaceLd P (p ++ [s2]) d)) :
    ∃ g, mixPartialLogL gaussDist laplaceDist P (p ++ [s1, s2, f]) (ks ++ [-3, -2, -1]) = some g ∧
      IsGradient (fun a => logLhood (mixLd gaussDist laplaceDist P a) P) (p ++ [s1, s2, f])
        (ks ++ [-3, -2, -1]) g := by
  have hfit : ProperIndex P.np 1 (ks ++ [-1]) := by
    intro k hk
    rcases List.mem_append.1 hk with hk | hk
    · exact Or.inl (hks k hk)
    · right
      simp at hk ⊢
      omega
  refine C27_mixed gaussDist laplaceDist rfl rfl P p s1 s2 f hlen hf0 hf1 ks hks ?_ ?_ hmin
  · apply gauss_terms P p s1 hlen hs ho _ _ hfit
    intro d _
    have := mul_self_pos.2 hs1
    have := mul_self_nonneg (P.accuracy d)
    unfold Prob.varyy
    linarith
  · apply laplace_terms P p s2 hlen hs ho hw _ hr0 _ hfit
    · intro h
      rw [hacc] at h
      exact absurd h (by simp)
    · intro d _
      simpa [scaleOf, hacc] using hs2

/-! ## A concrete case, and where it fails -/

/-- Data 3, 1 at x = 1, 2 and the model `p0 x`. -/
def demo : Prob ℝ where
  data := [⟨1, 3, 2, 1⟩, ⟨2, 1, 1, 1⟩]
  np := 1
  f := fun x p => p.getD 0 0 * x
  df := fun x _ => [x]
  hasW := true
  acc := .none
  cyclic := none

theorem demo_smooth (a : ℝ) : demo.Smooth [a] := by
  intro d _
  refine ⟨rfl, ?_⟩
  intro k v g hv hg
  have hk : k = 0 := by
    have := (List.getElem?_eq_some_iff.1 hv).1
    simp at this
    omega
  subst hk
  simp only [demo, List.getElem?_cons_zero, Option.some.injEq] at hg
  subst hg
  simpa [demo] using (hasDerivAt_id' v).mul_const d.x

theorem demo_off (a : ℝ) : demo.OffFold [a] := by
  intro d _ period h
  simp [demo] at h

example : IsGradient (fun a => logLhood (gaussLd demo a) demo) ([1] ++ [0.5]) [0, -1]
    (partialLogL (gaussPd demo ([1] ++ [0.5])) demo [0, -1]) := by
  apply C27_gauss demo [1] 0.5 rfl (demo_smooth 1) (demo_off 1)
  · intro d _
    simp [Prob.varyy, Prob.accuracy, demo]
    norm_num
  · intro k hk
    simp at hk
    rcases hk with rfl | rfl
    · left; simp [demo]
    · right; simp

example : IsGradient (fun a => logLhood (laplaceLd demo a) demo) ([1] ++ [0.5]) [0, -1]
    (partialLogL (laplacePd demo ([1] ++ [0.5])) demo [0, -1]) := by
  apply C27_laplace demo [1] 0.5 rfl (demo_smooth 1) (demo_off 1)
  · intro _ d hd
    simp [demo] at hd
    rcases hd with rfl | rfl <;> norm_num
  · intro d _
    simp [scaleOf, Prob.hasAccuracy, demo, fromEnd]
    norm_num
  · intro d hd
    simp [demo] at hd
    rcases hd with rfl | rfl <;> simp [Prob.residual, Prob.fold, demo] <;> norm_num
  · intro k hk
    simp at hk
    rcases hk with rfl | rfl
    · left; simp [demo]
    · right; simp
  · simp [Prob.hasAccuracy, demo]

example : IsGradientOpt (fun a => logLhoodOpt (poissonLd (fun _ => 0) demo a) demo) [2] [0]
    (partialLogL (poissonPd demo [2]) demo [0]) := by
  apply C27_poisson _ demo [2] rfl (demo_smooth 2)
  · intro d hd
    simp [demo] at hd
    rcases hd with rfl | rfl <;> simp [demo]
  · intro k hk
    simp at hk
    subst hk
    left
    simp [demo]

/-- One datum with accuracy 1. -/
def accDemo : Prob ℝ := { demo with data := [⟨1, 3, 1, 1⟩], hasW := false, acc := .scalar 1 }

/-- With accuracies the likelihood of Laplace does not depend on the scale, but a gradient is given all
the same. -/
theorem C27_counterexample_accuracy :
    ¬ IsGradient (fun a => logLhood (laplaceLd accDemo a) accDemo) ([0] ++ [2]) [-1]
      (partialLogL (laplacePd accDemo ([0] ++ [2])) accDemo [-1]) := by
  intro h
  have h1 := h.2 0 (-1) 2 2 (by simp) (by simp [place])
    (by simp [partialLogL, laplacePd, accDemo, demo, Prob.residual, Prob.fold, allBut, scaleOf,
      Prob.hasAccuracy, Prob.accuracy, Prob.wgt, copysign]; norm_num)
  have h2 : HasDerivAt (fun t => logLhood (laplaceLd accDemo (([0] ++ [2] : List ℝ).set
      (place ([0] ++ [2] : List ℝ).length (-1)) t)) accDemo) 0 2 := by
    have : (fun t : ℝ => logLhood (laplaceLd accDemo (([0] ++ [2] : List ℝ).set
      (place ([0] ++ [2] : List ℝ).length (-1)) t)) accDemo) = fun _ => -3 - log 2 := by
      funext t
      simp [logLhood, laplaceLd, accDemo, demo, Prob.residual, Prob.fold, scaleOf,
        Prob.hasAccuracy, Prob.accuracy, place]
    rw [this]
    exact hasDerivAt_const _ _
  have := h1.unique h2
  norm_num at this

end BF.ErrDis
