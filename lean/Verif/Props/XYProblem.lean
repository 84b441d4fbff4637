import Verif.XYProblem
import Verif.Props.ErrGrad
import Mathlib.LinearAlgebra.Matrix.NonsingularInverse
import Mathlib.LinearAlgebra.Matrix.Notation
import Mathlib.LinearAlgebra.Matrix.PosDef
import Mathlib.Analysis.Matrix.PosDef
import Mathlib.Data.Real.StarOrdered
import Mathlib.Analysis.SpecialFunctions.Gaussian.GaussianIntegral

/-!
# C66-C69: errors in x and y
-/

namespace BF.XY

open Real Finset ErrDis

/-! ## Specification -/

/-- The covariance matrix of the errors in y and x of a data point, with the noise `s` added. -/
def covariance (v : Vars) (s : ℝ) : Matrix (Fin 2) (Fin 2) ℝ :=
  !![v.yy + s ^ 2, v.xy; v.xy, v.xx + s ^ 2]

/-- The determinant that is kept belongs to the variances. -/
def Vars.Proper (v : Vars) : Prop := v.det = v.yy * v.xx - v.xy ^ 2

/-- At the targets `u` the model can be differentiated, to its parameters and to the position. -/
def Smooth (P : Prob) (p u : List ℝ) : Prop :=
  ∀ i v, u[i]? = some v → i < P.n → (P.df v p).length = p.length ∧
    HasDerivAt (fun t => P.f t p) (P.dx v p) v ∧
    ∀ (k : ℕ) (a g : ℝ), p[k]? = some a → (P.df v p)[k]? = some g →
      HasDerivAt (fun t => P.f v (p.set k t)) g a

/-! ## The log likelihood of one data point -/

/-- The log likelihood of data point `i` as function of parameters, target and noise scale. -/
noncomputable def core (P : Prob) (i : ℕ) (p : List ℝ) (u s : ℝ) : ℝ :=
  let v := P.var i
  let D := v.det + s * s * (v.xx + v.yy + s * s)
  let X := P.xdata i - u
  let Y := P.ydata i - P.f u p;
  -0.5 * (P.weight i * (log (2 * π) + log D
    + (X * X * (v.yy + s * s) + Y * Y * (v.xx + s * s) - 2 * (X * Y * v.xy)) / D))

theorem take_pu (P : Prob) (p u : List ℝ) (s : ℝ) (hp : p.length = P.np) (hu : u.length = P.n) :
    (p ++ u ++ [s]).take P.npars = p ++ u := by
  rw [List.take_left' (by simp [Prob.npars, hp, hu])]

theorem getD_pu (P : Prob) (p u : List ℝ) (s : ℝ) (hp : p.length = P.np) (hu : u.length = P.n) :
    (p ++ u ++ [s]).getD P.npars 0 = s := by
  have : P.npars = (p ++ u).length := by simp [Prob.npars, hp, hu]
  rw [this]
  simp [List.getD_eq_getElem?_getD]

theorem target_pu (P : Prob) (p u : List ℝ) (hp : p.length = P.np) (i : ℕ) :
    P.target (p ++ u) i = u.getD i 0 := by
  simp [Prob.target, ← hp]

theorem pars_pu (P : Prob) (p u : List ℝ) (hp : p.length = P.np) : P.pars (p ++ u) = p := by
  simp [Prob.pars, ← hp]

theorem fromEnd_pu (p u : List ℝ) (s : ℝ) : fromEnd (p ++ u ++ [s]) 1 = s := fromEnd_one _ _

theorem logLdata_eq (P : Prob) (p u : List ℝ) (s : ℝ) (hp : p.length = P.np) (hu : u.length = P.n)
    (i : ℕ) : logLdata P (p ++ u ++ [s]) i = core P i p (u.getD i 0) s := by
  simp only [logLdata, core, Prob.weightedResSq, fromEnd_pu, take_pu P p u s hp hu,
    getD_pu P p u s hp hu, Prob.yres, Prob.xres, Prob.result, target_pu P p u hp, pars_pu P p u hp,
    updateDeterminant, Prob.weight]
  have : (P.var i).det + s * s * ((P.var i).yy + (P.var i).xx + s * s)
    = (P.var i).det + s * s * ((P.var i).xx + (P.var i).yy + s * s) := by ring
  rw [this]
  cases P.weights with
  | none => simp only []; ring
  | some w => simp only []; ring

theorem logLhood_eq (P : Prob) (p u : List ℝ) (s : ℝ) (hp : p.length = P.np) (hu : u.length = P.n) :
    logLhood P (p ++ u ++ [s]) = ∑ i ∈ range P.n, core P i p (u.getD i 0) s :=
  Finset.sum_congr rfl fun i _ => logLdata_eq P p u s hp hu i

/-- The derivative of the residuals in the log likelihood. -/
theorem core_yx (a b c D X Y Xd Yd w L v : ℝ) (x y : ℝ → ℝ) (hx : HasDerivAt x Xd v)
    (hy : HasDerivAt y Yd v) (hxv : x v = X) (hyv : y v = Y) :
    HasDerivAt (fun t => -0.5 * (w * (L + (x t * x t * a + y t * y t * b - 2 * (x t * y t * c)) / D)))
      (-(w * ((X * a - Y * c) / D * Xd + (Y * b - X * c) / D * Yd))) v := by
  refine ((((((((hx.fun_mul hx).mul_const a).fun_add ((hy.fun_mul hy).mul_const b)).fun_sub
    (((hx.fun_mul hy).mul_const c).const_mul 2)).div_const D).const_add L).const_mul w).const_mul
    (-0.5)).congr_deriv ?_
  rw [hxv, hyv]
  ring

theorem core_scale (P : Prob) (i : ℕ) (p : List ℝ) (u s : ℝ)
    (hD : (P.var i).det + s * s * ((P.var i).xx + (P.var i).yy + s * s) ≠ 0) :
    HasDerivAt (fun t => core P i p u t)
      (-s / updateDeterminant P s i * (((P.var i).xx + (P.var i).yy + 2 * s * s)
        * (P.weight i - P.weight i * (((P.xdata i - u) * (P.xdata i - u) * ((P.var i).yy + s * s)
            + (P.ydata i - P.f u p) * (P.ydata i - P.f u p) * ((P.var i).xx + s * s)
            - 2 * ((P.xdata i - u) * (P.ydata i - P.f u p) * (P.var i).xy))
            / updateDeterminant P s i))
        + P.weight i * ((P.xdata i - u) * (P.xdata i - u)
            + (P.ydata i - P.f u p) * (P.ydata i - P.f u p)))) s := by
  simp only [core, updateDeterminant]
  have hq : HasDerivAt (fun t : ℝ => t * t) (1 * s + s * 1) s :=
    (hasDerivAt_id' s).fun_mul (hasDerivAt_id' s)
  have hd : HasDerivAt
      (fun t : ℝ => (P.var i).det + t * t * ((P.var i).xx + (P.var i).yy + t * t))
      ((1 * s + s * 1) * ((P.var i).xx + (P.var i).yy + s * s) + s * s * (1 * s + s * 1)) s :=
    (hq.fun_mul (hq.const_add _)).const_add _
  have hN := (((hq.const_add (P.var i).yy).const_mul ((P.xdata i - u) * (P.xdata i - u))).fun_add
    ((hq.const_add (P.var i).xx).const_mul
      ((P.ydata i - P.f u p) * (P.ydata i - P.f u p)))).sub_const
    (2 * ((P.xdata i - u) * (P.ydata i - P.f u p) * (P.var i).xy))
  refine ((((hd.log hD).const_add (log (2 * π))).fun_add (hN.fun_div hd hD)).const_mul
    (P.weight i)).const_mul (-0.5) |>.congr_deriv ?_
  generalize (P.var i).det + s * s * ((P.var i).xx + (P.var i).yy + s * s) = D at hD ⊢
  generalize P.xdata i - u = X
  generalize P.ydata i - P.f u p = Y
  field_simp
  ring

/-! ## C66: the gradient -/

theorem getElem?_getD' (l : List ℝ) (k : ℕ) (h : k < l.length) : l[k]? = some (l.getD k 0) := by
  rw [List.getD_eq_getElem?_getD, List.getElem?_eq_getElem h]
  rfl

theorem sum_two (n : ℕ) (g h : ℕ → ℝ) :
    ∑ r ∈ range (2 * n), (if r < n then g r else h (r - n)) = ∑ i ∈ range n, (g i + h i) := by
  rw [two_mul, Finset.sum_range_add, Finset.sum_add_distrib]
  congr 1
  · exact Finset.sum_congr rfl fun i hi => if_pos (Finset.mem_range.1 hi)
  · refine Finset.sum_congr rfl fun i _ => ?_
    rw [if_neg (by omega), Nat.add_sub_cancel_left]

/-- The sum over both halves of the residuals. -/
theorem partialAt_eq (P : Prob) (a : List ℝ) (k : ℕ) :
    partialAt P a k = ∑ i ∈ range P.n,
      ((P.weightedResSq a i).yr * (if k < P.np
          then (P.df (P.target (a.take P.npars) i) (P.pars (a.take P.npars))).getD k 0
          else P.dx (P.target (a.take P.npars) (k - P.np)) (P.pars (a.take P.npars))
            * ident i (k - P.np))
        + (P.weightedResSq a i).xr * (if k < P.np then 0 else ident i (k - P.np))) := by
  rw [partialAt, if_pos (by omega), ← sum_two]
  refine Finset.sum_congr rfl fun r _ => ?_
  simp only [resAt, Prob.part, Int.toNat_natCast]
  by_cases h : r < P.n <;> simp [h]

theorem res_eq (P : Prob) (p u : List ℝ) (s : ℝ) (hp : p.length = P.np) (hu : u.length = P.n) (i : ℕ)
    (X Y D : ℝ) (hX : X = P.xdata i - u.getD i 0) (hY : Y = P.ydata i - P.f (u.getD i 0) p)
    (hD : D = (P.var i).det + s * s * ((P.var i).xx + (P.var i).yy + s * s)) :
    (P.weightedResSq (p ++ u ++ [s]) i).yr
        = P.weight i * ((Y * ((P.var i).xx + s * s) - X * (P.var i).xy) / D) ∧
    (P.weightedResSq (p ++ u ++ [s]) i).xr
        = P.weight i * ((X * ((P.var i).yy + s * s) - Y * (P.var i).xy) / D) ∧
    (P.weightedResSq (p ++ u ++ [s]) i).res2
        = P.weight i * ((X * X * ((P.var i).yy + s * s) + Y * Y * ((P.var i).xx + s * s)
            - 2 * (X * Y * (P.var i).xy)) / D) ∧
    (P.weightedResSq (p ++ u ++ [s]) i).xyr2 = P.weight i * (X * X + Y * Y) := by
  have h : (P.var i).det + s * s * ((P.var i).yy + (P.var i).xx + s * s) = D := by rw [hD]; ring
  simp only [Prob.weightedResSq, take_pu P p u s hp hu,
    getD_pu P p u s hp hu, Prob.yres, Prob.xres, Prob.result, target_pu P p u hp, pars_pu P p u hp,
    Prob.weight, h, ← hX, ← hY]
  cases P.weights with
  | none => refine ⟨?_, ?_, ?_, ?_⟩ <;> simp only [] <;> ring
  | some w => refine ⟨?_, ?_, ?_, ?_⟩ <;> simp only [] <;> ring

/-- The gradient of the log likelihood, to the parameters of the model, to the targets and to the noise
scale, with and without weights. -/
theorem C66_gradient (P : Prob) (p u : List ℝ) (s : ℝ) (hp : p.length = P.np) (hu : u.length = P.n)
    (hs : Smooth P p u) (hdet : ∀ i < P.n, (covariance (P.var i) s).det ≠ 0)
    (hv : ∀ i < P.n, (P.var i).Proper) (fitIndex : List ℤ)
    (hfit : ProperIndex (P.np + P.n) 1 fitIndex) :
    IsGradient (logLhood P) (p ++ u ++ [s]) fitIndex (partialLogL P (p ++ u ++ [s]) fitIndex) := by
  have hD : ∀ i < P.n, (P.var i).det + s * s * ((P.var i).xx + (P.var i).yy + s * s) ≠ 0 := by
    intro i hi
    have h1 := hdet i hi
    rw [covariance, Matrix.det_fin_two_of] at h1
    have h2 : (P.var i).det = _ := hv i hi
    rw [h2]
    convert h1 using 1
    ring
  refine ⟨by simp [partialLogL], ?_⟩
  intro j k v dv hj hkv hdv
  have hk : k ∈ fitIndex := List.mem_of_getElem? hj
  simp only [partialLogL, List.getElem?_map, hj, Option.map_some, Option.some.injEq] at hdv
  subst hdv
  have hget : ∀ i < P.n, u[i]? = some (u.getD i 0) :=
    fun i hi => getElem?_getD' _ _ (by omega)
  rcases hfit k hk with ⟨k0, k1⟩ | ⟨k1, k0⟩
  · obtain ⟨k, rfl⟩ := Int.eq_ofNat_of_zero_le k0
    rw [place_nonneg _ _ k0] at hkv ⊢
    simp only [Int.toNat_natCast] at hkv ⊢
    rw [partialAt_eq]
    by_cases hkp : k < P.np
    · have hset : ∀ t : ℝ, (p ++ u ++ [s]).set k t = p.set k t ++ u ++ [s] := by
        intro t
        rw [List.append_assoc, List.set_append_left _ _ (by omega), List.append_assoc]
      simp only [hset, fun t => logLhood_eq P (p.set k t) u s (by simp [hp]) hu]
      rw [List.append_assoc, List.getElem?_append_left (by omega)] at hkv
      refine HasDerivAt.fun_sum fun i hi => ?_
      have hin := Finset.mem_range.1 hi
      obtain ⟨hl, -, hdf⟩ := hs i _ (hget i hin) hin
      have hg : (P.df (u.getD i 0) p)[k]? = some ((P.df (u.getD i 0) p).getD k 0) :=
        getElem?_getD' _ _ (by omega)
      have hf := hdf k v _ hkv hg
      have hpk := set_self p k v hkv
      have := core_yx ((P.var i).yy + s * s) ((P.var i).xx + s * s) (P.var i).xy
        ((P.var i).det + s * s * ((P.var i).xx + (P.var i).yy + s * s))
        (P.xdata i - u.getD i 0) (P.ydata i - P.f (u.getD i 0) p) 0
        (-((P.df (u.getD i 0) p).getD k 0)) (P.weight i) (log (2 * π) + log
          ((P.var i).det + s * s * ((P.var i).xx + (P.var i).yy + s * s))) v
        (fun _ => P.xdata i - u.getD i 0) (fun t => P.ydata i - P.f (u.getD i 0) (p.set k t))
        (hasDerivAt_const v _) (hf.const_sub _) rfl (by rw [hpk])
      obtain ⟨e1, -, -, -⟩ := res_eq P p u s hp hu i _ _ _ rfl rfl rfl
      refine this.congr_deriv ?_
      rw [e1, take_pu P p u s hp hu, target_pu P p u hp, pars_pu P p u hp, if_pos hkp, if_pos hkp]
      ring
    · obtain ⟨m, rfl⟩ : ∃ m, k = P.np + m := ⟨k - P.np, by omega⟩
      have hm : m < P.n := by omega
      have hset : ∀ t : ℝ, (p ++ u ++ [s]).set (P.np + m) t = p ++ u.set m t ++ [s] := by
        intro t
        rw [List.append_assoc, List.set_append_right _ _ (by omega), hp, Nat.add_sub_cancel_left,
          List.set_append_left _ _ (by omega), List.append_assoc]
      simp only [hset, fun t => logLhood_eq P p (u.set m t) s hp (by simp [hu])]
      have hv' : v = u.getD m 0 := by
        rw [List.append_assoc, List.getElem?_append_right (by omega), hp, Nat.add_sub_cancel_left,
          List.getElem?_append_left (by omega), hget m hm] at hkv
        exact (Option.some.inj hkv).symm
      refine HasDerivAt.fun_sum fun i hi => ?_
      have hin := Finset.mem_range.1 hi
      rw [if_neg hkp, if_neg hkp, Nat.add_sub_cancel_left, take_pu P p u s hp hu, target_pu P p u hp,
        pars_pu P p u hp]
      by_cases him : i = m
      · subst him
        obtain ⟨-, hdx, -⟩ := hs i _ (hget i hin) hin
        rw [← hv'] at hdx
        have hgt : ∀ t : ℝ, (u.set i t).getD i 0 = t := by
          intro t
          simp [List.getD_eq_getElem?_getD, hu, hin]
        simp only [hgt]
        have := core_yx ((P.var i).yy + s * s) ((P.var i).xx + s * s) (P.var i).xy
          ((P.var i).det + s * s * ((P.var i).xx + (P.var i).yy + s * s))
          (P.xdata i - v) (P.ydata i - P.f v p) (-1) (-(P.dx v p)) (P.weight i) (log (2 * π) + log
            ((P.var i).det + s * s * ((P.var i).xx + (P.var i).yy + s * s))) v
          (fun t => P.xdata i - t) (fun t => P.ydata i - P.f t p)
          ((hasDerivAt_id' v).const_sub _) (hdx.const_sub _) rfl rfl
        obtain ⟨e1, e2, -, -⟩ := res_eq P p u s hp hu i _ _ _ rfl rfl rfl
        refine this.congr_deriv ?_
        rw [e1, e2, ident, if_pos rfl, ← hv']
        ring
      · have hgt : ∀ t : ℝ, (u.set m t).getD i 0 = u.getD i 0 := by
          intro t
          simp [List.getD_eq_getElem?_getD, List.getElem?_set_ne (Ne.symm him)]
        simp only [hgt]
        refine (hasDerivAt_const v _).congr_deriv ?_
        rw [ident, if_neg him]
        ring
  · obtain rfl := neg_one (P.np + P.n) fitIndex hfit k hk k0
    have hpl : place (p ++ u ++ [s]).length (-1) = (p ++ u).length := by
      simp [place]
      omega
    rw [hpl] at hkv ⊢
    have hset : ∀ t : ℝ, (p ++ u ++ [s]).set (p ++ u).length t = p ++ u ++ [t] := by
      intro t
      rw [List.set_append_right _ _ le_rfl]
      simp
    simp only [hset, fun t => logLhood_eq P p u t hp hu]
    obtain rfl : s = v := by simpa using hkv
    rw [partialAt, if_neg (by omega)]
    refine HasDerivAt.fun_sum fun i hi => ?_
    have hin := Finset.mem_range.1 hi
    obtain ⟨-, -, e3, e4⟩ := res_eq P p u s hp hu i _ _ _ rfl rfl rfl
    have := core_scale P i p (u.getD i 0) s (hD i hin)
    rw [fromEnd_pu, e3, e4]
    exact this

/-- The squared residual is the distance in the metric of the covariance matrix: the residuals in y and
x times the inverse of the covariance times the residuals, times the weight. -/
theorem C66_distance (P : Prob) (p u : List ℝ) (s : ℝ) (hp : p.length = P.np) (hu : u.length = P.n)
    (i : ℕ) (hdet : (covariance (P.var i) s).det ≠ 0) (hv : (P.var i).Proper) :
    (P.weightedResSq (p ++ u ++ [s]) i).res2
      = P.weight i * (![P.ydata i - P.f (u.getD i 0) p, P.xdata i - u.getD i 0] ⬝ᵥ
          (covariance (P.var i) s)⁻¹.mulVec
            ![P.ydata i - P.f (u.getD i 0) p, P.xdata i - u.getD i 0]) := by
  obtain ⟨-, -, e3, -⟩ := res_eq P p u s hp hu i _ _ _ rfl rfl rfl
  rw [e3]
  have hD : (P.var i).det + s * s * ((P.var i).xx + (P.var i).yy + s * s)
      = (covariance (P.var i) s).det := by
    rw [covariance, Matrix.det_fin_two_of]
    have h2 : (P.var i).det = _ := hv
    rw [h2]
    ring
  rw [hD, Matrix.inv_def, Ring.inverse_eq_inv']
  generalize (covariance (P.var i) s).det = D at hdet ⊢
  simp only [covariance, Matrix.adjugate_fin_two_of, Matrix.smul_mulVec, dotProduct_smul,
    Matrix.cons_mulVec, Matrix.cons_dotProduct, Matrix.vec2_dotProduct, smul_eq_mul,
    Matrix.cons_val_zero, Matrix.cons_val_one, Matrix.mulVec, Matrix.smul_apply, Matrix.of_apply, dotProduct,
    Fin.sum_univ_two, Matrix.cons_val', Matrix.cons_val_fin_one]
  field_simp
  ring

/-- The determinant in the log likelihood is the one of the covariance matrix: the log likelihood of a
data point is minus half the (weighted) sum of the logarithm of 2π, the logarithm of the determinant and
the distance. -/
theorem C66_likelihood (P : Prob) (p u : List ℝ) (s : ℝ) (hp : p.length = P.np) (hu : u.length = P.n)
    (i : ℕ) (hdet : (covariance (P.var i) s).det ≠ 0) (hv : (P.var i).Proper) :
    logLdata P (p ++ u ++ [s]) i = -(1 / 2) * (P.weight i * (log (2 * π)
      + log (covariance (P.var i) s).det
      + (![P.ydata i - P.f (u.getD i 0) p, P.xdata i - u.getD i 0] ⬝ᵥ
          (covariance (P.var i) s)⁻¹.mulVec
            ![P.ydata i - P.f (u.getD i 0) p, P.xdata i - u.getD i 0]))) := by
  have h := C66_distance P p u s hp hu i hdet hv
  have hD : updateDeterminant P s i = (covariance (P.var i) s).det := by
    rw [covariance, Matrix.det_fin_two_of, updateDeterminant]
    have h2 : (P.var i).det = _ := hv
    rw [h2]
    ring
  simp only [logLdata, fromEnd_pu, h, hD, Prob.weight]
  cases P.weights with
  | none => simp only []; ring
  | some w => simp only []; ring

/-! A straight line through two points with correlated errors and weights. -/

/-- Two data points, a line with 2 parameters. -/
noncomputable def line : Prob where
  n := 2
  xdata := fun i => i
  ydata := fun i => 3 * i + 1
  weights := some fun i => i + 1
  var := fun _ => ⟨4, 1, 1, 3⟩
  np := 2
  f := fun x p => p.getD 0 0 + p.getD 1 0 * x
  df := fun x _ => [1, x]
  dx := fun _ p => p.getD 1 0
  modelD2U := fun d _ => d
  modelU2D := fun u _ => u
  priorD2U := fun d => d + 1 / 2
  priorU2D := fun u => u - 1 / 2

example : Smooth line [1, 2] [0.1, 0.9] ∧ (∀ i < line.n, (line.var i).Proper) ∧
    (∀ i < line.n, (covariance (line.var i) 0.5).det ≠ 0) ∧
    ProperIndex (line.np + line.n) 1 [0, 1, 2, 3, -1] := by
  refine ⟨?_, ?_, ?_, ?_⟩
  · intro i v _ _
    refine ⟨rfl, ?_, ?_⟩
    · have h := ((hasDerivAt_id' v).const_mul (2 : ℝ)).const_add 1
      exact h.congr_deriv (by simp [line])
    · intro k a g ha hg
      match k with
      | 0 =>
        obtain rfl : (1 : ℝ) = g := by simpa [line] using hg
        exact (hasDerivAt_id' a).add_const ((2 : ℝ) * v)
      | 1 =>
        obtain rfl : v = g := by simpa [line] using hg
        have h := ((hasDerivAt_id' a).mul_const v).const_add (1 : ℝ)
        exact h.congr_deriv (by simp)
      | k + 2 => simp at ha
  · intro i _
    norm_num [line, Vars.Proper]
  · intro i _
    norm_num [line, covariance, Matrix.det_fin_two_of]
  · intro k hk
    simp [line] at hk ⊢
    omega

/-! ## C67: from accuracies to variances -/

/-- The variances and the covariance that belong to an array of accuracies, for data point `i`. -/
def Arr.wanted (i : ℕ) : Arr → ℝ × ℝ × ℝ
  | .zero a => (a ^ 2, a ^ 2, 0)
  | .one y x c => (y ^ 2, x ^ 2, c.getD 0 * y * x)
  | .two y x c => (y i ^ 2, x i ^ 2, ((c.map fun c => c i).getD 0) * y i * x i)

/-- A problem uses these variances, this covariance and the determinant of them, for data point `i`. -/
def Uses (m : Mem) (o : Obj) (i : ℕ) (v : ℝ × ℝ × ℝ) : Prop :=
  o.vars m i = ⟨v.1, v.2.1, v.2.2, v.1 * v.2.1 - v.2.2 ^ 2⟩

/-- With one set of accuracies for all data points: the variances are the squares, the covariance is the
product with the correlation. And so it stays when copies are made, of whatever problem, how many times
whatever: for the original and for all copies. No array in memory changes. -/
theorem C67_one_set (m : Mem) (a : ℕ) (y x : ℝ) (c : Option ℝ) (ha : m a = .one y x c) (l : List ℕ) :
    let o := setAccuracy m (.acc a)
    let h := copies o.1 [o.2] l
    h.1 = m ∧ ∀ o' ∈ h.2, ∀ i, Uses h.1 o' i ((m a).wanted i) := by
  have key : ∀ (l : List ℕ) (os : List Obj),
      (∀ o' ∈ os, (∀ i, Uses m o' i ((m a).wanted i)) ∧ o'.accuracy = some a) →
      (copies m os l).1 = m ∧ ∀ o' ∈ (copies m os l).2, ∀ i, Uses m o' i ((m a).wanted i) := by
    intro l
    induction l with
    | nil => exact fun os h => ⟨rfl, fun o' ho => (h o' ho).1⟩
    | cons j l ih =>
      intro os h
      simp only [copies]
      rcases hj : os[j]? with _ | o
      · exact ih os h
      · obtain ⟨ho, hoa⟩ := h o (List.mem_of_getElem? hj)
        have hc : (copy m o).1 = m := by
          simp only [copy, hoa, setAccuracy, refs, ha]
          cases c <;> rfl
        simp only [hc]
        refine ih _ ?_
        intro o' ho'
        rcases List.mem_append.1 ho' with h1 | h1
        · exact h o' h1
        · obtain rfl := List.mem_singleton.1 h1
          constructor
          · intro i
            have := ho i
            simpa [copy, hoa, Uses, Obj.vars] using this
          · simp [copy, hoa, setAccuracy]
  have hm : (setAccuracy m (.acc a)).1 = m := by
    simp only [setAccuracy, refs, ha]
    cases c <;> rfl
  intro o h
  have hk := key l [o.2] (by
    intro o' ho'
    obtain rfl := List.mem_singleton.1 ho'
    constructor
    · intro i
      simp only [o, Uses, Obj.vars, setAccuracy, refs, ha, Arr.wanted]
      cases c <;> simp [mulIn, Ref.read] <;> ring_nf <;> simp
    · rfl)
  have e : h = copies m [o.2] l := by
    simp only [h, o, hm]
  rw [e]
  refine ⟨hk.1, ?_⟩
  rw [hk.1]
  exact hk.2

/-- With covariance matrices, and with nothing given: the problem and all its copies use what is given,
resp. zeros. -/
theorem C67_covar (m : Mem) (yy xx xy : ℕ → ℝ) (l : List ℕ) :
    (∀ o' ∈ (copies m [(setAccuracy m (.covar yy xx xy)).2] l).2, ∀ i,
      Uses (copies m [(setAccuracy m (.covar yy xx xy)).2] l).1 o' i (yy i, xx i, xy i)) ∧
    (∀ o' ∈ (copies m [(setAccuracy m .nothing).2] l).2, ∀ i,
      Uses (copies m [(setAccuracy m .nothing).2] l).1 o' i (0, 0, 0)) := by
  have key : ∀ (l : List ℕ) (o : Obj) (os : List Obj), o.accuracy = none → (∀ o' ∈ os, o' = o) →
      (copies m os l).1 = m ∧ ∀ o' ∈ (copies m os l).2, o' = o := by
    intro l
    induction l with
    | nil => exact fun o os _ h => ⟨rfl, h⟩
    | cons j l ih =>
      intro o os hn h
      simp only [copies]
      rcases hj : os[j]? with _ | o1
      · exact ih o os hn h
      · obtain rfl := h o1 (List.mem_of_getElem? hj)
        have hc : copy m o1 = (m, o1) := by simp [copy, hn]
        simp only [hc]
        refine ih o1 _ hn ?_
        intro o' ho'
        rcases List.mem_append.1 ho' with h1 | h1
        · exact h o' h1
        · exact List.mem_singleton.1 h1
  constructor
  · obtain ⟨h1, h2⟩ := key l (setAccuracy m (.covar yy xx xy)).2 _ rfl
      (fun o' ho' => List.mem_singleton.1 ho')
    intro o' ho' i
    rw [h2 o' ho']
    simp [Uses, Obj.vars, setAccuracy, Ref.read, pow_two]
  · obtain ⟨h1, h2⟩ := key l (setAccuracy m .nothing).2 _ rfl
      (fun o' ho' => List.mem_singleton.1 ho')
    intro o' ho' i
    rw [h2 o' ho']
    simp [Uses, Obj.vars, setAccuracy, Ref.read]

/-- `setAccuracy` with a table of accuracies, one row for each data point: the table in memory is
replaced by the one of the (co)variances. -/
theorem setAccuracy_table (m : Mem) (a : ℕ) (y x : ℕ → ℝ) (c : Option (ℕ → ℝ))
    (ha : m a = .two y x c) :
    (setAccuracy m (.acc a)).1 = Function.update m a (.two (fun i => y i * y i) (fun i => x i * x i)
        (c.map fun c i => c i * (y i * x i))) ∧
    (setAccuracy m (.acc a)).2.varyy = .col a .y ∧ (setAccuracy m (.acc a)).2.varxx = .col a .x ∧
    (setAccuracy m (.acc a)).2.varxy = (match c with
      | none => .num fun i => 0 * (y i * x i)
      | some _ => .col a .c) := by
  cases c with
  | none => simp [setAccuracy, refs, ha, mulIn, Ref.read]
  | some c => simp [setAccuracy, refs, ha, mulIn, Ref.read]

/-- With a table of accuracies, one row for each data point: right after it is made a problem uses the
squares. What is missing: that it stays so when copies are made, see `C67_counterexample_copies`; and
that the same table can be used for another problem, see `C67_counterexample_table`. -/
theorem C67_table_partial (m : Mem) (a : ℕ) (y x : ℕ → ℝ) (c : Option (ℕ → ℝ))
    (ha : m a = .two y x c) (i : ℕ) :
    Uses (setAccuracy m (.acc a)).1 (setAccuracy m (.acc a)).2 i ((m a).wanted i) := by
  rw [Uses, Obj.vars]
  cases c with
  | none => simp [setAccuracy, refs, ha, mulIn, Ref.read, Arr.wanted, pow_two]
  | some c =>
    simp [setAccuracy, refs, ha, mulIn, Ref.read, Arr.wanted, pow_two]
    constructor <;> ring

/-- Each copy squares the variances of the problem it is copied from (and of all other copies), while
the determinant stays: after `n` copies the variance in y is the accuracy to the power `2 ^ (n + 1)`. -/
theorem C67_counterexample_copies (m : Mem) (a : ℕ) (y x : ℕ → ℝ) (c : Option (ℕ → ℝ))
    (ha : m a = .two y x c) (n i : ℕ) :
    let o := setAccuracy m (.acc a)
    let h := copies o.1 [o.2] (List.replicate n 0)
    ∀ o' ∈ h.2, (o'.vars h.1 i).yy = y i ^ 2 ^ (n + 1) ∧ (o'.vars h.1 i).xx = x i ^ 2 ^ (n + 1) ∧
      (o'.vars h.1 i).det = ((m a).wanted i).1 * ((m a).wanted i).2.1 - ((m a).wanted i).2.2 ^ 2 := by
  have key : ∀ (n : ℕ) (m : Mem) (y x : ℕ → ℝ) (c : Option (ℕ → ℝ)) (D : ℕ → ℝ) (os : List Obj),
      m a = .two y x c → (∀ o' ∈ os, o'.accuracy = some a ∧ o'.varyy = .col a .y ∧
        o'.varxx = .col a .x ∧ o'.determinant = D) → os ≠ [] →
      ∀ o' ∈ (copies m os (List.replicate n 0)).2,
        (o'.vars (copies m os (List.replicate n 0)).1 i).yy = y i ^ 2 ^ n ∧
        (o'.vars (copies m os (List.replicate n 0)).1 i).xx = x i ^ 2 ^ n ∧
        (o'.vars (copies m os (List.replicate n 0)).1 i).det = D i := by
    intro n
    induction n with
    | zero =>
      intro m y x c D os hm h _ o' ho'
      obtain ⟨-, h1, h2, h3⟩ := h o' ho'
      simp [copies, Obj.vars, h1, h2, h3, Ref.read, hm]
    | succ n ih =>
      intro m y x c D os hm h hne
      rcases os with _ | ⟨o, os⟩
      · exact absurd rfl hne
      · obtain ⟨h0, h1, h2, h3⟩ := h o (by simp)
        obtain ⟨t1, t2, t3, t4⟩ := setAccuracy_table m a y x c hm
        have hc : copy m o = ((setAccuracy m (.acc a)).1, { (setAccuracy m (.acc a)).2 with
          hasAccuracy := o.hasAccuracy, varxx := o.varxx, varxy := o.varxy, varyy := o.varyy
          determinant := o.determinant }) := by
          simp [copy, h0]
        simp only [List.replicate_succ, copies, List.getElem?_cons_zero, hc]
        have := ih (setAccuracy m (.acc a)).1 (fun i => y i * y i) (fun i => x i * x i)
          (c.map fun c i => c i * (y i * x i)) D
          (o :: os ++ [{ (setAccuracy m (.acc a)).2 with
            hasAccuracy := o.hasAccuracy, varxx := o.varxx, varxy := o.varxy, varyy := o.varyy
            determinant := o.determinant }]) (by rw [t1]; simp) (by
              intro o' ho'
              rcases List.mem_append.1 ho' with g | g
              · exact h o' g
              · obtain rfl := List.mem_singleton.1 g
                exact ⟨rfl, h1, h2, h3⟩) (by simp)
        intro o' ho'
        obtain ⟨e1, e2, e3⟩ := this o' ho'
        refine ⟨e1.trans ?_, e2.trans ?_, e3⟩
        · rw [← pow_two, ← pow_mul, pow_succ' 2 n]
        · rw [← pow_two, ← pow_mul, pow_succ' 2 n]
  intro o h o' ho'
  obtain ⟨t1, t2, t3, t4⟩ := setAccuracy_table m a y x c ha
  obtain ⟨e1, e2, e3⟩ := key n o.1 (fun i => y i * y i) (fun i => x i * x i)
    (c.map fun c i => c i * (y i * x i)) o.2.determinant [o.2] (by simp [o, t1]) (by
      intro o' ho'
      obtain rfl := List.mem_singleton.1 ho'
      exact ⟨rfl, t2, t3, rfl⟩) (by simp) o' ho'
  refine ⟨e1.trans ?_, e2.trans ?_, e3.trans ?_⟩
  · rw [← pow_two, ← pow_mul, pow_succ' 2 n]
  · rw [← pow_two, ← pow_mul, pow_succ' 2 n]
  · have := C67_table_partial m a y x c ha i
    rw [Uses, Obj.vars] at this
    exact (Vars.mk.inj this).2.2.2

/-- Accuracies 2 (in y) and 1 (in x): after one copy the original uses a variance 16 in y. -/
example (m : Mem) (ha : m 0 = .two (fun _ => 2) (fun _ => 1) none) :
    let o := setAccuracy m (.acc 0)
    ((o.2.vars (copies o.1 [o.2] [0]).1 5).yy = 16) := by
  have h := C67_counterexample_copies m 0 _ _ _ ha 1 5 (setAccuracy m (.acc 0)).2
    (by simp [copies])
  norm_num at h
  exact h.1

/-- The table of accuracies given by the user is overwritten: a second problem made with it uses the
fourth power. -/
theorem C67_counterexample_table (m : Mem) (a : ℕ) (y x : ℕ → ℝ) (ha : m a = .two y x none) (i : ℕ) :
    let o1 := setAccuracy m (.acc a)
    let o2 := setAccuracy o1.1 (.acc a)
    (o2.2.vars o2.1 i).yy = y i ^ 4 ∧ (o2.2.vars o2.1 i).xx = x i ^ 4 := by
  obtain ⟨t1, -, -, -⟩ := setAccuracy_table m a y x none ha
  have t2 : (setAccuracy m (.acc a)).1 a = .two (fun i => y i * y i) (fun i => x i * x i) none := by
    rw [t1]
    simp
  have h := C67_table_partial (setAccuracy m (.acc a)).1 a _ _ _ t2 i
  rw [Uses, t2] at h
  intro o1 o2
  have h' : o2.2.vars o2.1 i = _ := h
  rw [h']
  simp only [Arr.wanted]
  constructor <;> ring

/-- With a single number as accuracy (allowed in 214-216) the variance in y and in x are one object,
which is squared twice: the fourth power. -/
theorem C67_counterexample_scalar (m : Mem) (a : ℕ) (v : ℝ) (ha : m a = .zero v) (i : ℕ) :
    let o := setAccuracy m (.acc a)
    (o.2.vars o.1 i).yy = v ^ 4 ∧ (o.2.vars o.1 i).xx = v ^ 4 := by
  simp [setAccuracy, refs, ha, mulIn, Ref.read, Obj.vars]
  ring

/-! ## C68: normalisation -/

theorem integral_quadratic (a b : ℝ) (ha : 0 < a) :
    ∫ x : ℝ, exp (-(1 / 2) * (a * x ^ 2 - 2 * b * x)) = √(2 * π / a) * exp (b ^ 2 / (2 * a)) := by
  have e : ∀ x : ℝ, exp (-(1 / 2) * (a * x ^ 2 - 2 * b * x))
      = exp (-(a / 2) * (x - b / a) ^ 2) * exp (b ^ 2 / (2 * a)) := by
    intro x
    rw [← exp_add]
    congr 1
    field_simp
    ring
  simp only [e]
  rw [MeasureTheory.integral_mul_const, MeasureTheory.integral_sub_right_eq_self
    (fun x => exp (-(a / 2) * x ^ 2)), integral_gaussian]
  congr 2
  field_simp

/-- The problem with other values for data point `i`. -/
def Prob.at (P : Prob) (i : ℕ) (y x : ℝ) : Prob :=
  { P with
    ydata := Function.update P.ydata i y
    xdata := Function.update P.xdata i x }

theorem logLdata_at (P : Prob) (p u : List ℝ) (s : ℝ) (hp : p.length = P.np) (hu : u.length = P.n)
    (i : ℕ) (y x : ℝ) : logLdata (P.at i y x) (p ++ u ++ [s]) i
      = -0.5 * (P.weight i * (log (2 * π) + log (updateDeterminant P s i)
        + ((x - u.getD i 0) * (x - u.getD i 0) * ((P.var i).yy + s * s)
          + (y - P.f (u.getD i 0) p) * (y - P.f (u.getD i 0) p) * ((P.var i).xx + s * s)
          - 2 * ((x - u.getD i 0) * (y - P.f (u.getD i 0) p) * (P.var i).xy))
            / updateDeterminant P s i)) := by
  rw [logLdata_eq (P.at i y x) p u s hp hu]
  simp only [core, Prob.at, Function.update_self, updateDeterminant, Prob.weight]

/-- The likelihood of one data point, without weights, integrated over all values in x and y, is `√(2π)`
where it should be 1. This holds for all models, parameters, targets, variances and scales with a
positive definite covariance. -/
theorem C68_partial (P : Prob) (p u : List ℝ) (s : ℝ) (hp : p.length = P.np) (hu : u.length = P.n)
    (i : ℕ) (hw : P.weights = none) (hv : (P.var i).Proper)
    (hpos : (covariance (P.var i) s).PosDef) :
    ∫ y, ∫ x, exp (logLdata (P.at i y x) (p ++ u ++ [s]) i) = √(2 * π) := by
  have hD : updateDeterminant P s i = (covariance (P.var i) s).det := by
    rw [covariance, Matrix.det_fin_two_of, updateDeterminant]
    have h2 : (P.var i).det = _ := hv
    rw [h2]
    ring
  have hA : 0 < (P.var i).yy + s * s := by
    have := hpos.diag_pos (i := 0)
    simpa [covariance, pow_two] using this
  have hDp : 0 < updateDeterminant P s i := by rw [hD]; exact hpos.det_pos
  have hDe : updateDeterminant P s i = ((P.var i).yy + s * s) * ((P.var i).xx + s * s)
      - (P.var i).xy ^ 2 := by
    rw [hD, covariance, Matrix.det_fin_two_of]
    ring
  have hw1 : P.weight i = 1 := by simp [Prob.weight, hw]
  simp only [logLdata_at P p u s hp hu, hw1, one_mul]
  generalize updateDeterminant P s i = D at hDp hDe ⊢
  generalize (P.var i).yy + s * s = A at hA hDe ⊢
  generalize (P.var i).xx + s * s = B at hDe ⊢
  generalize (P.var i).xy = c at hDe ⊢
  have e1 : ∀ X Y : ℝ, exp (-0.5 * (log (2 * π) + log D + (X * X * A + Y * Y * B
      - 2 * (X * Y * c)) / D)) = (√(2 * π * D))⁻¹ * exp (-(1 / 2) * (Y * Y * B / D))
        * exp (-(1 / 2) * (A / D * X ^ 2 - 2 * (c * Y / D) * X)) := by
    intro X Y
    have : (√(2 * π * D))⁻¹ = exp (-(1 / 2) * (log (2 * π) + log D)) := by
      rw [← log_mul (by positivity) hDp.ne', sqrt_eq_rpow, rpow_def_of_pos (by positivity), ← exp_neg]
      congr 1
      ring
    rw [this, ← exp_add, ← exp_add]
    congr 1
    field_simp
    ring
  simp only [e1]
  have e2 : ∀ y : ℝ, ∫ x, (√(2 * π * D))⁻¹ * exp (-(1 / 2) * ((y - P.f (u.getD i 0) p)
        * (y - P.f (u.getD i 0) p) * B / D)) * exp (-(1 / 2) * (A / D * (x - u.getD i 0) ^ 2
          - 2 * (c * (y - P.f (u.getD i 0) p) / D) * (x - u.getD i 0)))
      = (√(2 * π * D))⁻¹ * √(2 * π / (A / D))
        * exp (-(1 / (2 * A)) * (y - P.f (u.getD i 0) p) ^ 2) := by
    intro y
    generalize y - P.f (u.getD i 0) p = Y
    rw [MeasureTheory.integral_const_mul, MeasureTheory.integral_sub_right_eq_self
      (fun x => exp (-(1 / 2) * (A / D * x ^ 2 - 2 * (c * Y / D) * x))),
      integral_quadratic _ _ (by positivity)]
    have : exp (-(1 / 2) * (Y * Y * B / D)) * exp ((c * Y / D) ^ 2 / (2 * (A / D)))
        = exp (-(1 / (2 * A)) * Y ^ 2) := by
      rw [← exp_add]
      congr 1
      field_simp
      rw [hDe]
      ring
    rw [← this]
    ring
  simp only [e2]
  rw [MeasureTheory.integral_const_mul, MeasureTheory.integral_sub_right_eq_self
    (fun y => exp (-(1 / (2 * A)) * y ^ 2)), integral_gaussian]
  have h1 : 2 * π / (A / D) = 2 * π * D * A⁻¹ := by field_simp
  have h2 : π / (1 / (2 * A)) = 2 * π * A := by field_simp
  have h3 : √(2 * π * D) ≠ 0 := (sqrt_pos.2 (by positivity)).ne'
  rw [h1, h2, sqrt_mul (by positivity : 0 ≤ 2 * π * D), sqrt_mul (by positivity : 0 ≤ 2 * π) A,
    sqrt_inv]
  have h4 : √A ≠ 0 := (sqrt_pos.2 hA).ne'
  field_simp

/-- The likelihood of a data point in the plane is not normalised. -/
theorem C68_counterexample (P : Prob) (p u : List ℝ) (s : ℝ) (hp : p.length = P.np)
    (hu : u.length = P.n) (i : ℕ) (hw : P.weights = none) (hv : (P.var i).Proper)
    (hpos : (covariance (P.var i) s).PosDef) :
    ∫ y, ∫ x, exp (logLdata (P.at i y x) (p ++ u ++ [s]) i) ≠ 1 := by
  rw [C68_partial P p u s hp hu i hw hv hpos]
  intro h
  have h2 : 2 * π = 1 := by
    have := Real.sq_sqrt (show 0 ≤ 2 * π by positivity)
    rw [h] at this
    linarith
  have := Real.two_le_pi
  linarith

/-- The hypotheses hold for the line without weights and without correlation. -/
example : ({ line with
      weights := none
      var := fun _ => ⟨4, 1, 0, 4⟩ } : Prob).weights = none ∧
    (⟨4, 1, 0, 4⟩ : Vars).Proper ∧ (covariance ⟨4, 1, 0, 4⟩ 1).PosDef := by
  refine ⟨rfl, by norm_num [Vars.Proper], ?_⟩
  have : covariance ⟨4, 1, 0, 4⟩ 1 = Matrix.diagonal ![5, 2] := by
    ext i j
    fin_cases i <;> fin_cases j <;> norm_num [covariance]
  rw [this]
  refine Matrix.PosDef.diagonal ?_
  intro i
  fin_cases i <;> norm_num

/-! ## C69: unit interval and domain -/

/-- The maps between the unit interval and the domain of all parameters, those of the model and the
targets, are each other's inverse when those of the model and of the prior are. The map of a target is the
map of the prior, shifted to the measured position. -/
theorem C69_maps (P : Prob) (V U : ℕ → Set ℝ) (Vp Up : Set ℝ)
    (hm : ∀ k < P.np, Set.InvOn (P.modelD2U · k) (P.modelU2D · k) (U k) (V k))
    (ht : Set.InvOn P.priorD2U P.priorU2D Up Vp) :
    (∀ k < P.np, Set.InvOn (P.domain2Unit · k) (P.unit2Domain · k) (U k) (V k)) ∧
    (∀ i < P.n, Set.InvOn (P.domain2Unit · (P.np + i)) (P.unit2Domain · (P.np + i)) Up
      ((P.xdata i + ·) '' Vp)) ∧
    (∀ i < P.n, ∀ t, P.unit2Domain t (P.np + i) = P.xdata i + P.priorU2D t) := by
  refine ⟨?_, ?_, ?_⟩
  · intro k hk
    have := hm k hk
    constructor
    · intro t h
      simpa [Prob.domain2Unit, Prob.unit2Domain, hk] using this.1 h
    · intro t h
      simpa [Prob.domain2Unit, Prob.unit2Domain, hk] using this.2 h
  · intro i _
    constructor
    · intro t h
      simpa [Prob.domain2Unit, Prob.unit2Domain] using ht.1 h
    · rintro _ ⟨t, h, rfl⟩
      have := ht.2 h
      simp [Prob.domain2Unit, Prob.unit2Domain, this, add_comm]
  · intro i _ t
    simp [Prob.unit2Domain, add_comm]

example : (∀ k < line.np, Set.InvOn (line.modelD2U · k) (line.modelU2D · k) Set.univ Set.univ) ∧
    Set.InvOn line.priorD2U line.priorU2D (Set.Icc 0 1) (Set.Icc (-1 / 2) (1 / 2)) :=
  ⟨fun _ _ => ⟨fun _ _ => rfl, fun _ _ => rfl⟩, fun t _ => by simp [line], fun t _ => by simp [line]⟩

end BF.XY
