import Verif.Multi
import Verif.Props.ErrGrad

/-!
# C70: problems with multiple outputs
-/

namespace BF.Multi

open Real ErrDis

variable {X : Type}

/-- The shapes fit: `ydata` and the outputs of the model have `ndout` columns, each output has partials to
all parameters, the weights and the accuracies have the shape of xdata or of ydata. -/
structure Prob.Fits (P : Prob X) (p : List ℝ) : Prop where
  len : P.ydata.length = P.xdata.length
  y : ∀ y ∈ P.ydata, y.length = P.ndout
  f : ∀ x ∈ P.xdata, (P.f x p).length = P.ndout
  df : ∀ x ∈ P.xdata, ∀ k < P.ndout, (P.df x p k).length = P.np
  out : 0 < P.ndout
  par : 0 < P.np

/-- The weight (or the accuracy) of output `k` of data point `i`. -/
def Wgt.at : Wgt → ℕ → ℕ → Option ℝ
  | .flat w, i, _ => w[i]?
  | .table w, i, k => w[i]?.bind fun r => r[k]?

/-- Shape as xdata or as ydata. -/
def Wgt.Fits (n nd : ℕ) : Wgt → Prop
  | .flat w => w.length = n
  | .table w => w.length = n ∧ ∀ r ∈ w, r.length = nd

/-! ## Rows of a flattened array -/

theorem flatten_get {α : Type} (n : ℕ) (l : List (List α)) (h : ∀ r ∈ l, r.length = n) (i k : ℕ)
    (hk : k < n) : l.flatten[i * n + k]? = l[i]?.bind fun r => r[k]? := by
  induction l generalizing i with
  | nil => simp
  | cons r l ih =>
    have hr : r.length = n := h r (by simp)
    cases i with
    | zero =>
      simp only [Nat.zero_mul, Nat.zero_add, List.flatten_cons, List.getElem?_cons_zero,
        Option.bind_some]
      rw [List.getElem?_append_left (by omega)]
    | succ i =>
      rw [List.flatten_cons, List.getElem?_append_right (by rw [hr, Nat.succ_mul]; omega), hr]
      have : (i + 1) * n + k - n = i * n + k := by rw [Nat.succ_mul]; omega
      rw [this, ih (fun r hr => h r (by simp [hr]))]
      simp

theorem flatten_length {α : Type} (n : ℕ) (l : List (List α)) (h : ∀ r ∈ l, r.length = n) :
    l.flatten.length = l.length * n := by
  induction l with
  | nil => simp
  | cons r l ih =>
    rw [List.flatten_cons, List.length_append, h r (by simp), ih fun r hr => h r (by simp [hr]),
      List.length_cons, Nat.succ_mul, Nat.add_comm]

theorem reshape_flatten (n : ℕ) (hn : 0 < n) (l : List (List ℝ)) (h : ∀ r ∈ l, r.length = n) :
    reshape n l.flatten = l := by
  apply List.ext_getElem?
  intro i
  simp only [reshape, flatten_length n l h, Nat.mul_div_cancel _ hn, List.getElem?_map]
  by_cases hi : i < l.length
  · rw [List.getElem?_range hi, Option.map_some, List.getElem?_eq_getElem hi]
    congr 1
    apply List.ext_getElem?
    intro k
    by_cases hk : k < n
    · rw [List.getElem?_take_of_lt hk, List.getElem?_drop, flatten_get n l h i k hk,
        List.getElem?_eq_getElem hi]
      rfl
    · rw [List.getElem?_eq_none (by simp; omega), List.getElem?_eq_none]
      have := h l[i] (List.getElem_mem hi)
      omega
  · rw [List.getElem?_eq_none (by simpa using hi), List.getElem?_eq_none (by simpa using hi)]
    rfl

theorem foldl_append1 (xs : List X) (g : X → List ℝ) (hs : List (X → List ℝ)) :
    (hs.map fun h => xs.map h).foldl append1 (xs.map g)
      = xs.map fun x => g x ++ (hs.map fun h => h x).flatten := by
  induction hs generalizing g with
  | nil => simp
  | cons h hs ih =>
    simp only [List.map_cons, List.foldl_cons]
    have : append1 (xs.map g) (xs.map h) = xs.map fun x => g x ++ h x := by
      rw [append1, List.zipWith_map]
      clear ih
      induction xs with
      | nil => rfl
      | cons x xs ih => simp [ih]
    rw [this, ih]
    simp [List.append_assoc]

/-- The partials as a list of rows, data point after data point, output after output. -/
theorem part_eq (P : Prob X) (p : List ℝ) (h : P.Fits p) :
    P.part p = (P.xdata.map fun x => (List.range P.ndout).map fun k => P.df x p k).flatten := by
  obtain ⟨d, hd⟩ : ∃ d, P.ndout = d + 1 := ⟨P.ndout - 1, by have := h.out; omega⟩
  have e : P.parts p = (P.xdata.map fun x => P.df x p 0) ::
      ((List.range d).map fun k x => P.df x p (k + 1)).map fun g => P.xdata.map g := by
    simp only [Prob.parts, hd, List.range_succ_eq_map, List.map_cons, List.map_map]
    rfl
  rw [Prob.part, e]
  simp only []
  rw [foldl_append1]
  have e2 : (P.xdata.map fun x => P.df x p 0 ++
      (((List.range d).map fun k x => P.df x p (k + 1)).map fun h => h x).flatten)
      = P.xdata.map fun x => ((List.range P.ndout).map fun k => P.df x p k).flatten := by
    apply List.map_congr_left
    intro x _
    simp only [hd, List.range_succ_eq_map, List.map_cons, List.map_map, List.flatten_cons]
    rfl
  rw [e2]
  have e3 : (P.xdata.map fun x => ((List.range P.ndout).map fun k => P.df x p k).flatten).flatten
      = ((P.xdata.map fun x => (List.range P.ndout).map fun k => P.df x p k).flatten).flatten := by
    rw [List.flatten_flatten, List.map_map]
    rfl
  rw [e3]
  refine reshape_flatten P.np h.par _ ?_
  intro r hr
  obtain ⟨l, hl, hrl⟩ := List.mem_flatten.1 hr
  obtain ⟨x, hx, rfl⟩ := List.mem_map.1 hl
  obtain ⟨k, hk, rfl⟩ := List.mem_map.1 hrl
  exact h.df x hx k (List.mem_range.1 hk)

theorem residuals_rows (P : Prob X) (p : List ℝ) (h : P.Fits p) :
    (∀ r ∈ List.zipWith (fun y m => List.zipWith (fun a b => a - b) y m) P.ydata (P.result p),
      r.length = P.ndout) ∧
    (List.zipWith (fun y m => List.zipWith (fun a b => a - b) y m) P.ydata (P.result p)).length
      = P.xdata.length := by
  constructor
  · intro r hr
    obtain ⟨i, hi, rfl⟩ := List.mem_iff_getElem.1 hr
    simp only [List.length_zipWith, Prob.result, List.length_map] at hi
    simp only [List.getElem_zipWith, List.length_zipWith, Prob.result, List.getElem_map]
    rw [h.y _ (List.getElem_mem _), h.f _ (List.getElem_mem _), Nat.min_self]
  · simp [Prob.result, h.len]

/-! ## C70 -/

/-- Element `i * ndout + k` of the residuals is the one of output `k` at data point `i`, row
`i * ndout + k` of the partials holds the partial derivatives of that same output at that same data point,
and there are no other elements and rows. -/
theorem C70_rows (P : Prob X) (p : List ℝ) (h : P.Fits p) :
    (P.residuals p).length = P.xdata.length * P.ndout ∧
    (P.part p).length = P.xdata.length * P.ndout ∧
    ∀ (i k : ℕ) (x : X) (y : List ℝ) (a b : ℝ), P.xdata[i]? = some x → P.ydata[i]? = some y →
      y[k]? = some a → (P.f x p)[k]? = some b →
      (P.residuals p)[i * P.ndout + k]? = some (a - b) ∧
      (P.part p)[i * P.ndout + k]? = some (P.df x p k) := by
  obtain ⟨h1, h2⟩ := residuals_rows P p h
  have h3 : ∀ r ∈ P.xdata.map fun x => (List.range P.ndout).map fun k => P.df x p k,
      r.length = P.ndout := by
    intro r hr
    obtain ⟨x, _, rfl⟩ := List.mem_map.1 hr
    simp
  refine ⟨?_, ?_, ?_⟩
  · rw [Prob.residuals, flatten_length _ _ h1, h2]
  · rw [part_eq P p h, flatten_length _ _ h3, List.length_map]
  · intro i k x y a b hx hy ha hb
    have hk : k < P.ndout := by
      have := h.y y (List.mem_of_getElem? hy)
      have := (List.getElem?_eq_some_iff.1 ha).1
      omega
    constructor
    · rw [Prob.residuals, flatten_get _ _ h1 i k hk]
      simp [List.getElem?_zipWith, hy, Prob.result, hx, ha, hb]
    · rw [part_eq P p h, flatten_get _ _ h3 i k hk]
      simp [hx, hk]

/-- Each output gets the weight of its data point, or its own weight when there is one for each output. -/
theorem C70_weights (n nd : ℕ) (w : Wgt) (h : w.Fits n nd) :
    (expandFlat nd w).length = n * nd ∧
    ∀ i k : ℕ, k < nd → (expandFlat nd w)[i * nd + k]? = w.at i k := by
  cases w with
  | flat w =>
    have h1 : ∀ r ∈ w.map fun v => List.replicate nd v, r.length = nd := by
      intro r hr
      obtain ⟨v, _, rfl⟩ := List.mem_map.1 hr
      simp
    have hl : w.length = n := h
    refine ⟨by rw [expandFlat, flatten_length _ _ h1, List.length_map, hl], ?_⟩
    intro i k hk
    rw [expandFlat, flatten_get _ _ h1 i k hk]
    simp only [Wgt.at, List.getElem?_map]
    cases w[i]? with
    | none => rfl
    | some v => simp [hk]
  | table w =>
    obtain ⟨hl, h1⟩ := h
    refine ⟨by rw [expandFlat, flatten_length _ _ h1, hl], ?_⟩
    intro i k hk
    rw [expandFlat, flatten_get _ _ h1 i k hk]
    rfl

/-! ## The log likelihood -/

/-- The weight, or the accuracy, of output `k` of data point `i`; `d` when none are given. -/
def Prob.given (w : Option Wgt) (d : ℝ) (i k : ℕ) : ℝ :=
  match w with
  | none => d
  | some w => (w.at i k).getD 0

theorem sum_rows (g : ℕ → ℝ) (n nd : ℕ) :
    ((List.range (n * nd)).map g).sum = ∑ i ∈ Finset.range n, ∑ k ∈ Finset.range nd, g (i * nd + k) := by
  induction n with
  | zero => simp
  | succ n ih =>
    rw [Nat.succ_mul, List.range_add, List.map_append, List.sum_append, ih, Finset.sum_range_succ, List.map_map,
      Finset.sum_range]
    congr 1

/-- C70: the Gaussian log likelihood is the weighted sum, over all data points and all their outputs, of the logarithm
of the normal density of the residual, with the noise scale and the accuracy of that output added in squares. -/
theorem C70_likelihood (P : Prob X) (p : List ℝ) (s : ℝ) (hp : p.length = P.np) (h : P.Fits p)
    (hw : ∀ w, P.weights = some w → w.Fits P.xdata.length P.ndout)
    (ha : ∀ a, P.accuracy = some a → a.Fits P.xdata.length P.ndout)
    (hs : ∀ i < P.xdata.length, ∀ k < P.ndout, 0 < s ^ 2 + Prob.given P.accuracy 0 i k ^ 2) :
    P.logL (p ++ [s]) = ∑ i ∈ Finset.range P.xdata.length, ∑ k ∈ Finset.range P.ndout,
      let v := s ^ 2 + Prob.given P.accuracy 0 i k ^ 2
      let r := (P.ydata.getD i []).getD k 0 - ((P.xdata[i]?.map fun x => P.f x p).getD []).getD k 0
      Prob.given P.weights 1 i k * log (exp (-r ^ 2 / (2 * v)) / √(2 * π * v)) := by
  have htake : (p ++ [s]).take P.np = p := take_left' p [s] P.np hp
  rw [Prob.logL, htake, (C70_rows P p h).1, sum_rows]
  refine Finset.sum_congr rfl fun i hi => Finset.sum_congr rfl fun k hk => ?_
  have hi := Finset.mem_range.1 hi
  have hk := Finset.mem_range.1 hk
  have hW : P.wgt (i * P.ndout + k) = Prob.given P.weights 1 i k := by
    rcases hwe : P.weights with _ | w
    · simp [Prob.wgt, Prob.flatWeights, hwe, Prob.given]
    · simp only [Prob.wgt, Prob.flatWeights, hwe, Prob.given, Option.map_some, List.getD_eq_getElem?_getD,
        (C70_weights _ _ w (hw w hwe)).2 i k hk]
  have hV : P.varAt (i * P.ndout + k) = Prob.given P.accuracy 0 i k ^ 2 := by
    rcases hae : P.accuracy with _ | a
    · simp [Prob.varAt, Prob.varyy, hae, Prob.given]
    · simp only [Prob.varAt, Prob.varyy, hae, Prob.given, Option.map_some, List.getD_eq_getElem?_getD,
        List.getElem?_map, (C70_weights _ _ a (ha a hae)).2 i k hk]
      rcases a.at i k with _ | v
      · simp
      · simp [pow_two]
  have hS : P.s2 (p ++ [s]) (i * P.ndout + k) = s ^ 2 + Prob.given P.accuracy 0 i k ^ 2 := by
    rw [Prob.s2, fromEnd_one, hV]
    ring
  have hy : i < P.ydata.length := by rw [h.len]; exact hi
  have hyl := h.y _ (List.getElem_mem hy)
  have hfl := h.f _ (List.getElem_mem hi)
  have hR : (P.residuals p).getD (i * P.ndout + k) 0
      = (P.ydata.getD i []).getD k 0 - ((P.xdata[i]?.map fun x => P.f x p).getD []).getD k 0 := by
    have hky : k < P.ydata[i].length := by omega
    have hkf : k < (P.f P.xdata[i] p).length := by omega
    have := ((C70_rows P p h).2.2 i k _ _ _ _ (List.getElem?_eq_getElem hi) (List.getElem?_eq_getElem hy)
      (List.getElem?_eq_getElem hky) (List.getElem?_eq_getElem hkf)).1
    simp only [List.getD_eq_getElem?_getD, this, Option.getD_some, List.getElem?_eq_getElem hi,
      List.getElem?_eq_getElem hy, Option.map_some, List.getElem?_eq_getElem hky, List.getElem?_eq_getElem hkf]
  have hv := hs i hi k hk
  simp only [Prob.gaussLd, htake, hW, hS, hR]
  generalize (P.ydata.getD i []).getD k 0 - ((P.xdata[i]?.map fun x => P.f x p).getD []).getD k 0 = r
  generalize Prob.given P.weights 1 i k = w
  generalize s ^ 2 + Prob.given P.accuracy 0 i k ^ 2 = v at hv
  rw [log_div (exp_pos _).ne' (sqrt_pos.2 (by positivity)).ne', log_exp, log_sqrt (by positivity),
    log_mul (by positivity) hv.ne', LOG2PI]
  field_simp
  ring

/-! ## The gradient of the log likelihood -/

/-- All outputs are differentiable at `p`. -/
def Prob.Smooth (P : Prob X) (p : List ℝ) : Prop :=
  ∀ x ∈ P.xdata, ∀ k < P.ndout, ∀ (j : ℕ) (v g : ℝ), p[j]? = some v → (P.df x p k)[j]? = some g →
    HasDerivAt (fun t => (P.f x (p.set j t)).getD k 0) g v

theorem residual_get (P : Prob X) (p : List ℝ) (h : P.Fits p) (r : ℕ)
    (hr : r < P.xdata.length * P.ndout) (x : X) (y : List ℝ)
    (hx : P.xdata[r / P.ndout]? = some x) (hy : P.ydata[r / P.ndout]? = some y) :
    (P.residuals p).getD r 0 = y.getD (r % P.ndout) 0 - (P.f x p).getD (r % P.ndout) 0 ∧
    (P.part p).getD r [] = P.df x p (r % P.ndout) := by
  have hk : r % P.ndout < P.ndout := Nat.mod_lt _ h.out
  have hyl := h.y y (List.mem_of_getElem? hy)
  have hfl := h.f x (List.mem_of_getElem? hx)
  obtain ⟨-, -, h3⟩ := C70_rows P p h
  obtain ⟨e1, e2⟩ := h3 (r / P.ndout) (r % P.ndout) x y _ _ hx hy
    (List.getElem?_eq_getElem (by omega)) (List.getElem?_eq_getElem (by omega))
  have hr' : r / P.ndout * P.ndout + r % P.ndout = r := by
    rw [Nat.mul_comm]
    exact Nat.div_add_mod r P.ndout
  rw [hr'] at e1 e2
  simp only [List.getD_eq_getElem?_getD, e1, e2, Option.getD_some]
  refine ⟨?_, trivial⟩
  rw [List.getElem?_eq_getElem (by omega : r % P.ndout < y.length),
    List.getElem?_eq_getElem (by omega : r % P.ndout < (P.f x p).length)]
  rfl

/-- The gradient of the Gaussian log likelihood of a problem with multiple outputs, to the parameters and
the noise scale, with and without weights and accuracies. -/
theorem C70_gradient (P : Prob X) (p : List ℝ) (s : ℝ) (hp : p.length = P.np)
    (hfits : ∀ q : List ℝ, q.length = P.np → P.Fits q) (hs : P.Smooth p)
    (hv : ∀ r < P.xdata.length * P.ndout, 0 < P.s2 (p ++ [s]) r) (fitIndex : List ℤ) (hfit : ProperIndex P.np 1 fitIndex) :
    IsGradient P.logL (p ++ [s]) fitIndex (P.partialLogL (p ++ [s]) fitIndex) := by
  have hF := hfits p hp
  have hlen : ∀ q : List ℝ, q.length = P.np → (P.residuals q).length = P.xdata.length * P.ndout :=
    fun q hq => (C70_rows P q (hfits q hq)).1
  have htake : ∀ (q : List ℝ) (t : ℝ), q.length = P.np → (q ++ [t]).take P.np = q :=
    fun q t hq => take_left' q [t] P.np hq
  refine ⟨by simp [Prob.partialLogL], ?_⟩
  intro j k v dv hj hkv hdv
  have hk : k ∈ fitIndex := List.mem_of_getElem? hj
  simp only [Prob.partialLogL, List.getElem?_map, hj, Option.map_some, Option.some.injEq] at hdv
  subst hdv
  have hxy : ∀ r < P.xdata.length * P.ndout, ∃ x y, P.xdata[r / P.ndout]? = some x ∧
      P.ydata[r / P.ndout]? = some y := by
    intro r hr
    have h1 : r / P.ndout < P.xdata.length := Nat.div_lt_of_lt_mul (by rwa [Nat.mul_comm])
    exact ⟨_, _, List.getElem?_eq_getElem h1, List.getElem?_eq_getElem (by rw [hF.len]; exact h1)⟩
  rw [htake p s hp, hlen p hp]
  rcases hfit k hk with ⟨k0, k1⟩ | ⟨k1, k0⟩
  · rw [place_nonneg _ _ k0] at hkv ⊢
    have hkl : k.toNat < p.length := by omega
    rw [List.getElem?_append_left hkl] at hkv
    have hpk := set_self p k.toNat v hkv
    simp only [Prob.logL, set_left p [s] k.toNat _ hkl,
      fun t => htake (p.set k.toNat t) s (by simp [hp]), fun t => hlen (p.set k.toNat t) (by simp [hp])]
    apply hasDerivAt_listSum (List.range (P.xdata.length * P.ndout))
      (fun r t => P.gaussLd (p.set k.toNat t ++ [s]) r)
    intro r hr
    have hr := List.mem_range.1 hr
    obtain ⟨x, y, hx, hy⟩ := hxy r hr
    have hk2 : r % P.ndout < P.ndout := Nat.mod_lt _ hF.out
    have hdl := hF.df x (List.mem_of_getElem? hx) _ hk2
    have hg : (P.df x p (r % P.ndout))[k.toNat]?
        = some ((P.df x p (r % P.ndout)).getD k.toNat 0) := by
      rw [List.getD_eq_getElem?_getD, List.getElem?_eq_getElem (by omega)]
      rfl
    have hf := hs x (List.mem_of_getElem? hx) _ hk2 k.toNat v _ hkv hg
    have hres : HasDerivAt (fun t => (P.residuals (p.set k.toNat t)).getD r 0)
        (-(P.df x p (r % P.ndout)).getD k.toNat 0) v := by
      have e : (fun t => (P.residuals (p.set k.toNat t)).getD r 0)
          = fun t => y.getD (r % P.ndout) 0 - (P.f x (p.set k.toNat t)).getD (r % P.ndout) 0 := by
        funext t
        exact (residual_get P (p.set k.toNat t) (hfits _ (by simp [hp])) r hr x y hx hy).1
      rw [e]
      exact hf.const_sub _
    have hs2 : ∀ t, P.s2 (p.set k.toNat t ++ [s]) r = P.s2 (p ++ [s]) r := by
      intro t
      simp only [Prob.s2, fromEnd_one]
    simp only [Prob.gaussLd, Prob.gaussPd, hs2, if_pos k0, htake p s hp,
      fun t => htake (p.set k.toNat t) s (by simp [hp])]
    rw [(residual_get P p hF r hr x y hx hy).2]
    have hv' := (hv r hr).ne'
    refine (((((hres.mul_const _).fun_mul hres).const_mul (-0.5)).div_const _).sub_const
      _).congr_deriv ?_
    rw [hpk]
    field_simp
    ring
  · obtain rfl := neg_one P.np fitIndex hfit k hk k0
    have hpl : place (p ++ [s]).length (-1) = p.length := by
      simp [place]
    rw [hpl] at hkv ⊢
    have hset : ∀ t : ℝ, (p ++ [s]).set p.length t = p ++ [t] := by
      intro t
      rw [List.set_append_right _ _ le_rfl]
      simp
    obtain rfl : s = v := by simpa using hkv
    simp only [Prob.logL, hset, fun t => htake p t hp, hlen p hp]
    apply hasDerivAt_listSum (List.range (P.xdata.length * P.ndout))
      (fun r t => P.gaussLd (p ++ [t]) r)
    intro r hr
    have hr := List.mem_range.1 hr
    have hv' := (hv r hr).ne'
    simp only [Prob.gaussLd, Prob.gaussPd, fun t => htake p t hp, Prob.s2, fromEnd_one,
      if_neg (show ¬ (0 : ℤ) ≤ -1 by omega)] at hv' ⊢
    generalize P.varAt r = V at hv' ⊢
    generalize (P.residuals p).getD r 0 = R
    generalize P.wgt r = W
    have hq : HasDerivAt (fun t => t * t + V) (1 * s + s * 1) s :=
      ((hasDerivAt_id' s).fun_mul (hasDerivAt_id' s)).add_const _
    have hlg := hq.log hv'
    refine ((((hasDerivAt_const s _).fun_div hq hv')).fun_sub
        (((hlg.const_add LOG2PI).const_mul 0.5).mul_const W)).congr_deriv ?_
    have h3 : s ^ 2 + V ≠ 0 := by rw [pow_two]; exact hv'
    field_simp
    ring

/-! Two data points in the plane. -/

/-- A point on a line in the plane: outputs `a + b x` and `b x`. -/
noncomputable def orbit : Prob ℝ where
  xdata := [0, 1]
  ydata := [[1, 2], [3, 4]]
  weights := some (.flat [1, 2])
  accuracy := none
  np := 2
  ndout := 2
  f := fun x p => [p.getD 0 0 + p.getD 1 0 * x, p.getD 1 0 * x]
  df := fun x _ k => if k = 0 then [1, x] else [0, x]

example : (∀ q : List ℝ, q.length = orbit.np → orbit.Fits q) ∧ orbit.Smooth [1, 2] ∧
    (∀ r < orbit.xdata.length * orbit.ndout, 0 < orbit.s2 ([1, 2] ++ [1]) r) ∧
    (Wgt.flat [1, 2]).Fits orbit.xdata.length orbit.ndout := by
  refine ⟨?_, ?_, ?_, rfl⟩
  · intro q _
    refine ⟨rfl, ?_, ?_, ?_, by simp [orbit], by simp [orbit]⟩
    · intro y hy
      simp only [orbit, List.mem_cons, List.not_mem_nil, or_false] at hy
      rcases hy with rfl | rfl <;> rfl
    · intro x _
      rfl
    · intro x _ k _
      simp only [orbit]
      split <;> rfl
  · intro x _ k hk j v g hv hg
    have hk' : k < 2 := hk
    match j with
    | 0 =>
      interval_cases k
      · obtain rfl : (1 : ℝ) = g := by simpa [orbit] using hg
        exact (hasDerivAt_id' v).add_const ((2 : ℝ) * x)
      · obtain rfl : (0 : ℝ) = g := by simpa [orbit] using hg
        exact hasDerivAt_const v ((2 : ℝ) * x)
    | 1 =>
      interval_cases k
      · obtain rfl : x = g := by simpa [orbit] using hg
        exact (((hasDerivAt_id' v).mul_const x).const_add (1 : ℝ)).congr_deriv (by simp)
      · obtain rfl : x = g := by simpa [orbit] using hg
        exact ((hasDerivAt_id' v).mul_const x).congr_deriv (by simp)
    | j + 2 => simp at hv
  · intro r _
    norm_num [Prob.s2, Prob.varAt, Prob.varyy, orbit, fromEnd]

/-- The noise scale found from the residuals, without weights, is not the root mean square of the
residuals but `√ndout` times it: the sum is divided by the number of data points, not by the number of
residuals. Here all four residuals are 1, and the scale is √2. -/
theorem C70_counterexample_scale : ∃ P : Prob ℝ, P.Fits [0] ∧ P.weights = none ∧
    P.residuals [0] = [1, 1, 1, 1] ∧ P.gaussianScale [0] = √2 := by
  refine ⟨⟨[0, 1], [[1, 1], [1, 1]], none, none, 1, 2, fun x p => [p.getD 0 0 * x, p.getD 0 0 * x],
    fun x _ _ => [x]⟩, ⟨rfl, ?_, fun _ _ => rfl, fun _ _ _ _ => rfl, by simp, by simp⟩, rfl, ?_, ?_⟩
  · intro y hy
    simp only [List.mem_cons, List.not_mem_nil, or_false] at hy
    rcases hy with rfl | rfl <;> rfl
  · simp [Prob.residuals, Prob.result]
  · have : Prob.residuals (⟨[0, 1], [[1, 1], [1, 1]], none, none, 1, 2,
        fun x p => [p.getD 0 0 * x, p.getD 0 0 * x], fun x _ _ => [x]⟩ : Prob ℝ) [0]
        = [1, 1, 1, 1] := by simp [Prob.residuals, Prob.result]
    rw [Prob.gaussianScale, this]
    norm_num [Prob.wgt, Prob.flatWeights, Prob.sumweight, List.range_succ]

end BF.Multi
