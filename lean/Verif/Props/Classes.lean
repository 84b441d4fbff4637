import Verif.Classes
import Verif.Props.SoftMax
import Verif.Props.ErrGrad
import Verif.Props.ErrNorm
import Verif.Props.ErrSum
import Mathlib.Analysis.Convex.SpecificFunctions.Basic

/-!
# C135: classification

The likelihood of a class is the output with its number, the gradient is true, for a softmax model it is the
difference of what is observed and what is expected, and the likelihood has no local maxima.
-/

noncomputable section

namespace BF.Classes

open BF.ErrDis BF.SoftMax Real

variable {X : Type*}

theorem mock_getD (M : Outs X) (x : X) (p : ℕ → ℝ) (c : ℕ) (hc : c < M.ndout) : (M.mock x p).getD c 0 = M.f x p c := by
  simp [Outs.mock, List.getD_eq_getElem?_getD, List.getElem?_range hc]

/-- A point of class `c` contributes the logarithm of output `c`. -/
theorem C135_class (M : Outs X) (x : X) (p : ℕ → ℝ) (c : ℕ) (hc : c < M.ndout) (hpos : 0 < M.f x p c) :
    classLd (M.mock x p) c = some (log (M.f x p c)) := by
  simp only [classLd, classLoop_spec, Nat.zero_le, if_true, Nat.sub_zero, zero_add, mock_getD M x p c hc,
    if_neg (not_le.2 hpos)]

theorem loop_none (y : ℝ) (mock : List ℝ) (k : ℕ) (l : ℝ) (h : ∀ c : ℕ, k ≤ c → c < k + mock.length → y ≠ c) :
    classLoop y mock k l = l := by
  induction mock generalizing k l with
  | nil => rfl
  | cons m ms ih =>
    have h0 := h k le_rfl (by simp)
    rw [classLoop, if_neg h0, add_zero]
    exact ih (k + 1) l fun c h1 h2 => h c (by omega) (by simp only [List.length_cons]; omega)

/-- A datum that is not the number of an output is impossible. -/
theorem C135_no_class (M : Outs X) (x : X) (p : ℕ → ℝ) (y : ℝ) (hy : ∀ c : ℕ, c < M.ndout → y ≠ c) :
    classLd (M.mock x p) y = none := by
  have : classLoop y (M.mock x p) 0 0 = 0 :=
    loop_none y _ 0 0 fun c _ h => hy c (by simpa [Outs.mock] using h)
  simp [classLd, this]

theorem fill_spec (mock : ℕ → ℝ) (c n o : ℕ) (hn : o < n) :
    fillLoop mock (c : ℝ) n o = if o = c then 1 / mock o else 0 := by
  induction n with
  | zero => omega
  | succ n ih =>
    rw [fillLoop]
    by_cases ho : o = n
    · subst ho
      by_cases hc : o = c
      · subst hc; norm_num
      · have : ¬ ((c : ℝ) = (o : ℝ)) := fun h => hc (by exact_mod_cast h.symm)
        rw [if_neg (by tauto), if_neg hc]
        have key : ∀ m, m ≤ o → fillLoop mock (c : ℝ) m o = 0 := by
          intro m hm
          induction m with
          | zero => rfl
          | succ m ihm =>
            rw [fillLoop, if_neg (by omega), ihm (by omega)]
        exact key o le_rfl
    · rw [if_neg (by tauto)]
      exact ih (by omega)

theorem sum_pick (n c : ℕ) (hc : c < n) (g : ℕ → ℝ) :
    ((List.range n).map fun o => (if o = c then g o else 0)).sum = g c := by
  rw [← List.sum_toFinset _ (List.nodup_range)]
  simp [List.toFinset_range, Finset.sum_ite_eq', hc]

/-- The terms of the gradient. -/
theorem tensordot_eq (M : Outs X) (data : List (Point X)) (cls : Point X → ℕ)
    (hcls : ∀ d ∈ data, d.y = cls d ∧ cls d < M.ndout) (p : ℕ → ℝ) (k : ℕ) :
    M.tensordot data p k = (data.map fun d => M.df d.x p (cls d) k / M.f d.x p (cls d)).sum := by
  unfold Outs.tensordot
  congr 1
  apply List.map_congr_left
  intro d hd
  obtain ⟨h1, h2⟩ := hcls d hd
  rw [h1, ← sum_pick M.ndout (cls d) h2 fun o => M.df d.x p o k / M.f d.x p o]
  congr 1
  apply List.map_congr_left
  intro o ho
  rw [fill_spec _ _ _ _ (List.mem_range.1 ho)]
  by_cases h : o = cls d
  · simp only [if_pos h]; ring
  · simp only [if_neg h]; ring

/-- The gradient is the true one: for all models with several outputs that are differentiable, all data whose
class has a positive probability, all parameters and all lists of fitted parameters. -/
theorem C135_gradient (M : Outs X) (data : List (Point X)) (cls : Point X → ℕ)
    (hcls : ∀ d ∈ data, d.y = cls d ∧ cls d < M.ndout) (p : ℕ → ℝ)
    (hpos : ∀ d ∈ data, 0 < M.f d.x p (cls d)) (fitIndex : List ℕ)
    (hdf : ∀ d ∈ data, ∀ k ∈ fitIndex,
      HasDerivAt (fun t => M.f d.x (Function.update p k t) (cls d)) (M.df d.x p (cls d) k) (p k)) :
    (M.partialLogL data p fitIndex).length = fitIndex.length ∧
    ∀ (j k : ℕ) (g : ℝ), fitIndex[j]? = some k → (M.partialLogL data p fitIndex)[j]? = some g →
      HasDerivAtOpt (fun t => M.logL data (Function.update p k t)) g (p k) := by
  refine ⟨by simp [Outs.partialLogL], ?_⟩
  intro j k g hk hg
  have hkm := List.mem_of_getElem? hk
  simp only [Outs.partialLogL, List.getElem?_map, hk, Option.map_some, Option.some.injEq] at hg
  subst hg
  rw [tensordot_eq M data cls hcls]
  unfold Outs.logL
  apply hasDerivAtOpt_sum data (fun d t => classLd (M.mock d.x (Function.update p k t)) d.y)
  intro d hd
  obtain ⟨h1, h2⟩ := hcls d hd
  have h3 := hdf d hd k hkm
  have h4 := hpos d hd
  refine ⟨fun t => log (M.f d.x (Function.update p k t) (cls d)), ?_, ?_⟩
  · have h5 : 0 < M.f d.x (Function.update p k (p k)) (cls d) := by simpa using h4
    filter_upwards [h3.continuousAt.eventually (lt_mem_nhds h5)] with t ht
    rw [h1]
    exact C135_class M d.x _ (cls d) h2 ht
  · have := h3.log (by simpa using h4.ne')
    simpa using this

/-! ## The softmax model -/

theorem soft_result (s : Spec) (hn : s.normed = true) (h1 : s.ndout ≠ 1) (x p : ℕ → ℝ) (c : ℕ) :
    s.result x p c = exp (rasterResult s x p c) / ∑ i ∈ Finset.range s.ndout, exp (rasterResult s x p i) := by
  simp [Spec.result, hn, h1, softmax]

/-- With a normed softmax model all outputs are positive, so that the gradient is always the true one. -/
theorem C135_softmax (s : Spec) (hn : s.normed = true) (data : List (Point (ℕ → ℝ)))
    (cls : Point (ℕ → ℝ) → ℕ) (hcls : ∀ d ∈ data, d.y = cls d ∧ cls d < s.ndout) (p : ℕ → ℝ)
    (fitIndex : List ℕ) (hfit : ∀ k ∈ fitIndex, k < s.np) (j k : ℕ) (g : ℝ) (hj : fitIndex[j]? = some k)
    (hg : ((softOuts s).partialLogL data p fitIndex)[j]? = some g) :
    HasDerivAtOpt (fun t => (softOuts s).logL data (Function.update p k t)) g (p k) := by
  refine (C135_gradient (softOuts s) data cls hcls p ?_ fitIndex ?_).2 j k g hj hg
  · intro d hd
    exact ((C77_probabilities s hn d.x p).1 _ (hcls d hd).2).1
  · intro d hd k hk
    obtain ⟨g, h1, h2⟩ := (C77_partials s d.x p (cls d) (hcls d hd).2).2 k (hfit k hk)
    have : (softOuts s).df d.x p (cls d) k = g := by
      simp [softOuts, List.getD_eq_getElem?_getD, h1]
    rw [this]
    exact h2

/-- The derivative to the connection from input `i` to output `c` is the sum of the inputs, each times the
difference of what is observed (1 in class `c`, 0 outside) and the probability that the model gives. -/
theorem C135_score (s : Spec) (hn : s.normed = true) (h1 : s.ndout ≠ 1) (data : List (Point (ℕ → ℝ)))
    (cls : Point (ℕ → ℝ) → ℕ) (hcls : ∀ d ∈ data, d.y = cls d ∧ cls d < s.ndout) (p : ℕ → ℝ) (c i : ℕ)
    (hc : c < s.ndout) (hi : i < s.ndim) :
    (softOuts s).partialLogL data p [c * s.ndim + i]
      = [(data.map fun d => ((if cls d = c then 1 else 0) - s.result d.x p c) * d.x i).sum] := by
  have hk : c * s.ndim + i < s.nraster := index_lt c s.ndout i s.ndim hc hi
  have hnp : c * s.ndim + i < s.np := by unfold Spec.np; split <;> omega
  have hr : ∀ (x : ℕ → ℝ) (n : ℕ), n < s.ndout →
      rasterPartial s x n (c * s.ndim + i) = if n = c then x i else 0 := by
    intro x n hnd
    have hcp : connectPartial s x n (c * s.ndim + i) = if n = c then x i else 0 := by
      unfold connectPartial
      rw [(loop_spec s x s.ndout).2]
      by_cases h : n = c
      · subst h
        rw [if_pos ⟨hnd, by omega, by omega⟩, if_pos rfl]
        congr 1
        omega
      · rw [if_neg h, if_neg]
        rintro ⟨_, h3, h4⟩
        rcases Nat.lt_or_gt_of_ne h with h5 | h5
        · have := Nat.mul_le_mul_right s.ndim (show n + 1 ≤ c from h5)
          rw [Nat.add_mul] at this
          omega
        · have := Nat.mul_le_mul_right s.ndim (show c + 1 ≤ n from h5)
          rw [Nat.add_mul] at this
          omega
    unfold rasterPartial
    rw [hcp]
    simp [hk]
  unfold Outs.partialLogL
  rw [List.map_singleton, tensordot_eq (softOuts s) data cls hcls]
  congr 2
  apply List.map_congr_left
  intro d hd
  obtain ⟨_, h2⟩ := hcls d hd
  have hdf : (softOuts s).df d.x p (cls d) (c * s.ndim + i)
      = ∑ n ∈ Finset.range s.ndout, softmaxDerivative s.ndout (rasterResult s d.x p) (cls d) n
          * (if n = c then d.x i else 0) := by
    simp only [softOuts, Spec.partials, List.getD_eq_getElem?_getD, List.getElem?_map, List.getElem?_range hnp,
      Option.map_some, Option.getD_some, Spec.pipe, hn, if_true, if_neg h1]
    apply Finset.sum_congr rfl
    intro n hnr
    rw [hr d.x n (Finset.mem_range.1 hnr)]
  rw [hdf]
  simp only [mul_ite, mul_zero, Finset.sum_ite_eq', Finset.mem_range, if_pos hc]
  have hS := sum_exp_pos s.ndout (by omega) (rasterResult s d.x p)
  have hsf : (softOuts s).f d.x p (cls d) = s.result d.x p (cls d) := rfl
  rw [hsf, soft_result s hn h1, soft_result s hn h1]
  simp only [softmaxDerivative]
  set S := ∑ i ∈ Finset.range s.ndout, exp (rasterResult s d.x p i)
  have e1 := exp_pos (rasterResult s d.x p (cls d))
  by_cases hcc : cls d = c
  · simp only [hcc, if_true]
    rw [hcc] at e1
    field_simp
    try ring
  · simp only [if_neg hcc]
    field_simp
    ring

theorem logSumExp_convex (n : ℕ) (hn : 0 < n) (a b : ℕ → ℝ) (t : ℝ) (h0 : 0 ≤ t) (h1 : t ≤ 1) :
    log (∑ i ∈ Finset.range n, exp ((1 - t) * a i + t * b i))
      ≤ (1 - t) * log (∑ i ∈ Finset.range n, exp (a i)) + t * log (∑ i ∈ Finset.range n, exp (b i)) := by
  have hA := sum_exp_pos n hn a
  have hB := sum_exp_pos n hn b
  have hM := sum_exp_pos n hn fun i => (1 - t) * a i + t * b i
  set A := ∑ i ∈ Finset.range n, exp (a i) with hAd
  set B := ∑ i ∈ Finset.range n, exp (b i) with hBd
  have key : (∑ i ∈ Finset.range n, exp ((1 - t) * a i + t * b i)) * exp (-((1 - t) * log A + t * log B)) ≤ 1 := by
    rw [Finset.sum_mul]
    have hle : ∀ i ∈ Finset.range n, exp ((1 - t) * a i + t * b i) * exp (-((1 - t) * log A + t * log B))
        ≤ (1 - t) * (exp (a i) / A) + t * (exp (b i) / B) := by
      intro i _
      rw [← exp_add]
      have hc := convexOn_exp.2 (Set.mem_univ (a i - log A)) (Set.mem_univ (b i - log B))
        (show 0 ≤ 1 - t by linarith) h0 (by ring)
      simp only [smul_eq_mul, exp_sub, exp_log hA, exp_log hB] at hc
      refine le_trans (le_of_eq ?_) hc
      congr 1
      ring
    refine (Finset.sum_le_sum hle).trans (le_of_eq ?_)
    rw [Finset.sum_add_distrib, ← Finset.mul_sum, ← Finset.mul_sum, ← Finset.sum_div, ← Finset.sum_div, ← hAd,
      ← hBd, div_self hA.ne', div_self hB.ne']
    ring
  have h2 := log_le_log (mul_pos hM (exp_pos _)) key
  rw [log_mul hM.ne' (exp_pos _).ne', log_exp, log_one] at h2
  linarith

theorem raster_mix (s : Spec) (x p q : ℕ → ℝ) (t : ℝ) (n : ℕ) :
    rasterResult s x (fun j => (1 - t) * p j + t * q j) n
      = (1 - t) * rasterResult s x p n + t * rasterResult s x q n := by
  have hc : connectResult s x (fun j => (1 - t) * p j + t * q j) n
      = (1 - t) * connectResult s x p n + t * connectResult s x q n := by
    unfold connectResult
    rw [Finset.mul_sum, Finset.mul_sum, ← Finset.sum_add_distrib]
    apply Finset.sum_congr rfl
    intro k _
    ring
  unfold rasterResult
  rw [hc]
  split <;> ring

/-- The log likelihood is concave in the parameters: between two sets of parameters it is at least what a straight
line between the two says. So a local maximum is the highest one. -/
theorem C135_concave (s : Spec) (hn : s.normed = true) (h1 : s.ndout ≠ 1) (data : List (Point (ℕ → ℝ)))
    (cls : Point (ℕ → ℝ) → ℕ) (hcls : ∀ d ∈ data, d.y = cls d ∧ cls d < s.ndout) (p q : ℕ → ℝ) (t : ℝ)
    (h0 : 0 ≤ t) (ht : t ≤ 1) :
    ∃ Lp Lq L, (softOuts s).logL data p = some Lp ∧ (softOuts s).logL data q = some Lq
      ∧ (softOuts s).logL data (fun j => (1 - t) * p j + t * q j) = some L
      ∧ (1 - t) * Lp + t * Lq ≤ L := by
  have key : ∀ p : ℕ → ℝ, (softOuts s).logL data p
      = some (data.map fun d => log (s.result d.x p (cls d))).sum := by
    intro p
    unfold Outs.logL
    rw [← sumOpt_some, List.map_map]
    congr 1
    apply List.map_congr_left
    intro d hd
    obtain ⟨e, hc⟩ := hcls d hd
    rw [e]
    exact C135_class (softOuts s) d.x p (cls d) hc ((C77_probabilities s hn d.x p).1 _ hc).1
  refine ⟨_, _, _, key p, key q, key _, ?_⟩
  rw [← List.sum_map_mul_left, ← List.sum_map_mul_left, ← List.sum_map_add]
  apply List.sum_le_sum
  intro d hd
  obtain ⟨_, hc⟩ := hcls d hd
  have hl : ∀ p : ℕ → ℝ, log (s.result d.x p (cls d)) = rasterResult s d.x p (cls d)
      - log (∑ i ∈ Finset.range s.ndout, exp (rasterResult s d.x p i)) := by
    intro p
    rw [soft_result s hn h1, log_div (exp_pos _).ne' (sum_exp_pos s.ndout (by omega) _).ne', log_exp]
  rw [hl, hl, hl]
  simp only [raster_mix]
  have := logSumExp_convex s.ndout (by omega) (rasterResult s d.x p) (rasterResult s d.x q) t h0 ht
  linarith

/-- A problem with a `SoftMaxModel` with one output as model: the logistic function. -/
def oneOut (s : Spec) (data : List (Datum (ℕ → ℝ))) : Prob (ℕ → ℝ) where
  data := data
  np := s.np
  f := fun x p => s.result x (fun j => p.getD j 0) 0
  df := fun x p => s.partials x (fun j => p.getD j 0) none 0
  hasW := false
  acc := .none
  cyclic := none

/-- The same for one output and two classes, 0 and anything else. -/
theorem C135_concave_logistic (s : Spec) (hn : s.normed = true) (h1 : s.ndout = 1) (data : List (Datum (ℕ → ℝ)))
    (p q : List ℝ) (hpq : p.length = q.length) (t : ℝ) (h0 : 0 ≤ t) (ht : t ≤ 1) :
    ∃ Lp Lq L, logLhoodOpt (bernoulliLd (oneOut s data) p) (oneOut s data) = some Lp
      ∧ logLhoodOpt (bernoulliLd (oneOut s data) q) (oneOut s data) = some Lq
      ∧ logLhoodOpt (bernoulliLd (oneOut s data) (List.zipWith (fun a b => (1 - t) * a + t * b) p q))
          (oneOut s data) = some L
      ∧ (1 - t) * Lp + t * Lq ≤ L := by
  set r : List ℝ → Datum (ℕ → ℝ) → ℝ := fun p d => rasterResult s d.x (fun j => p.getD j 0) 0 with hrd
  set term : List ℝ → Datum (ℕ → ℝ) → ℝ := fun p d =>
    -log (∑ i ∈ Finset.range 2, exp (if i = 0 then 0 else if d.y = 0 then -r p d else r p d)) with htd
  have key : ∀ p : List ℝ, logLhoodOpt (bernoulliLd (oneOut s data) p) (oneOut s data)
      = some (data.map (term p)).sum := by
    intro p
    unfold logLhoodOpt
    rw [← sumOpt_some, List.map_map]
    congr 1
    apply List.map_congr_left
    intro d _
    have hf : (oneOut s data).f d.x p = (1 + exp (-r p d))⁻¹ := by
      simp [oneOut, Spec.result, hn, h1, logistic, hrd]
    have e1 : 0 < 1 + exp (-r p d) := by positivity
    have e2 : 0 < 1 + exp (r p d) := by positivity
    by_cases hy : d.y = 0
    · have : ¬ (1 + exp (-r p d))⁻¹ ≤ 0 := not_le.2 (by positivity)
      simp only [bernoulliLd, hf, if_pos hy, if_neg this, Function.comp, htd, Finset.sum_range_succ,
        Finset.range_zero, Finset.sum_empty, zero_add, if_true, exp_zero, one_ne_zero, if_false, log_inv]
    · have e3 : 1 - (1 + exp (-r p d))⁻¹ = (1 + exp (r p d))⁻¹ := by
        rw [exp_neg]
        have := exp_pos (r p d)
        field_simp
        ring
      have : ¬ (1 + exp (r p d))⁻¹ ≤ 0 := not_le.2 (by positivity)
      simp only [bernoulliLd, hf, if_neg hy, e3, if_neg this, Function.comp, htd, Finset.sum_range_succ,
        Finset.range_zero, Finset.sum_empty, zero_add, if_true, exp_zero, one_ne_zero, if_false, log_inv]
  refine ⟨_, _, _, key p, key q, key _, ?_⟩
  rw [← List.sum_map_mul_left, ← List.sum_map_mul_left, ← List.sum_map_add]
  apply List.sum_le_sum
  intro d hd
  have hmix : r (List.zipWith (fun a b => (1 - t) * a + t * b) p q) d = (1 - t) * r p d + t * r q d := by
    simp only [hrd]
    rw [← raster_mix]
    congr 1
    funext j
    simp only [List.getD_eq_getElem?_getD, List.getElem?_zipWith]
    by_cases hj : j < p.length
    · rw [List.getElem?_eq_getElem hj, List.getElem?_eq_getElem (show j < q.length by omega)]
      simp
    · rw [List.getElem?_eq_none (by omega), List.getElem?_eq_none (by omega)]
      simp
  have := logSumExp_convex 2 (by norm_num) (fun i => if i = 0 then 0 else if d.y = 0 then -r p d else r p d)
    (fun i => if i = 0 then 0 else if d.y = 0 then -r q d else r q d) t h0 ht
  simp only [htd, hmix]
  have e : ∀ i : ℕ, (if i = 0 then (0 : ℝ) else if d.y = 0 then -((1 - t) * r p d + t * r q d)
      else (1 - t) * r p d + t * r q d)
      = (1 - t) * (if i = 0 then 0 else if d.y = 0 then -r p d else r p d)
        + t * (if i = 0 then 0 else if d.y = 0 then -r q d else r q d) := by
    intro i
    split_ifs <;> ring
  simp only [e]
  linarith

/-! ## Cases -/

/-- Three classes, one input, and an offset for each. -/
def three : Spec := ⟨1, 3, true, true⟩

def cases : List (Point (ℕ → ℝ)) := [⟨fun _ => 1, 0⟩, ⟨fun _ => 2, 2⟩, ⟨fun _ => -1, 1⟩]

def caseClass (d : Point (ℕ → ℝ)) : ℕ := if d.y = 0 then 0 else if d.y = 2 then 2 else 1

theorem cases_ok : ∀ d ∈ cases, d.y = caseClass d ∧ caseClass d < three.ndout := by
  intro d hd
  simp only [cases, List.mem_cons, List.not_mem_nil, or_false] at hd
  rcases hd with rfl | rfl | rfl <;> norm_num [caseClass, three]

/-- At zero all classes have probability 1/3; the derivative to the connection with class 2 is
(0 - 1/3) * 1 + (1 - 1/3) * 2 + (0 - 1/3) * (-1) = 4/3. -/
example : (softOuts three).partialLogL cases (fun _ => 0) [2] = [4 / 3] := by
  have := C135_score three rfl (by norm_num [three]) cases caseClass cases_ok (fun _ => 0) 2 0
    (by norm_num [three]) (by norm_num [three])
  have hr : ∀ x : ℕ → ℝ, three.result x (fun _ => 0) 2 = 1 / 3 := by
    intro x
    rw [soft_result three rfl (by norm_num [three])]
    simp [three, rasterResult, connectResult]
  simp only [hr] at this
  simp [three, cases, caseClass] at this ⊢
  rw [this]
  norm_num

end BF.Classes
