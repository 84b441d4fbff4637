import Verif.Kernel2d
import Verif.Props.Kernels
import Mathlib.Tactic.IntervalCases
import Mathlib.Analysis.SpecialFunctions.Sqrt
import Mathlib.Analysis.Real.Pi.Bounds

/-!
# C90: two dimensional kernel models
-/

noncomputable section

namespace BF.Kernel2d

open Real Kernels Filter Topology Asymptotics

/-! ## Derivatives of a function of the distance -/

/-- The change of a function of the distance, along a path. -/
theorem radial {K f : ℝ → ℝ} {K' : ℝ} (hf : ∀ x, f (x * x) = K x) (u v : ℝ → ℝ) (s u' v' r : ℝ)
    (hu : HasDerivAt u u' s) (hv : HasDerivAt v v' s) (hr : r = √(u s * u s + v s * v s)) (hK : HasDerivAt K K' r)
    (h0 : r = 0 → K' = 0) :
    HasDerivAt (fun t => f (u t * u t + v t * v t)) (K' * (unit (u s) r * u' + unit (v s) r * v')) s := by
  have hfK : (fun t => f (u t * u t + v t * v t)) = fun t => K (√(u t * u t + v t * v t)) := by
    funext t
    rw [← hf, mul_self_sqrt]
    have := mul_self_nonneg (u t)
    have := mul_self_nonneg (v t)
    linarith
  rw [hfK]
  by_cases h : r = 0
  · have hK0 := h0 h
    have hw : u s * u s + v s * v s = 0 := by
      have h1 : 0 ≤ u s * u s + v s * v s := by
        have := mul_self_nonneg (u s)
        have := mul_self_nonneg (v s)
        linarith
      rw [h] at hr
      exact (sqrt_eq_zero h1).1 hr.symm
    have hus : u s = 0 := by nlinarith [mul_self_nonneg (u s), mul_self_nonneg (v s)]
    have hvs : v s = 0 := by nlinarith [mul_self_nonneg (u s), mul_self_nonneg (v s)]
    rw [hK0, zero_mul]
    rw [h, hK0] at hK
    rw [hasDerivAt_iff_isLittleO] at hK ⊢
    have hc : Tendsto (fun t => √(u t * u t + v t * v t)) (𝓝 s) (𝓝 0) := by
      have : ContinuousAt (fun t => √(u t * u t + v t * v t)) s :=
        ((hu.continuousAt.mul hu.continuousAt).add (hv.continuousAt.mul hv.continuousAt)).sqrt
      have h2 := this.tendsto
      simp only [hw, sqrt_zero] at h2
      exact h2
    have h1 := hK.comp_tendsto hc
    simp only [hw, sqrt_zero]
    simp only [Function.comp_def, sub_zero, smul_zero] at h1 ⊢
    refine h1.trans_isBigO ?_
    have hu1 : u =O[𝓝 s] fun t => t - s := by simpa [hus] using hu.isBigO_sub
    have hv1 : v =O[𝓝 s] fun t => t - s := by simpa [hvs] using hv.isBigO_sub
    refine IsBigO.trans ?_ (hu1.norm_left.add hv1.norm_left)
    refine IsBigO.of_norm_le ?_
    intro t
    rw [norm_of_nonneg (sqrt_nonneg _), sqrt_le_left (by positivity)]
    simp only [Real.norm_eq_abs]
    nlinarith [abs_mul_abs_self (u t), abs_mul_abs_self (v t), mul_nonneg (abs_nonneg (u t)) (abs_nonneg (v t))]
  · have hw : u s * u s + v s * v s ≠ 0 := by
      intro h1
      rw [h1, sqrt_zero] at hr
      exact h hr
    have h1 := ((hu.fun_mul hu).fun_add (hv.fun_mul hv)).sqrt hw
    rw [hr] at hK
    refine (hK.comp s h1).congr_deriv ?_
    rw [← hr, unit, unit, if_neg h, if_neg h]
    field_simp
    ring

/-! ## What the model is -/

/-- The kernels for which the result is defined from the square. -/
def kernels : List (Kernel × List ℝ) :=
  [(biweight, []), (cosine, [1]), (cosSquare, []), (gauss, []), (huber, [1]), (lorentz, []), (parabola, [1]),
    (triweight, []), (uniform, [1])]

theorem kernels_edges : kernels ⊆ edges := by
  intro k hk
  simp only [kernels, List.mem_cons, List.not_mem_nil, or_false] at hk
  simp only [edges, List.mem_cons, List.not_mem_nil, or_false]
  tauto

theorem square (K : Kernel) (e : List ℝ) (hk : (K, e) ∈ kernels) :
    ∃ f, K.resultsq = some f ∧ ∀ x, f (x * x) = K.result x := by
  have h1 : K ∈ [biweight, cosine, cosSquare, gauss, huber, lorentz, parabola, triweight, uniform] := by
    simp only [kernels, List.mem_cons, List.not_mem_nil, or_false, Prod.mk.injEq] at hk ⊢
    tauto
  obtain ⟨f, hf, -⟩ := C55_square_partial K h1 0
  refine ⟨f, hf, fun x => ?_⟩
  obtain ⟨g, hg, hx⟩ := C55_square_partial K h1 x
  rw [hf] at hg
  simp only [Option.some.injEq] at hg
  rw [hg, hx]

theorem flat (K : Kernel) (e : List ℝ) (hk : (K, e) ∈ kernels) : K.partialx 0 = 0 ∧ (0 : ℝ) ∉ e := by
  revert hk
  simp only [kernels, List.mem_cons, List.not_mem_nil, or_false, Prod.mk.injEq]
  rintro (⟨rfl, rfl⟩ | ⟨rfl, rfl⟩ | ⟨rfl, rfl⟩ | ⟨rfl, rfl⟩ | ⟨rfl, rfl⟩ | ⟨rfl, rfl⟩ | ⟨rfl, rfl⟩ | ⟨rfl, rfl⟩ |
    ⟨rfl, rfl⟩) <;>
  simp [biweight, cosine, cosPartial, cosSquare, gauss, huber, lorentz, parabola, triweight, uniform]

/-- C90: the result is the amplitude times the kernel at the distance to the centre, where the distance is measured
in the widths along the axes: two orthogonal directions through the centre. -/
theorem C90_result (K : Kernel) (e : List ℝ) (hk : (K, e) ∈ kernels) (s : Shape) (p : ℕ → ℝ)
    (h3 : p 3 ≠ 0) (h4 : s ≠ .circle → p 4 ≠ 0) (a b : ℝ) (φ : ℝ) (hφ : φ = if s = .rotated then p 5 else 0)
    (w : ℝ) (hw : w = if s = .circle then p 3 else p 4) :
    s.result K (p 1 + a * p 3 * cos φ + b * w * sin φ, p 2 - a * p 3 * sin φ + b * w * cos φ) p
      = some (p 0 * K.result (√(a ^ 2 + b ^ 2))) := by
  obtain ⟨f, hf, hx⟩ := square K e hk
  have key : s.uv (p 1 + a * p 3 * cos φ + b * w * sin φ, p 2 - a * p 3 * sin φ + b * w * cos φ) p = (a, b) := by
    have hcs := sin_sq_add_cos_sq φ
    cases s
    · simp at hφ hw
      subst hφ hw
      simp only [Shape.uv, cos_zero, sin_zero, Prod.mk.injEq]
      constructor <;> field_simp <;> ring
    · have h4' := h4 (by simp)
      simp at hφ hw
      subst hφ hw
      simp only [Shape.uv, cos_zero, sin_zero, Prod.mk.injEq]
      constructor <;> field_simp <;> ring
    · have h4' := h4 (by simp)
      simp at hφ hw
      subst hφ hw
      simp only [Shape.uv, Prod.mk.injEq]
      constructor
      · rw [div_eq_iff h3]
        linear_combination a * p 3 * hcs
      · rw [div_eq_iff h4']
        linear_combination b * p 4 * hcs
  simp only [Shape.result, hf, key, Option.map_some]
  rw [← hx, mul_self_sqrt (by positivity)]
  congr 3
  ring

/-- C90: the shapes are nested. -/
theorem C90_nested (K : Kernel) (x : ℝ × ℝ) (p : ℕ → ℝ) :
    (p 5 = 0 → Shape.rotated.result K x p = Shape.ellipse.result K x p) ∧
    (p 4 = p 3 → Shape.ellipse.result K x p = Shape.circle.result K x p ∧
      Shape.rotated.result K x p = Shape.circle.result K x p) := by
  refine ⟨fun h => ?_, fun h => ⟨?_, ?_⟩⟩
  · simp [Shape.result, Shape.uv, h]
  · simp [Shape.result, Shape.uv, h]
  · have hcs := sin_sq_add_cos_sq (p 5)
    simp only [Shape.result, Shape.uv, h]
    congr 1
    funext f
    congr 2
    simp only [div_mul_div_comm, ← add_div]
    congr 1
    linear_combination ((x.1 - p 1) ^ 2 + (x.2 - p 2) ^ 2) * hcs

/-- The angle is documented as counterclockwise from the x-axis; it is clockwise. A kernel with a long first axis
is large in the direction of minus the angle, here at (1, -1) for an angle of π/4, and small at (1, 1). -/
theorem C90_counterexample_angle (p : ℕ → ℝ) (hp : p 0 = 1 ∧ p 1 = 0 ∧ p 2 = 0 ∧ p 3 = √2 ∧ p 4 = 1 / 2 ∧ p 5 = π / 4) :
    (∃ a b, Shape.rotated.result gauss (1, -1) p = some a ∧ Shape.rotated.result gauss (1, 1) p = some b ∧
      b < a) ∧
    Shape.rotated.uv (1, -1) p = (1, 0) := by
  obtain ⟨h0, h1, h2, h3, h4, h5⟩ := hp
  have hs2 : √2 * √2 = (2 : ℝ) := mul_self_sqrt (by norm_num)
  have hs : √2 ≠ (0 : ℝ) := by positivity
  refine ⟨⟨_, _, rfl, rfl, ?_⟩, ?_⟩
  · simp only [Shape.uv, h0, h1, h2, h3, h4, h5, cos_pi_div_four, sin_pi_div_four]
    simp only [one_mul]
    rw [exp_lt_exp]
    have e1 : ((1 - 0) * (√2 / 2) - (-1 - 0) * (√2 / 2)) / √2 = 1 := by field_simp; ring
    have e2 : ((1 - 0) * (√2 / 2) - (1 - 0) * (√2 / 2)) / √2 = 0 := by simp
    rw [e1, e2]
    nlinarith
  · simp only [Shape.uv, h1, h2, h3, h4, h5, cos_pi_div_four, sin_pi_div_four, Prod.mk.injEq]
    constructor
    · field_simp
      ring
    · ring

/-- C90: the shape is told by the first letter, in either case, or by a number; anything else is circular. -/
theorem C90_shapes : ['c', 'C', 'e', 'E', 'r', 'R'].map (fun c => toShape (parseShape (.word c)))
      = [.circle, .circle, .ellipse, .ellipse, .rotated, .rotated] ∧
    (∀ c, c ∉ ['e', 'E', 'r', 'R'] → toShape (parseShape (.word c)) = .circle) ∧
    (∀ n : ℤ, toShape (parseShape (.num n)) = if n = 2 then .ellipse else if n = 3 then .rotated else .circle) := by
  refine ⟨by decide, ?_, ?_⟩
  · intro c hc
    simp only [List.mem_cons, List.not_mem_nil, or_false, not_or] at hc
    obtain ⟨h1, h2, h3, h4⟩ := hc
    have key : parseShape (.word c) = 1 := by
      by_cases hx : c = 'x'
      · subst hx; decide
      by_cases hx1 : c = 'c'
      · subst hx1; decide
      by_cases hx2 : c = 'C'
      · subst hx2; decide
      have : ['x', 'x', 'c', 'C', 'e', 'E', 'r', 'R'].findIdx? (· = c) = none := by
        simp only [List.findIdx?_eq_none_iff, List.mem_cons, List.not_mem_nil, or_false]
        intro y hy
        simp only [decide_eq_false_iff_not]
        rintro rfl
        tauto
      simp only [parseShape, find, this]
      decide
    rw [key]
    decide
  · intro n
    simp only [parseShape, toShape]
    split_ifs <;> first | rfl | omega

/-- C90: a new model has a parameter for each of the numbers of its shape; centre and angle are 0 and the widths are
1, or 2 and 1/2 when it can turn. -/
theorem C90_start (s : Shape) (K : Kernel) : (s.pars K).length = s.npar ∧
    (s.pars K).tail = match s with
      | .circle => [0, 0, 1]
      | .ellipse => [0, 0, 1, 1]
      | .rotated => [0, 0, 2, 1 / 2, 0] := by
  cases s <;> simp [Shape.pars, Shape.npar]
  norm_num

/-- C90, where the code differs from the documentation: the amplitude of a new model is not 1, whatever the kernel; it
is 0 for the Huber kernel. -/
theorem C90_counterexample_amplitude (s : Shape) (K : Kernel) (e : List ℝ) (hk : (K, e) ∈ kernels) :
    (s.pars K)[0]? ≠ some 1 ∧ (s.pars huber)[0]? = some 0 := by
  have hp := Real.pi_gt_three
  have key : ∀ v : ℝ, v * π ≠ 2 → v ≠ 0 → 2.0 / (v * π) ≠ 1 := by
    intro v h1 h2 h3
    rw [div_eq_iff (by positivity)] at h3
    apply h1
    norm_num at h3
    exact h3.symm
  have h0 : (s.pars K)[0]? = some (match K.integral with
    | some v => 2.0 / (v * π)
    | none => 0) := by cases s <;> rfl
  refine ⟨?_, by cases s <;> rfl⟩
  rw [h0]
  intro h
  have h := Option.some.inj h
  simp only [kernels, List.mem_cons, List.not_mem_nil, or_false, Prod.mk.injEq] at hk
  rcases hk with ⟨rfl, -⟩ | ⟨rfl, -⟩ | ⟨rfl, -⟩ | ⟨rfl, -⟩ | ⟨rfl, -⟩ | ⟨rfl, -⟩ | ⟨rfl, -⟩ | ⟨rfl, -⟩ | ⟨rfl, -⟩
  · exact key (16 / 15) (by linarith) (by norm_num) h
  · exact key (4 / π) (by field_simp; norm_num) (by positivity) h
  · exact key 1 (by linarith) (by norm_num) h
  · refine key (√(2 * π)) ?_ (by positivity) h
    have : 1 < √(2 * π) := by
      rw [Real.lt_sqrt (by norm_num)]
      linarith
    nlinarith
  · simp [huber] at h
  · exact key π (by nlinarith) (by positivity) h
  · exact key (4 / 3) (by linarith) (by norm_num) h
  · exact key (32 / 35) (by linarith) (by norm_num) h
  · exact key 2 (by linarith) (by norm_num) h

/-! ## Derivatives -/

theorem uv_path (s : Shape) (X : ℝ → ℝ × ℝ) (q : ℝ → ℕ → ℝ) (t0 x1 x2 : ℝ) (q' : ℕ → ℝ)
    (hX1 : HasDerivAt (fun t => (X t).1) x1 t0) (hX2 : HasDerivAt (fun t => (X t).2) x2 t0)
    (hq : ∀ j, HasDerivAt (fun t => q t j) (q' j) t0) (h3 : q t0 3 ≠ 0) (h4 : s ≠ .circle → q t0 4 ≠ 0)
    (c n w : ℝ) (hc : c = if s = .rotated then cos (q t0 5) else 1)
    (hn : n = if s = .rotated then sin (q t0 5) else 0) (hw : w = if s = .circle then q t0 3 else q t0 4)
    (w' : ℝ) (hw' : w' = if s = .circle then q' 3 else q' 4) (a' : ℝ) (ha' : a' = if s = .rotated then q' 5 else 0) :
    HasDerivAt (fun t => (s.uv (X t) (q t)).1)
      (((x1 - q' 1) * c - (x2 - q' 2) * n
        + (-((X t0).1 - q t0 1) * n - ((X t0).2 - q t0 2) * c) * a') / q t0 3
        - (s.uv (X t0) (q t0)).1 * q' 3 / q t0 3) t0 ∧
    HasDerivAt (fun t => (s.uv (X t) (q t)).2)
      (((x1 - q' 1) * n + (x2 - q' 2) * c
        + (-((X t0).2 - q t0 2) * n + ((X t0).1 - q t0 1) * c) * a') / w
        - (s.uv (X t0) (q t0)).2 * w' / w) t0 := by
  have hA := hX1.fun_sub (hq 1)
  have hB := hX2.fun_sub (hq 2)
  cases s
  · simp at hc hn hw hw' ha'
    subst hc hn hw hw' ha'
    simp only [Shape.uv]
    constructor
    · refine (hA.fun_div (hq 3) h3).congr_deriv ?_
      field_simp
      ring
    · refine (hB.fun_div (hq 3) h3).congr_deriv ?_
      field_simp
      ring
  · have h4' := h4 (by simp)
    simp at hc hn hw hw' ha'
    subst hc hn hw hw' ha'
    simp only [Shape.uv]
    constructor
    · refine (hA.fun_div (hq 3) h3).congr_deriv ?_
      field_simp
      ring
    · refine (hB.fun_div (hq 4) h4').congr_deriv ?_
      field_simp
      ring
  · have h4' := h4 (by simp)
    simp at hc hn hw hw' ha'
    subst hc hn hw hw' ha'
    simp only [Shape.uv]
    constructor
    · refine (((hA.fun_mul (hq 5).cos).fun_sub (hB.fun_mul (hq 5).sin)).fun_div (hq 3) h3).congr_deriv ?_
      field_simp
      ring
    · refine (((hA.fun_mul (hq 5).sin).fun_add (hB.fun_mul (hq 5).cos)).fun_div (hq 4) h4').congr_deriv ?_
      field_simp
      ring

/-- The function of which the derivatives are taken. -/
theorem result_some (K : Kernel) (f : ℝ → ℝ) (hf : K.resultsq = some f) (s : Shape) (x : ℝ × ℝ) (p : ℕ → ℝ) :
    s.result K x p = some (p 0 * f ((s.uv x p).1 * (s.uv x p).1 + (s.uv x p).2 * (s.uv x p).2)) := by
  simp [Shape.result, hf]

theorem update_path (p : ℕ → ℝ) (k j : ℕ) :
    HasDerivAt (fun t => Function.update p k t j) (if j = k then 1 else 0) (p k) := by
  by_cases h : j = k
  · subst h
    simpa using hasDerivAt_id' (p j)
  · simpa [Function.update, h] using hasDerivAt_const (p k) (p j)

/-- C90: the partials are the derivatives of the result to the parameters, in the centre too, except at the edge of
a kernel with a kink or a step. -/
theorem C90_partials (K : Kernel) (e : List ℝ) (hk : (K, e) ∈ kernels) (s : Shape) (x : ℝ × ℝ) (p : ℕ → ℝ)
    (h3 : p 3 ≠ 0) (h4 : s ≠ .circle → p 4 ≠ 0)
    (he : √((s.uv x p).1 * (s.uv x p).1 + (s.uv x p).2 * (s.uv x p).2) ∉ e) :
    ∃ f : (ℕ → ℝ) → ℝ, (∀ q, s.result K x q = some (f q)) ∧
    ∀ k < s.npar, ∃ d, s.part K x p k = some d ∧ HasDerivAt (fun t => f (Function.update p k t)) d (p k) := by
  obtain ⟨f, hf, hx⟩ := square K e hk
  refine ⟨_, fun q => result_some K f hf s x q, ?_⟩
  intro k hk'
  set r := √((s.uv x p).1 * (s.uv x p).1 + (s.uv x p).2 * (s.uv x p).2) with hr
  have hK : HasDerivAt K.result (K.partialx r) r := by
    refine ((C37_derivative K e (kernels_edges hk) r).1 ?_)
    rwa [abs_of_nonneg (sqrt_nonneg _)]
  obtain ⟨hu, hv⟩ := uv_path s (fun _ => x) (Function.update p k) (p k) 0 0 (fun j => if j = k then 1 else 0)
    (hasDerivAt_const _ _) (hasDerivAt_const _ _) (update_path p k) (by simpa using h3) (by simpa using h4)
    _ _ _ rfl rfl rfl _ rfl _ rfl
  have hR := radial (K := K.result) hx _ _ (p k) _ _ r hu hv (by simp [hr]) hK
    (fun h => by rw [h]; exact (flat K e hk).1)
  have hT := (update_path p k 0).fun_mul hR
  simp only [Function.update_eq_self] at hT
  have hfr : f ((s.uv x p).1 * (s.uv x p).1 + (s.uv x p).2 * (s.uv x p).2) = K.result r := by
    rw [← hx, hr, mul_self_sqrt]
    have := mul_self_nonneg (s.uv x p).1
    have := mul_self_nonneg (s.uv x p).2
    linarith
  have hrr : r * r = (s.uv x p).1 * (s.uv x p).1 + (s.uv x p).2 * (s.uv x p).2 := by
    rw [hr, mul_self_sqrt]
    have := mul_self_nonneg (s.uv x p).1
    have := mul_self_nonneg (s.uv x p).2
    linarith
  have hru : unit (s.uv x p).1 r * (s.uv x p).1 + unit (s.uv x p).2 r * (s.uv x p).2 = r := by
    by_cases h : r = 0
    · rw [h, mul_zero] at hrr
      have h1 : (s.uv x p).1 = 0 := by
        nlinarith [mul_self_nonneg (s.uv x p).1, mul_self_nonneg (s.uv x p).2]
      have h2 : (s.uv x p).2 = 0 := by
        nlinarith [mul_self_nonneg (s.uv x p).1, mul_self_nonneg (s.uv x p).2]
      rw [h1, h2, h]
      simp
    · rw [unit, unit, if_neg h, if_neg h]
      field_simp
      linarith
  have hP0 : s.part K x p 0 = some (f ((s.uv x p).1 * (s.uv x p).1 + (s.uv x p).2 * (s.uv x p).2)) := by
    cases s <;> simp [Shape.part, hf]
  cases s
  · simp only [Shape.npar] at hk'
    simp only [reduceCtorEq, if_false, if_true] at hT
    have h1 : Shape.circle.part K x p 1 = some (-p 0 * K.partialx r * unit (Shape.circle.uv x p).1 r / p 3) := rfl
    have h2 : Shape.circle.part K x p 2 = some (-p 0 * K.partialx r * unit (Shape.circle.uv x p).2 r / p 3) := rfl
    have h3 : Shape.circle.part K x p 3 = some (-p 0 * K.partialx r * r / p 3) := rfl
    generalize (Shape.circle.uv x p).1 = u at *
    generalize (Shape.circle.uv x p).2 = v at *
    interval_cases k
    · exact ⟨_, hP0, hT.congr_deriv (by norm_num)⟩
    · refine ⟨_, h1, hT.congr_deriv ?_⟩
      norm_num
      ring
    · refine ⟨_, h2, hT.congr_deriv ?_⟩
      norm_num
      ring
    · refine ⟨_, h3, hT.congr_deriv ?_⟩
      norm_num
      linear_combination (-p 0 * K.partialx r / p 3) * hru
  · simp only [Shape.npar] at hk'
    simp only [reduceCtorEq, if_false] at hT
    have h1 : Shape.ellipse.part K x p 1 = some (-p 0 * K.partialx r * unit (Shape.ellipse.uv x p).1 r / p 3) := rfl
    have h2 : Shape.ellipse.part K x p 2 = some (-p 0 * K.partialx r * unit (Shape.ellipse.uv x p).2 r / p 4) := rfl
    have h3 : Shape.ellipse.part K x p 3
      = some (-p 0 * K.partialx r * (Shape.ellipse.uv x p).1 * unit (Shape.ellipse.uv x p).1 r / p 3) := rfl
    have h4 : Shape.ellipse.part K x p 4
      = some (-p 0 * K.partialx r * (Shape.ellipse.uv x p).2 * unit (Shape.ellipse.uv x p).2 r / p 4) := rfl
    generalize (Shape.ellipse.uv x p).1 = u at *
    generalize (Shape.ellipse.uv x p).2 = v at *
    interval_cases k
    · exact ⟨_, hP0, hT.congr_deriv (by norm_num)⟩
    · refine ⟨_, h1, hT.congr_deriv ?_⟩
      norm_num
      ring
    · refine ⟨_, h2, hT.congr_deriv ?_⟩
      norm_num
      ring
    · refine ⟨_, h3, hT.congr_deriv ?_⟩
      norm_num
      ring
    · refine ⟨_, h4, hT.congr_deriv ?_⟩
      norm_num
      ring
  · simp only [Shape.npar] at hk'
    simp only [reduceCtorEq, if_false, if_true] at hT
    have h1 : Shape.rotated.part K x p 1 = some (-p 0 * K.partialx r * (unit (Shape.rotated.uv x p).1 r * cos (p 5) / p 3
      + unit (Shape.rotated.uv x p).2 r * sin (p 5) / p 4)) := rfl
    have h2 : Shape.rotated.part K x p 2 = some (-p 0 * K.partialx r * (-unit (Shape.rotated.uv x p).1 r * sin (p 5) / p 3
      + unit (Shape.rotated.uv x p).2 r * cos (p 5) / p 4)) := rfl
    have h3 : Shape.rotated.part K x p 3
      = some (-p 0 * K.partialx r * unit (Shape.rotated.uv x p).1 r * (Shape.rotated.uv x p).1 / p 3) := rfl
    have h4 : Shape.rotated.part K x p 4
      = some (-p 0 * K.partialx r * unit (Shape.rotated.uv x p).2 r * (Shape.rotated.uv x p).2 / p 4) := rfl
    have h5 : Shape.rotated.part K x p 5
      = some (-(-p 0 * K.partialx r) * (unit (Shape.rotated.uv x p).1 r
          * (-(x.1 - p 1) * sin (p 5) - (x.2 - p 2) * cos (p 5)) / p 3
        + unit (Shape.rotated.uv x p).2 r * (-(x.2 - p 2) * sin (p 5) + (x.1 - p 1) * cos (p 5)) / p 4)) := rfl
    generalize (Shape.rotated.uv x p).1 = u at *
    generalize (Shape.rotated.uv x p).2 = v at *
    interval_cases k
    · exact ⟨_, hP0, hT.congr_deriv (by norm_num)⟩
    · refine ⟨_, h1, hT.congr_deriv ?_⟩
      norm_num
      ring
    · refine ⟨_, h2, hT.congr_deriv ?_⟩
      norm_num
      ring
    · refine ⟨_, h3, hT.congr_deriv ?_⟩
      norm_num
      ring
    · refine ⟨_, h4, hT.congr_deriv ?_⟩
      norm_num
      ring
    · refine ⟨_, h5, hT.congr_deriv ?_⟩
      norm_num
      ring

/-- C90: the derivatives of the result to both coordinates. Missing: the centre of the circular and elliptic
shapes, where the code divides by zero (`C90_counterexample_centre`). -/
theorem C90_derivative_partial (K : Kernel) (e : List ℝ) (hk : (K, e) ∈ kernels) (s : Shape) (x : ℝ × ℝ) (p : ℕ → ℝ)
    (h3 : p 3 ≠ 0) (h4 : s ≠ .circle → p 4 ≠ 0)
    (he : √((s.uv x p).1 * (s.uv x p).1 + (s.uv x p).2 * (s.uv x p).2) ∉ e)
    (hc : s = .rotated ∨ x ≠ (p 1, p 2)) :
    ∃ (f : ℝ × ℝ → ℝ) (d : ℝ × ℝ), (∀ y, s.result K y p = some (f y)) ∧ s.deriv K x p = some d ∧
      HasDerivAt (fun t => f (t, x.2)) d.1 x.1 ∧ HasDerivAt (fun t => f (x.1, t)) d.2 x.2 := by
  obtain ⟨f, hf, hx⟩ := square K e hk
  set r := √((s.uv x p).1 * (s.uv x p).1 + (s.uv x p).2 * (s.uv x p).2) with hr
  have hK : HasDerivAt K.result (K.partialx r) r := by
    refine ((C37_derivative K e (kernels_edges hk) r).1 ?_)
    rwa [abs_of_nonneg (sqrt_nonneg _)]
  have hflat : r = 0 → K.partialx r = 0 := fun h => by rw [h]; exact (flat K e hk).1
  obtain ⟨hu1, hv1⟩ := uv_path s (fun t => (t, x.2)) (fun _ => p) x.1 1 0 (fun _ => 0)
    (hasDerivAt_id' _) (hasDerivAt_const _ _) (fun j => hasDerivAt_const _ _) h3 h4 _ _ _ rfl rfl rfl _ rfl _ rfl
  obtain ⟨hu2, hv2⟩ := uv_path s (fun t => (x.1, t)) (fun _ => p) x.2 0 1 (fun _ => 0)
    (hasDerivAt_const _ _) (hasDerivAt_id' _) (fun j => hasDerivAt_const _ _) h3 h4 _ _ _ rfl rfl rfl _ rfl _ rfl
  have hR1 := (radial (K := K.result) hx _ _ x.1 _ _ r hu1 hv1 (by simp [hr]) hK hflat).const_mul (p 0)
  have hR2 := (radial (K := K.result) hx _ _ x.2 _ _ r hu2 hv2 (by simp [hr]) hK hflat).const_mul (p 0)
  have hr0 : s ≠ .rotated → r ≠ 0 := by
    intro hs h0
    have hxc : x ≠ (p 1, p 2) := by tauto
    have hrr : r * r = (s.uv x p).1 * (s.uv x p).1 + (s.uv x p).2 * (s.uv x p).2 := by
      rw [hr, mul_self_sqrt]
      have := mul_self_nonneg (s.uv x p).1
      have := mul_self_nonneg (s.uv x p).2
      linarith
    rw [h0, mul_zero] at hrr
    have h1 : (s.uv x p).1 = 0 := by
      nlinarith [mul_self_nonneg (s.uv x p).1, mul_self_nonneg (s.uv x p).2]
    have h2 : (s.uv x p).2 = 0 := by
      nlinarith [mul_self_nonneg (s.uv x p).1, mul_self_nonneg (s.uv x p).2]
    apply hxc
    cases s
    · simp only [Shape.uv, div_eq_zero_iff, h3, or_false] at h1 h2
      exact Prod.ext (by simpa using sub_eq_zero.1 h1) (by simpa using sub_eq_zero.1 h2)
    · have h4' := h4 (by simp)
      simp only [Shape.uv, div_eq_zero_iff, h3, h4', or_false] at h1 h2
      exact Prod.ext (by simpa using sub_eq_zero.1 h1) (by simpa using sub_eq_zero.1 h2)
    · exact absurd rfl hs
  cases s
  · have h0 := hr0 (by simp)
    have hd : Shape.circle.deriv K x p = some (p 0 * K.partialx r * ((Shape.circle.uv x p).1 / r) / p 3,
        p 0 * K.partialx r * ((Shape.circle.uv x p).2 / r) / p 3) := if_neg h0
    refine ⟨_, _, fun y => result_some K f hf _ y p, hd, hR1.congr_deriv ?_, hR2.congr_deriv ?_⟩
    · simp only [reduceCtorEq, if_false, unit, h0]
      norm_num
      ring
    · simp only [reduceCtorEq, if_false, unit, h0]
      norm_num
      ring
  · have h0 := hr0 (by simp)
    have hd : Shape.ellipse.deriv K x p = some (p 0 * K.partialx r * ((Shape.ellipse.uv x p).1 / r) / p 3,
        p 0 * K.partialx r * ((Shape.ellipse.uv x p).2 / r) / p 4) := if_neg h0
    refine ⟨_, _, fun y => result_some K f hf _ y p, hd, hR1.congr_deriv ?_, hR2.congr_deriv ?_⟩
    · simp only [reduceCtorEq, if_false, unit, h0]
      norm_num
      ring
    · simp only [reduceCtorEq, if_false, unit, h0]
      norm_num
      ring
  · have hd : Shape.rotated.deriv K x p = some (p 0 * K.partialx r * (unit (Shape.rotated.uv x p).1 r * cos (p 5) / p 3
        + unit (Shape.rotated.uv x p).2 r * sin (p 5) / p 4),
        p 0 * K.partialx r * (unit (Shape.rotated.uv x p).2 r * cos (p 5) / p 4
        - unit (Shape.rotated.uv x p).1 r * sin (p 5) / p 3)) := rfl
    refine ⟨_, _, fun y => result_some K f hf _ y p, hd, hR1.congr_deriv ?_, hR2.congr_deriv ?_⟩
    · simp only [reduceCtorEq, if_true, if_false, Prod.mk.eta]
      ring
    · simp only [reduceCtorEq, if_true, if_false, Prod.mk.eta]
      ring

/-- In the centre the code divides by zero, for the circular and elliptic shapes; the derivative exists there for all
of these kernels, it is 0. -/
theorem C90_counterexample_centre (K : Kernel) (e : List ℝ) (hk : (K, e) ∈ kernels) (s : Shape) (hs : s ≠ .rotated)
    (p : ℕ → ℝ) (h3 : p 3 ≠ 0) (h4 : s ≠ .circle → p 4 ≠ 0) :
    s.deriv K (p 1, p 2) p = none ∧
    ∃ f : ℝ × ℝ → ℝ, (∀ y, s.result K y p = some (f y)) ∧
      HasDerivAt (fun t => f (t, p 2)) 0 (p 1) ∧ HasDerivAt (fun t => f (p 1, t)) 0 (p 2) := by
  have huv : s.uv (p 1, p 2) p = (0, 0) := by
    cases s <;> simp [Shape.uv]
  constructor
  · cases s
    · simp [Shape.deriv, Shape.uv]
    · simp [Shape.deriv, Shape.uv]
    · exact absurd rfl hs
  · obtain ⟨f, hf, hx⟩ := square K e hk
    obtain ⟨hflat, hne⟩ := flat K e hk
    have hK : HasDerivAt K.result 0 0 :=
      ((C37_derivative K e (kernels_edges hk) 0).1 (by rwa [abs_zero])).congr_deriv hflat
    obtain ⟨hu1, hv1⟩ := uv_path s (fun t => (t, p 2)) (fun _ => p) (p 1) 1 0 (fun _ => 0)
      (hasDerivAt_id' _) (hasDerivAt_const _ _) (fun j => hasDerivAt_const _ _) h3 h4 _ _ _ rfl rfl rfl _ rfl _ rfl
    obtain ⟨hu2, hv2⟩ := uv_path s (fun t => (p 1, t)) (fun _ => p) (p 2) 0 1 (fun _ => 0)
      (hasDerivAt_const _ _) (hasDerivAt_id' _) (fun j => hasDerivAt_const _ _) h3 h4 _ _ _ rfl rfl rfl _ rfl _ rfl
    have hR1 := (radial (K := K.result) hx _ _ (p 1) _ _ 0 hu1 hv1 (by simp [huv]) hK (fun _ => rfl)).const_mul (p 0)
    have hR2 := (radial (K := K.result) hx _ _ (p 2) _ _ 0 hu2 hv2 (by simp [huv]) hK (fun _ => rfl)).const_mul (p 0)
    refine ⟨_, fun y => result_some K f hf _ y p, hR1.congr_deriv (by ring), hR2.congr_deriv (by ring)⟩

/-- With a kernel that has no result from the square, the result is undefined; with a convolved tophat it is not
the kernel at the distance: 0.75 at a distance where the kernel is 0.5. -/
theorem C90_counterexample_kernels (s : Shape) (x : ℝ × ℝ) (p : ℕ → ℝ) :
    s.result triangle x p = none ∧ s.result tricube x p = none ∧ s.result sinc x p = none ∧
    (p 0 = 1 ∧ p 1 = 0 ∧ p 2 = 0 ∧ p 3 = 1 → Shape.circle.result (tophat 1) (0.5, 0) p = some 0.75 ∧
      (tophat 1).result 0.5 = 0.5) := by
  refine ⟨rfl, rfl, rfl, ?_⟩
  rintro ⟨h0, h1, h2, h3⟩
  obtain ⟨⟨f, hf, hv, hv'⟩, -⟩ := C55_counterexample
  refine ⟨?_, hv'⟩
  simp only [Shape.result, Shape.uv, hf, Option.map_some, h0, h1, h2, h3]
  rw [← hv]
  norm_num

/-! ## A concrete case -/

/-- A rotated Lorentz with a negative width. -/
example : ∃ f : (ℕ → ℝ) → ℝ, (∀ q, Shape.rotated.result lorentz (2, 2) q = some (f q)) ∧
    ∃ d, Shape.rotated.part lorentz (2, 2) (fun k => [3, 1, 1, -2, 0.5, 0].getD k 0) 5 = some d ∧
      HasDerivAt (fun t => f (Function.update (fun k => [3, 1, 1, -2, 0.5, 0].getD k 0) 5 t)) d 0 := by
  obtain ⟨f, hf, h⟩ := C90_partials lorentz [] (by simp [kernels]) .rotated (2, 2)
    (fun k => [3, 1, 1, -2, 0.5, 0].getD k 0) (by norm_num) (by norm_num) (by simp)
  obtain ⟨d, hd, h1⟩ := h 5 (by decide)
  exact ⟨f, hf, d, hd, by simpa using h1⟩

end BF.Kernel2d
