import Verif.Props.Robust
import Mathlib.MeasureTheory.Integral.IntervalIntegral.FundThmCalculus
import Mathlib.Analysis.SpecialFunctions.Integrals.Basic

/-!
# C137: robust fitting minimises a robust loss
-/

open BF.Kernels Finset

namespace BF.Robust

variable {σ : Type*}

/-! ## Specification -/

/-- The penalty of a residual `x`, in units of the influence domain, that belongs to a weighting kernel: it starts as
`x ^ 2 / 2` and then grows more slowly, as its derivative is `x` times the kernel. -/
noncomputable def penalty (kernel : ℝ → ℝ) (x : ℝ) : ℝ := ∫ t in (0 : ℝ)..|x|, t * kernel t

/-- The residual at datum `i` for parameters `q`. -/
def resid (e : Env σ) (data q : List ℝ) (i : ℕ) : ℝ := data.getD i 0 - (e.yfit q).getD i 0

/-- The weight of datum `i`, 1 when there are no weights. -/
def weightAt (weights : Option (List ℝ)) (i : ℕ) : ℝ :=
  match weights with
  | none => 1
  | some w => w.getD i 0

/-- The weighted sum of squares. -/
noncomputable def squares (e : Env σ) (data : List ℝ) (weights : Option (List ℝ)) (q : List ℝ) : ℝ :=
  ∑ i ∈ range data.length, weightAt weights i * resid e data q i ^ 2

/-- The robust loss for residuals in units of `size`. -/
noncomputable def loss (e : Env σ) (data : List ℝ) (weights : Option (List ℝ)) (kernel : ℝ → ℝ) (size : ℝ)
    (q : List ℝ) : ℝ :=
  ∑ i ∈ range data.length, weightAt weights i * penalty kernel (resid e data q i / size)

/-- The inner fitter finds the least squares solution among the parameters in `P` (all lists of the proper length, for
a linear model), for which the model has a value at each datum. -/
def LeastSquares (e : Env σ) (data : List ℝ) (P : Set (List ℝ)) : Prop :=
  (∀ q ∈ P, (e.yfit q).length = data.length) ∧
  ∀ s w s' g, e.fit s data w = some (s', g) →
    g.param ∈ P ∧ 0 ≤ g.scale ∧ ∀ q ∈ P, squares e data w g.param ≤ squares e data w q

/-! ## The penalty -/

theorem kernel_abs (kernel : ℝ → ℝ) (hk : ∀ x y, |x| ≤ |y| → kernel y ≤ kernel x) (x : ℝ) :
    kernel |x| = kernel x :=
  le_antisymm (hk _ _ (by rw [abs_abs])) (hk _ _ (by rw [abs_abs]))

theorem integrable (kernel : ℝ → ℝ) (hk : ∀ x y, |x| ≤ |y| → kernel y ≤ kernel x) (a b : ℝ) (ha : 0 ≤ a)
    (hb : 0 ≤ b) : IntervalIntegrable (fun t => t * kernel t) MeasureTheory.volume a b := by
  have hant : AntitoneOn kernel (Set.uIcc a b) := by
    intro x hx y hy hxy
    have h0 : 0 ≤ x := le_trans (le_min ha hb) hx.1
    exact hk x y (by rw [abs_of_nonneg h0, abs_of_nonneg (le_trans h0 hxy)]; exact hxy)
  exact hant.intervalIntegrable.continuousOn_mul continuousOn_id

theorem part_le (kernel : ℝ → ℝ) (hk : ∀ x y, |x| ≤ |y| → kernel y ≤ kernel x) (a b : ℝ) (ha : 0 ≤ a)
    (hab : a ≤ b) : ∫ t in a..b, t * kernel t ≤ kernel a * ((b ^ 2 - a ^ 2) / 2) := by
  have h1 : ∫ t in a..b, t * kernel t ≤ ∫ t in a..b, t * kernel a := by
    apply intervalIntegral.integral_mono_on hab (integrable kernel hk a b ha (le_trans ha hab))
      ((continuous_id.mul continuous_const).intervalIntegrable a b)
    intro t ht
    apply mul_le_mul_of_nonneg_left _ (le_trans ha ht.1)
    exact hk a t (by rw [abs_of_nonneg ha, abs_of_nonneg (le_trans ha ht.1)]; exact ht.1)
  rw [intervalIntegral.integral_mul_const, integral_id] at h1
  linarith

theorem part_ge (kernel : ℝ → ℝ) (hk : ∀ x y, |x| ≤ |y| → kernel y ≤ kernel x) (a b : ℝ) (ha : 0 ≤ a)
    (hab : a ≤ b) : kernel b * ((b ^ 2 - a ^ 2) / 2) ≤ ∫ t in a..b, t * kernel t := by
  have h1 : ∫ t in a..b, t * kernel b ≤ ∫ t in a..b, t * kernel t := by
    apply intervalIntegral.integral_mono_on hab
      ((continuous_id.mul continuous_const).intervalIntegrable a b)
      (integrable kernel hk a b ha (le_trans ha hab))
    intro t ht
    apply mul_le_mul_of_nonneg_left _ (le_trans ha ht.1)
    exact hk t b (by rw [abs_of_nonneg (le_trans ha hab), abs_of_nonneg (le_trans ha ht.1)]; exact ht.2)
  rw [intervalIntegral.integral_mul_const, integral_id] at h1
  linarith

/-- The square with the weight of the kernel lies above the penalty. -/
theorem majorize (kernel : ℝ → ℝ) (hk : ∀ x y, |x| ≤ |y| → kernel y ≤ kernel x) (a b : ℝ) :
    penalty kernel b - penalty kernel a ≤ kernel a * ((b ^ 2 - a ^ 2) / 2) := by
  have hsub : penalty kernel b - penalty kernel a = ∫ t in |a|..|b|, t * kernel t := by
    unfold penalty
    exact intervalIntegral.integral_interval_sub_left (integrable kernel hk 0 |b| le_rfl (abs_nonneg b))
      (integrable kernel hk 0 |a| le_rfl (abs_nonneg a))
  rw [hsub, ← kernel_abs kernel hk a, ← sq_abs a, ← sq_abs b]
  rcases le_total |a| |b| with h | h
  · exact part_le kernel hk |a| |b| (abs_nonneg a) h
  · rw [intervalIntegral.integral_symm]
    have := part_ge kernel hk |b| |a| (abs_nonneg b) h
    linarith

/-! ## The turns -/

theorem loop_fits (e : Env σ) (data : List ℝ) (weights : Option (List ℝ)) (kernel : ℝ → ℝ) (domain : ℝ)
    (onesided : ℤ) (n : ℕ) (s s' : σ) (f : Fit) (steps : List Step)
    (h : loop e data weights kernel domain onesided n s f = some (s', steps)) (w0 : Option (List ℝ)) (s0 : σ)
    (hf : e.fit s0 data w0 = some (s, f)) :
    ∀ p ∈ pairs f steps, (∃ t w t', e.fit t data w = some (t', p.1)) ∧
      ∃ t t', e.fit t data (some p.2.weights) = some (t', p.2.fit) := by
  induction n generalizing s f steps w0 s0 with
  | zero =>
    simp only [loop, Option.some.injEq, Prod.mk.injEq] at h
    obtain ⟨_, rfl⟩ := h
    simp [pairs]
  | succ n ih =>
    simp only [loop] at h
    split at h
    · cases h
    split at h
    · cases h
    rename_i s1 g hg
    by_cases ht : |f.chisq - g.chisq| < if g.chisq < 1 then e.tolerance else e.tolerance * g.chisq
    · rw [if_pos ht] at h
      simp only [Option.some.injEq, Prod.mk.injEq] at h
      obtain ⟨_, rfl⟩ := h
      intro p hp
      simp only [pairs, List.mem_singleton] at hp
      subst hp
      exact ⟨⟨s0, w0, s, hf⟩, s, s1, hg⟩
    · rw [if_neg ht, Option.map_eq_some_iff] at h
      obtain ⟨⟨s2, rest⟩, hr, heq⟩ := h
      simp only [Prod.mk.injEq] at heq
      obtain ⟨rfl, rfl⟩ := heq
      intro p hp
      rcases List.mem_cons.1 hp with rfl | hp
      · exact ⟨⟨s0, w0, s, hf⟩, s, s1, hg⟩
      · exact ih s1 g rest hr _ s hg p hp

theorem turn_weights (e : Env σ) (s : σ) (data : List ℝ) (weights : Option (List ℝ)) (kernel : ℝ → ℝ)
    (hw : ∀ w, weights = some w → w.length = data.length ∧ ∀ v ∈ w, 0 ≤ v)
    (P : Set (List ℝ)) (hls : LeastSquares e data P)
    (domain : ℝ) (hdom : 0 < domain) (f : Fit) (steps : List Step) (last : Step)
    (h : fit e s data weights kernel domain 0 = some (f, steps, last)) (p : Fit × Step) (hp : p ∈ pairs f steps)
    (a1 : p.1.param ∈ P) (a2 : 0 ≤ p.1.scale) : ∀ i ∈ range data.length,
      0 ≤ weightAt weights i ∧
        weightAt (some p.2.weights) i = weightAt weights i * kernel (resid e data p.1.param i / (p.1.scale * domain)) := by
  have hx : ∀ r, ¬ Exempt 0 r := by
    rintro r (ht | ht)
    · exact absurd ht.1 (by norm_num)
    · exact absurd ht.1 (by norm_num)
  intro i hi
  have hi := mem_range.1 hi
  have hi2 : i < (e.yfit p.1.param).length := by rw [hls.1 _ a1]; exact hi
  have hres : residual e data p.1 i = some (resid e data p.1.param i) := by
    simp only [residual, resid, List.getElem?_eq_getElem hi, List.getElem?_eq_getElem hi2,
      List.getD_eq_getElem?_getD, Option.getD_some]
  rcases hwe : weights with _ | w
  · have := (C43_weights e s data weights kernel domain hdom 0 f steps last h p hp a2 i _ 1 hres
      (by rw [hwe]; rfl)).2 (hx _)
    refine ⟨by simp [weightAt], ?_⟩
    simp only [weightAt, List.getD_eq_getElem?_getD, this, Option.getD_some]
  · obtain ⟨hlen, hnn⟩ := hw w hwe
    have hi3 : i < w.length := by rw [hlen]; exact hi
    have := (C43_weights e s data weights kernel domain hdom 0 f steps last h p hp a2 i _ w[i] hres
      (by rw [hwe]; exact List.getElem?_eq_getElem hi3)).2 (hx _)
    constructor
    · simp only [weightAt, List.getD_eq_getElem?_getD, List.getElem?_eq_getElem hi3, Option.getD_some]
      exact hnn _ (List.getElem_mem hi3)
    · simp only [weightAt, List.getD_eq_getElem?_getD, this, List.getElem?_eq_getElem hi3, Option.getD_some]

/-- C137: each turn of a robust fit lowers the robust loss, in the units of that turn: by at least as much as it lowers
the weighted sum of squares, with the weights of the turn. -/
theorem C137_turn (e : Env σ) (s : σ) (data : List ℝ) (weights : Option (List ℝ)) (kernel : ℝ → ℝ)
    (hk : ∀ x y, |x| ≤ |y| → kernel y ≤ kernel x) (hw : ∀ w, weights = some w → w.length = data.length ∧ ∀ v ∈ w, 0 ≤ v)
    (P : Set (List ℝ)) (hls : LeastSquares e data P)
    (domain : ℝ) (hdom : 0 < domain) (f : Fit) (steps : List Step) (last : Step)
    (h : fit e s data weights kernel domain 0 = some (f, steps, last)) (p : Fit × Step) (hp : p ∈ pairs f steps) :
    let size := p.1.scale * domain
    squares e data (some p.2.weights) p.2.fit.param ≤ squares e data (some p.2.weights) p.1.param ∧
    loss e data weights kernel size p.2.fit.param
      ≤ loss e data weights kernel size p.1.param
        - (squares e data (some p.2.weights) p.1.param - squares e data (some p.2.weights) p.2.fit.param)
          / (2 * size ^ 2) := by
  intro size
  have h' := h
  simp only [fit] at h'
  split at h'
  · cases h'
  rename_i s1 f1 hf
  split at h'
  · cases h'
  rename_i s2 st hl
  rw [Option.map_eq_some_iff] at h'
  obtain ⟨l, hlast, heq⟩ := h'
  simp only [Prod.mk.injEq] at heq
  obtain ⟨rfl, rfl, rfl⟩ := heq
  obtain ⟨⟨t1, w1, t1', hprev⟩, t2, t2', hnext⟩ := loop_fits e data weights kernel domain 0 _ s1 s2 f1 st hl _ s hf p hp
  obtain ⟨a1, a2, _⟩ := hls.2 _ _ _ _ hprev
  obtain ⟨b1, _, b3⟩ := hls.2 _ _ _ _ hnext
  have hsq := b3 _ a1
  refine ⟨hsq, ?_⟩
  have hwt := turn_weights e s data weights kernel hw P hls domain hdom f1 st l h p hp a1 a2
  rw [show p.1.scale * domain = size from rfl] at hwt
  have hsize : size ≠ 0 := ((loop_spec e data weights kernel domain 0 _ s1 s2 f1 st hl).2.2.1 p hp).1
  have hmain : loss e data weights kernel size p.2.fit.param - loss e data weights kernel size p.1.param
      ≤ (squares e data (some p.2.weights) p.2.fit.param - squares e data (some p.2.weights) p.1.param)
        / (2 * size ^ 2) := by
    unfold loss squares
    rw [← sum_sub_distrib, ← sum_sub_distrib, sum_div]
    apply sum_le_sum
    intro i hi
    obtain ⟨w0, we⟩ := hwt i hi
    rw [we, ← mul_sub]
    have := mul_le_mul_of_nonneg_left (majorize kernel hk (resid e data p.1.param i / size)
      (resid e data p.2.fit.param i / size)) w0
    refine le_trans this (le_of_eq ?_)
    field_simp
  have : (squares e data (some p.2.weights) p.2.fit.param - squares e data (some p.2.weights) p.1.param)
        / (2 * size ^ 2)
      = -((squares e data (some p.2.weights) p.1.param - squares e data (some p.2.weights) p.2.fit.param)
        / (2 * size ^ 2)) := by ring
  linarith

/-- C137: so the loss never rises in a turn. -/
theorem C137_descends (e : Env σ) (s : σ) (data : List ℝ) (weights : Option (List ℝ)) (kernel : ℝ → ℝ)
    (hk : ∀ x y, |x| ≤ |y| → kernel y ≤ kernel x) (hw : ∀ w, weights = some w → w.length = data.length ∧ ∀ v ∈ w, 0 ≤ v)
    (P : Set (List ℝ)) (hls : LeastSquares e data P)
    (domain : ℝ) (hdom : 0 < domain) (f : Fit) (steps : List Step) (last : Step)
    (h : fit e s data weights kernel domain 0 = some (f, steps, last)) (p : Fit × Step) (hp : p ∈ pairs f steps) :
    loss e data weights kernel (p.1.scale * domain) p.2.fit.param
      ≤ loss e data weights kernel (p.1.scale * domain) p.1.param := by
  obtain ⟨h1, h2⟩ := C137_turn e s data weights kernel hk hw P hls domain hdom f steps last h p hp
  have : 0 ≤ (squares e data (some p.2.weights) p.1.param - squares e data (some p.2.weights) p.2.fit.param)
      / (2 * (p.1.scale * domain) ^ 2) := div_nonneg (by linarith) (by positivity)
  linarith

theorem pairs_chain (g : List ℝ → ℝ) (f : Fit) (steps : List Step)
    (h : ∀ p ∈ pairs f steps, g p.2.fit.param ≤ g p.1.param) :
    (f.param :: steps.map fun t => t.fit.param).Pairwise fun a b => g b ≤ g a := by
  induction steps generalizing f with
  | nil => simp
  | cons t ts ih =>
    have h1 : g t.fit.param ≤ g f.param := h (f, t) (by simp [pairs])
    have h2 := ih t.fit fun p hp => h p (by simp [pairs, hp])
    rw [List.map_cons, List.pairwise_cons]
    refine ⟨?_, h2⟩
    intro b hb
    rcases List.mem_cons.1 hb with rfl | hb
    · exact h1
    · exact le_trans ((List.pairwise_cons.1 h2).1 b hb) h1

/-- C137: as long as the scale of the noise stays the same, the loss goes down over all turns: the result of the robust
fit has a loss that is not above that of any fit before, the plain least squares fit included. -/
theorem C137_best (e : Env σ) (s : σ) (data : List ℝ) (weights : Option (List ℝ)) (kernel : ℝ → ℝ)
    (hk : ∀ x y, |x| ≤ |y| → kernel y ≤ kernel x) (hw : ∀ w, weights = some w → w.length = data.length ∧ ∀ v ∈ w, 0 ≤ v)
    (P : Set (List ℝ)) (hls : LeastSquares e data P)
    (domain : ℝ) (hdom : 0 < domain) (f : Fit) (steps : List Step) (last : Step)
    (h : fit e s data weights kernel domain 0 = some (f, steps, last)) (scale : ℝ)
    (hs : ∀ p ∈ pairs f steps, p.1.scale = scale) :
    (f.param :: steps.map fun t => t.fit.param).Pairwise
      (fun a b => loss e data weights kernel (scale * domain) b ≤ loss e data weights kernel (scale * domain) a) := by
  apply pairs_chain
  intro p hp
  rw [← hs p hp]
  exact C137_descends e s data weights kernel hk hw P hls domain hdom f steps last h p hp

/-- C137: for all kernels of the package but `Sinc`, which has side lobes. -/
theorem C137_kernels (k : Kernel) (hk : k ∈ [biweight, cosine, cosSquare, gauss, huber, lorentz, parabola, triangle,
    tricube, triweight, uniform, tophat 0, tophat 1, tophat 2, tophat 3, tophat 4, tophat 5, tophat 6])
    (e : Env σ) (s : σ) (data : List ℝ) (weights : Option (List ℝ))
    (hw : ∀ w, weights = some w → w.length = data.length ∧ ∀ v ∈ w, 0 ≤ v)
    (P : Set (List ℝ)) (hls : LeastSquares e data P)
    (domain : ℝ) (hdom : 0 < domain) (f : Fit) (steps : List Step) (last : Step)
    (h : fit e s data weights k.result domain 0 = some (f, steps, last)) (p : Fit × Step) (hp : p ∈ pairs f steps) :
    loss e data weights k.result (p.1.scale * domain) p.2.fit.param
      ≤ loss e data weights k.result (p.1.scale * domain) p.1.param :=
  C137_descends e s data weights k.result (fun x y hxy => C54_falls k hk x y hxy) hw P hls domain hdom f steps last h p hp

/-- C137: the loss is a robust one: never negative, never above half the squares, and the same on both sides. -/
theorem C137_penalty (kernel : ℝ → ℝ) (hk : ∀ x y, |x| ≤ |y| → kernel y ≤ kernel x)
    (h01 : ∀ x, 0 ≤ kernel x ∧ kernel x ≤ 1) (x y : ℝ) :
    0 ≤ penalty kernel x ∧ penalty kernel x ≤ x ^ 2 / 2 ∧ penalty kernel (-x) = penalty kernel x ∧
    (|x| ≤ |y| → penalty kernel x ≤ penalty kernel y) ∧
    (|x| ≤ |y| → penalty kernel y - penalty kernel x ≤ kernel x * ((y ^ 2 - x ^ 2) / 2)) := by
  have hz : penalty kernel 0 = 0 := by simp [penalty]
  have hup : ∀ x, penalty kernel x ≤ x ^ 2 / 2 := by
    intro x
    have := majorize kernel hk 0 x
    rw [hz] at this
    have h1 := (h01 0).2
    nlinarith [sq_nonneg x]
  have hmono : ∀ x y : ℝ, |x| ≤ |y| → penalty kernel x ≤ penalty kernel y := by
    intro x y hxy
    have := majorize kernel hk y x
    have h0 := (h01 y).1
    have : x ^ 2 ≤ y ^ 2 := sq_le_sq.2 hxy
    have : kernel y * ((x ^ 2 - y ^ 2) / 2) ≤ 0 := mul_nonpos_of_nonneg_of_nonpos h0 (by linarith)
    linarith
  refine ⟨?_, hup x, by simp [penalty], hmono x y, fun _ => majorize kernel hk x y⟩
  have := hmono 0 x (by simp)
  rwa [hz] at this

/-! ## Where it ends -/

/-- The model is linear in its parameters: of the residuals of two sets of parameters each mean is attained too. -/
def Straight (e : Env σ) (data : List ℝ) (P : Set (List ℝ)) : Prop :=
  ∀ p ∈ P, ∀ q ∈ P, ∀ t : ℝ, 0 ≤ t → t ≤ 1 → ∃ z ∈ P, ∀ i < data.length,
    resid e data z i = resid e data p i + t * (resid e data q i - resid e data p i)

theorem penalty_convex (kernel : ℝ → ℝ) (hk : ∀ x y, |x| ≤ |y| → kernel y ≤ kernel x) (h0 : ∀ x, 0 ≤ kernel x)
    (hm : ∀ x y, 0 ≤ x → x ≤ y → x * kernel x ≤ y * kernel y) (a b : ℝ) :
    kernel a * (a * (b - a)) ≤ penalty kernel b - penalty kernel a := by
  have hsub : penalty kernel b - penalty kernel a = ∫ t in |a|..|b|, t * kernel t := by
    unfold penalty
    exact intervalIntegral.integral_interval_sub_left (integrable kernel hk 0 |b| le_rfl (abs_nonneg b))
      (integrable kernel hk 0 |a| le_rfl (abs_nonneg a))
  have h1 : |a| * kernel |a| * (|b| - |a|) ≤ ∫ t in |a|..|b|, t * kernel t := by
    rcases le_total |a| |b| with h | h
    · have : ∫ t in |a|..|b|, |a| * kernel |a| ≤ ∫ t in |a|..|b|, t * kernel t := by
        apply intervalIntegral.integral_mono_on h intervalIntegrable_const
          (integrable kernel hk _ _ (abs_nonneg a) (abs_nonneg b))
        intro t ht
        exact hm _ _ (abs_nonneg a) ht.1
      rw [intervalIntegral.integral_const, smul_eq_mul] at this
      linarith
    · have : ∫ t in |b|..|a|, t * kernel t ≤ ∫ t in |b|..|a|, |a| * kernel |a| := by
        apply intervalIntegral.integral_mono_on h
          (integrable kernel hk _ _ (abs_nonneg b) (abs_nonneg a)) intervalIntegrable_const
        intro t ht
        exact hm _ _ (le_trans (abs_nonneg b) ht.1) ht.2
      rw [intervalIntegral.integral_const, smul_eq_mul] at this
      rw [intervalIntegral.integral_symm]
      linarith
  rw [hsub]
  refine le_trans ?_ h1
  rw [kernel_abs kernel hk a]
  have h2 : a * b ≤ |a| * |b| := by rw [← abs_mul]; exact le_abs_self _
  have h3 : |a| * |a| = a * a := abs_mul_abs_self a
  have := mul_le_mul_of_nonneg_left h2 (h0 a)
  have e1 : |a| * kernel a * (|b| - |a|) = kernel a * (|a| * |b|) - kernel a * (|a| * |a|) := by ring
  rw [e1, h3]
  linarith

/-- C137: with a kernel that falls off no faster than 1 / x, as Huber's, and a linear model, the iterations can only come
to rest at the least robust loss of all: when a turn gives back the parameters it started with, no parameters have a
lower loss. -/
theorem C137_rest (e : Env σ) (s : σ) (data : List ℝ) (weights : Option (List ℝ)) (kernel : ℝ → ℝ)
    (hk : ∀ x y, |x| ≤ |y| → kernel y ≤ kernel x) (h0 : ∀ x, 0 ≤ kernel x)
    (hm : ∀ x y, 0 ≤ x → x ≤ y → x * kernel x ≤ y * kernel y)
    (hw : ∀ w, weights = some w → w.length = data.length ∧ ∀ v ∈ w, 0 ≤ v)
    (P : Set (List ℝ)) (hls : LeastSquares e data P) (hst : Straight e data P)
    (domain : ℝ) (hdom : 0 < domain) (f : Fit) (steps : List Step) (last : Step)
    (h : fit e s data weights kernel domain 0 = some (f, steps, last)) (p : Fit × Step) (hp : p ∈ pairs f steps)
    (hrest : p.2.fit.param = p.1.param) (q : List ℝ) (hq : q ∈ P) :
    loss e data weights kernel (p.1.scale * domain) p.2.fit.param
      ≤ loss e data weights kernel (p.1.scale * domain) q := by
  set size := p.1.scale * domain with hsz
  have h' := h
  simp only [fit] at h'
  split at h'
  · cases h'
  rename_i s1 f1 hf
  split at h'
  · cases h'
  rename_i s2 st hl
  rw [Option.map_eq_some_iff] at h'
  obtain ⟨l, hlast, heq⟩ := h'
  simp only [Prod.mk.injEq] at heq
  obtain ⟨rfl, rfl, rfl⟩ := heq
  obtain ⟨⟨t1, w1, t1', hprev⟩, t2, t2', hnext⟩ := loop_fits e data weights kernel domain 0 _ s1 s2 f1 st hl _ s hf p hp
  obtain ⟨a1, a2, _⟩ := hls.2 _ _ _ _ hprev
  obtain ⟨b1, _, b3⟩ := hls.2 _ _ _ _ hnext
  rw [hrest] at b3 ⊢
  have hwt := turn_weights e s data weights kernel hw P hls domain hdom f1 st l h p hp a1 a2
  have hsize : size ≠ 0 := ((loop_spec e data weights kernel domain 0 _ s1 s2 f1 st hl).2.2.1 p hp).1
  set W : ℕ → ℝ := fun i => weightAt (some p.2.weights) i with hW
  set r : ℕ → ℝ := fun i => resid e data p.1.param i with hr
  set d : ℕ → ℝ := fun i => resid e data q i - resid e data p.1.param i with hd
  have hW0 : ∀ i ∈ range data.length, 0 ≤ W i := by
    intro i hi
    obtain ⟨u, v⟩ := hwt i hi
    show 0 ≤ weightAt (some p.2.weights) i
    rw [v]
    exact mul_nonneg u (h0 _)
  set A := ∑ i ∈ range data.length, W i * (r i * d i) with hA
  set Q := ∑ i ∈ range data.length, W i * d i ^ 2 with hQ
  have hQ0 : 0 ≤ Q := sum_nonneg fun i hi => mul_nonneg (hW0 i hi) (sq_nonneg _)
  have hline : ∀ t : ℝ, 0 ≤ t → t ≤ 1 → 0 ≤ 2 * t * A + t ^ 2 * Q := by
    intro t ht0 ht1
    obtain ⟨z, hz, hzi⟩ := hst _ a1 q hq t ht0 ht1
    have := b3 z hz
    have e1 : squares e data (some p.2.weights) z
        = squares e data (some p.2.weights) p.1.param + (2 * t * A + t ^ 2 * Q) := by
      unfold squares
      rw [hA, hQ, mul_sum, mul_sum, ← sum_add_distrib, ← sum_add_distrib]
      apply sum_congr rfl
      intro i hi
      rw [hzi i (mem_range.1 hi)]
      simp only [hW, hr, hd]
      ring
    linarith
  have hA0 : 0 ≤ A := by
    by_contra hneg
    have hneg := not_le.1 hneg
    set t := min 1 (-A / (Q + 1)) with ht
    have htp : 0 < t := lt_min one_pos (div_pos (by linarith) (by linarith))
    have h1 := hline t htp.le (min_le_left _ _)
    have h2 : t * (Q + 1) ≤ -A := by
      rw [← le_div_iff₀ (by linarith)]
      exact min_le_right _ _
    nlinarith
  have hmain : A / size ^ 2 ≤ loss e data weights kernel size q - loss e data weights kernel size p.1.param := by
    unfold loss
    rw [hA, sum_div, ← sum_sub_distrib]
    apply sum_le_sum
    intro i hi
    obtain ⟨u, v⟩ := hwt i hi
    rw [← mul_sub]
    have := mul_le_mul_of_nonneg_left (penalty_convex kernel hk h0 hm (resid e data p.1.param i / size)
      (resid e data q i / size)) u
    refine le_trans (le_of_eq ?_) this
    simp only [hW, hr, hd]
    rw [v, ← hsz]
    generalize kernel (resid e data p.1.param i / size) = κ
    field_simp
  have : 0 ≤ A / size ^ 2 := div_nonneg hA0 (sq_nonneg _)
  linarith

/-- Huber's kernel is such a kernel. -/
theorem C137_huber (x y : ℝ) (hx : 0 ≤ x) (hxy : x ≤ y) : x * huber.result x ≤ y * huber.result y := by
  simp only [huber]
  rw [abs_of_nonneg hx, abs_of_nonneg (le_trans hx hxy)]
  have h1 : ∀ z : ℝ, 1 ≤ z → z * (1 / z) = 1 := fun z hz => by
    field_simp
  split_ifs with ha hb
  all_goals first
    | linarith
    | (rw [h1 _ (by linarith)]; linarith)
    | (rw [h1 _ (by linarith), h1 _ (by linarith)])

/-! ## The hypotheses are met -/

/-- A fitter of a constant to two data. -/
noncomputable def meanEnv : Env Unit where
  fit := fun _ data w =>
    if 0 < weightAt w 0 + weightAt w 1 then
      some ((), ⟨[(weightAt w 0 * data.getD 0 0 + weightAt w 1 * data.getD 1 0) / (weightAt w 0 + weightAt w 1)], 0, 1⟩)
    else none
  yfit := fun q => [q.getD 0 0, q.getD 0 0]
  maxIter := 5
  tolerance := 1

theorem mean_least (y z : ℝ) : LeastSquares meanEnv [y, z] {q | q.length = 1} := by
  refine ⟨fun q _ => rfl, ?_⟩
  intro s w s' g hg
  simp only [meanEnv] at hg
  split_ifs at hg with h0
  simp only [Option.some.injEq, Prod.mk.injEq, true_and] at hg
  subst hg
  refine ⟨rfl, by norm_num, ?_⟩
  intro q _
  simp only [squares, resid, meanEnv, List.length_cons, List.length_nil, sum_range_succ, range_zero, sum_empty,
    List.getD_cons_zero, List.getD_cons_succ]
  set a := weightAt w 0
  set b := weightAt w 1
  set c := q.getD 0 0
  have hm : (a * y + b * z) / (a + b) * (a + b) = a * y + b * z := div_mul_cancel₀ _ h0.ne'
  set m := (a * y + b * z) / (a + b)
  have h1 : 0 ≤ (a + b) * (m - c) ^ 2 := mul_nonneg h0.le (sq_nonneg _)
  have h2 : a * (y - c) ^ 2 + b * (z - c) ^ 2 - (a * (y - m) ^ 2 + b * (z - m) ^ 2) = (a + b) * (m - c) ^ 2 := by
    linear_combination (-2 * (m - c)) * hm
  linarith

/-- A robust fit of a constant to 0 and 5. -/
example : ∃ f steps last, fit meanEnv () [0, 5] none lorentz.result 1 0 = some (f, steps, last) ∧ f.scale = 1 ∧
    f.param = [5 / 2] := by
  have hpos : ∀ x : ℝ, 0 < lorentz.result x := by
    intro x
    exact div_pos one_pos (by nlinarith [mul_self_nonneg x])
  refine ⟨⟨[5 / 2], 0, 1⟩, ?_⟩
  have hw : 0 < weightAt (some (robustWeights lorentz.result 1 0 [0, 5] [5 / 2, 5 / 2] 1 none)) 0
      + weightAt (some (robustWeights lorentz.result 1 0 [0, 5] [5 / 2, 5 / 2] 1 none)) 1 := by
    simp only [weightAt, robustWeights, oneSidedWeights, if_true]
    exact add_pos (hpos _) (hpos _)
  obtain ⟨q, e1⟩ : ∃ q, meanEnv.fit () [0, 5] (some (robustWeights lorentz.result 1 0 [0, 5] [5 / 2, 5 / 2] 1 none))
      = some ((), ⟨q, 0, 1⟩) := ⟨_, if_pos hw⟩
  set W := robustWeights lorentz.result 1 0 [0, 5] [5 / 2, 5 / 2] 1 none with hW
  have e0 : meanEnv.fit () [0, 5] none = some ((), ⟨[5 / 2], 0, 1⟩) := by
    norm_num [meanEnv, weightAt]
  have ey : meanEnv.yfit [5 / 2] = [5 / 2, 5 / 2] := rfl
  have em : meanEnv.maxIter = 4 + 1 := rfl
  have et : meanEnv.tolerance = 1 := rfl
  refine ⟨[⟨W, ⟨q, 0, 1⟩⟩], ⟨W, ⟨q, 0, 1⟩⟩, ?_, rfl, rfl⟩
  unfold fit
  rw [e0]
  simp only [em, loop, ey, ← hW, e1, et]
  norm_num

theorem mean_straight (y z : ℝ) : Straight meanEnv [y, z] {q | q.length = 1} := by
  intro p _ q _ t _ _
  refine ⟨[p.getD 0 0 + t * (q.getD 0 0 - p.getD 0 0)], rfl, ?_⟩
  intro i hi
  have : i = 0 ∨ i = 1 := by simp at hi; omega
  rcases this with rfl | rfl
  · simp only [resid, meanEnv, List.getD_cons_zero]; ring
  · simp only [resid, meanEnv, List.getD_cons_zero, List.getD_cons_succ]; ring

/-- A robust fit that comes to rest, after one turn. -/
example : ∃ f steps last, fit meanEnv () [-5, 5] none huber.result 1 0 = some (f, steps, last) ∧
    ∃ p ∈ pairs f steps, p.2.fit.param = p.1.param := by
  have e0 : meanEnv.fit () [-5, 5] none = some ((), ⟨[0], 0, 1⟩) := by
    norm_num [meanEnv, weightAt]
  have ew : robustWeights huber.result 1 0 [-5, 5] [0, 0] 1 none = [1 / 5, 1 / 5] := by
    norm_num [robustWeights, oneSidedWeights, huber, abs_of_pos, abs_of_neg]
  have e1 : meanEnv.fit () [-5, 5] (some [1 / 5, 1 / 5]) = some ((), ⟨[0], 0, 1⟩) := by
    norm_num [meanEnv, weightAt]
  have ey : meanEnv.yfit [0] = [0, 0] := rfl
  have em : meanEnv.maxIter = 4 + 1 := rfl
  have et : meanEnv.tolerance = 1 := rfl
  refine ⟨⟨[0], 0, 1⟩, [⟨[1 / 5, 1 / 5], ⟨[0], 0, 1⟩⟩], ⟨[1 / 5, 1 / 5], ⟨[0], 0, 1⟩⟩, ?_,
    (⟨[0], 0, 1⟩, ⟨[1 / 5, 1 / 5], ⟨[0], 0, 1⟩⟩), by simp [pairs], rfl⟩
  unfold fit
  rw [e0]
  simp only [em, loop, ey, ew, e1, et]
  norm_num

end BF.Robust
