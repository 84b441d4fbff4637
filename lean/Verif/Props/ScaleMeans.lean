import Verif.Props.Scales

/-!
# Properties of the noise scale as an average

C145: the noise scales are averages of the residuals.
-/

noncomputable section

namespace BF.ErrDis

open Real

variable {X : Type*}

/-! ## Specification -/

/-- The average of `g` over a list, with weights `w`. -/
def average {D : Type*} (l : List D) (w g : D → ℝ) : ℝ :=
  (l.map fun d => w d * g d).sum / (l.map w).sum

/-- No weight is negative and they are not all zero. -/
def Weighty {D : Type*} (l : List D) (w : D → ℝ) : Prop := (∀ d ∈ l, 0 ≤ w d) ∧ ∃ d ∈ l, 0 < w d

/-- `m` is the largest of the values of `g`. -/
def Largest {D : Type*} (l : List D) (g : D → ℝ) (m : ℝ) : Prop := (∀ d ∈ l, g d ≤ m) ∧ ∃ d ∈ l, g d = m

/-! ## Averages -/

theorem total_pos {D : Type*} (l : List D) (w : D → ℝ) (h : Weighty l w) : 0 < (l.map w).sum :=
  sum_pos_of l w h.1 h.2

theorem weighted_le {D : Type*} (l : List D) (w g k : D → ℝ) (hw : ∀ d ∈ l, 0 ≤ w d) (h : ∀ d ∈ l, g d ≤ k d) :
    (l.map fun d => w d * g d).sum ≤ (l.map fun d => w d * k d).sum := by
  induction l with
  | nil => simp
  | cons d l ih =>
    simp only [List.map_cons, List.sum_cons]
    exact add_le_add (mul_le_mul_of_nonneg_left (h d (by simp)) (hw d (by simp)))
      (ih (fun e he => hw e (by simp [he])) (fun e he => h e (by simp [he])))

theorem weighted_const {D : Type*} (l : List D) (w : D → ℝ) (c : ℝ) :
    (l.map fun d => w d * c).sum = c * (l.map w).sum := by
  induction l with
  | nil => simp
  | cons d l ih => simp only [List.map_cons, List.sum_cons, ih]; ring

theorem average_le {D : Type*} (l : List D) (w g : D → ℝ) (c : ℝ) (h : Weighty l w) (hg : ∀ d ∈ l, g d ≤ c) :
    average l w g ≤ c := by
  unfold average
  rw [div_le_iff₀ (total_pos l w h), ← weighted_const]
  exact weighted_le l w g _ h.1 hg

theorem le_average {D : Type*} (l : List D) (w g : D → ℝ) (c : ℝ) (h : Weighty l w) (hg : ∀ d ∈ l, c ≤ g d) :
    c ≤ average l w g := by
  unfold average
  rw [le_div_iff₀ (total_pos l w h), ← weighted_const]
  exact weighted_le l w _ g h.1 hg

theorem average_nonneg {D : Type*} (l : List D) (w g : D → ℝ) (h : Weighty l w) (hg : ∀ d ∈ l, 0 ≤ g d) :
    0 ≤ average l w g := le_average l w g 0 h hg

theorem sum_square {D : Type*} (l : List D) (w g : D → ℝ) (m : ℝ) :
    (l.map fun d => w d * (g d - m) ^ 2).sum
      = (l.map fun d => w d * g d ^ 2).sum - 2 * m * (l.map fun d => w d * g d).sum + m ^ 2 * (l.map w).sum := by
  induction l with
  | nil => simp
  | cons d l ih => simp only [List.map_cons, List.sum_cons, ih]; ring

/-- The square of the average is at most the average of the squares. -/
theorem square_average {D : Type*} (l : List D) (w g : D → ℝ) (h : Weighty l w) :
    average l w g ^ 2 ≤ average l w fun d => g d ^ 2 := by
  have hW := total_pos l w h
  have h1 : 0 ≤ (l.map fun d => w d * (g d - average l w g) ^ 2).sum := by
    apply List.sum_nonneg
    intro x hx
    obtain ⟨d, hd, rfl⟩ := List.mem_map.1 hx
    exact mul_nonneg (h.1 d hd) (sq_nonneg _)
  rw [sum_square] at h1
  have h2 : (l.map fun d => w d * g d).sum = average l w g * (l.map w).sum := by
    unfold average
    rw [div_mul_cancel₀ _ hW.ne']
  rw [h2] at h1
  have h3 : average l w (fun d => g d ^ 2) = (l.map fun d => w d * g d ^ 2).sum / (l.map w).sum := rfl
  rw [h3, le_div_iff₀ hW]
  nlinarith

theorem largest_foldr {D : Type*} (l : List D) (g : D → ℝ) (h0 : ∀ d ∈ l, 0 ≤ g d) (hne : l ≠ []) :
    Largest l g ((l.map g).foldr max 0) := by
  induction l with
  | nil => exact absurd rfl hne
  | cons d l ih =>
    simp only [List.map_cons, List.foldr_cons]
    by_cases hl : l = []
    · subst hl
      have := h0 d (by simp)
      exact ⟨by simp, d, by simp, by simp [this]⟩
    · obtain ⟨h1, e, he, h2⟩ := ih (fun e he => h0 e (by simp [he])) hl
      refine ⟨?_, ?_⟩
      · intro x hx
        rcases List.mem_cons.1 hx with rfl | hx
        · exact le_max_left _ _
        · exact (h1 x hx).trans (le_max_right _ _)
      · rcases le_total (g d) ((l.map g).foldr max 0) with h | h
        · exact ⟨e, by simp [he], by rw [max_eq_right h, h2]⟩
        · exact ⟨d, by simp, by rw [max_eq_left h]⟩

/-! ## The scales -/

/-- The Gaussian scale is the root of the average square of the residuals. It does not matter what the scale among
the parameters was. -/
theorem C145_gauss (P : Prob X) (p : List ℝ) (hlen : p.length = P.np) (s0 : ℝ) :
    gaussScale P.sumweight P (p ++ [s0]) = √(average P.data P.wgt fun d => P.residual p d ^ 2) := by
  unfold gaussScale getChisq average
  rw [sumweight_eq]
  simp only [if_pos (show 1 > 0 by norm_num)]
  congr 3
  apply List.map_congr_left
  intro d _
  simp only [Prob.weightedResSq, allBut_one, ← hlen, List.take_length, Prob.wgt]
  rcases P.hasW with _ | _ <;> simp <;> ring

/-- The scale with a Poisson distribution is the same, without a scale among the parameters. -/
theorem C145_poisson (P : Prob X) (p : List ℝ) (hlen : p.length = P.np) :
    poissonScale P.sumweight P p = √(average P.data P.wgt fun d => P.residual p d ^ 2) := by
  unfold poissonScale getChisq average
  rw [sumweight_eq]
  simp only [if_neg (show ¬ 0 > 0 by norm_num)]
  congr 3
  apply List.map_congr_left
  intro d _
  simp only [Prob.weightedResSq, ← hlen, List.take_length, Prob.wgt]
  rcases P.hasW with _ | _ <;> simp <;> ring

/-- The Laplace scale is the average absolute residual. -/
theorem C145_laplace (P : Prob X) (p : List ℝ) (hw : ∀ d ∈ P.data, 0 ≤ P.wgt d) (s0 : ℝ) :
    laplaceScale P.sumweight P (p ++ [s0]) = average P.data P.wgt fun d => |P.residual p d| := by
  unfold laplaceScale laplaceSumRes average
  rw [sumweight_eq]
  congr 2
  apply List.map_congr_left
  intro d hd
  have := hw d hd
  simp only [allBut_one, div_one, Prob.wgt] at this ⊢
  rcases hb : P.hasW with _ | _
  · simp
  · simp only [hb, if_true] at this ⊢
    rw [abs_mul, abs_of_nonneg this]
    ring

/-- The uniform scale is the largest absolute residual. -/
theorem C145_uniform (P : Prob X) (p : List ℝ) (hne : P.data ≠ []) (s0 : ℝ) :
    Largest P.data (fun d => |P.residual p d|) (uniformScale P (p ++ [s0])) := by
  unfold uniformScale
  rw [allBut_one]
  exact largest_foldr P.data _ (fun d _ => abs_nonneg _) hne

/-- For the same residuals the Laplace scale is at most the Gaussian one, and that is at most the uniform one. All
are at least as large as the smallest absolute residual. -/
theorem C145_order (P : Prob X) (p : List ℝ) (hlen : p.length = P.np) (h : Weighty P.data P.wgt) (s0 s1 s2 m : ℝ)
    (hm : ∀ d ∈ P.data, m ≤ |P.residual p d|) :
    m ≤ laplaceScale P.sumweight P (p ++ [s0])
      ∧ laplaceScale P.sumweight P (p ++ [s0]) ≤ gaussScale P.sumweight P (p ++ [s1])
      ∧ gaussScale P.sumweight P (p ++ [s1]) ≤ uniformScale P (p ++ [s2]) := by
  have hne : P.data ≠ [] := by
    obtain ⟨d, hd, _⟩ := h.2
    exact List.ne_nil_of_mem hd
  obtain ⟨hu, e, _, hue⟩ := C145_uniform P p hne s2
  have hu0 : 0 ≤ uniformScale P (p ++ [s2]) := hue ▸ abs_nonneg _
  have hsq : (fun d => |P.residual p d| ^ 2) = fun d => P.residual p d ^ 2 := by
    funext d
    exact sq_abs _
  rw [C145_laplace P p h.1, C145_gauss P p hlen]
  refine ⟨le_average _ _ _ m h hm, ?_, ?_⟩
  · apply le_sqrt_of_sq_le
    rw [← hsq]
    exact square_average _ _ _ h
  · rw [sqrt_le_left hu0]
    apply average_le _ _ _ _ h
    intro d hd
    rw [← sq_abs]
    exact pow_le_pow_left₀ (abs_nonneg _) (hu d hd) 2

/-- The scale is zero only when all residuals with a weight are zero. -/
theorem C145_zero (P : Prob X) (p : List ℝ) (hlen : p.length = P.np) (h : Weighty P.data P.wgt) (s0 : ℝ) :
    gaussScale P.sumweight P (p ++ [s0]) = 0 ↔ ∀ d ∈ P.data, P.wgt d = 0 ∨ P.residual p d = 0 := by
  rw [C145_gauss P p hlen]
  have h0 := average_nonneg P.data P.wgt (fun d => P.residual p d ^ 2) h fun d _ => sq_nonneg _
  rw [sqrt_eq_zero h0]
  unfold average
  rw [div_eq_zero_iff, or_iff_left (total_pos _ _ h).ne']
  constructor
  · intro hs d hd
    by_contra hc
    rw [not_or] at hc
    have := sum_pos_of P.data (fun d => P.wgt d * P.residual p d ^ 2)
      (fun e he => mul_nonneg (h.1 e he) (sq_nonneg _))
      ⟨d, hd, mul_pos (lt_of_le_of_ne (h.1 d hd) (Ne.symm hc.1)) (by have := hc.2; positivity)⟩
    exact this.ne' hs
  · intro hs
    apply List.sum_eq_zero
    intro x hx
    obtain ⟨d, hd, rfl⟩ := List.mem_map.1 hx
    rcases hs d hd with h1 | h1 <;> simp [h1]

/-- `Q` is `P` with the data and the model in units that are `c` times as small. -/
def Rescaled (c : ℝ) (P Q : Prob X) : Prop :=
  Q.data = (P.data.map fun d => { d with y := c * d.y }) ∧ Q.np = P.np ∧ Q.hasW = P.hasW
    ∧ (∀ (x : X) (p : List ℝ), Q.f x p = c * P.f x p) ∧ P.cyclic = none ∧ Q.cyclic = none

theorem rescaled_residual (c : ℝ) (P Q : Prob X) (h : Rescaled c P Q) (p : List ℝ) (d : Datum X) :
    Q.residual p { d with y := c * d.y } = c * P.residual p d := by
  obtain ⟨_, _, _, hf, h1, h2⟩ := h
  simp only [Prob.residual, Prob.fold, h1, h2, hf]
  ring

/-- In other units of the data the Gaussian, the Poisson and the Laplace scale and the uniform scale are the same scales in
those units. -/
theorem C145_units (c : ℝ) (hc : 0 < c) (P Q : Prob X) (h : Rescaled c P Q) (p : List ℝ) (hlen : p.length = P.np)
    (hw : ∀ d ∈ P.data, 0 ≤ P.wgt d) (s0 s1 : ℝ) :
    gaussScale Q.sumweight Q (p ++ [s1]) = c * gaussScale P.sumweight P (p ++ [s0])
      ∧ poissonScale Q.sumweight Q p = c * poissonScale P.sumweight P p
      ∧ laplaceScale Q.sumweight Q (p ++ [s1]) = c * laplaceScale P.sumweight P (p ++ [s0])
      ∧ uniformScale Q (p ++ [s1]) = c * uniformScale P (p ++ [s0]) := by
  have hr := rescaled_residual c P Q h p
  obtain ⟨hd, hn, hW, hf, _, _⟩ := h
  have hwt : ∀ d : Datum X, Q.wgt { d with y := c * d.y } = P.wgt d := by
    intro d
    simp [Prob.wgt, hW]
  have key : ∀ (g : ℝ → ℝ) (k : ℝ), (∀ r, g (c * r) = k * g r) →
      average Q.data Q.wgt (fun d => g (Q.residual p d)) = k * average P.data P.wgt fun d => g (P.residual p d) := by
    intro g k hg
    unfold average
    rw [hd, List.map_map, List.map_map]
    have e1 : (Q.wgt ∘ fun d : Datum X => { d with y := c * d.y }) = P.wgt := funext hwt
    have e2 : ((fun d => Q.wgt d * g (Q.residual p d)) ∘ fun d : Datum X => { d with y := c * d.y })
        = fun d => (P.wgt d * g (P.residual p d)) * k := by
      funext d
      simp only [Function.comp, hwt, hr, hg]
      ring
    rw [e1, e2, weighted_const, mul_div_assoc]
  have hsq := key (fun r => r ^ 2) (c ^ 2) fun r => by ring
  have hab := key (fun r => |r|) c fun r => by rw [abs_mul, abs_of_pos hc]
  have hq : √(average Q.data Q.wgt fun d => Q.residual p d ^ 2)
      = c * √(average P.data P.wgt fun d => P.residual p d ^ 2) := by
    rw [hsq, sqrt_mul (sq_nonneg c), sqrt_sq hc.le]
  have hwQ : ∀ d ∈ Q.data, 0 ≤ Q.wgt d := by
    intro d hm
    rw [hd] at hm
    obtain ⟨e, he, rfl⟩ := List.mem_map.1 hm
    rw [hwt]
    exact hw e he
  refine ⟨?_, ?_, ?_, ?_⟩
  · rw [C145_gauss P p hlen, C145_gauss Q p (hlen.trans hn.symm), hq]
  · rw [C145_poisson P p hlen, C145_poisson Q p (hlen.trans hn.symm), hq]
  · rw [C145_laplace P p hw, C145_laplace Q p hwQ, hab]
  · unfold uniformScale
    rw [allBut_one, allBut_one, hd, List.map_map]
    have e : ((fun d => |Q.residual p d|) ∘ fun d : Datum X => { d with y := c * d.y })
        = fun d => c * |P.residual p d| := by
      funext d
      simp only [Function.comp, hr, abs_mul, abs_of_pos hc]
    rw [e]
    generalize P.data = l
    induction l with
    | nil => simp
    | cons d l ih => simp only [List.map_cons, List.foldr_cons, ih, mul_max_of_nonneg _ _ hc.le]

/-- The scale with a Bernoulli distribution is calculated at no parameters at all, whatever parameters are given. -/
theorem C145_counterexample_bernoulli (P : Prob X) (p : List ℝ) (hne : P.data ≠ []) :
    Largest P.data (fun d => |P.residual [] d|) (bernoulliScale P p) := by
  unfold bernoulliScale butLast
  rw [if_pos rfl]
  exact largest_foldr P.data _ (fun d _ => abs_nonneg _) hne

/-- The one datum `1` of a model that is its own parameter. -/
def trueOne : Prob ℝ where
  data := [⟨0, 1, 1, 1⟩]
  np := 1
  f := fun _ p => p.getD 0 0
  df := fun _ _ => [1]
  hasW := false
  acc := .none
  cyclic := none

/-- With a perfect parameter the residual is 0 and the scale is 1. -/
theorem C145_counterexample_perfect :
    (∀ d ∈ trueOne.data, trueOne.residual [1] d = 0) ∧ bernoulliScale trueOne [1] = 1 := by
  constructor
  · simp [trueOne, Prob.residual, Prob.fold]
  · simp [bernoulliScale, butLast, trueOne, Prob.residual, Prob.fold]

/-! ## A concrete case -/

theorem demo_weighty : Weighty demo.data demo.wgt := by
  constructor
  · intro d hd
    simp [demo] at hd
    rcases hd with rfl | rfl <;> simp [Prob.wgt, demo]
  · exact ⟨⟨1, 3, 2, 1⟩, by simp [demo], by simp [Prob.wgt, demo]⟩

/-- Residuals 2 and -1: between 1 and 2. -/
example : 1 ≤ laplaceScale demo.sumweight demo ([1] ++ [1])
    ∧ laplaceScale demo.sumweight demo ([1] ++ [1]) ≤ gaussScale demo.sumweight demo ([1] ++ [1])
    ∧ gaussScale demo.sumweight demo ([1] ++ [1]) ≤ uniformScale demo ([1] ++ [1]) := by
  apply C145_order demo [1] rfl demo_weighty 1 1 1 1
  intro d hd
  simp [demo] at hd
  rcases hd with rfl | rfl <;> simp [Prob.residual, Prob.fold, demo] <;> norm_num

example : gaussScale demo.sumweight demo ([1] ++ [1]) ≠ 0 := by
  rw [Ne, C145_zero demo [1] rfl demo_weighty]
  intro h
  have := h ⟨1, 3, 2, 1⟩ (by simp [demo])
  simp [Prob.wgt, Prob.residual, Prob.fold, demo] at this
  norm_num at this

/-- The same data in units ten times as small. -/
example : Rescaled 10 trueOne { trueOne with data := [⟨0, 10, 1, 1⟩], f := fun _ p => 10 * p.getD 0 0 } := by
  refine ⟨?_, rfl, rfl, fun _ _ => rfl, rfl, rfl⟩
  simp [trueOne]

end BF.ErrDis
