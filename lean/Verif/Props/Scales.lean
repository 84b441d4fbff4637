import Verif.Scales
import Verif.Props.ErrGrad
import Verif.Props.ErrNorm
import Mathlib.Analysis.Complex.ExponentialBounds

/-!
# Properties of the noise scale

C82: the scale that is calculated from the residuals is the one with the largest likelihood.
-/

noncomputable section

namespace BF.ErrDis

open Real

variable {X : Type*}

/-- `s` is the one scale with the largest log likelihood. -/
def BestScale (L : ℝ → ℝ) (s : ℝ) : Prop := 0 < s ∧ ∀ t, 0 < t → t ≠ s → L t < L s

/-- The weights, when there are any, are not negative, and there is a datum with a residual and a weight. -/
def Prob.Noisy (P : Prob X) (p : List ℝ) : Prop :=
  (∀ d ∈ P.data, 0 ≤ P.wgt d) ∧ ∃ d ∈ P.data, 0 < P.wgt d ∧ P.residual p d ≠ 0

theorem best_of (L : ℝ → ℝ) (A q σ c : ℝ) (hA : 0 < A) (hq : 0 < q) (hσ : 0 < σ)
    (h : ∀ s, 0 < s → L s = c - A * (σ / s) ^ q - A * q * log s) : BestScale L σ := by
  refine ⟨hσ, ?_⟩
  intro t ht hne
  rw [h t ht, h σ hσ, div_self hσ.ne', one_rpow]
  have hu : 0 < σ / t := div_pos hσ ht
  have hu1 : (σ / t) ^ q ≠ 1 := by
    intro h1
    have : σ / t = 1 := by
      have h2 : ((σ / t) ^ q) ^ (1 / q) = 1 := by rw [h1, one_rpow]
      rwa [← rpow_mul hu.le, mul_one_div_cancel hq.ne', rpow_one] at h2
    rw [div_eq_one_iff_eq ht.ne'] at this
    exact hne this.symm
  have hlog := log_lt_sub_one_of_pos (rpow_pos_of_pos hu q) hu1
  rw [log_rpow hu, log_div hσ.ne' ht.ne'] at hlog
  have := mul_lt_mul_of_pos_left hlog hA
  nlinarith

theorem sumweight_eq (P : Prob X) : P.sumweight = (P.data.map P.wgt).sum := by
  unfold Prob.sumweight Prob.wgt
  rcases P.hasW with _ | _ <;> simp

theorem sum_pos_of {D : Type*} (l : List D) (g : D → ℝ) (h0 : ∀ d ∈ l, 0 ≤ g d) (h1 : ∃ d ∈ l, 0 < g d) :
    0 < (l.map g).sum := by
  obtain ⟨d, hd, hg⟩ := h1
  have h2 : g d ≤ (l.map g).sum :=
    List.single_le_sum (by
      intro x hx
      obtain ⟨e, he, rfl⟩ := List.mem_map.1 hx
      exact h0 e he) _ (List.mem_map.2 ⟨d, hd, rfl⟩)
  linarith

theorem sumweight_pos (P : Prob X) (p : List ℝ) (h : P.Noisy p) : 0 < P.sumweight := by
  rw [sumweight_eq]
  obtain ⟨d, hd, hw, _⟩ := h.2
  exact sum_pos_of _ _ h.1 ⟨d, hd, hw⟩

theorem sum_linear {D : Type*} (l : List D) (w g : D → ℝ) (a b : ℝ) :
    (l.map fun d => a * (w d * g d) + b * w d).sum
      = a * (l.map fun d => w d * g d).sum + b * (l.map w).sum := by
  induction l with
  | nil => simp
  | cons d l ih => simp only [List.map_cons, List.sum_cons, ih]; ring

theorem varyy_zero (P : Prob X) (hacc : P.acc = .none) (d : Datum X) : P.varyy d = 0 := by
  simp [Prob.varyy, Prob.accuracy, hacc]

theorem scaleOf_none (P : Prob X) (hacc : P.acc = .none) (p : List ℝ) (s : ℝ) (d : Datum X) :
    scaleOf P (p ++ [s]) d = s := by
  simp [scaleOf, Prob.hasAccuracy, hacc]

theorem expScale_none (P : Prob X) (hacc : P.acc = .none) (p : List ℝ) (s q : ℝ) (d : Datum X) :
    expScale P (p ++ [s, q]) d = s := by
  simp [expScale, Prob.hasAccuracy, hacc]

theorem C82_gauss (P : Prob X) (hacc : P.acc = .none) (p : List ℝ) (hlen : p.length = P.np)
    (hn : P.Noisy p) (s0 : ℝ) :
    BestScale (fun s => logLhood (gaussLd P (p ++ [s])) P) (gaussScale P.sumweight P (p ++ [s0])) := by
  have hW := sumweight_pos P p hn
  set chi := (P.data.map fun d => P.wgt d * P.residual p d ^ 2).sum with hchi
  have hc : 0 < chi := by
    apply sum_pos_of
    · exact fun d hd => mul_nonneg (hn.1 d hd) (sq_nonneg _)
    · obtain ⟨d, hd, hw, hr⟩ := hn.2
      exact ⟨d, hd, mul_pos hw (by positivity)⟩
  have hσ : gaussScale P.sumweight P (p ++ [s0]) = √(chi / P.sumweight) := by
    unfold gaussScale getChisq
    simp only [if_pos (show 1 > 0 by norm_num), hchi]
    congr 3
    apply List.map_congr_left
    intro d _
    simp only [Prob.weightedResSq, allBut_one, ← hlen, List.take_length, Prob.wgt]
    rcases P.hasW with _ | _ <;> simp <;> ring
  rw [hσ]
  apply best_of _ (P.sumweight / 2) 2 _ (-(0.5 * LOG2PI) * P.sumweight) (by positivity) (by norm_num)
    (sqrt_pos.2 (by positivity))
  intro s hs
  have h1 : ∀ d, gaussLd P (p ++ [s]) d
      = -(1 / (2 * s ^ 2)) * (P.wgt d * P.residual p d ^ 2) + -(0.5 * (LOG2PI + 2 * log s)) * P.wgt d := by
    intro d
    have h2 : log (s * s + 0) = 2 * log s := by rw [add_zero, ← pow_two, log_pow]; norm_num
    simp only [gaussLd, gaussS2, Prob.weightedResSq, fromEnd_one, varyy_zero P hacc, h2,
      take_left' p [s] P.np hlen, Prob.wgt]
    rcases P.hasW with _ | _
    · simp only [Bool.false_eq_true, if_false]
      field_simp
      ring
    · simp only [if_true]
      field_simp
      ring
  unfold logLhood
  rw [List.map_congr_left fun d _ => h1 d, sum_linear, ← hchi, ← sumweight_eq, rpow_two, div_pow,
    sq_sqrt (by positivity)]
  field_simp
  ring

theorem C82_laplace (P : Prob X) (hacc : P.acc = .none) (p : List ℝ) (hlen : p.length = P.np)
    (hn : P.Noisy p) (s0 : ℝ) :
    BestScale (fun s => logLhood (laplaceLd P (p ++ [s])) P) (laplaceScale P.sumweight P (p ++ [s0])) := by
  have hW := sumweight_pos P p hn
  set chi := (P.data.map fun d => P.wgt d * |P.residual p d|).sum with hchi
  have hc : 0 < chi := by
    apply sum_pos_of
    · exact fun d hd => mul_nonneg (hn.1 d hd) (abs_nonneg _)
    · obtain ⟨d, hd, hw, hr⟩ := hn.2
      exact ⟨d, hd, mul_pos hw (by positivity)⟩
  have hσ : laplaceScale P.sumweight P (p ++ [s0]) = chi / P.sumweight := by
    unfold laplaceScale laplaceSumRes
    rw [hchi]
    congr 2
    apply List.map_congr_left
    intro d hd
    have := hn.1 d hd
    simp only [allBut_one, div_one, Prob.wgt] at this ⊢
    rcases hb : P.hasW with _ | _
    · simp
    · simp only [hb, if_true] at this ⊢
      rw [abs_mul, abs_of_nonneg this]
      ring
  rw [hσ]
  apply best_of _ P.sumweight 1 _ (-(log 2) * P.sumweight) hW one_pos (by positivity)
  intro s hs
  have h1 : ∀ d, laplaceLd P (p ++ [s]) d
      = -(1 / s) * (P.wgt d * |P.residual p d|) + -(log 2 + log s) * P.wgt d := by
    intro d
    simp only [laplaceLd, scaleOf_none P hacc, take_left' p [s] P.np hlen, Prob.wgt]
    rcases P.hasW with _ | _
    · simp only [Bool.false_eq_true, if_false]
      field_simp
      ring
    · simp only [if_true]
      field_simp
      ring
  unfold logLhood
  rw [List.map_congr_left fun d _ => h1 d, sum_linear, ← hchi, ← sumweight_eq, rpow_one]
  field_simp
  ring

theorem power_chi (P : Prob X) (p : List ℝ) (hn : P.Noisy p) (q : ℝ) :
    0 < (P.data.map fun d => P.wgt d * |P.residual p d| ^ q).sum := by
  apply sum_pos_of
  · exact fun d hd => mul_nonneg (hn.1 d hd) (rpow_nonneg (abs_nonneg _) _)
  · obtain ⟨d, hd, hw, hr⟩ := hn.2
    exact ⟨d, hd, mul_pos hw (rpow_pos_of_pos (abs_pos.2 hr) _)⟩

theorem powerScale_eq (P : Prob X) (p : List ℝ) (s0 q : ℝ) :
    powerScale P.sumweight P (p ++ [s0, q])
      = ((P.data.map fun d => P.wgt d * |P.residual p d| ^ q).sum / P.sumweight) ^ (1 / q) := by
  unfold powerScale expChipow
  simp only [fromEnd_two_one, allBut_two]
  norm_num
  congr 3
  apply List.map_congr_left
  intro d _
  simp only [Prob.wgt]
  rcases P.hasW with _ | _ <;> simp <;> ring

/-- For the exponential distribution: the best scale is larger than the one that is given by a factor. -/
theorem power_best (P : Prob X) (hacc : P.acc = .none) (p : List ℝ) (hn : P.Noisy p) (s0 q : ℝ) (hq : 0 < q) :
    BestScale (fun s => logLhood (expLd P (p ++ [s, q])) P)
      (q ^ (1 / q) * powerScale P.sumweight P (p ++ [s0, q])) := by
  have hW := sumweight_pos P p hn
  have hc := power_chi P p hn q
  rw [powerScale_eq]
  set chi := (P.data.map fun d => P.wgt d * |P.residual p d| ^ q).sum with hchi
  rw [← mul_rpow hq.le (by positivity)]
  apply best_of _ (P.sumweight / q) q _ ((log (q / 2) - gammaln (1 / q)) * P.sumweight) (by positivity) hq
    (by positivity)
  intro s hs
  have h1 : ∀ d, expLd P (p ++ [s, q]) d
      = -(1 / s ^ q) * (P.wgt d * |P.residual p d| ^ q)
        + (log (q / 2) - log s - gammaln (1 / q)) * P.wgt d := by
    intro d
    simp only [expLd, expScale_none P hacc, fromEnd_two_one, allBut_two, Prob.wgt]
    rw [abs_div, abs_of_pos hs, div_rpow (abs_nonneg _) hs.le,
      show q / (2 * s) = q / 2 / s by field_simp, log_div (by positivity) hs.ne']
    rcases P.hasW with _ | _
    · simp only [Bool.false_eq_true, if_false]
      ring
    · simp only [if_true]
      ring
  unfold logLhood
  rw [List.map_congr_left fun d _ => h1 d, sum_linear, ← hchi, ← sumweight_eq,
    div_rpow (by positivity) hs.le, ← rpow_mul (by positivity), one_div_mul_cancel hq.ne', rpow_one]
  field_simp
  ring

/-- For the exponential distribution with power 1 only, as that is the Laplace distribution. -/
theorem C82_exponential_partial (P : Prob X) (hacc : P.acc = .none) (p : List ℝ) (hn : P.Noisy p) (s0 : ℝ) :
    BestScale (fun s => logLhood (expLd P (p ++ [s, 1])) P) (powerScale P.sumweight P (p ++ [s0, 1])) := by
  simpa using power_best P hacc p hn s0 1 one_pos

theorem best_unique (L : ℝ → ℝ) (s t : ℝ) (hs : BestScale L s) (ht : BestScale L t) : s = t := by
  by_contra h
  have h1 := hs.2 t ht.1 (Ne.symm h)
  have h2 := ht.2 s hs.1 h
  linarith

/-- For any other power the scale that is given is not the best one: a factor `power ^ (1 / power)` is missing. -/
theorem C82_counterexample_exponential (P : Prob X) (hacc : P.acc = .none) (p : List ℝ) (hn : P.Noisy p)
    (s0 q : ℝ) (hq : 0 < q) (hq1 : q ≠ 1) :
    ¬ BestScale (fun s => logLhood (expLd P (p ++ [s, q])) P) (powerScale P.sumweight P (p ++ [s0, q])) := by
  intro h
  have h1 := best_unique _ _ _ h (power_best P hacc p hn s0 q hq)
  have h2 : q ^ (1 / q) = 1 := by
    have := h.1.ne'
    field_simp at h1
    exact h1.symm
  have h3 := log_rpow hq (1 / q)
  rw [h2, log_one] at h3
  have h4 : log q = 0 := by
    rcases mul_eq_zero.1 h3.symm with h5 | h5
    · exact absurd h5 (by positivity)
    · exact h5
  rcases log_eq_zero.1 h4 with h5 | h5 | h5 <;> [linarith; exact hq1 h5; linarith]

/-! ## Uniform -/

theorem foldr_max_lt (l : List ℝ) (s : ℝ) (hs : 0 < s) : l.foldr max 0 < s ↔ ∀ x ∈ l, x < s := by
  induction l with
  | nil => simpa using hs
  | cons a l ih => simp [ih]

theorem sumOpt_all {D : Type*} (l : List D) (g : D → ℝ) : sumOpt (l.map fun d => some (g d)) = some (l.map g).sum := by
  induction l with
  | nil => rfl
  | cons a l ih => simp [sumOpt, ih]

theorem sumOpt_none (l : List (Option ℝ)) (h : none ∈ l) : sumOpt l = none := by
  induction l with
  | nil => simp at h
  | cons a l ih =>
    rcases a with _ | a
    · rfl
    · simp [sumOpt, ih (by simpa using h)]

/-- The uniform distribution: above the scale that is given, the likelihood is larger when the scale is smaller;
below it, it is zero. -/
theorem C82_uniform_partial (P : Prob X) (hacc : P.acc = .none) (hc : P.cyclic = none) (p : List ℝ) (s0 s : ℝ)
    (hs : 0 < s) :
    (uniformScale P (p ++ [s0]) < s →
      logLhoodOpt (uniformLd P (p ++ [s])) P = some (-P.sumweight * log (2 * s))) ∧
    (s ≤ uniformScale P (p ++ [s0]) → logLhoodOpt (uniformLd P (p ++ [s])) P = none) := by
  have hr : ∀ d : Datum X, P.residual p d = d.y - P.f d.x p := by
    intro d
    simp [Prob.residual, Prob.fold, hc]
  have hiff : uniformScale P (p ++ [s0]) < s ↔ ∀ d ∈ P.data, |d.y - P.f d.x p| < s := by
    unfold uniformScale
    rw [foldr_max_lt _ _ hs]
    simp [hr]
  constructor
  · intro h
    rw [hiff] at h
    unfold logLhoodOpt
    have h1 : ∀ d ∈ P.data, uniformLd P (p ++ [s]) d = some (-log (2 * s) * P.wgt d) := by
      intro d hd
      simp only [uniformLd, scaleOf_none P hacc, allBut_one, if_pos (h d hd), Prob.wgt]
      rcases P.hasW with _ | _ <;> simp
    rw [List.map_congr_left h1, sumOpt_all, sumweight_eq]
    congr 1
    induction P.data with
    | nil => simp
    | cons d l ih => simp only [List.map_cons, List.sum_cons, ih]; ring
  · intro h
    rw [← not_lt, hiff] at h
    push Not at h
    obtain ⟨d, hd, h2⟩ := h
    apply sumOpt_none
    refine List.mem_map.2 ⟨d, hd, ?_⟩
    simp only [uniformLd, scaleOf_none P hacc, allBut_one, if_neg (not_lt.2 h2)]

/-- The scale that is given for the uniform distribution has itself a likelihood of zero, for all data. -/
theorem C82_counterexample_uniform (P : Prob X) (hacc : P.acc = .none) (hc : P.cyclic = none) (p : List ℝ)
    (s0 : ℝ) (hp : 0 < uniformScale P (p ++ [s0])) :
    logLhoodOpt (uniformLd P (p ++ [uniformScale P (p ++ [s0])])) P = none :=
  (C82_uniform_partial P hacc hc p s0 _ hp).2 le_rfl

/-! ## Cauchy -/

/-- One datum `y`, and a constant model. -/
def single (y : ℝ) : Prob ℝ where
  data := [⟨0, y, 1, 1⟩]
  np := 1
  f := fun _ p => p.getD 0 0
  df := fun _ _ => [1]
  hasW := false
  acc := .none
  cyclic := none

theorem single_like (y s : ℝ) :
    logLhood (cauchyLd (single y) ([0] ++ [s])) (single y) = log s - log π - log (y * y + s * s) := by
  have h1 : allBut ([0] ++ [s]) 1 = [0] := allBut_one [0] s
  have h2 := scaleOf_none (single y) rfl [0] s
  have h3 : (single y).data = [⟨0, y, 1, 1⟩] := rfl
  simp only [logLhood, h3, List.map_cons, List.map_nil, List.sum_cons, List.sum_nil, cauchyLd, h1, h2,
    Prob.residual, Prob.fold]
  simp [single]

theorem single_funct (y s0 s : ℝ) : cauchyFunct (single y).sumweight (single y) ([0] ++ [s0]) s
    = log (y * y + s * s) - (2 * log s + √2) := by
  have h1 : allBut ([0] ++ [s0]) 1 = [0] := allBut_one [0] s0
  simp only [cauchyFunct, h1, Prob.residual, Prob.fold, Prob.sumweight]
  simp [single]

theorem single_best : BestScale (fun s => logLhood (cauchyLd (single 1) ([0] ++ [s])) (single 1)) 1 := by
  refine ⟨one_pos, ?_⟩
  intro t ht hne
  simp only [single_like, log_one]
  have h1 : log t + log 2 < log (1 * 1 + t * t) := by
    rw [← log_mul ht.ne' two_ne_zero]
    apply log_lt_log (by positivity)
    have : 0 < (t - 1) ^ 2 := by
      have : t - 1 ≠ 0 := sub_ne_zero.2 hne
      positivity
    nlinarith
  have h2 : (1 : ℝ) * 1 + 1 * 1 = 2 := by norm_num
  rw [h2]
  linarith

/-- There is a method that finds zeros as `BisectSpec` says. -/
theorem bisect_exists : ∃ bisect, BisectSpec bisect := by
  classical
  refine ⟨fun f a b => if h : ∃ s, a ≤ s ∧ s ≤ b ∧ f s = 0 ∧ f a * f b ≤ 0 then some h.choose else none, ?_, ?_⟩
  · intro f a b h
    rw [dif_neg]
    rintro ⟨s, -, -, -, h1⟩
    linarith
  · intro f a b hab hf h
    have hz : ∃ s, a ≤ s ∧ s ≤ b ∧ f s = 0 := by
      rcases le_total (f a) 0 with h1 | h1
      · rcases le_total 0 (f b) with h2 | h2
        · obtain ⟨s, hs, h0⟩ := intermediate_value_Icc hab hf ⟨h1, h2⟩
          exact ⟨s, hs.1, hs.2, h0⟩
        · have h3 : f a * f b = 0 := le_antisymm h (mul_nonneg_of_nonpos_of_nonpos h1 h2)
          rcases mul_eq_zero.1 h3 with h4 | h4
          · exact ⟨a, le_rfl, hab, h4⟩
          · exact ⟨b, hab, le_rfl, h4⟩
      · rcases le_total (f b) 0 with h2 | h2
        · obtain ⟨s, hs, h0⟩ := intermediate_value_Icc' hab hf ⟨h2, h1⟩
          exact ⟨s, hs.1, hs.2, h0⟩
        · have h3 : f a * f b = 0 := le_antisymm h (mul_nonneg h1 h2)
          rcases mul_eq_zero.1 h3 with h4 | h4
          · exact ⟨a, le_rfl, hab, h4⟩
          · exact ⟨b, hab, le_rfl, h4⟩
    obtain ⟨s, h1, h2, h3⟩ := hz
    have he : ∃ s, a ≤ s ∧ s ≤ b ∧ f s = 0 ∧ f a * f b ≤ 0 := ⟨s, h1, h2, h3, h⟩
    exact ⟨he.choose, dif_pos he, he.choose_spec.1, he.choose_spec.2.1, he.choose_spec.2.2.1⟩

/-- The scale given for the Cauchy distribution is not the best one: for one datum at a distance of 1, it should
be 1. -/
theorem C82_counterexample_cauchy (bisect : (ℝ → ℝ) → ℝ → ℝ → Option ℝ) (hb : BisectSpec bisect) (s0 : ℝ) :
    ∃ s, cauchyScale bisect (single 1).sumweight (single 1) ([0] ++ [s0]) = some s ∧
      ¬ BestScale (fun s => logLhood (cauchyLd (single 1) ([0] ++ [s])) (single 1)) s := by
  have hf := single_funct 1 s0
  have h2 : 1 < √2 := by
    rw [lt_sqrt] <;> norm_num
  have h3 : √2 < 2 := by
    rw [sqrt_lt] <;> norm_num
  have hlow : 0 ≤ cauchyFunct (single 1).sumweight (single 1) ([0] ++ [s0]) 0.001 := by
    rw [hf]
    have : log (1 * 1 + 0.001 * 0.001) ≥ 0 := log_nonneg (by norm_num)
    have h4 : log (0.001 : ℝ) ≤ -1 := by
      have h5 : log (0.001 : ℝ) = - log 1000 := by rw [← log_inv]; norm_num
      rw [h5]
      have : (1 : ℝ) ≤ log 1000 := by
        rw [le_log_iff_exp_le (by norm_num)]
        have := exp_one_lt_d9
        linarith
      linarith
    linarith
  have hhigh : cauchyFunct (single 1).sumweight (single 1) ([0] ++ [s0]) 100 ≤ 0 := by
    rw [hf]
    have h4 : log (1 * 1 + 100 * 100 : ℝ) ≤ 2 * log 100 + 1 := by
      rw [show (1 * 1 + 100 * 100 : ℝ) = 100 ^ 2 * 1.0001 by norm_num, log_mul (by norm_num) (by norm_num),
        log_pow]
      have := log_le_sub_one_of_pos (show (0 : ℝ) < 1.0001 by norm_num)
      norm_num at this ⊢
      linarith
    linarith
  have hcont : ContinuousOn (cauchyFunct (single 1).sumweight (single 1) ([0] ++ [s0])) (Set.Icc 0.001 100) := by
    have : cauchyFunct (single 1).sumweight (single 1) ([0] ++ [s0])
        = fun s => log (1 * 1 + s * s) - (2 * log s + √2) := funext hf
    rw [this]
    apply ContinuousOn.sub
    · apply ContinuousOn.log (by fun_prop)
      intro s _
      have := mul_self_nonneg s
      positivity
    · apply ContinuousOn.add _ continuousOn_const
      apply ContinuousOn.mul continuousOn_const
      apply ContinuousOn.log continuousOn_id
      intro s hs
      have : (0.001 : ℝ) ≤ s := hs.1
      have : (0 : ℝ) < s := by linarith [show (0 : ℝ) < 0.001 by norm_num]
      exact this.ne'
  obtain ⟨s, h4, h5, h6, h7⟩ := hb.zero _ 0.001 100 (by norm_num) hcont
    (mul_nonpos_of_nonneg_of_nonpos hlow hhigh)
  refine ⟨s, h4, ?_⟩
  intro h
  have h8 := best_unique _ _ _ h single_best
  subst h8
  rw [hf] at h7
  have h9 : log (1 * 1 + 1 * 1 : ℝ) < 1 := by
    rw [show (1 * 1 + 1 * 1 : ℝ) = 2 by norm_num]
    linarith [log_two_lt_d9]
  rw [log_one] at h7
  linarith

/-- When the data are in small or in large units no scale is found for the Cauchy distribution: for one datum at a
distance of 1000 or more it raises. -/
theorem C82_counterexample_units (bisect : (ℝ → ℝ) → ℝ → ℝ → Option ℝ) (hb : BisectSpec bisect) (s0 y : ℝ)
    (hy : 1000 ≤ y) : cauchyScale bisect (single y).sumweight (single y) ([0] ++ [s0]) = none := by
  apply hb.raises
  have key : ∀ s : ℝ, 0 < s → s ≤ 100 → 0 < cauchyFunct (single y).sumweight (single y) ([0] ++ [s0]) s := by
    intro s hs h1
    rw [single_funct]
    have h3 : √2 < 2 := by
      rw [sqrt_lt] <;> norm_num
    have h4 : log (s ^ 2 * 100) ≤ log (y * y + s * s) := by
      apply log_le_log (by positivity)
      nlinarith
    rw [log_mul (by positivity) (by norm_num), log_pow] at h4
    have : (2 : ℝ) ≤ log 100 := by
      rw [le_log_iff_exp_le (by norm_num), show (2 : ℝ) = 1 + 1 by norm_num, exp_add]
      have := exp_one_lt_d9
      have := exp_pos (1 : ℝ)
      nlinarith
    push_cast at h4
    linarith
  exact mul_pos (key _ (by norm_num) (by norm_num)) (key _ (by norm_num) (by norm_num))

/-! ## A concrete case -/

theorem demo_noisy : demo.Noisy [1] := by
  constructor
  · intro d hd
    simp [demo] at hd
    rcases hd with rfl | rfl <;> simp [Prob.wgt, demo]
  · refine ⟨⟨1, 3, 2, 1⟩, by simp [demo], by simp [Prob.wgt, demo], ?_⟩
    simp [Prob.residual, Prob.fold, demo]
    norm_num

example : BestScale (fun s => logLhood (gaussLd demo ([1] ++ [s])) demo)
    (gaussScale demo.sumweight demo ([1] ++ [1])) := C82_gauss demo rfl [1] rfl demo_noisy 1

/-- With weights 2 and 1 and residuals 2 and -1 that is the root of 9 / 3. -/
example : gaussScale demo.sumweight demo ([1] ++ [1]) = √3 := by
  simp [gaussScale, getChisq, Prob.sumweight, Prob.weightedResSq, Prob.residual, Prob.fold, demo, allBut]
  norm_num

end BF.ErrDis
