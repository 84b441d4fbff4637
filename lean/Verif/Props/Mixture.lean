import Verif.Props.ErrMixed
import Mathlib.Analysis.Convex.SpecificFunctions.Basic
import Mathlib.Analysis.Convex.Extrema

/-!
# Properties of a mixture of two error distributions

C147: the likelihood of a mixture is the sum of the two likelihoods in the proportion of its fraction.
-/

noncomputable section

namespace BF.ErrDis

open Real

variable {X : Type*}

/-! ## Specification -/

/-- The parameters of a mixture: those of the model, the hyperparameters of the first and of the second distribution, and
the fraction. -/
def mixture (p h1 h2 : List ℝ) (f : ℝ) : List ℝ := p ++ (h1 ++ (h2 ++ [f]))

/-! ## One datum -/

/-- When the second distribution has hyperparameters the likelihood has a value. -/
theorem C147_defined (e1 e2 : Dist X) (P : Prob X) (a : List ℝ) (d : Datum X) (h : e2.nh ≠ 0) :
    mixLd? e1 e2 P a d = some (mixLd e1 e2 P a d) := by
  simp only [mixLd?, mixP2?_some e1 e2 a h, Option.map_some, mixLd]

/-- With a second distribution that has none, as for counts or categories, every likelihood raises an exception. -/
theorem C147_counterexample_none (e1 e2 : Dist X) (P : Prob X) (p h1 : List ℝ) (f : ℝ) (d : Datum X) (h : e2.nh = 0)
    (hp : p ≠ []) (hh1 : h1.length = e1.nh) : mixLd? e1 e2 P (mixture p h1 [] f) d = none := by
  have hl : 0 < p.length := List.length_pos_iff.2 hp
  have h1' : e1.nh + 1 < (mixture p h1 [] f).length := by
    simp only [mixture, List.length_append, List.length_cons, List.length_nil]
    omega
  simp only [mixLd?, h, C27_counterexample_mixed_none e1.nh _ h1', Option.map_none]

/-- At every fraction, also at 0 and 1, the likelihood of a datum is the fraction of the first likelihood plus the rest of
the second one, each with its own hyperparameters. -/
theorem C147_sum (e1 e2 : Dist X) (P : Prob X) (p h1 h2 : List ℝ) (f : ℝ) (hh1 : h1.length = e1.nh)
    (hh2 : h2.length = e2.nh) (hf : f ∈ Set.Icc (0 : ℝ) 1) (d : Datum X) :
    exp (mixLd e1 e2 P (mixture p h1 h2 f) d)
      = f * exp (e1.ld P (p ++ h1) d) + (1 - f) * exp (e2.ld P (p ++ h2) d) := by
  unfold mixture
  rcases eq_or_lt_of_le hf.1 with h0 | h0
  · subst h0
    simp only [mixLd, fromEnd_last, le_refl, if_true, mixP2_list e1 e2 p h1 h2 0 hh1 hh2]
    ring
  · rcases eq_or_lt_of_le hf.2 with h1' | h1'
    · subst h1'
      simp only [mixLd, fromEnd_last, le_refl, if_true, if_neg (not_le.2 h0), mixP1_list e2 p h1 h2 1 hh2]
      ring
    · rw [mixLd_list e1 e2 P p h1 h2 f hh1 hh2 h0 h1', exp_log]
      have := exp_pos (e1.ld P (p ++ h1) d)
      have := exp_pos (e2.ld P (p ++ h2) d)
      have : 0 < 1 - f := by linarith
      positivity

/-- A fraction below 0 is taken for 0, one above 1 for 1. -/
theorem C147_outside (e1 e2 : Dist X) (P : Prob X) (p h1 h2 : List ℝ) (f : ℝ) (hh1 : h1.length = e1.nh)
    (hh2 : h2.length = e2.nh) (d : Datum X) :
    (f ≤ 0 → mixLd e1 e2 P (mixture p h1 h2 f) d = e2.ld P (p ++ h2) d)
      ∧ (1 ≤ f → mixLd e1 e2 P (mixture p h1 h2 f) d = e1.ld P (p ++ h1) d) := by
  unfold mixture
  constructor
  · intro h
    simp only [mixLd, fromEnd_last, h, if_true, mixP2_list e1 e2 p h1 h2 f hh1 hh2]
  · intro h
    simp only [mixLd, fromEnd_last, h, if_true, if_neg (not_le.2 (lt_of_lt_of_le one_pos h)), mixP1_list e2 p h1 h2 f hh2]

theorem mixLd_log (e1 e2 : Dist X) (P : Prob X) (p h1 h2 : List ℝ) (f : ℝ) (hh1 : h1.length = e1.nh)
    (hh2 : h2.length = e2.nh) (hf : f ∈ Set.Icc (0 : ℝ) 1) (d : Datum X) :
    mixLd e1 e2 P (mixture p h1 h2 f) d
      = log (f * exp (e1.ld P (p ++ h1) d) + (1 - f) * exp (e2.ld P (p ++ h2) d)) := by
  rw [← C147_sum e1 e2 P p h1 h2 f hh1 hh2 hf, log_exp]

/-- The log likelihood of a datum is between those of the two distributions. -/
theorem C147_between (e1 e2 : Dist X) (P : Prob X) (p h1 h2 : List ℝ) (f : ℝ) (hh1 : h1.length = e1.nh)
    (hh2 : h2.length = e2.nh) (hf : f ∈ Set.Icc (0 : ℝ) 1) (d : Datum X) :
    min (e1.ld P (p ++ h1) d) (e2.ld P (p ++ h2) d) ≤ mixLd e1 e2 P (mixture p h1 h2 f) d
      ∧ mixLd e1 e2 P (mixture p h1 h2 f) d ≤ max (e1.ld P (p ++ h1) d) (e2.ld P (p ++ h2) d) := by
  have hs := C147_sum e1 e2 P p h1 h2 f hh1 hh2 hf d
  have h0 := hf.1
  have h1' : 0 ≤ 1 - f := by linarith [hf.2]
  set a := e1.ld P (p ++ h1) d
  set b := e2.ld P (p ++ h2) d
  constructor
  · rw [← exp_le_exp, hs]
    have ha : exp (min a b) ≤ exp a := exp_le_exp.2 (min_le_left _ _)
    have hb : exp (min a b) ≤ exp b := exp_le_exp.2 (min_le_right _ _)
    nlinarith
  · rw [← exp_le_exp, hs]
    have ha : exp a ≤ exp (max a b) := exp_le_exp.2 (le_max_left _ _)
    have hb : exp b ≤ exp (max a b) := exp_le_exp.2 (le_max_right _ _)
    nlinarith

/-! ## All data -/

/-- The two distributions can be exchanged, when the fraction is. -/
theorem C147_exchange (e1 e2 : Dist X) (P : Prob X) (p h1 h2 : List ℝ) (f : ℝ) (hh1 : h1.length = e1.nh)
    (hh2 : h2.length = e2.nh) (hf : f ∈ Set.Icc (0 : ℝ) 1) :
    logLhood (mixLd e1 e2 P (mixture p h1 h2 f)) P = logLhood (mixLd e2 e1 P (mixture p h2 h1 (1 - f))) P := by
  unfold logLhood
  congr 1
  apply List.map_congr_left
  intro d _
  rw [mixLd_log e1 e2 P p h1 h2 f hh1 hh2 hf,
    mixLd_log e2 e1 P p h2 h1 (1 - f) hh2 hh1 ⟨by linarith [hf.2], by linarith [hf.1]⟩]
  congr 1
  ring

/-- A mixture of a distribution with itself is that distribution, at any fraction. -/
theorem C147_same (e : Dist X) (P : Prob X) (p h : List ℝ) (f : ℝ) (hh : h.length = e.nh)
    (hf : f ∈ Set.Icc (0 : ℝ) 1) :
    logLhood (mixLd e e P (mixture p h h f)) P = logLhood (e.ld P (p ++ h)) P := by
  unfold logLhood
  congr 1
  apply List.map_congr_left
  intro d _
  rw [mixLd_log e e P p h h f hh hh hf, ← add_mul, show f + (1 - f) = 1 by ring, one_mul, log_exp]

theorem concave_datum (a b : ℝ) :
    ConcaveOn ℝ (Set.Icc (0 : ℝ) 1) fun f => log (f * exp a + (1 - f) * exp b) := by
  refine ⟨convex_Icc 0 1, ?_⟩
  intro x hx y hy s t hs ht hst
  have pos : ∀ u ∈ Set.Icc (0 : ℝ) 1, 0 < u * exp a + (1 - u) * exp b := by
    intro u hu
    have h1 := exp_pos a
    have h2 := exp_pos b
    rcases eq_or_lt_of_le hu.1 with h | h
    · rw [← h]; simpa using h2
    · have := mul_pos h h1
      have := mul_nonneg (sub_nonneg.2 hu.2) h2.le
      linarith
  have key := strictConcaveOn_log_Ioi.concaveOn.2 (pos x hx) (pos y hy) hs ht hst
  simp only [smul_eq_mul] at key ⊢
  convert key using 2
  have : t = 1 - s := by linarith
  subst this
  ring

/-- The log likelihood is a concave function of the fraction, so that a fraction that is the best one nearby is the best of
all. -/
theorem C147_concave (e1 e2 : Dist X) (P : Prob X) (p h1 h2 : List ℝ) (hh1 : h1.length = e1.nh)
    (hh2 : h2.length = e2.nh) :
    ConcaveOn ℝ (Set.Icc (0 : ℝ) 1) fun f => logLhood (mixLd e1 e2 P (mixture p h1 h2 f)) P := by
  have key : ∀ l : List (Datum X), ConcaveOn ℝ (Set.Icc (0 : ℝ) 1) fun f =>
      (l.map fun d => log (f * exp (e1.ld P (p ++ h1) d) + (1 - f) * exp (e2.ld P (p ++ h2) d))).sum := by
    intro l
    induction l with
    | nil => simpa using concaveOn_const (0 : ℝ) (convex_Icc (0 : ℝ) 1)
    | cons d l ih =>
      simp only [List.map_cons, List.sum_cons]
      exact (concave_datum _ _).add ih
  refine (key P.data).congr ?_
  intro f hf
  simp only [logLhood]
  congr 1
  apply List.map_congr_left
  intro d _
  rw [mixLd_log e1 e2 P p h1 h2 f hh1 hh2 hf]

/-- C147: no fraction is better than one that is the best in its neighbourhood. -/
theorem C147_best (e1 e2 : Dist X) (P : Prob X) (p h1 h2 : List ℝ) (hh1 : h1.length = e1.nh)
    (hh2 : h2.length = e2.nh) (f ε : ℝ) (hf : f ∈ Set.Icc (0 : ℝ) 1) (hε : 0 < ε)
    (hloc : ∀ g ∈ Set.Icc (0 : ℝ) 1, |g - f| < ε →
      logLhood (mixLd e1 e2 P (mixture p h1 h2 g)) P ≤ logLhood (mixLd e1 e2 P (mixture p h1 h2 f)) P)
    (g : ℝ) (hg : g ∈ Set.Icc (0 : ℝ) 1) :
    logLhood (mixLd e1 e2 P (mixture p h1 h2 g)) P ≤ logLhood (mixLd e1 e2 P (mixture p h1 h2 f)) P := by
  have hc := C147_concave e1 e2 P p h1 h2 hh1 hh2
  refine IsMaxOn.of_isLocalMaxOn_of_concaveOn hf ?_ hc hg
  filter_upwards [self_mem_nhdsWithin, mem_nhdsWithin_of_mem_nhds (Metric.ball_mem_nhds f hε)] with u hu hb
  exact hloc u hu (by simpa [Real.dist_eq] using hb)

/-! ## A concrete case -/

example : exp (mixLd gaussDist laplaceDist demo (mixture [1] [2] [3] 0) ⟨1, 3, 2, 1⟩)
    = 0 * exp (gaussLd demo [1, 2] ⟨1, 3, 2, 1⟩) + (1 - 0) * exp (laplaceLd demo [1, 3] ⟨1, 3, 2, 1⟩) :=
  C147_sum gaussDist laplaceDist demo [1] [2] [3] 0 rfl rfl ⟨le_rfl, zero_le_one⟩ _

example : logLhood (mixLd gaussDist laplaceDist demo (mixture [1] [2] [3] (1 / 4))) demo
    = logLhood (mixLd laplaceDist gaussDist demo (mixture [1] [3] [2] (1 - 1 / 4))) demo :=
  C147_exchange gaussDist laplaceDist demo [1] [2] [3] (1 / 4) rfl rfl ⟨by norm_num, by norm_num⟩

end BF.ErrDis
