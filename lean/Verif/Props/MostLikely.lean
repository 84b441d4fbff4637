import Verif.ErrDis
import Verif.Props.Scales
import Verif.Poly
import Mathlib.Analysis.SpecialFunctions.Gamma.Beta
import Mathlib.Analysis.SpecialFunctions.Gaussian.GaussianIntegral

/-!
# C134: which parameters are the most likely ones

Under Gaussian noise those of least squares, under Laplace noise those of the least absolute deviations;
for a constant that is the mean, the median, the middle of the range, or the fraction of zeros.
-/

noncomputable section

namespace BF.ErrDis

open Real

variable {X : Type*}

/-- The sum of the squared residuals, each with its weight (1 when there are no weights). -/
def Prob.squares (P : Prob X) (p : List ℝ) : ℝ := (P.data.map fun d => P.wgt d * P.residual p d ^ 2).sum

/-- The sum of the absolute residuals, each with its weight. -/
def Prob.absolutes (P : Prob X) (p : List ℝ) : ℝ := (P.data.map fun d => P.wgt d * |P.residual p d|).sum

theorem sum_split {D : Type*} (l : List D) (g h : D → ℝ) :
    (l.map fun d => h d - g d).sum = (l.map h).sum - (l.map g).sum := by
  induction l with
  | nil => simp
  | cons d l ih => simp only [List.map_cons, List.sum_cons, ih]; ring

/-- One point of a Gaussian likelihood: a term that does not depend on the parameters minus half of the
square over the variance. -/
theorem gaussLd_split (P : Prob X) (p : List ℝ) (hp : p.length = P.np) (s : ℝ) (d : Datum X) :
    gaussLd P (p ++ [s]) d = -(0.5 * (LOG2PI + log (s ^ 2 + P.accuracy d ^ 2))) * P.wgt d
      - P.wgt d * P.residual p d ^ 2 / (2 * (s ^ 2 + P.accuracy d ^ 2)) := by
  simp only [gaussLd, gaussS2, Prob.weightedResSq, fromEnd_one, Prob.varyy,
    take_left' p [s] P.np hp, Prob.wgt, ← pow_two]
  rw [mul_comm 2 (s ^ 2 + P.accuracy d ^ 2), ← div_div _ (s ^ 2 + P.accuracy d ^ 2)]
  rcases P.hasW with _ | _
  · simp only [Bool.false_eq_true, if_false]
    ring
  · simp only [if_true]
    ring

theorem gauss_compare (P : Prob X) (p q : List ℝ) (hp : p.length = P.np) (hq : q.length = P.np) (s : ℝ) :
    logLhood (gaussLd P (p ++ [s])) P ≤ logLhood (gaussLd P (q ++ [s])) P ↔
      (P.data.map fun d => P.wgt d * P.residual q d ^ 2 / (s ^ 2 + P.accuracy d ^ 2)).sum
        ≤ (P.data.map fun d => P.wgt d * P.residual p d ^ 2 / (s ^ 2 + P.accuracy d ^ 2)).sum := by
  have key : ∀ p : List ℝ, p.length = P.np → logLhood (gaussLd P (p ++ [s])) P
      = (P.data.map fun d => -(0.5 * (LOG2PI + log (s ^ 2 + P.accuracy d ^ 2))) * P.wgt d).sum
        - 1 / 2 * (P.data.map fun d => P.wgt d * P.residual p d ^ 2 / (s ^ 2 + P.accuracy d ^ 2)).sum := by
    intro p hp
    unfold logLhood
    rw [List.map_congr_left fun d _ => gaussLd_split P p hp s d, sum_split, ← List.sum_map_mul_left]
    congr 3
    funext d
    rw [mul_comm 2, ← div_div]
    ring
  rw [key p hp, key q hq]
  constructor <;> intro h <;> linarith

/-- With an accuracy for each point. -/
theorem C134_gauss_accuracy (P : Prob X) (hacc : P.acc = .array) (p q : List ℝ) (hp : p.length = P.np)
    (hq : q.length = P.np) (s : ℝ) :
    logLhood (gaussLd P (p ++ [s])) P ≤ logLhood (gaussLd P (q ++ [s])) P ↔
      (P.data.map fun d => P.wgt d * P.residual q d ^ 2 / (s ^ 2 + d.acc ^ 2)).sum
        ≤ (P.data.map fun d => P.wgt d * P.residual p d ^ 2 / (s ^ 2 + d.acc ^ 2)).sum := by
  rw [gauss_compare P p q hp hq]
  simp only [Prob.accuracy, hacc]

/-- Without accuracies, or with the same one for all points. -/
theorem C134_gauss (P : Prob X) (hacc : P.acc = .none ∨ ∃ a, P.acc = .scalar a) (p q : List ℝ)
    (hp : p.length = P.np) (hq : q.length = P.np) (s : ℝ) (hs : 0 < s) :
    logLhood (gaussLd P (p ++ [s])) P ≤ logLhood (gaussLd P (q ++ [s])) P ↔ P.squares q ≤ P.squares p := by
  rw [gauss_compare P p q hp hq]
  obtain ⟨a, ha⟩ : ∃ a, ∀ d, P.accuracy d = a := by
    rcases hacc with h | ⟨a, h⟩
    · exact ⟨0, fun d => by simp [Prob.accuracy, h]⟩
    · exact ⟨a, fun d => by simp [Prob.accuracy, h]⟩
  have h : ∀ p : List ℝ, (P.data.map fun d => P.wgt d * P.residual p d ^ 2 / (s ^ 2 + P.accuracy d ^ 2)).sum
      = P.squares p / (s ^ 2 + a ^ 2) := by
    intro p
    unfold Prob.squares
    rw [div_eq_mul_inv, ← List.sum_map_mul_right]
    congr 2
    funext d
    simp [ha, div_eq_mul_inv]
  rw [h, h]
  have : 0 < s ^ 2 + a ^ 2 := by positivity
  exact div_le_div_iff_of_pos_right this

theorem C134_gauss_unknown_scale (P : Prob X) (hacc : P.acc = .none) (q : List ℝ) (hq : q.length = P.np)
    (hn : P.Noisy q) (s0 : ℝ) (hmin : ∀ p : List ℝ, p.length = P.np → P.squares q ≤ P.squares p)
    (p : List ℝ) (hp : p.length = P.np) (s : ℝ) (hs : 0 < s) :
    logLhood (gaussLd P (p ++ [s])) P
      ≤ logLhood (gaussLd P (q ++ [gaussScale P.sumweight P (q ++ [s0])])) P := by
  have h1 := (C134_gauss P (Or.inl hacc) p q hp hq s hs).2 (hmin p hp)
  obtain ⟨h0, h2⟩ := C82_gauss P hacc q hq hn s0
  rcases eq_or_ne s (gaussScale P.sumweight P (q ++ [s0])) with h | h
  · rw [← h]; exact h1
  · exact h1.trans (h2 s hs h).le

theorem laplaceLd_split (P : Prob X) (hacc : P.acc = .none) (p : List ℝ) (hp : p.length = P.np) (s : ℝ)
    (d : Datum X) : laplaceLd P (p ++ [s]) d
      = -(log 2 + log s) * P.wgt d - P.wgt d * |P.residual p d| / s := by
  simp only [laplaceLd, scaleOf_none P hacc, take_left' p [s] P.np hp, Prob.wgt]
  rcases P.hasW with _ | _
  · simp only [Bool.false_eq_true, if_false]
    ring
  · simp only [if_true]
    ring

theorem laplace_split (P : Prob X) (hacc : P.acc = .none) (p : List ℝ) (hp : p.length = P.np) (s : ℝ) :
    logLhood (laplaceLd P (p ++ [s])) P
      = (P.data.map fun d => -(log 2 + log s) * P.wgt d).sum - P.absolutes p / s := by
  unfold logLhood Prob.absolutes
  rw [List.map_congr_left fun d _ => laplaceLd_split P hacc p hp s d, sum_split, div_eq_mul_inv,
    ← List.sum_map_mul_right]
  congr 3

theorem C134_laplace (P : Prob X) (hacc : P.acc = .none) (p q : List ℝ) (hp : p.length = P.np)
    (hq : q.length = P.np) (s : ℝ) (hs : 0 < s) :
    logLhood (laplaceLd P (p ++ [s])) P ≤ logLhood (laplaceLd P (q ++ [s])) P
      ↔ P.absolutes q ≤ P.absolutes p := by
  rw [laplace_split P hacc p hp, laplace_split P hacc q hq,
    ← div_le_div_iff_of_pos_right (a := P.absolutes q) hs]
  constructor <;> intro h <;> linarith

/-! ## A constant -/

/-- A problem with a constant as model, ordinary residuals, no accuracies. -/
def Prob.Constant (P : Prob X) : Prop :=
  P.np = 1 ∧ (∀ (x : X) (a : ℝ), P.f x [a] = a) ∧ P.cyclic = none ∧ P.acc = .none

theorem constant_residual (P : Prob X) (h : P.Constant) (a : ℝ) (d : Datum X) : P.residual [a] d = d.y - a := by
  obtain ⟨_, h2, h3, _⟩ := h
  simp [Prob.residual, Prob.fold, h3, h2]

/-- `m` is a most likely value of the constant at scale `s`. -/
def MostLikely (ld : List ℝ → Datum X → ℝ) (P : Prob X) (m s : ℝ) : Prop :=
  ∀ a : ℝ, logLhood (ld [a, s]) P ≤ logLhood (ld [m, s]) P

theorem C134_mean (P : Prob X) (h : P.Constant) (hW : 0 < P.sumweight) (s : ℝ) (hs : 0 < s) (m : ℝ) :
    MostLikely (gaussLd P) P m s ↔ m = (P.data.map fun d => P.wgt d * d.y).sum / P.sumweight := by
  have key : ∀ a : ℝ, P.squares [a] = (P.data.map fun d => P.wgt d * d.y ^ 2).sum
      - 2 * a * (P.data.map fun d => P.wgt d * d.y).sum + a ^ 2 * P.sumweight := by
    intro a
    unfold Prob.squares
    rw [sumweight_eq]
    simp only [constant_residual P h]
    induction P.data with
    | nil => simp
    | cons d l ih => simp only [List.map_cons, List.sum_cons, ih]; ring
  have hg := fun a b : ℝ => C134_gauss P (Or.inl h.2.2.2) [a] [b] (by simp [h.1]) (by simp [h.1]) s hs
  simp only [List.singleton_append] at hg
  unfold MostLikely
  simp only [hg, key]
  set A := (P.data.map fun d => P.wgt d * d.y).sum
  set W := P.sumweight
  have e : A = A / W * W := (div_mul_cancel₀ A hW.ne').symm
  generalize A / W = c at e
  rw [e]
  constructor
  · intro h1
    have h2 := h1 c
    have h3 : W * (m - c) ^ 2 ≤ 0 := by
      have : W * (m - c) ^ 2 = (m ^ 2 * W - 2 * m * (c * W)) - (c ^ 2 * W - 2 * c * (c * W)) := by ring
      linarith
    have h4 : (m - c) ^ 2 ≤ 0 := by
      by_contra hc
      push Not at hc
      linarith [mul_pos hW hc]
    have h5 : m - c = 0 := pow_eq_zero_iff (two_ne_zero) |>.1 (le_antisymm h4 (sq_nonneg _))
    linarith
  · intro hm a
    have h2 : 0 ≤ W * (a - c) ^ 2 := by positivity
    have : W * (a - c) ^ 2 = (a ^ 2 * W - 2 * a * (c * W)) - (c ^ 2 * W - 2 * c * (c * W)) := by ring
    rw [hm]
    linarith

theorem sum_le_sum' {D : Type*} (l : List D) (g h : D → ℝ) (hle : ∀ d ∈ l, g d ≤ h d) :
    (l.map g).sum ≤ (l.map h).sum := List.sum_le_sum hle

/-- The weight of the points that satisfy a condition. -/
def Prob.weightOf (P : Prob X) (c : ℝ → Prop) [DecidablePred c] : ℝ :=
  (P.data.map fun d => if c d.y then P.wgt d else 0).sum

theorem C134_median (P : Prob X) (h : P.Constant) (hw : ∀ d ∈ P.data, 0 ≤ P.wgt d) (s : ℝ) (hs : 0 < s) (m : ℝ) :
    MostLikely (laplaceLd P) P m s ↔
      P.weightOf (· < m) ≤ P.sumweight / 2 ∧ P.weightOf (m < ·) ≤ P.sumweight / 2 := by
  have hg := fun a b : ℝ => C134_laplace P h.2.2.2 [a] [b] (by simp [h.1]) (by simp [h.1]) s hs
  simp only [List.singleton_append] at hg
  unfold MostLikely
  simp only [hg]
  unfold Prob.absolutes Prob.weightOf
  simp only [constant_residual P h]
  rw [sumweight_eq]
  revert hw
  generalize P.data = l
  intro hw
  have up : ∀ a, m ≤ a → (a - m) * ((l.map P.wgt).sum - 2 * (l.map fun d => if m < d.y then P.wgt d else 0).sum)
      ≤ (l.map fun d => P.wgt d * |d.y - a|).sum - (l.map fun d => P.wgt d * |d.y - m|).sum := by
    intro a ha
    rw [← sum_split, ← List.sum_map_mul_left, ← sum_split, ← List.sum_map_mul_left]
    apply sum_le_sum'
    intro d hd
    have h0 := hw d hd
    by_cases hc : m < d.y
    · simp only [if_pos hc]
      have : -(a - m) ≤ |d.y - a| - |d.y - m| := by
        rw [abs_of_pos (show 0 < d.y - m by linarith)]
        have := le_abs_self (d.y - a)
        linarith
      nlinarith
    · simp only [if_neg hc]
      have : a - m ≤ |d.y - a| - |d.y - m| := by
        push Not at hc
        rw [abs_of_nonpos (show d.y - m ≤ 0 by linarith), abs_of_nonpos (show d.y - a ≤ 0 by linarith)]
        linarith
      nlinarith
  have down : ∀ a, a ≤ m → (m - a) * ((l.map P.wgt).sum - 2 * (l.map fun d => if d.y < m then P.wgt d else 0).sum)
      ≤ (l.map fun d => P.wgt d * |d.y - a|).sum - (l.map fun d => P.wgt d * |d.y - m|).sum := by
    intro a ha
    rw [← sum_split, ← List.sum_map_mul_left, ← sum_split, ← List.sum_map_mul_left]
    apply sum_le_sum'
    intro d hd
    have h0 := hw d hd
    by_cases hc : d.y < m
    · simp only [if_pos hc]
      have : -(m - a) ≤ |d.y - a| - |d.y - m| := by
        rw [abs_of_neg (show d.y - m < 0 by linarith)]
        have := neg_le_abs (d.y - a)
        linarith
      nlinarith
    · simp only [if_neg hc]
      have : m - a ≤ |d.y - a| - |d.y - m| := by
        push Not at hc
        rw [abs_of_nonneg (show 0 ≤ d.y - m by linarith), abs_of_nonneg (show 0 ≤ d.y - a by linarith)]
        linarith
      nlinarith
  constructor
  · intro hbest
    have gap : ∀ l : List (Datum X), ∃ b, b < m ∧ ∀ d ∈ l, d.y < m → d.y ≤ b := by
      intro l
      induction l with
      | nil => exact ⟨m - 1, by linarith, by simp⟩
      | cons d l ih =>
        obtain ⟨b, hb, hl⟩ := ih
        by_cases hd : d.y < m
        · refine ⟨max b d.y, max_lt hb hd, ?_⟩
          intro e he hem
          rcases List.mem_cons.1 he with rfl | he
          · exact le_max_right _ _
          · exact (hl e he hem).trans (le_max_left _ _)
        · refine ⟨b, hb, ?_⟩
          intro e he hem
          rcases List.mem_cons.1 he with rfl | he
          · exact absurd hem hd
          · exact hl e he hem
    have gap' : ∀ l : List (Datum X), ∃ b, m < b ∧ ∀ d ∈ l, m < d.y → b ≤ d.y := by
      intro l
      induction l with
      | nil => exact ⟨m + 1, by linarith, by simp⟩
      | cons d l ih =>
        obtain ⟨b, hb, hl⟩ := ih
        by_cases hd : m < d.y
        · refine ⟨min b d.y, lt_min hb hd, ?_⟩
          intro e he hem
          rcases List.mem_cons.1 he with rfl | he
          · exact min_le_right _ _
          · exact (min_le_left _ _).trans (hl e he hem)
        · refine ⟨b, hb, ?_⟩
          intro e he hem
          rcases List.mem_cons.1 he with rfl | he
          · exact absurd hem hd
          · exact hl e he hem
    constructor
    · obtain ⟨b, hb, hl⟩ := gap l
      have h1 := hbest b
      have h2 : (l.map fun d => P.wgt d * |d.y - b|).sum - (l.map fun d => P.wgt d * |d.y - m|).sum
          ≤ (m - b) * ((l.map P.wgt).sum - 2 * (l.map fun d => if d.y < m then P.wgt d else 0).sum) := by
        rw [← sum_split, ← List.sum_map_mul_left, ← sum_split, ← List.sum_map_mul_left]
        apply sum_le_sum'
        intro d hd
        have h0 := hw d hd
        by_cases hc : d.y < m
        · have := hl d hd hc
          simp only [if_pos hc]
          rw [abs_of_neg (show d.y - m < 0 by linarith), abs_of_nonpos (show d.y - b ≤ 0 by linarith)]
          nlinarith
        · simp only [if_neg hc]
          push Not at hc
          rw [abs_of_nonneg (show 0 ≤ d.y - m by linarith), abs_of_nonneg (show 0 ≤ d.y - b by linarith)]
          nlinarith
      have h3 : 0 ≤ (m - b) * ((l.map P.wgt).sum - 2 * (l.map fun d => if d.y < m then P.wgt d else 0).sum) := by
        linarith
      have := nonneg_of_mul_nonneg_right h3 (show 0 < m - b by linarith)
      linarith
    · obtain ⟨b, hb, hl⟩ := gap' l
      have h1 := hbest b
      have h2 : (l.map fun d => P.wgt d * |d.y - b|).sum - (l.map fun d => P.wgt d * |d.y - m|).sum
          ≤ (b - m) * ((l.map P.wgt).sum - 2 * (l.map fun d => if m < d.y then P.wgt d else 0).sum) := by
        rw [← sum_split, ← List.sum_map_mul_left, ← sum_split, ← List.sum_map_mul_left]
        apply sum_le_sum'
        intro d hd
        have h0 := hw d hd
        by_cases hc : m < d.y
        · have := hl d hd hc
          simp only [if_pos hc]
          rw [abs_of_pos (show 0 < d.y - m by linarith), abs_of_nonneg (show 0 ≤ d.y - b by linarith)]
          nlinarith
        · simp only [if_neg hc]
          push Not at hc
          rw [abs_of_nonpos (show d.y - m ≤ 0 by linarith), abs_of_nonpos (show d.y - b ≤ 0 by linarith)]
          nlinarith
      have h3 : 0 ≤ (b - m) * ((l.map P.wgt).sum - 2 * (l.map fun d => if m < d.y then P.wgt d else 0).sum) := by
        linarith
      have := nonneg_of_mul_nonneg_right h3 (show 0 < b - m by linarith)
      linarith
  · rintro ⟨hlo, hhi⟩ a
    rcases le_total m a with ha | ha
    · have := up a ha
      have : 0 ≤ (a - m) * ((l.map P.wgt).sum - 2 * (l.map fun d => if m < d.y then P.wgt d else 0).sum) :=
        mul_nonneg (by linarith) (by linarith)
      linarith [up a ha]
    · have : 0 ≤ (m - a) * ((l.map P.wgt).sum - 2 * (l.map fun d => if d.y < m then P.wgt d else 0).sum) :=
        mul_nonneg (by linarith) (by linarith)
      linarith [down a ha]

theorem sumOpt_isSome (l : List (Option ℝ)) : (sumOpt l).isSome ↔ ∀ o ∈ l, o.isSome := by
  induction l with
  | nil => simp [sumOpt]
  | cons o l ih =>
    rcases o with _ | v
    · simp [sumOpt]
    · simp [sumOpt, ih]

theorem C134_midrange (P : Prob X) (h : P.Constant) (lo hi : ℝ) (hlo : ∀ d ∈ P.data, lo ≤ d.y)
    (hhi : ∀ d ∈ P.data, d.y ≤ hi) (hl : ∃ d ∈ P.data, d.y = lo) (hh : ∃ d ∈ P.data, d.y = hi) (s : ℝ) :
    ((∃ a, (logLhoodOpt (uniformLd P [a, s]) P).isSome) ↔ (logLhoodOpt (uniformLd P [(lo + hi) / 2, s]) P).isSome)
      ∧ ((logLhoodOpt (uniformLd P [(lo + hi) / 2, s]) P).isSome ↔ hi - lo < 2 * s) := by
  have key : ∀ a, (logLhoodOpt (uniformLd P [a, s]) P).isSome ↔ ∀ d ∈ P.data, |d.y - a| < s := by
    intro a
    unfold logLhoodOpt
    rw [sumOpt_isSome]
    simp only [List.mem_map, forall_exists_index, and_imp, forall_apply_eq_imp_iff₂]
    apply forall₂_congr
    intro d _
    have e := scaleOf_none P h.2.2.2 [a] s d
    simp only [List.singleton_append] at e
    simp only [uniformLd, e]
    have e2 : allBut [a, s] 1 = [a] := by simp [allBut]
    rw [e2, h.2.1]
    by_cases hc : |d.y - a| < s <;> simp [hc]
  have mid : (∃ a, (logLhoodOpt (uniformLd P [a, s]) P).isSome) → hi - lo < 2 * s := by
    rintro ⟨a, ha⟩
    rw [key] at ha
    obtain ⟨d, hd, rfl⟩ := hl
    obtain ⟨e, he, rfl⟩ := hh
    have h1 := (abs_lt.1 (ha d hd)).1
    have h2 := (abs_lt.1 (ha e he)).2
    linarith
  have back : hi - lo < 2 * s → (logLhoodOpt (uniformLd P [(lo + hi) / 2, s]) P).isSome := by
    intro hs
    rw [key]
    intro d hd
    rw [abs_lt]
    constructor <;> linarith [hlo d hd, hhi d hd]
  exact ⟨⟨fun h => back (mid h), fun h => ⟨_, h⟩⟩, ⟨fun h => mid ⟨_, h⟩, back⟩⟩

theorem C134_poisson (lf : ℝ → ℝ) (P : Prob X) (h : P.Constant) (hy : 0 < (P.data.map Datum.y).sum) (a : ℝ)
    (ha : 0 < a) :
    ∃ best L, logLhoodOpt (poissonLd lf P [(P.data.map Datum.y).sum / P.data.length]) P = some best
      ∧ logLhoodOpt (poissonLd lf P [a]) P = some L
      ∧ (L ≤ best) ∧ (L = best → a = (P.data.map Datum.y).sum / P.data.length) := by
  have hn : 0 < (P.data.length : ℝ) := by
    rcases hd : P.data with _ | ⟨d, l⟩
    · simp [hd] at hy
    · simp; positivity
  set S := (P.data.map Datum.y).sum with hS
  have key : ∀ b : ℝ, 0 < b → logLhoodOpt (poissonLd lf P [b]) P
      = some (S * log b - P.data.length * b - (P.data.map fun d => lf d.y).sum) := by
    intro b hb
    unfold logLhoodOpt
    rw [hS]
    have : ∀ d, poissonLd lf P [b] d = some (d.y * log b - b - lf d.y) := by
      intro d
      simp only [poissonLd, h.2.1]
      rw [if_neg (by linarith)]
    rw [List.map_congr_left fun d _ => this d]
    generalize P.data = l
    clear hS hn hy this
    induction l with
    | nil => simp [sumOpt]
    | cons d l ih =>
      simp only [List.map_cons, sumOpt, ih, Option.map_some, List.sum_cons, List.length_cons]
      congr 1
      push_cast
      ring
  have hm : 0 < S / P.data.length := div_pos hy hn
  refine ⟨_, _, key _ hm, key a ha, ?_, ?_⟩
  · have hl := log_le_sub_one_of_pos (div_pos ha hm)
    rw [log_div ha.ne' hm.ne'] at hl
    have e : a / (S / P.data.length) = a * P.data.length / S := by field_simp
    rw [e] at hl
    have := mul_le_mul_of_nonneg_left hl hy.le
    have e2 : S * (a * P.data.length / S - 1) = a * P.data.length - S := by field_simp
    have e3 : P.data.length * (S / P.data.length) = S := by field_simp
    rw [e2] at this
    rw [e3]
    linarith
  · intro heq
    by_contra hne
    have hne' : a / (S / P.data.length) ≠ 1 := by
      intro h1
      rw [div_eq_one_iff_eq hm.ne'] at h1
      exact hne h1
    have hl := log_lt_sub_one_of_pos (div_pos ha hm) hne'
    rw [log_div ha.ne' hm.ne'] at hl
    have e : a / (S / P.data.length) = a * P.data.length / S := by field_simp
    rw [e] at hl
    have := mul_lt_mul_of_pos_left hl hy
    have e2 : S * (a * P.data.length / S - 1) = a * P.data.length - S := by field_simp
    have e3 : P.data.length * (S / P.data.length) = S := by field_simp
    rw [e2] at this
    rw [e3] at heq
    linarith

theorem bernoulli_constant (P : Prob X) (h : P.Constant) (a : ℝ) (h0 : 0 < a) (h1 : a < 1) :
    logLhoodOpt (bernoulliLd P [a]) P
      = some ((P.data.countP fun d => decide (d.y = 0)) * log a
          + (P.data.countP fun d => decide (d.y ≠ 0)) * log (1 - a)) := by
  unfold logLhoodOpt
  have : ∀ d, bernoulliLd P [a] d = some (if d.y = 0 then log a else log (1 - a)) := by
    intro d
    simp only [bernoulliLd, h.2.1]
    by_cases hd : d.y = 0
    · simp [hd, h0]
    · simp [hd, h1]
  rw [List.map_congr_left fun d _ => this d]
  generalize P.data = l
  induction l with
  | nil => simp [sumOpt]
  | cons d l ih =>
    simp only [List.map_cons, sumOpt, ih, Option.map_some, List.countP_cons]
    by_cases hd : d.y = 0
    · simp [hd]; ring
    · simp [hd]; ring

theorem C134_bernoulli (P : Prob X) (h : P.Constant) (hz : ∃ d ∈ P.data, d.y = 0) (ho : ∃ d ∈ P.data, d.y ≠ 0)
    (a : ℝ) (h0 : 0 < a) (h1 : a < 1) :
    ∃ best L, logLhoodOpt (bernoulliLd P
          [((P.data.countP fun d => decide (d.y = 0) : ℕ) : ℝ) / P.data.length]) P = some best
      ∧ logLhoodOpt (bernoulliLd P [a]) P = some L
      ∧ L ≤ best ∧ (L = best → a = ((P.data.countP fun d => decide (d.y = 0) : ℕ) : ℝ) / P.data.length) := by
  have hk : (0 : ℝ) < (P.data.countP fun d => decide (d.y = 0) : ℕ) := by
    have : 0 < P.data.countP fun d => decide (d.y = 0) := by
      rw [List.countP_pos_iff]; simpa using hz
    exact_mod_cast this
  have hj : (0 : ℝ) < (P.data.countP fun d => decide (d.y ≠ 0) : ℕ) := by
    have : 0 < P.data.countP fun d => decide (d.y ≠ 0) := by
      rw [List.countP_pos_iff]; simpa using ho
    exact_mod_cast this
  have hn : (P.data.length : ℝ) = ((P.data.countP fun d => decide (d.y = 0) : ℕ) : ℝ)
      + ((P.data.countP fun d => decide (d.y ≠ 0) : ℕ) : ℝ) := by
    generalize P.data = l
    induction l with
    | nil => simp
    | cons d l ih =>
      simp only [List.length_cons, List.countP_cons]
      push_cast
      rw [ih]
      by_cases hd : d.y = 0
      · simp [hd]; ring
      · simp [hd]; ring
  have e := fun a h0 h1 => bernoulli_constant P h a h0 h1
  rw [hn]
  generalize ((P.data.countP fun d => decide (d.y = 0) : ℕ) : ℝ) = k at *
  generalize ((P.data.countP fun d => decide (d.y ≠ 0) : ℕ) : ℝ) = j at *
  have hm0 : 0 < k / (k + j) := by positivity
  have hm1 : k / (k + j) < 1 := by rw [div_lt_one (by positivity)]; linarith
  have e1 : 1 - k / (k + j) = j / (k + j) := by field_simp; ring
  refine ⟨_, _, e _ hm0 hm1, e a h0 h1, ?_⟩
  rw [e1]
  have ha' : 0 < 1 - a := by linarith
  have hj' : 0 < j / (k + j) := by positivity
  have l1 := log_le_sub_one_of_pos (div_pos h0 hm0)
  have l2 := log_le_sub_one_of_pos (div_pos ha' hj')
  have s1 := log_div h0.ne' hm0.ne'
  have s2 := log_div ha'.ne' hj'.ne'
  have m1 : k * (a / (k / (k + j)) - 1) = a * (k + j) - k := by field_simp
  have m2 : j * ((1 - a) / (j / (k + j)) - 1) = (1 - a) * (k + j) - j := by field_simp
  have n1 := mul_le_mul_of_nonneg_left l1 hk.le
  have n2 := mul_le_mul_of_nonneg_left l2 hj.le
  rw [m1, s1] at n1
  rw [m2, s2] at n2
  refine ⟨by linarith, ?_⟩
  intro heq
  by_contra hne
  have hne' : a / (k / (k + j)) ≠ 1 := by
    intro h1
    rw [div_eq_one_iff_eq hm0.ne'] at h1
    exact hne h1
  have l3 := mul_lt_mul_of_pos_left (log_lt_sub_one_of_pos (div_pos h0 hm0) hne') hk
  rw [m1, s1] at l3
  linarith

/-- A model that gives the probability that a datum is True (1) is penalised for every datum that is True:
the documentation of BernoulliErrorDistribution says logL = log( x ) if the datum is True, but log( x ) is
what a datum of 0 contributes, and a datum of 1 contributes log( 1 - x ). -/
theorem C134_counterexample_bernoulli (P : Prob X) (h : P.Constant) (d : Datum X) (hd : d.y = 1) :
    (∀ a : ℝ, a < 1 → bernoulliLd P [a] d = some (log (1 - a)))
      ∧ bernoulliLd P [0.9] d ≠ some (log 0.9) := by
  have key : ∀ a : ℝ, a < 1 → bernoulliLd P [a] d = some (log (1 - a)) := by
    intro a ha
    simp [bernoulliLd, h.2.1, hd, ha]
  refine ⟨key, ?_⟩
  rw [key 0.9 (by norm_num)]
  intro hc
  rw [Option.some.injEq] at hc
  have := log_injOn_pos (show (1 - 0.9 : ℝ) ∈ Set.Ioi 0 by norm_num) (show (0.9 : ℝ) ∈ Set.Ioi 0 by norm_num) hc
  norm_num at this

/-! ## The exponential distribution -/

theorem C134_exponential_two (P : Prob X) (hacc : P.acc = .none) (p : List ℝ) (hp : p.length = P.np) (s : ℝ)
    (hs : 0 < s) (d : Datum X) : expLd P (p ++ [√2 * s, 2]) d = gaussLd P (p ++ [s]) d := by
  rw [gaussLd_split P p hp]
  have h2 : (0 : ℝ) < √2 := by positivity
  have h3 : √2 ^ 2 = 2 := sq_sqrt (by norm_num)
  have e1 : expScale P (p ++ [√2 * s, 2]) d = √2 * s := expScale_none P hacc p _ _ d
  have e2 : fromEnd (p ++ [√2 * s, 2]) 1 = 2 := by simp [fromEnd]
  have e3 : allBut (p ++ [√2 * s, 2]) 2 = p := by simp [allBut]
  have e4 : gammaln (1 / 2) = log π / 2 := by
    rw [gammaln, Real.Gamma_one_half_eq, log_sqrt pi_pos.le]
  have e5 : log (2 / (2 * (√2 * s))) = -(log 2 / 2) - log s := by
    have : (2 : ℝ) / (2 * (√2 * s)) = (√2 * s)⁻¹ := by field_simp
    rw [this, log_inv, log_mul h2.ne' hs.ne', log_sqrt (by norm_num)]
    ring
  have e6 : |P.residual p d / (√2 * s)| ^ (2 : ℝ) = P.residual p d ^ 2 / (2 * s ^ 2) := by
    rw [rpow_two, sq_abs, div_pow, mul_pow, h3]
  have e7 : P.accuracy d = 0 := by simp [Prob.accuracy, hacc]
  have e8 : log (s ^ 2 + 0 ^ 2) = 2 * log s := by
    rw [show s ^ 2 + (0 : ℝ) ^ 2 = s ^ 2 by ring, log_pow]; norm_num
  have e9 : LOG2PI = log 2 + log π := by rw [LOG2PI, log_mul (by norm_num) pi_pos.ne']
  simp only [expLd, e1, e2, e3, e4, e5, e6, e7, e8, e9, Prob.wgt]
  rcases P.hasW with _ | _
  · simp only [Bool.false_eq_true, if_false]
    field_simp
    ring
  · simp only [if_true]
    field_simp
    ring

theorem C134_exponential_one (P : Prob X) (hacc : P.acc = .none) (p : List ℝ) (hp : p.length = P.np) (s : ℝ)
    (hs : 0 < s) (d : Datum X) : expLd P (p ++ [s, 1]) d = laplaceLd P (p ++ [s]) d := by
  rw [laplaceLd_split P hacc p hp]
  have e1 : expScale P (p ++ [s, 1]) d = s := expScale_none P hacc p _ _ d
  have e2 : fromEnd (p ++ [s, 1]) 1 = 1 := by simp [fromEnd]
  have e3 : allBut (p ++ [s, 1]) 2 = p := by simp [allBut]
  have e4 : gammaln (1 / 1) = 0 := by simp [gammaln]
  have e5 : log (1 / (2 * s)) = -(log 2 + log s) := by
    rw [one_div, log_inv, log_mul (by norm_num) hs.ne']
  have e6 : |P.residual p d / s| ^ (1 : ℝ) = |P.residual p d| / s := by
    rw [rpow_one, abs_div, abs_of_pos hs]
  simp only [expLd, e1, e2, e3, e4, e5, e6, Prob.wgt]
  rcases P.hasW with _ | _
  · simp only [Bool.false_eq_true, if_false]
    ring
  · simp only [if_true]
    ring

/-! ## Cases -/

/-- A `PolynomialModel` of degree 0 with three points, the last one with the double weight. -/
def level : Prob ℝ where
  data := [⟨0, 1, 1, 0⟩, ⟨1, 2, 1, 0⟩, ⟨2, 5, 2, 0⟩]
  np := 1
  f := fun x p => BF.Poly.polyResult 0 x (fun k => p.getD k 0)
  df := fun x _ => BF.Poly.polyPartial 0 x
  hasW := true
  acc := .none
  cyclic := none

theorem level_constant : level.Constant := by
  refine ⟨rfl, ?_, rfl, rfl⟩
  intro x a
  simp [level, BF.Poly.polyResult, BF.Poly.linearResult, BF.Poly.polyPartial, BF.Poly.powers]

example : level.Noisy [3.25] := by
  refine ⟨by simp [level, Prob.wgt], ⟨0, 1, 1, 0⟩, by simp [level], by simp [level, Prob.wgt], ?_⟩
  rw [constant_residual level level_constant]
  norm_num

example : MostLikely (gaussLd level) level 3.25 2 := by
  rw [C134_mean level level_constant (by simp [level, Prob.sumweight]; norm_num) 2 (by norm_num)]
  simp [level, Prob.sumweight, Prob.wgt]
  norm_num

example : MostLikely (laplaceLd level) level 5 2 ∧ MostLikely (laplaceLd level) level 3 2
    ∧ ¬ MostLikely (laplaceLd level) level 1.5 2 := by
  have hw : ∀ d ∈ level.data, 0 ≤ level.wgt d := by simp [level, Prob.wgt]
  refine ⟨?_, ?_, ?_⟩ <;> rw [C134_median level level_constant hw 2 (by norm_num)] <;>
    simp [level, Prob.sumweight, Prob.wgt, Prob.weightOf] <;> norm_num

example : ({ level with acc := .array } : Prob ℝ).acc = .array ∧ [3.25].length = ({ level with acc := .array } : Prob ℝ).np :=
  ⟨rfl, rfl⟩

/-- The same model for categorical data. -/
def choices : Prob ℝ := { level with
  data := [⟨0, 1, 1, 0⟩, ⟨1, 0, 1, 0⟩, ⟨2, 1, 1, 0⟩]
  hasW := false }

theorem choices_constant : choices.Constant := level_constant

example : ∃ best L, logLhoodOpt (bernoulliLd choices [1 / 3]) choices = some best
    ∧ logLhoodOpt (bernoulliLd choices [0.7]) choices = some L ∧ L < best := by
  obtain ⟨b, L, h1, h2, h3, h4⟩ := C134_bernoulli choices choices_constant ⟨⟨1, 0, 1, 0⟩, by simp [choices], rfl⟩
    ⟨⟨0, 1, 1, 0⟩, by simp [choices], by norm_num⟩ 0.7 (by norm_num) (by norm_num)
  have e : ((choices.data.countP fun d => decide (d.y = 0) : ℕ) : ℝ) / choices.data.length = 1 / 3 := by
    simp [choices]
  rw [e] at h1 h4
  refine ⟨b, L, h1, h2, lt_of_le_of_ne h3 fun hc => ?_⟩
  have := h4 hc
  norm_num at this

example : ∃ best L, logLhoodOpt (poissonLd (fun _ => 0) choices [2 / 3]) choices = some best
    ∧ logLhoodOpt (poissonLd (fun _ => 0) choices [2]) choices = some L ∧ L < best := by
  obtain ⟨b, L, h1, h2, h3, h4⟩ := C134_poisson (fun _ => 0) choices choices_constant
    (by simp [choices]) 2 (by norm_num)
  have e : (choices.data.map Datum.y).sum / choices.data.length = 2 / 3 := by
    simp [choices]; norm_num
  rw [e] at h1 h4
  refine ⟨b, L, h1, h2, lt_of_le_of_ne h3 fun hc => ?_⟩
  have := h4 hc
  norm_num at this

example : (logLhoodOpt (uniformLd level [3, 2.5]) level).isSome
    ∧ ¬ ∃ a, (logLhoodOpt (uniformLd level [a, 2]) level).isSome := by
  have hm := fun s => C134_midrange level level_constant 1 5 (by simp [level])
    (by simp [level]; norm_num) ⟨⟨0, 1, 1, 0⟩, by simp [level], rfl⟩ ⟨⟨2, 5, 2, 0⟩, by simp [level], rfl⟩ s
  refine ⟨?_, ?_⟩
  · have := (hm 2.5).2.2 (by norm_num)
    norm_num at this ⊢
    exact this
  · rw [(hm 2).1, (hm 2).2]
    norm_num

end BF.ErrDis
