import Verif.Kepler
import Mathlib.Analysis.Calculus.Deriv.MeanValue
import Mathlib.Analysis.SpecialFunctions.Trigonometric.Bounds
import Mathlib.Analysis.SpecialFunctions.Trigonometric.Arctan
import Mathlib.Analysis.SpecialFunctions.Trigonometric.ArctanDeriv
import Mathlib.Analysis.Calculus.DSlope
import Mathlib.Analysis.Calculus.Deriv.Slope
import Mathlib.Topology.Order.IntermediateValue
import Mathlib.Analysis.Real.Pi.Bounds
import Mathlib.Analysis.Complex.Trigonometric

/-!
# C87: orbits follow the laws of Kepler
-/

noncomputable section

namespace BF.Kepler

open Real Filter Topology

/-! ## Specification -/

/-- The equation of Kepler. -/
def IsEccentric (e M E : ℝ) : Prop := E = M + e * sin E

/-- A method that solves it exactly. -/
def Solves (ecc : ℝ → ℝ → ℝ) : Prop := ∀ e M, |e| < 1 → IsEccentric e M (ecc e M)

/-! ## The equation -/

theorem ecc_close (e M M' E E' e' : ℝ) (h : IsEccentric e M E) (h' : IsEccentric e' M' E') :
    (1 - |e|) * |E' - E| ≤ |M' - M| + |e' - e| := by
  unfold IsEccentric at h h'
  have h1 : E' - E = (M' - M) + (e' - e) * sin E' + e * (sin E' - sin E) := by
    conv_lhs => rw [h, h']
    ring
  have h2 : |E' - E| ≤ |M' - M| + |e' - e| + |e| * |E' - E| := by
    conv_lhs => rw [h1]
    refine (abs_add_three _ _ _).trans ?_
    rw [abs_mul, abs_mul]
    have h3 := abs_sin_le_one E'
    have h4 := abs_sin_sub_sin_le E' E
    have h5 := abs_nonneg (e' - e)
    have h6 := abs_nonneg e
    nlinarith [mul_le_mul_of_nonneg_left h3 h5, mul_le_mul_of_nonneg_left h4 h6]
  nlinarith

/-- C87: for each mean anomaly there is precisely one eccentric anomaly, so what a method that solves the equation
returns is determined. -/
theorem C87_unique (e M : ℝ) (he : |e| < 1) : ∃! E, IsEccentric e M E := by
  have hc : Continuous fun E => E - e * sin E := by fun_prop
  have hb : ∀ E, |e * sin E| ≤ 1 := by
    intro E
    rw [abs_mul]
    have := abs_sin_le_one E
    have := abs_nonneg e
    nlinarith [abs_nonneg (sin E)]
  have h1 : (M : ℝ) ∈ Set.Icc ((fun E => E - e * sin E) (M - 1)) ((fun E => E - e * sin E) (M + 1)) := by
    constructor
    · have := (abs_le.1 (hb (M - 1))).1
      simp only
      linarith
    · have := (abs_le.1 (hb (M + 1))).2
      simp only
      linarith
  obtain ⟨E, -, hE⟩ := intermediate_value_Icc (by linarith : M - 1 ≤ M + 1) hc.continuousOn h1
  refine ⟨E, ?_, ?_⟩
  · unfold IsEccentric
    simp only at hE
    linarith
  · intro E' h'
    have hEE : IsEccentric e M E := by
      unfold IsEccentric
      simp only at hE
      linarith
    have := ecc_close e M M E E' e hEE h'
    simp only [sub_self, abs_zero, add_zero] at this
    have h3 : |E' - E| ≤ 0 := by
      by_contra h4
      push Not at h4
      nlinarith
    exact sub_eq_zero.1 (abs_nonpos_iff.1 h3)

/-- So there is a method. -/
theorem solves_exists : ∃ ecc, Solves ecc := by
  classical
  refine ⟨fun e M => if h : |e| < 1 then (C87_unique e M h).choose else 0, ?_⟩
  intro e M h
  simp only [h, dif_pos]
  exact (C87_unique e M h).choose_spec.1

theorem iterate_true (step : ℝ → ℝ → Option ℝ) (Ms : List ℝ) : ∀ (n : ℕ) (A B E Ep : List (Option ℝ)),
    iterate step Ms n A B = (E, Ep, true) →
    E = List.zipWith (fun M a => a.bind (step M)) Ms Ep ∧ ∀ d ∈ List.zipWith closeTo E Ep, d = true := by
  intro n
  induction n with
  | zero =>
    intro A B E Ep h
    simp [iterate] at h
  | succ n ih =>
    intro A B E Ep h
    simp only [iterate] at h
    split at h
    · next hd =>
      simp only [Prod.mk.injEq] at h
      obtain ⟨rfl, rfl, -⟩ := h
      exact ⟨rfl, by simpa using List.all_eq_true.1 hd⟩
    · exact ih _ _ _ _ h

theorem iterate_length (step : ℝ → ℝ → Option ℝ) (Ms : List ℝ) : ∀ (n : ℕ) (A B E Ep : List (Option ℝ)),
    A.length = Ms.length → iterate step Ms n A B = (E, Ep, true) → Ep.length = Ms.length := by
  intro n
  induction n with
  | zero =>
    intro A B E Ep _ h
    simp [iterate] at h
  | succ n ih =>
    intro A B E Ep hA h
    simp only [iterate] at h
    split at h
    · simp only [Prod.mk.injEq] at h
      obtain ⟨rfl, rfl, -⟩ := h
      exact hA
    · exact ih _ _ _ _ (by simp [hA]) h

theorem closeTo_true (a b : Option ℝ) (h : closeTo a b = true) : ∃ u v, a = some u ∧ b = some v ∧ |u - v| < 1e-8 := by
  rcases a with _ | u
  · simp [closeTo] at h
  · rcases b with _ | v
    · simp [closeTo] at h
    · exact ⟨u, v, rfl, rfl, by simpa [closeTo] using h⟩

theorem solve_at (step : ℝ → ℝ → ℝ → Option ℝ) (xs : List ℝ) (p : ℕ → ℝ) (E Ep : List (Option ℝ))
    (h : solve step xs p = (E, Ep, true)) (i : ℕ) (x : ℝ) (hx : xs[i]? = some x) :
    ∃ Ei Epi, E[i]? = some (some Ei) ∧ Ep[i]? = some (some Epi) ∧
      step (p 0) (meanAnomaly x p) Epi = some Ei ∧ |Ei - Epi| < 1e-8 := by
  unfold solve at h
  simp only at h
  have h3 := iterate_length _ _ _ _ _ _ _ (by simp) h
  obtain ⟨h1, h2⟩ := iterate_true _ _ _ _ _ _ _ h
  have hi := (List.getElem?_eq_some_iff.1 hx).1
  simp only [List.length_map] at h3
  have hp : Ep[i]? = some (Ep[i]'(by omega)) := List.getElem?_eq_getElem _
  have hE : E[i]? = some ((Ep[i]'(by omega)).bind (step (p 0) (meanAnomaly x p))) := by
    rw [h1, List.getElem?_zipWith, List.getElem?_map, hx, hp]
    rfl
  have hc := h2 (closeTo ((Ep[i]'(by omega)).bind (step (p 0) (meanAnomaly x p))) (Ep[i]'(by omega))) (by
    refine List.mem_of_getElem? (i := i) ?_
    rw [List.getElem?_zipWith, hE, hp])
  obtain ⟨u, v, hu, hv, huv⟩ := closeTo_true _ _ hc
  rw [hu] at hE
  rw [hv] at hp
  rw [hv] at hu
  exact ⟨u, v, hE, hp, hu, huv⟩

theorem residual_close (e M E X : ℝ) (he : 0 ≤ e) (he1 : e < 1) (hX : IsEccentric e M X) :
    |E - X| ≤ |M + e * sin E - E| / (1 - e) := by
  have h1 : IsEccentric e (E - e * sin E) E := by
    unfold IsEccentric
    ring
  have := ecc_close e M (E - e * sin E) X E e hX h1
  rw [abs_of_nonneg he, sub_self, abs_zero, add_zero] at this
  rw [le_div_iff₀ (by linarith), show M + e * sin E - E = -(E - e * sin E - M) by ring, abs_neg]
  linarith

theorem fp_bound (e E : ℝ) (he : 0 ≤ e) (he1 : e < 1) : 1 - e ≤ |e * cos E - 1| ∧ |e * cos E - 1| ≤ 2 := by
  have h1 := cos_le_one E
  have h2 := neg_one_le_cos E
  have h3 : e * cos E - 1 < 0 := by nlinarith
  rw [abs_of_neg h3]
  constructor <;> nlinarith

/-- C87: the eccentric anomaly. When the iterations end with convergence, the values before and after the last turn are
close to the solution of the equation of Kepler, for each of the data. -/
theorem C87_halley (xs : List ℝ) (p : ℕ → ℝ) (he : 0 ≤ p 0) (he1 : p 0 ≤ 1 - 1e-8) (E Ep : List (Option ℝ))
    (h : eccentricAnomaly xs p = (E, Ep, true)) (i : ℕ) (x : ℝ) (hx : xs[i]? = some x) :
    ∃ Ei Epi, E[i]? = some (some Ei) ∧ Ep[i]? = some (some Epi) ∧ |Ei - Epi| < 1e-8 ∧
      ∀ X, IsEccentric (p 0) (meanAnomaly x p) X → |Epi - X| ≤ 4e-8 / (1 - p 0) := by
  obtain ⟨Ei, Epi, h1, h2, h3, h4⟩ := solve_at halley xs p E Ep h i x hx
  refine ⟨Ei, Epi, h1, h2, h4, ?_⟩
  intro X hX
  have hlt : p 0 < 1 := by norm_num at he1 ⊢; linarith
  refine (residual_close (p 0) _ Epi X he hlt hX).trans ?_
  apply div_le_div_of_nonneg_right _ (by linarith)
  set M := meanAnomaly x p
  set e := p 0
  obtain ⟨hf1, hf2⟩ := fp_bound e Epi he hlt
  set fx := M + e * sin Epi - Epi with hfx
  set fp := e * cos Epi - 1 with hfp
  have hes : |e * sin Epi| ≤ e := by
    rw [abs_mul, abs_of_nonneg he]
    nlinarith [abs_sin_le_one Epi, abs_nonneg (sin Epi)]
  have hfp0 : 0 < |fp| := by linarith
  simp only [halley, ratio] at h3
  split at h3
  · simp at h3
  · next hd =>
    have hstep : Ei - Epi = -(2 * fx * fp / (2 * fp * fp + fx * (e * sin Epi))) := by
      simp only [Option.map_some, Option.some.injEq] at h3
      rw [← h3]
      ring
    rw [hstep, abs_neg, abs_div] at h4
    have hD : 0 < |2 * fp * fp + fx * (e * sin Epi)| := abs_pos.2 hd
    rw [div_lt_iff₀ hD] at h4
    have h6 : |2 * fp * fp + fx * (e * sin Epi)| ≤ 2 * (|fp| * |fp|) + |fx| * e := by
      refine (abs_add_le _ _).trans ?_
      rw [abs_mul, abs_mul, abs_mul fx]
      have := mul_le_mul_of_nonneg_left hes (abs_nonneg fx)
      rw [show |(2 : ℝ)| = 2 by norm_num]
      linarith
    rw [abs_mul, abs_mul, show |(2 : ℝ)| = 2 by norm_num] at h4
    have h7 : 2 * |fx| * |fp| < 1e-8 * (2 * (|fp| * |fp|) + |fx| * e) :=
      h4.trans_le (mul_le_mul_of_nonneg_left h6 (by norm_num))
    have h8 : 1e-8 * e ≤ |fp| := by norm_num at he1 ⊢; linarith
    have h9 : |fx| * |fp| < 1e-8 * 2 * (|fp| * |fp|) := by
      have := mul_le_mul_of_nonneg_left h8 (abs_nonneg fx)
      nlinarith
    have h10 : |fx| < 1e-8 * 2 * |fp| := by
      by_contra h11
      push Not at h11
      have := mul_le_mul_of_nonneg_right h11 hfp0.le
      nlinarith
    norm_num at h10 ⊢
    linarith

/-- C87: the method of Newton. -/
theorem C87_newton (xs : List ℝ) (p : ℕ → ℝ) (he : 0 ≤ p 0) (he1 : p 0 < 1) (E Ep : List (Option ℝ))
    (h : solve newton xs p = (E, Ep, true)) (i : ℕ) (x : ℝ) (hx : xs[i]? = some x) :
    ∃ Ei Epi, E[i]? = some (some Ei) ∧ Ep[i]? = some (some Epi) ∧ |Ei - Epi| < 1e-8 ∧
      ∀ X, IsEccentric (p 0) (meanAnomaly x p) X → |Epi - X| ≤ 2e-8 / (1 - p 0) := by
  obtain ⟨Ei, Epi, h1, h2, h3, h4⟩ := solve_at newton xs p E Ep h i x hx
  refine ⟨Ei, Epi, h1, h2, h4, ?_⟩
  intro X hX
  refine (residual_close (p 0) _ Epi X he he1 hX).trans ?_
  apply div_le_div_of_nonneg_right _ (by linarith)
  obtain ⟨hf1, hf2⟩ := fp_bound (p 0) Epi he he1
  have hfp0 : 0 < |p 0 * cos Epi - 1| := by linarith
  simp only [newton, ratio] at h3
  rw [if_neg (abs_pos.1 hfp0)] at h3
  simp only [Option.map_some, Option.some.injEq] at h3
  have hstep : Ei - Epi = -((meanAnomaly x p + p 0 * sin Epi - Epi) / (p 0 * cos Epi - 1)) := by
    rw [← h3]
    ring
  rw [hstep, abs_neg, abs_div, div_lt_iff₀ hfp0] at h4
  norm_num at h4 ⊢
  linarith

theorem sin_slope (E X : ℝ) : ∃ σ, sin E - sin X = σ * (E - X) ∧ |cos E - σ| ≤ |E - X| ∧ |σ| ≤ 1 := by
  by_cases h : E = X
  · refine ⟨cos E, by simp [h], by simp [h], abs_cos_le_one E⟩
  · have h0 : E - X ≠ 0 := sub_ne_zero.2 h
    refine ⟨(sin E - sin X) / (E - X), by field_simp, ?_, ?_⟩
    · rcases lt_or_gt_of_ne h with hlt | hlt
      · obtain ⟨c, hc, hs⟩ := exists_deriv_eq_slope sin hlt continuous_sin.continuousOn
          differentiable_sin.differentiableOn
        rw [Real.deriv_sin] at hs
        have h1 : (sin E - sin X) / (E - X) = cos c := by
          rw [hs, ← neg_div_neg_eq]
          ring
        rw [h1]
        refine (abs_cos_sub_cos_le E c).trans ?_
        rw [abs_of_neg (by linarith [hc.1]), abs_of_neg (by linarith)]
        linarith [hc.2]
      · obtain ⟨c, hc, hs⟩ := exists_deriv_eq_slope sin hlt continuous_sin.continuousOn
          differentiable_sin.differentiableOn
        rw [Real.deriv_sin] at hs
        rw [← hs]
        refine (abs_cos_sub_cos_le E c).trans ?_
        rw [abs_of_pos (by linarith [hc.2]), abs_of_pos (by linarith)]
        linarith [hc.1]
    · rw [abs_div, div_le_one (abs_pos.2 h0)]
      exact abs_sin_sub_sin_le E X

/-- One turn of the method of Halley takes away three quarters of the error, when the eccentricity is small. -/
theorem halley_step (e M X E : ℝ) (he : 0 ≤ e) (he1 : e ≤ 1 / 4) (hX : IsEccentric e M X) (hE : |E - X| ≤ 1 / 4) :
    ∃ E', halley e M E = some E' ∧ |E' - X| ≤ |E - X| / 4 := by
  obtain ⟨σ, h1, h2, h3⟩ := sin_slope E X
  set u := E - X with hu
  have hfx : M + e * sin E - E = -u * (1 - e * σ) := by
    have : M = X - e * sin X := by
      unfold IsEccentric at hX
      linarith
    rw [this, hu]
    have : e * (sin E - sin X) = e * (σ * (E - X)) := by rw [h1]
    linarith
  set fx := M + e * sin E - E with hfxd
  set fp := e * cos E - 1 with hfp
  set es := e * sin E with hes
  have hc1 := cos_le_one E
  have hc2 := neg_one_le_cos E
  have hs : |es| ≤ e := by
    rw [hes, abs_mul, abs_of_nonneg he]
    nlinarith [abs_sin_le_one E, abs_nonneg (sin E)]
  have hσ := abs_le.1 h3
  have hfp1 : fp ≤ -(3 / 4) := by nlinarith
  have hfp2 : |fp| ≤ 5 / 4 := by
    rw [abs_le]
    constructor <;> nlinarith
  have hfxu : |fx| ≤ |u| * (5 / 4) := by
    rw [hfx, abs_mul, abs_neg]
    apply mul_le_mul_of_nonneg_left _ (abs_nonneg u)
    rw [abs_le]
    constructor <;> nlinarith
  have hu0 := abs_nonneg u
  have hfe : |fx * es| ≤ 5 / 64 := by
    rw [abs_mul]
    have := abs_nonneg es
    have := abs_nonneg fx
    nlinarith
  have hD : 1 ≤ 2 * fp * fp + fx * es := by
    have := (abs_le.1 hfe).1
    nlinarith
  refine ⟨E - 2 * fx * fp / (2 * fp * fp + fx * es), ?_, ?_⟩
  · simp only [halley, ratio, ← hes, ← hfxd, ← hfp]
    rw [if_neg (by linarith)]
    rfl
  · have hkey : E - 2 * fx * fp / (2 * fp * fp + fx * es) - X
        = (2 * fp * (u * (e * (cos E - σ))) + u * (fx * es)) / (2 * fp * fp + fx * es) := by
      have hD0 : 2 * fp * fp + fx * es ≠ 0 := by linarith
      have h5 : u * fp - fx = u * (e * (cos E - σ)) := by
        rw [hfx, hfp]
        ring
      rw [← h5, show E - 2 * fx * fp / (2 * fp * fp + fx * es) - X = u - 2 * fx * fp / (2 * fp * fp + fx * es) by
        rw [hu]; ring]
      rw [eq_div_iff hD0, sub_mul, div_mul_cancel₀ _ hD0]
      ring
    rw [hkey, abs_div, abs_of_pos (show 0 < 2 * fp * fp + fx * es by linarith), div_le_iff₀ (by linarith)]
    have h6 : |2 * fp * (u * (e * (cos E - σ))) + u * (fx * es)| ≤ |u| / 4 := by
      refine (abs_add_le _ _).trans ?_
      have h7 : |2 * fp * (u * (e * (cos E - σ)))| ≤ |u| * (5 / 32) := by
        rw [abs_mul, abs_mul, abs_mul, abs_mul, abs_of_nonneg he, show |(2 : ℝ)| = 2 by norm_num]
        have h8 : e * |cos E - σ| ≤ 1 / 16 := by nlinarith [abs_nonneg (cos E - σ)]
        have h9 : 0 ≤ e * |cos E - σ| := mul_nonneg he (abs_nonneg _)
        have h10 := abs_nonneg fp
        nlinarith [mul_le_mul hfp2 h8 h9 (by norm_num)]
      have h11 : |u * (fx * es)| ≤ |u| * (5 / 64) := by
        rw [abs_mul]
        exact mul_le_mul_of_nonneg_left hfe hu0
      linarith
    nlinarith

/-- The values are within `δ` of the solutions. -/
def Near (e δ : ℝ) (M : ℝ) (a : Option ℝ) : Prop := ∃ E, a = some E ∧ ∀ X, IsEccentric e M X → |E - X| ≤ δ

theorem near_step (e δ M : ℝ) (he : 0 ≤ e) (he1 : e ≤ 1 / 4) (hδ : δ ≤ 1 / 4) (a : Option ℝ) (h : Near e δ M a) :
    Near e (δ / 4) M (a.bind (halley e M)) ∧
      (5 / 4 * δ < 1e-8 → closeTo (a.bind (halley e M)) a = true) := by
  obtain ⟨E, rfl, hE⟩ := h
  obtain ⟨X, hX, hu⟩ := C87_unique e M (by rw [abs_of_nonneg he]; linarith)
  obtain ⟨E', h1, h2⟩ := halley_step e M X E he he1 hX ((hE X hX).trans hδ)
  have h3 := hE X hX
  simp only [Option.bind_some, h1]
  constructor
  · refine ⟨E', rfl, ?_⟩
    intro Y hY
    rw [hu Y hY]
    linarith
  · intro hlt
    have h4 : |E' - E| ≤ |E' - X| + |E - X| := by
      rw [show E' - E = (E' - X) + -(E - X) by ring]
      refine (abs_add_le _ _).trans ?_
      rw [abs_neg]
    simp only [closeTo, decide_eq_true_eq]
    linarith

theorem near_zip (e δ : ℝ) (he : 0 ≤ e) (he1 : e ≤ 1 / 4) (hδ : δ ≤ 1 / 4) (Ms : List ℝ) (A : List (Option ℝ))
    (h : List.Forall₂ (Near e δ) Ms A) :
    List.Forall₂ (Near e (δ / 4)) Ms (List.zipWith (fun M a => a.bind (halley e M)) Ms A) ∧
      (5 / 4 * δ < 1e-8 →
        (List.zipWith closeTo (List.zipWith (fun M a => a.bind (halley e M)) Ms A) A).all id = true) := by
  induction h with
  | nil => simp
  | cons h1 _ ih =>
    obtain ⟨a1, a2⟩ := near_step e δ _ he he1 hδ _ h1
    constructor
    · simpa using ⟨a1, ih.1⟩
    · intro hlt
      have := ih.2 hlt
      simp only [List.zipWith_cons_cons, List.all_cons, id_eq, Bool.and_eq_true]
      exact ⟨a2 hlt, this⟩

theorem near_iterate (e : ℝ) (he : 0 ≤ e) (he1 : e ≤ 1 / 4) (Ms : List ℝ) : ∀ (n : ℕ) (δ : ℝ) (A B : List (Option ℝ)),
    0 ≤ δ → δ ≤ 1 / 4 → List.Forall₂ (Near e δ) Ms A → 5 / 4 * δ / 4 ^ n < 1e-8 →
    (iterate (halley e) Ms (n + 1) A B).2.2 = true := by
  intro n
  induction n with
  | zero =>
    intro δ A B h0 hδ h hlt
    obtain ⟨-, h2⟩ := near_zip e δ he he1 hδ Ms A h
    simp only [iterate]
    rw [if_pos (h2 (by simpa using hlt))]
  | succ n ih =>
    intro δ A B h0 hδ h hlt
    obtain ⟨h1, h2⟩ := near_zip e δ he he1 hδ Ms A h
    rw [iterate]
    split
    · rfl
    · refine ih (δ / 4) _ _ (by linarith) (by linarith) h1 ?_
      rw [pow_succ] at hlt
      rwa [show 5 / 4 * (δ / 4) / 4 ^ n = 5 / 4 * δ / (4 ^ n * 4) by field_simp]

/-- C87: for eccentricities up to a quarter the iterations end with convergence, whatever the data. Missing: larger
eccentricities. -/
theorem C87_converges_partial (xs : List ℝ) (p : ℕ → ℝ) (he : 0 ≤ p 0) (he1 : p 0 ≤ 1 / 4) :
    ∃ E Ep, eccentricAnomaly xs p = (E, Ep, true) := by
  have h : (eccentricAnomaly xs p).2.2 = true := by
    refine near_iterate (p 0) he he1 _ 99 (1 / 4) _ [] (by norm_num) le_rfl ?_ (by norm_num)
    rw [List.forall₂_map_right_iff, List.forall₂_same]
    intro M _
    refine ⟨M, rfl, ?_⟩
    intro X hX
    unfold IsEccentric at hX
    rw [show M - X = -(p 0 * sin X) by linarith, abs_neg, abs_mul, abs_of_nonneg he]
    nlinarith [abs_sin_le_one X, abs_nonneg (sin X)]
  exact ⟨_, _, by rw [← h]⟩

/-! ## The first method -/

theorem meeus_iterate (e M : ℝ) (he : 0 ≤ e) (he1 : e ≤ 1 / 2) : ∀ (n : ℕ) (δ E : ℝ) (B : List (Option ℝ)),
    |M - e * sin E - E| ≤ δ → δ / 2 ^ n < 1e-8 → (iterate (meeus e) [M] (n + 1) [some E] B).2.2 = true := by
  intro n
  induction n with
  | zero =>
    intro δ E B h hlt
    have h1 : |M - e * sin E - E| < 1e-8 := h.trans_lt (by simpa using hlt)
    simp [iterate, meeus, closeTo, h1]
  | succ n ih =>
    intro δ E B h hlt
    rw [iterate]
    split
    · rfl
    · simp only [List.zipWith_cons_cons, List.zipWith_nil_right, Option.bind_some, meeus]
      refine ih (δ / 2) _ _ ?_ ?_
      · rw [show M - e * sin (M - e * sin E) - (M - e * sin E) = -(e * (sin (M - e * sin E) - sin E)) by ring, abs_neg,
          abs_mul, abs_of_nonneg he]
        have := abs_sin_sub_sin_le (M - e * sin E) E
        nlinarith [abs_nonneg (sin (M - e * sin E) - sin E)]
      · rw [pow_succ] at hlt
        rwa [show δ / 2 / 2 ^ n = δ / (2 ^ n * 2) by field_simp]

/-- C87: the first method has the wrong sign. For an eccentricity of 1/2 and a mean anomaly of π/2 it converges to a
value below π/2, while the solution is more than 0.4 larger. -/
theorem C87_counterexample_meeus (x : ℝ) (p : ℕ → ℝ) (he : p 0 = 1 / 2) (hM : meanAnomaly x p = π / 2) :
    ∃ E Ep, solve meeus [x] p = ([some E], Ep, true) ∧ E < π / 2 ∧
      ∀ X, IsEccentric (p 0) (meanAnomaly x p) X → π / 2 + 2 / 5 < X := by
  have h : (solve meeus [x] p).2.2 = true := by
    refine meeus_iterate (p 0) (meanAnomaly x p) (by norm_num [he]) (by norm_num [he]) 99 1 _ [] ?_ (by norm_num)
    show |meanAnomaly x p - p 0 * sin (meanAnomaly x p) - meanAnomaly x p| ≤ 1
    simp only [hM, he, sin_pi_div_two]
    norm_num
  obtain ⟨E, Ep, b⟩ : ∃ E Ep, solve meeus [x] p = (E, Ep, true) := ⟨_, _, by rw [← h]⟩
  obtain ⟨Ei, Epi, h1, h2, h3, h4⟩ := solve_at meeus [x] p E Ep b 0 x rfl
  have hl : E.length = 1 := by
    have := iterate_true _ _ _ _ _ _ _ b
    have h5 := iterate_length _ _ _ _ _ _ _ (by simp) b
    rw [this.1]
    simp [h5]
  have hE : E = [some Ei] := by
    rcases E with _ | ⟨a, _ | ⟨b, l⟩⟩
    · simp at hl
    · simp only [List.getElem?_cons_zero, Option.some.injEq] at h1
      rw [h1]
    · simp at hl
  refine ⟨Ei, Ep, by rw [b, hE], ?_, ?_⟩
  · simp only [meeus, hM, he, Option.some.injEq] at h3
    have h5 := abs_lt.1 h4
    have h6 := neg_one_le_sin Epi
    have h7 := sin_le_one Epi
    have h8 := pi_gt_three
    norm_num at h5
    have h9 : 0 < sin Epi := sin_pos_of_pos_of_lt_pi (by linarith) (by linarith)
    linarith
  · intro X hX
    unfold IsEccentric at hX
    rw [hM, he] at hX
    have h6 := neg_one_le_sin X
    have h7 := sin_le_one X
    have h8 : sin X = cos (X - π / 2) := by rw [cos_sub_pi_div_two]
    have h9 : X - π / 2 = 1 / 2 * sin X := by linarith
    have h10 := one_sub_sq_div_two_le_cos (x := X - π / 2)
    rw [← h8, h9] at h10
    nlinarith

/-! ## Derivatives along a path -/

theorem den_pos (e E : ℝ) (he : |e| < 1) : 0 < 1 - e * cos E := by
  have h1 : |e * cos E| < 1 := by
    rw [abs_mul]
    nlinarith [abs_cos_le_one E, abs_nonneg e, abs_nonneg (cos E)]
  linarith [(abs_lt.1 h1).2]

/-- The eccentric anomaly along a path. -/
theorem ecc_deriv (ecc : ℝ → ℝ → ℝ) (hs : Solves ecc) (e M : ℝ → ℝ) (s e' M' : ℝ) (he : HasDerivAt e e' s)
    (hM : HasDerivAt M M' s) (h1 : |e s| < 1) :
    HasDerivAt (fun t => ecc (e t) (M t))
      ((M' + e' * sin (ecc (e s) (M s))) / (1 - e s * cos (ecc (e s) (M s)))) s := by
  set G := fun t => ecc (e t) (M t) with hG
  have hev : ∀ᶠ t in 𝓝 s, |e t| < 1 := he.continuousAt.abs.eventually_lt continuousAt_const h1
  have hcont : ContinuousAt G s := by
    have hb : ∀ᶠ t in 𝓝 s, |G t - G s| ≤ (|M t - M s| + |e t - e s|) / (1 - |e s|) := by
      filter_upwards [hev] with t ht
      rw [le_div_iff₀ (by linarith), mul_comm]
      exact ecc_close _ _ _ _ _ _ (hs _ _ h1) (hs _ _ ht)
    have hz : Tendsto (fun t => (|M t - M s| + |e t - e s|) / (1 - |e s|)) (𝓝 s) (𝓝 0) := by
      have h2 : ContinuousAt (fun t => (|M t - M s| + |e t - e s|) / (1 - |e s|)) s :=
        ((((hM.continuousAt.sub continuousAt_const).abs).add ((he.continuousAt.sub continuousAt_const).abs)).div_const _)
      have := h2.tendsto
      simpa using this
    rw [ContinuousAt, tendsto_iff_norm_sub_tendsto_zero]
    exact squeeze_zero' (Eventually.of_forall fun t => norm_nonneg _) hb hz
  have hden : 0 < 1 - e s * cos (G s) := den_pos _ _ h1
  rw [hasDerivAt_iff_tendsto_slope]
  have hd : ContinuousAt (fun t => dslope sin (G s) (G t)) s := by
    have h2 : ContinuousAt (dslope sin (G s)) (G s) := continuousAt_dslope_same.2 differentiable_sin.differentiableAt
    exact ContinuousAt.comp (f := G) (g := dslope sin (G s)) h2 hcont
  have hd2 : Tendsto (fun t => 1 - e t * dslope sin (G s) (G t)) (𝓝 s) (𝓝 (1 - e s * cos (G s))) := by
    have h2 : ContinuousAt (fun t => 1 - e t * dslope sin (G s) (G t)) s :=
      continuousAt_const.sub (he.continuousAt.mul hd)
    have := h2.tendsto
    simpa [dslope_same] using this
  have hnum := ((hasDerivAt_iff_tendsto_slope.1 hM).add ((hasDerivAt_iff_tendsto_slope.1 he).mul_const (sin (G s))))
  refine (hnum.div (hd2.mono_left nhdsWithin_le_nhds) hden.ne').congr' ?_
  have hne : ∀ᶠ t in 𝓝 s, 1 - e t * dslope sin (G s) (G t) ≠ 0 := hd2.eventually_ne hden.ne'
  filter_upwards [hev.filter_mono nhdsWithin_le_nhds, hne.filter_mono nhdsWithin_le_nhds, self_mem_nhdsWithin]
    with t ht hn hts
  have hts' : t - s ≠ 0 := sub_ne_zero.2 hts
  have k1 : G t = M t + e t * sin (G t) := hs _ _ ht
  have k2 : G s = M s + e s * sin (G s) := hs _ _ h1
  have k3 := sub_smul_dslope sin (G s) (G t)
  rw [smul_eq_mul] at k3
  simp only [slope_def_field, Pi.add_apply, Pi.div_apply]
  rw [div_eq_div_iff hn hts']
  have k4 : (G t - G s) * (1 - e t * dslope sin (G s) (G t)) = (M t - M s) + (e t - e s) * sin (G s) := by
    have : (G t - G s) * (1 - e t * dslope sin (G s) (G t))
        = (G t - G s) - e t * ((G t - G s) * dslope sin (G s) (G t)) := by ring
    rw [this, k3]
    linarith
  rw [k4]
  field_simp

/-- The true anomaly as an arctangent. -/
theorem trueAnomaly_eq (p : ℕ → ℝ) (E : ℝ) (h : -1 < cos E) :
    trueAnomaly p E = 2 * arctan (√((1 + p 0) / (1 - p 0)) * (sin E / (1 + cos E))) := by
  unfold trueAnomaly arctan2
  have hpos : 0 < 1 + cos E := by linarith
  set z : ℂ := ⟨1 + cos E, √((1 + p 0) / (1 - p 0)) * sin E⟩ with hz
  have h1 : |z.arg| < π / 2 := Complex.abs_arg_lt_pi_div_two_iff.2 (Or.inl hpos)
  have h2 := abs_lt.1 h1
  rw [← arctan_tan h2.1 h2.2, Complex.tan_arg, hz]
  simp only
  rw [mul_div_assoc]

theorem ef_pos (e : ℝ) (he : |e| < 1) : 0 < (1 + e) / (1 - e) := by
  have := abs_lt.1 he
  exact div_pos (by linarith) (by linarith)

/-- The true anomaly along a path. -/
theorem true_deriv (q : ℝ → ℕ → ℝ) (F : ℝ → ℝ) (s e' F' : ℝ) (he : HasDerivAt (fun t => q t 0) e' s)
    (hF : HasDerivAt F F' s) (h1 : |q s 0| < 1) (hc : -1 < cos (F s)) :
    HasDerivAt (fun t => trueAnomaly (q t) (F t))
      ((2 * (sin (F s) / (1 + cos (F s))) / (√((1 + q s 0) / (1 - q s 0)) * ((1 - q s 0) * (1 - q s 0))) * e'
        + 2 * √((1 + q s 0) / (1 - q s 0)) * (1 / (1 + cos (F s))) * F')
        / (1 + (1 + q s 0) / (1 - q s 0) * (sin (F s) / (1 + cos (F s))) * (sin (F s) / (1 + cos (F s))))) s := by
  have hev : ∀ᶠ t in 𝓝 s, -1 < cos (F t) := continuousAt_const.eventually_lt hF.cos.continuousAt hc
  have hef := ef_pos _ h1
  have ha := abs_lt.1 h1
  have hc0 : 1 + cos (F s) ≠ 0 := by linarith
  have hT : HasDerivAt (fun t => sin (F t) / (1 + cos (F t))) (1 / (1 + cos (F s)) * F') s := by
    refine (hF.sin.fun_div (hF.cos.const_add 1) hc0).congr_deriv ?_
    have := sin_sq_add_cos_sq (F s)
    rw [div_eq_iff (pow_ne_zero 2 hc0)]
    field_simp
    linear_combination F' * this
  have hE : HasDerivAt (fun t => (1 + q t 0) / (1 - q t 0)) (2 / ((1 - q s 0) * (1 - q s 0)) * e') s := by
    have hn : 1 - q s 0 ≠ 0 := by linarith
    refine ((he.const_add 1).fun_div (he.const_sub 1) hn).congr_deriv ?_
    field_simp
    ring
  have hS := (hE.sqrt hef.ne')
  have hV := ((hS.fun_mul hT).arctan.const_mul 2)
  refine (hV.congr_of_eventuallyEq ?_).congr_deriv ?_
  · filter_upwards [hev] with t ht
    exact trueAnomaly_eq (q t) (F t) ht
  · have hsq := sq_sqrt hef.le
    set S := √((1 + q s 0) / (1 - q s 0)) with hSd
    have hS0 : S ≠ 0 := (sqrt_pos.2 hef).ne'
    rw [← hsq]
    set T := sin (F s) / (1 + cos (F s))
    have hn : 1 - q s 0 ≠ 0 := by linarith
    have h5 : 1 + (S * T) ^ 2 ≠ 0 := by positivity
    rw [show 1 + S ^ 2 * T * T = 1 + (S * T) ^ 2 by ring]
    generalize 1 - q s 0 = w at *
    generalize 1 + cos (F s) = c at *
    generalize 1 + (S * T) ^ 2 = D at *
    field_simp

theorem radius_deriv (q : ℝ → ℕ → ℝ) (F : ℝ → ℝ) (s e' a' F' : ℝ) (he : HasDerivAt (fun t => q t 0) e' s)
    (ha : HasDerivAt (fun t => q t 1) a' s) (hF : HasDerivAt F F' s) :
    HasDerivAt (fun t => radius (q t) (F t))
      (a' * (1 - q s 0 * cos (F s)) + q s 1 * (q s 0 * sin (F s) * F' - e' * cos (F s))) s := by
  unfold radius
  refine (ha.fun_mul ((he.fun_mul hF.cos).const_sub 1)).congr_deriv ?_
  ring

/-! ## The laws of Kepler -/

theorem cos_true (p : ℕ → ℝ) (E : ℝ) (he : |p 0| < 1) (h : -1 < cos E) :
    cos (trueAnomaly p E) = (cos E - p 0) / (1 - p 0 * cos E) ∧
    sin (trueAnomaly p E) = √(1 - p 0 ^ 2) * sin E / (1 - p 0 * cos E) := by
  rw [trueAnomaly_eq p E h]
  have ha := abs_lt.1 he
  have hc1 := cos_le_one E
  have hef := ef_pos _ he
  have hsq := sq_sqrt hef.le
  have hden : 0 < 1 - p 0 * cos E := den_pos _ _ he
  have hc0 : 0 < 1 + cos E := by linarith
  have hn : 0 < 1 - p 0 := by linarith
  set S := √((1 + p 0) / (1 - p 0)) with hS
  set T := S * (sin E / (1 + cos E)) with hT
  have hsc := sin_sq_add_cos_sq E
  have hT2 : T ^ 2 = (1 + p 0) * (1 - cos E) / ((1 - p 0) * (1 + cos E)) := by
    rw [hT, mul_pow, hsq, div_pow, div_mul_div_comm, div_eq_div_iff (by positivity) (by positivity)]
    have : sin E ^ 2 = (1 - cos E) * (1 + cos E) := by linarith [hsc, sq (cos E)]
    rw [this]
    ring
  have h1T : 1 + T ^ 2 = 2 * (1 - p 0 * cos E) / ((1 - p 0) * (1 + cos E)) := by
    rw [hT2]
    field_simp
    ring
  have hcos := cos_sq_arctan T
  have hcp := cos_arctan_pos T
  constructor
  · rw [cos_two_mul, hcos, h1T]
    field_simp
    ring
  · rw [sin_two_mul]
    have htan : sin (arctan T) = T * cos (arctan T) := by
      have := tan_arctan T
      rw [tan_eq_sin_div_cos, div_eq_iff hcp.ne'] at this
      exact this
    rw [htan, show 2 * (T * cos (arctan T)) * cos (arctan T) = 2 * T * cos (arctan T) ^ 2 by ring, hcos, h1T]
    have hroot : √(1 - p 0 ^ 2) = S * (1 - p 0) := by
      rw [hS, show 1 - p 0 ^ 2 = (1 + p 0) / (1 - p 0) * (1 - p 0) ^ 2 by field_simp; ring,
        sqrt_mul hef.le, sqrt_sq hn.le]
    rw [hroot, hT]
    field_simp

/-- C87, the first law: the orbit is an ellipse with the given eccentricity and semi major axis, and the origin in a
focus. -/
theorem C87_ellipse (p : ℕ → ℝ) (E : ℝ) (he : |p 0| < 1) (h : -1 < cos E) :
    radius p E * (1 + p 0 * cos (trueAnomaly p E)) = p 1 * (1 - p 0 ^ 2) := by
  have ha := abs_lt.1 he
  have hc1 := cos_le_one E
  have hden : 0 < 1 - p 0 * cos E := den_pos _ _ he
  rw [(cos_true p E he h).1, radius]
  field_simp
  ring

theorem mean_deriv (x : ℝ) (p : ℕ → ℝ) : HasDerivAt (fun t => meanAnomaly t p) (2 * π / p 2) x := by
  unfold meanAnomaly
  refine ((((hasDerivAt_id' x).const_mul (2 * π)).div_const (p 2)).sub_const (p 3)).congr_deriv ?_
  ring

theorem true_rate (ecc : ℝ → ℝ → ℝ) (hs : Solves ecc) (x : ℝ) (p : ℕ → ℝ) (he : |p 0| < 1)
    (hc : -1 < cos (anomaly ecc x p)) :
    HasDerivAt (fun t => trueAnomaly p (anomaly ecc t p))
      (√(1 - p 0 ^ 2) / (1 - p 0 * cos (anomaly ecc x p)) ^ 2 * (2 * π / p 2)) x := by
  have hE := ecc_deriv ecc hs (fun _ => p 0) (fun t => meanAnomaly t p) x 0 (2 * π / p 2) (hasDerivAt_const _ _)
    (mean_deriv x p) he
  have hV := true_deriv (fun _ => p) (fun t => anomaly ecc t p) x 0 _ (hasDerivAt_const _ _) hE he hc
  refine hV.congr_deriv ?_
  change _ = √(1 - p 0 ^ 2) / (1 - p 0 * cos (anomaly ecc x p)) ^ 2 * (2 * π / p 2)
  rw [show ecc (p 0) (meanAnomaly x p) = anomaly ecc x p from rfl]
  set E := anomaly ecc x p
  have ha := abs_lt.1 he
  have hc1 := cos_le_one E
  have hef := ef_pos _ he
  have hsq := sq_sqrt hef.le
  have hden : 0 < 1 - p 0 * cos E := den_pos _ _ he
  have hc0 : 0 < 1 + cos E := by linarith
  have hn : 0 < 1 - p 0 := by linarith
  have hsc := sin_sq_add_cos_sq E
  have hroot : √(1 - p 0 ^ 2) = √((1 + p 0) / (1 - p 0)) * (1 - p 0) := by
    rw [show 1 - p 0 ^ 2 = (1 + p 0) / (1 - p 0) * (1 - p 0) ^ 2 by field_simp; ring,
      sqrt_mul hef.le, sqrt_sq hn.le]
  rw [hroot]
  have h1T : 1 + (1 + p 0) / (1 - p 0) * (sin E / (1 + cos E)) * (sin E / (1 + cos E))
      = 2 * (1 - p 0 * cos E) / ((1 - p 0) * (1 + cos E)) := by
    have : sin E ^ 2 = (1 - cos E) * (1 + cos E) := by linarith [hsc, sq (cos E)]
    rw [show (1 + p 0) / (1 - p 0) * (sin E / (1 + cos E)) * (sin E / (1 + cos E))
      = (1 + p 0) / (1 - p 0) * (sin E ^ 2 / (1 + cos E) ^ 2) by rw [← div_pow]; ring, this]
    field_simp
    ring
  rw [h1T]
  set S := √((1 + p 0) / (1 - p 0))
  simp only [mul_zero, zero_mul, add_zero, zero_add]
  field_simp

/-- C87, the second law: equal areas in equal times; in one period the area is that of the ellipse. -/
theorem C87_areas (ecc : ℝ → ℝ → ℝ) (hs : Solves ecc) (x : ℝ) (p : ℕ → ℝ) (he : |p 0| < 1)
    (hc : -1 < cos (anomaly ecc x p)) :
    ∃ w, HasDerivAt (fun t => trueAnomaly p (anomaly ecc t p)) w x ∧
      1 / 2 * radius p (anomaly ecc x p) ^ 2 * w = π * p 1 * (p 1 * √(1 - p 0 ^ 2)) / p 2 := by
  refine ⟨_, true_rate ecc hs x p he hc, ?_⟩
  have ha := abs_lt.1 he
  have hc1 := cos_le_one (anomaly ecc x p)
  have hden : 1 - p 0 * cos (anomaly ecc x p) ≠ 0 := (den_pos _ _ he).ne'
  unfold radius
  field_simp

/-- C87: after one period all is as it was. -/
theorem C87_period (ecc : ℝ → ℝ → ℝ) (hs : Solves ecc) (x : ℝ) (p : ℕ → ℝ) (he : |p 0| < 1) (hP : p 2 ≠ 0) :
    radius p (anomaly ecc (x + p 2) p) = radius p (anomaly ecc x p) ∧
    trueAnomaly p (anomaly ecc (x + p 2) p) = trueAnomaly p (anomaly ecc x p) := by
  have hM : meanAnomaly (x + p 2) p = meanAnomaly x p + 2 * π := by
    unfold meanAnomaly
    field_simp
    ring
  have h1 : IsEccentric (p 0) (meanAnomaly (x + p 2) p) (anomaly ecc x p + 2 * π) := by
    have := hs (p 0) (meanAnomaly x p) he
    unfold IsEccentric at this ⊢
    rw [sin_add_two_pi, hM]
    unfold anomaly
    linarith
  have h2 : anomaly ecc (x + p 2) p = anomaly ecc x p + 2 * π :=
    (C87_unique _ _ he).unique (hs (p 0) (meanAnomaly (x + p 2) p) he) h1
  rw [h2]
  unfold radius trueAnomaly
  rw [cos_add_two_pi, sin_add_two_pi]
  exact ⟨rfl, rfl⟩

/-- C87: the distance is between those of periastron and apastron; the phase tells when it passes periastron. -/
theorem C87_periastron (ecc : ℝ → ℝ → ℝ) (hs : Solves ecc) (p : ℕ → ℝ) (he : 0 ≤ p 0) (he1 : p 0 < 1) (ha : 0 ≤ p 1)
    (hP : p 2 ≠ 0) :
    (∀ E, p 1 * (1 - p 0) ≤ radius p E ∧ radius p E ≤ p 1 * (1 + p 0)) ∧
    radius p (anomaly ecc (p 3 / (2 * π) * p 2) p) = p 1 * (1 - p 0) ∧
    trueAnomaly p (anomaly ecc (p 3 / (2 * π) * p 2) p) = 0 := by
  have habs : |p 0| < 1 := by rwa [abs_of_nonneg he]
  have hM : meanAnomaly (p 3 / (2 * π) * p 2) p = 0 := by
    unfold meanAnomaly
    have := pi_ne_zero
    field_simp
    ring
  have h2 : anomaly ecc (p 3 / (2 * π) * p 2) p = 0 := by
    refine (C87_unique (p 0) 0 habs).unique ?_ ?_
    · have := hs (p 0) 0 habs
      rwa [anomaly, hM]
    · simp [IsEccentric]
  refine ⟨?_, ?_, ?_⟩
  · intro E
    have h3 := cos_le_one E
    have h4 := neg_one_le_cos E
    unfold radius
    constructor
    · exact mul_le_mul_of_nonneg_left (by nlinarith) ha
    · exact mul_le_mul_of_nonneg_left (by nlinarith) ha
  · rw [h2, radius, cos_zero, mul_one]
  · rw [h2, trueAnomaly_eq p 0 (by simp)]
    simp

/-! ## A concrete case -/

/-- An orbit with eccentricity 1/4: three data, for which the iterations converge. -/
example : ∃ E Ep, eccentricAnomaly [1, 2, 7 / 2] (fun k => if k = 0 then 1 / 4 else 1) = (E, Ep, true) :=
  C87_converges_partial _ _ (by norm_num) (by norm_num)

/-- An orbit with eccentricity 1/2, half a year before apastron. -/
example : meanAnomaly (1 / 4) (fun k => if k = 0 then 1 / 2 else if k = 3 then 0 else 1) = π / 2 := by
  unfold meanAnomaly
  norm_num
  ring

end BF.Kepler
