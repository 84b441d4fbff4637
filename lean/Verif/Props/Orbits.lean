import Verif.Props.Kepler
import Mathlib.Tactic.IntervalCases
import Mathlib.Analysis.SpecialFunctions.Complex.LogDeriv

/-!
# C88 and C89: radial velocities and positions in an orbit
-/

noncomputable section

namespace BF.Kepler

open Real Filter Topology

/-! ## Derivatives along a path, in the terms of the code -/

theorem c2_eq (c : ℝ) (h : -0.9999999999 < c) : c2 c = 1 / (1 + c) := if_neg (not_le.2 h)

theorem anomaly_path (ecc : ℝ → ℝ → ℝ) (hs : Solves ecc) (q : ℝ → ℕ → ℝ) (X : ℝ → ℝ) (s x' : ℝ) (q' : ℕ → ℝ)
    (hq : ∀ j, HasDerivAt (fun t => q t j) (q' j) s) (hX : HasDerivAt X x' s) (he : |q s 0| < 1) (hP : q s 2 ≠ 0) :
    HasDerivAt (fun t => anomaly ecc (X t) (q t))
      (dEdx (q s) (cos (anomaly ecc (X s) (q s))) * x'
        + (dEdpar (X s) (q s) (cos (anomaly ecc (X s) (q s))) (sin (anomaly ecc (X s) (q s)))).1 * q' 0
        + (dEdpar (X s) (q s) (cos (anomaly ecc (X s) (q s))) (sin (anomaly ecc (X s) (q s)))).2.1 * q' 2
        + (dEdpar (X s) (q s) (cos (anomaly ecc (X s) (q s))) (sin (anomaly ecc (X s) (q s)))).2.2 * q' 3) s := by
  have hM : HasDerivAt (fun t => meanAnomaly (X t) (q t))
      (2 * π * x' / q s 2 - 2 * π * X s / (q s 2 * q s 2) * q' 2 - q' 3) s := by
    unfold meanAnomaly
    refine (((hX.const_mul (2 * π)).fun_div (hq 2) hP).fun_sub (hq 3)).congr_deriv ?_
    field_simp
  refine (ecc_deriv ecc hs _ _ s _ _ (hq 0) hM he).congr_deriv ?_
  have hden := (den_pos (q s 0) (ecc (q s 0) (meanAnomaly (X s) (q s))) he).ne'
  simp only [dEdx, dEdM, dMdx, dEdpar, dMdpar, anomaly]
  rw [show (1.0 : ℝ) = 1 by norm_num]
  generalize ecc (q s 0) (meanAnomaly (X s) (q s)) = E at *
  generalize 1 - q s 0 * cos E = D at *
  field_simp
  ring

theorem true_path (ecc : ℝ → ℝ → ℝ) (hs : Solves ecc) (q : ℝ → ℕ → ℝ) (X : ℝ → ℝ) (s x' : ℝ) (q' : ℕ → ℝ)
    (hq : ∀ j, HasDerivAt (fun t => q t j) (q' j) s) (hX : HasDerivAt X x' s) (he : |q s 0| < 1) (hP : q s 2 ≠ 0)
    (E : ℝ) (hE : anomaly ecc (X s) (q s) = E) (hc : -0.9999999999 < cos E) :
    HasDerivAt (fun t => trueAnomaly (q t) (anomaly ecc (X t) (q t)))
      ((drvdx (q s) (cos E) (sin E)).2 * x' + dvdpar (X s) (q s) (cos E) (sin E) 0 * q' 0
        + dvdpar (X s) (q s) (cos E) (sin E) 2 * q' 2 + dvdpar (X s) (q s) (cos E) (sin E) 3 * q' 3) s := by
  have hA := anomaly_path ecc hs q X s x' q' hq hX he hP
  have hc' : -1 < cos E := by norm_num at hc ⊢; linarith
  have hV := true_deriv q (fun t => anomaly ecc (X t) (q t)) s (q' 0) _ (hq 0) hA he (by rw [hE]; exact hc')
  refine hV.congr_deriv ?_
  rw [hE]
  have hef := ef_pos _ he
  have hsq := sq_sqrt hef.le
  have hS0 := (sqrt_pos.2 hef)
  have hc0 : 0 < 1 + cos E := by linarith
  have ha := abs_lt.1 he
  have hn : 1 - q s 0 ≠ 0 := by linarith
  have hT2 : (1 - cos E) * (1 / (1 + cos E)) = sin E / (1 + cos E) * (sin E / (1 + cos E)) := by
    have := sin_sq_add_cos_sq E
    field_simp
    linarith [sq (cos E), sq (sin E)]
  simp only [drvdx, drvdE, dvdpar, c2_eq _ hc]
  rw [hT2, show sin E * (1 / (1 + cos E)) = sin E / (1 + cos E) by ring]
  generalize dEdx (q s) (cos E) = d0
  generalize (dEdpar (X s) (q s) (cos E) (sin E)).1 = d1
  generalize (dEdpar (X s) (q s) (cos E) (sin E)).2.1 = d2
  generalize (dEdpar (X s) (q s) (cos E) (sin E)).2.2 = d3
  have hD : 0 < 1 + (1 + q s 0) / (1 - q s 0) * (sin E / (1 + cos E)) * (sin E / (1 + cos E)) := by
    rw [mul_assoc]
    have := mul_self_nonneg (sin E / (1 + cos E))
    positivity
  rw [show (1 + q s 0) / (1 - q s 0) * (sin E / (1 + cos E) * (sin E / (1 + cos E))) + 1
    = 1 + (1 + q s 0) / (1 - q s 0) * (sin E / (1 + cos E)) * (sin E / (1 + cos E)) by ring]
  generalize 1 + (1 + q s 0) / (1 - q s 0) * (sin E / (1 + cos E)) * (sin E / (1 + cos E)) = D at *
  generalize sin E / (1 + cos E) = T
  generalize √((1 + q s 0) / (1 - q s 0)) = S at *
  generalize 1 - q s 0 = w at *
  have hS : S ≠ 0 := hS0.ne'
  have hD' := hD.ne'
  field_simp
  ring

theorem radius_path (ecc : ℝ → ℝ → ℝ) (hs : Solves ecc) (q : ℝ → ℕ → ℝ) (X : ℝ → ℝ) (s x' : ℝ) (q' : ℕ → ℝ)
    (hq : ∀ j, HasDerivAt (fun t => q t j) (q' j) s) (hX : HasDerivAt X x' s) (he : |q s 0| < 1) (hP : q s 2 ≠ 0)
    (E : ℝ) (hE : anomaly ecc (X s) (q s) = E) :
    HasDerivAt (fun t => radius (q t) (anomaly ecc (X t) (q t)))
      ((drvdx (q s) (cos E) (sin E)).1 * x' + drdpar (X s) (q s) (cos E) (sin E) 0 * q' 0
        + drdpar (X s) (q s) (cos E) (sin E) 1 * q' 1
        + drdpar (X s) (q s) (cos E) (sin E) 2 * q' 2 + drdpar (X s) (q s) (cos E) (sin E) 3 * q' 3) s := by
  have hA := anomaly_path ecc hs q X s x' q' hq hX he hP
  have hV := radius_deriv q (fun t => anomaly ecc (X t) (q t)) s (q' 0) (q' 1) _ (hq 0) (hq 1) hA
  refine hV.congr_deriv ?_
  rw [hE]
  simp only [drvdx, drvdE, drdpar]
  ring

/-! ## From a path to the parameters -/

theorem update_path (p : ℕ → ℝ) (k j : ℕ) :
    HasDerivAt (fun t => Function.update p k t j) (if j = k then 1 else 0) (p k) := by
  by_cases h : j = k
  · subst h
    simpa using hasDerivAt_id' (p j)
  · simpa [Function.update, h] using hasDerivAt_const (p k) (p j)

/-! ## Radial velocities -/

theorem velocity_path (ecc : ℝ → ℝ → ℝ) (hs : Solves ecc) (q : ℝ → ℕ → ℝ) (X : ℝ → ℝ) (s x' : ℝ) (q' : ℕ → ℝ)
    (hq : ∀ j, HasDerivAt (fun t => q t j) (q' j) s) (hX : HasDerivAt X x' s) (he : |q s 0| < 1) (hP : q s 2 ≠ 0)
    (hc : -0.9999999999 < cos (anomaly ecc (X s) (q s))) :
    HasDerivAt (fun t => velocity ecc (X t) (q t))
      (velocityDerivative ecc (X s) (q s) * x' + velocityPartial ecc (X s) (q s) 0 * q' 0
        + velocityPartial ecc (X s) (q s) 1 * q' 1 + velocityPartial ecc (X s) (q s) 2 * q' 2
        + velocityPartial ecc (X s) (q s) 3 * q' 3 + velocityPartial ecc (X s) (q s) 4 * q' 4) s := by
  have hV := true_path ecc hs q X s x' q' hq hX he hP _ rfl hc
  unfold velocity
  refine ((hq 1).fun_mul (((hV.fun_add (hq 4)).cos).fun_add ((hq 0).fun_mul (hq 4).cos))).congr_deriv ?_
  simp only [velocityDerivative, velocityPartial]
  ring

/-- C88: the partials of the radial velocity are its derivatives to the parameters, and the derivative is that to the
time. Missing: the immediate neighbourhood of apastron, where a divisor is kept from being zero. -/
theorem C88_derivatives_partial (ecc : ℝ → ℝ → ℝ) (hs : Solves ecc) (x : ℝ) (p : ℕ → ℝ) (he : |p 0| < 1)
    (hP : p 2 ≠ 0) (hc : -0.9999999999 < cos (anomaly ecc x p)) :
    (∀ k < 5, HasDerivAt (fun t => velocity ecc x (Function.update p k t)) (velocityPartial ecc x p k) (p k)) ∧
    HasDerivAt (fun t => velocity ecc t p) (velocityDerivative ecc x p) x := by
  constructor
  · intro k hk
    have h := velocity_path ecc hs (Function.update p k) (fun _ => x) (p k) 0 (fun j => if j = k then 1 else 0)
      (update_path p k) (hasDerivAt_const _ _) (by simpa using he) (by simpa using hP) (by simpa using hc)
    refine h.congr_deriv ?_
    simp only [Function.update_eq_self]
    interval_cases k <;> simp
  · have h := velocity_path ecc hs (fun _ => p) (fun t => t) x 1 (fun _ => 0)
      (fun j => hasDerivAt_const _ _) (hasDerivAt_id' x) he hP hc
    refine h.congr_deriv ?_
    simp

/-- C88: the result is the velocity along the line of sight, in an orbit with a semi major axis of amplitude times period
times √(1-e²) over 2π (times the sine of the inclination). -/
theorem C88_line_of_sight (ecc : ℝ → ℝ → ℝ) (hs : Solves ecc) (x : ℝ) (p : ℕ → ℝ) (he : |p 0| < 1)
    (hP : p 2 ≠ 0) (hc : -1 < cos (anomaly ecc x p)) (a : ℝ) (ha : a = p 1 * p 2 * √(1 - p 0 ^ 2) / (2 * π)) :
    HasDerivAt (fun t => radius (Function.update p 1 a) (anomaly ecc t p)
      * sin (trueAnomaly p (anomaly ecc t p) + p 4)) (velocity ecc x p) x := by
  have hE := ecc_deriv ecc hs (fun _ => p 0) (fun t => meanAnomaly t p) x 0 (2 * π / p 2) (hasDerivAt_const _ _)
    (mean_deriv x p) he
  have hR := radius_deriv (fun _ => Function.update p 1 a) (fun t => anomaly ecc t p) x 0 0 _
    (hasDerivAt_const _ _) (hasDerivAt_const _ _) hE
  have hV := true_rate ecc hs x p he hc
  refine (hR.fun_mul (hV.add_const (p 4)).sin).congr_deriv ?_
  rw [show ecc (p 0) (meanAnomaly x p) = anomaly ecc x p from rfl]
  have hcs := cos_true p _ he hc
  simp only [velocity, radius, cos_add, sin_add, Function.update_self, ne_eq, zero_ne_one, not_false_eq_true,
    Function.update_of_ne]
  rw [hcs.1, hcs.2]
  set E := anomaly ecc x p
  have hden := (den_pos (p 0) E he).ne'
  have hab := abs_lt.1 he
  have hr : √(1 - p 0 ^ 2) * √(1 - p 0 ^ 2) = 1 - p 0 ^ 2 := mul_self_sqrt (by nlinarith)
  have hsc := sin_sq_add_cos_sq E
  have hpi := pi_ne_zero
  rw [ha]
  set R := √(1 - p 0 ^ 2)
  have hs2 : sin E ^ 2 = 1 - cos E ^ 2 := by linarith
  have hR2 : R ^ 2 = 1 - p 0 ^ 2 := by rw [sq, hr]
  generalize cos (p 4) = co
  generalize sin (p 4) = so
  generalize sin E = sE at *
  generalize hD : 1 - p 0 * cos E = D at *
  generalize hcE : cos E = cE at *
  field_simp
  rw [← hD]
  linear_combination (p 1 * 2 * π * R ^ 2 * p 0 * co) * hs2
    + (p 1 * 2 * π * co * cE * (1 - p 0 * cE) - p 1 * 2 * π * R * sE * so) * hR2

/-- C88: the semi major axis and the mass. The attributes take the parameters in another order: they have the eccentricity
for the amplitude, the amplitude for the period and the period for the eccentricity. For periods above 1 they raise; for
circular orbits both are zero, whatever the amplitude. -/
theorem C88_counterexample_axis (p : ℕ → ℝ) (mass : ℝ) :
    (1 < p 2 → semimajoraxis p = none ∧ getMsini mass p = none) ∧
    (p 0 = 0 → ∀ v, semimajoraxis p = some v ∨ getMsini mass p = some v → v = 0) := by
  constructor
  · intro h
    have h1 : 1 - p 2 * p 2 < 0 := by nlinarith
    simp [semimajoraxis, getMsini, h1]
  · intro h v hv
    rcases hv with hv | hv
    · simp only [semimajoraxis, h] at hv
      split at hv
      · simp at hv
      · simpa using hv.symm
    · simp only [getMsini, h] at hv
      split at hv
      · simp at hv
      · simpa using hv.symm

/-- C88: for an amplitude, a period and an eccentricity in the first three places both would be right: one turn at the
amplitude has the length of the circle with the axis as radius, foreshortened by the eccentricity, and the cube of the mass
is the mass function of a small companion. -/
theorem C88_axis_order_partial (p : ℕ → ℝ) (mass K T e : ℝ) (hK : p 0 = K) (hT : p 1 = T) (he : p 2 = e) (hm : 0 ≤ mass)
    (hT0 : 0 ≤ T) (he1 : |e| < 1) :
    (∃ a, semimajoraxis p = some a ∧ 2 * π * a = K * T * √(1 - e ^ 2))
      ∧ ∃ m, getMsini mass p = some m ∧ m ^ 3 = 0.00491 ^ 3 * (mass ^ 2 * K ^ 3 * T) * √(1 - e ^ 2) ^ 3 := by
  have h1 : ¬ 1 - e * e < 0 := by
    have := abs_lt.1 he1
    nlinarith
  have h2 : e * e = e ^ 2 := by ring
  have c1 : (mass ^ (2.0 / 3.0 : ℝ)) ^ 3 = mass ^ 2 := by
    rw [← rpow_natCast, ← rpow_mul hm, show (2.0 / 3.0 : ℝ) * ((3 : ℕ) : ℝ) = ((2 : ℕ) : ℝ) by norm_num, rpow_natCast]
  have c2 : (T ^ (1.0 / 3.0 : ℝ)) ^ 3 = T := by
    rw [← rpow_natCast, ← rpow_mul hT0, show (1.0 / 3.0 : ℝ) * ((3 : ℕ) : ℝ) = 1 by norm_num, rpow_one]
  constructor
  · refine ⟨_, by rw [semimajoraxis, he, if_neg h1], ?_⟩
    rw [hK, hT, h2]
    have := pi_ne_zero
    field_simp
  · refine ⟨_, by rw [getMsini, he, hT, if_neg (by push Not; exact ⟨not_lt.1 h1, hT0, hm⟩)], ?_⟩
    rw [hK, h2, mul_pow, mul_pow, mul_pow, mul_pow, c1, c2, show (4.91e-3 : ℝ) = 0.00491 by norm_num]
    ring

/-! ## Positions on the sky -/

theorem arctan2_deriv (a b : ℝ → ℝ) (s a' b' : ℝ) (ha : HasDerivAt a a' s) (hb : HasDerivAt b b' s)
    (h : 0 < a s ∨ b s ≠ 0) :
    HasDerivAt (fun t => arctan2 (b t) (a t)) ((a s * b' - b s * a') / (a s * a s + b s * b s)) s := by
  have hz : HasDerivAt (fun t => (⟨a t, b t⟩ : ℂ)) ⟨a', b'⟩ s := by
    have h1 := (ha.ofReal_comp).add ((hb.ofReal_comp).mul_const Complex.I)
    refine (h1.congr_of_eventuallyEq ?_).congr_deriv ?_
    · filter_upwards with t
      simp [Complex.mk_eq_add_mul_I]
    · simp [Complex.mk_eq_add_mul_I]
  have hl := hz.clog_real (show (⟨a s, b s⟩ : ℂ) ∈ Complex.slitPlane from h)
  have hi := Complex.imCLM.hasFDerivAt.comp_hasDerivAt s hl
  refine (hi.congr_of_eventuallyEq ?_).congr_deriv ?_
  · filter_upwards with t
    simp [arctan2, Complex.log_im]
  · simp only [Complex.imCLM_apply, Complex.div_im, Complex.normSq_mk]
    ring

/-- Distance and angle from two coordinates, and the angle of the nodes. -/
theorem rect_eq (r a b w : ℝ) : toRect (r * √(b * b + a * a), arctan2 b a + w)
    = (r * (a * sin w + b * cos w), -(r * (a * cos w - b * sin w))) := by
  have hn : ‖(⟨a, b⟩ : ℂ)‖ = √(b * b + a * a) := by
    rw [Complex.norm_def, Complex.normSq_mk, add_comm]
  have hc : √(b * b + a * a) * cos (arctan2 b a) = a := by
    rw [← hn, arctan2, Complex.norm_mul_cos_arg]
  have hs : √(b * b + a * a) * sin (arctan2 b a) = b := by
    rw [← hn, arctan2, Complex.norm_mul_sin_arg]
  simp only [toRect, cos_add, sin_add, Prod.mk.injEq]
  set u := √(b * b + a * a)
  constructor
  · linear_combination r * sin w * hc + r * cos w * hs
  · linear_combination r * sin w * hs - r * cos w * hc

/-- C89: in rectangular coordinates the position is the projection of the orbit on the sky: turned by the longitude of
periastron, foreshortened by the inclination, turned by the angle of the nodes. -/
theorem C89_projection (ecc : ℝ → ℝ → ℝ) (x : ℝ) (p : ℕ → ℝ) (r v : ℝ) (hr : r = radius p (anomaly ecc x p))
    (hv : v = trueAnomaly p (anomaly ecc x p)) :
    orbit ecc false x p =
      (r * (cos (v + p 6) * sin (p 5) + sin (v + p 6) * cos (p 4) * cos (p 5)),
       -(r * (cos (v + p 6) * cos (p 5) - sin (v + p 6) * cos (p 4) * sin (p 5)))) := by
  simp only [orbit, Bool.false_eq_true, if_false, orbitSpherical]
  rw [rect_eq, hr, hv]

/-- C89: conversion to rectangular coordinates and back. -/
theorem C89_coordinates (xy : ℝ × ℝ) (rho theta : ℝ) (hr : 0 < rho) (ht : -π < theta) (ht1 : theta ≤ π) :
    toRect (toSpher xy) = xy ∧ toSpher (toRect (rho, theta)) = (rho, theta) := by
  constructor
  · have h := rect_eq 1 (-xy.2) xy.1 0
    simp only [one_mul, add_zero, sin_zero, cos_zero, mul_zero, mul_one, zero_add, sub_zero, neg_neg,
      neg_mul_neg] at h
    exact h
  · simp only [toRect, toSpher, Prod.mk.injEq]
    constructor
    · rw [show rho * sin theta * (rho * sin theta) + -rho * cos theta * (-rho * cos theta)
        = rho ^ 2 * (sin theta ^ 2 + cos theta ^ 2) by ring, sin_sq_add_cos_sq, mul_one, sqrt_sq hr.le]
    · rw [arctan2, show -(-rho * cos theta) = rho * cos theta by ring]
      have := Complex.arg_mul_cos_add_sin_mul_I hr ⟨ht, ht1⟩
      refine Eq.trans ?_ this
      congr 1
      apply Complex.ext <;> simp [Complex.cos_ofReal_re, Complex.sin_ofReal_re]

/-- Distance and angle along a path, in terms of the two coordinates. -/
theorem norm_deriv (a b : ℝ → ℝ) (s a' b' : ℝ) (ha : HasDerivAt a a' s) (hb : HasDerivAt b b' s)
    (h : 0 < b s * b s + a s * a s) :
    HasDerivAt (fun t => √(b t * b t + a t * a t)) ((b s * b' + a s * a') / √(b s * b s + a s * a s)) s := by
  refine (((hb.fun_mul hb).fun_add (ha.fun_mul ha)).sqrt h.ne').congr_deriv ?_
  have := (sqrt_pos.2 h).ne'
  field_simp
  ring

/-- The derivatives of the rectangular coordinates from those of distance and angle. -/
theorem rect_deriv (r a b w : ℝ → ℝ) (s r' a' b' w' : ℝ) (hr : HasDerivAt r r' s) (ha : HasDerivAt a a' s)
    (hb : HasDerivAt b b' s) (hw : HasDerivAt w w' s) (h : 0 < b s * b s + a s * a s) (ρ : ℝ)
    (hρ : ρ = √(b s * b s + a s * a s)) (d : ℝ × ℝ)
    (hd : d = rectParts (r s * ρ) (arctan2 (b s) (a s) + w s) (ρ * r' + r s * ((b s * b' + a s * a') / ρ))
      ((a s * b' - b s * a') / (a s * a s + b s * b s) + w')) :
    HasDerivAt (fun t => (toRect (r t * √(b t * b t + a t * a t), arctan2 (b t) (a t) + w t)).1) d.1 s ∧
    HasDerivAt (fun t => (toRect (r t * √(b t * b t + a t * a t), arctan2 (b t) (a t) + w t)).2) d.2 s := by
  simp only [rect_eq]
  have hn : ‖(⟨a s, b s⟩ : ℂ)‖ = ρ := by
    rw [Complex.norm_def, Complex.normSq_mk, add_comm, hρ]
  have hc : ρ * cos (arctan2 (b s) (a s)) = a s := by
    rw [← hn, arctan2, Complex.norm_mul_cos_arg]
  have hs : ρ * sin (arctan2 (b s) (a s)) = b s := by
    rw [← hn, arctan2, Complex.norm_mul_sin_arg]
  have hρ0 : ρ ≠ 0 := by
    rw [hρ]
    exact (sqrt_pos.2 h).ne'
  have hρ2 : ρ ^ 2 = b s * b s + a s * a s := by
    rw [hρ, sq_sqrt h.le]
  rw [hd]
  simp only [rectParts, cos_add, sin_add]
  rw [show a s * a s + b s * b s = ρ ^ 2 by rw [hρ2]; ring]
  have hsc := sin_sq_add_cos_sq (arctan2 (b s) (a s))
  generalize cos (arctan2 (b s) (a s)) = C at *
  generalize sin (arctan2 (b s) (a s)) = S at *
  have h1 : (b s * b' + a s * a') / ρ = S * b' + C * a' := by
    rw [← hc, ← hs]
    field_simp
  obtain ⟨D, hD⟩ : ∃ D, D = (a s * b' - b s * a') / ρ ^ 2 := ⟨_, rfl⟩
  have hD2 : ρ * D = C * b' - S * a' := by
    rw [hD, ← hc, ← hs]
    field_simp
  rw [h1, ← hD]
  constructor
  · refine (hr.fun_mul ((ha.fun_mul hw.sin).fun_add (hb.fun_mul hw.cos))).congr_deriv ?_
    linear_combination -(r' * sin (w s) + r s * w' * cos (w s)) * hc - (r' * cos (w s) - r s * w' * sin (w s)) * hs
      - r s * (C * cos (w s) - S * sin (w s)) * hD2 - r s * (cos (w s) * b' + sin (w s) * a') * hsc
  · refine (hr.fun_mul ((ha.fun_mul hw.cos).fun_sub (hb.fun_mul hw.sin))).fun_neg.congr_deriv ?_
    linear_combination (r' * cos (w s) - r s * w' * sin (w s)) * hc - (r' * sin (w s) + r s * w' * cos (w s)) * hs
      - r s * (S * cos (w s) + C * sin (w s)) * hD2 + r s * (cos (w s) * a' - sin (w s) * b') * hsc

/-- The two coordinates in the plane of the nodes. -/
def nodeA (v : ℝ) (p : ℕ → ℝ) : ℝ := cos (v + p 6)

/-- The second one, foreshortened. -/
def nodeB (v : ℝ) (p : ℕ → ℝ) : ℝ := sin (v + p 6) * cos (p 4)

theorem orbit_spherical_eq (ecc : ℝ → ℝ → ℝ) (x : ℝ) (p : ℕ → ℝ) (v : ℝ) (hv : v = trueAnomaly p (anomaly ecc x p)) :
    orbitSpherical ecc x p = (radius p (anomaly ecc x p) * √(nodeB v p * nodeB v p + nodeA v p * nodeA v p),
      arctan2 (nodeB v p) (nodeA v p) + p 5) := by
  rw [hv]
  rfl

theorem node_path (v : ℝ → ℝ) (q : ℝ → ℕ → ℝ) (s v' : ℝ) (q' : ℕ → ℝ) (hv : HasDerivAt v v' s)
    (hq : ∀ j, HasDerivAt (fun t => q t j) (q' j) s) :
    HasDerivAt (fun t => nodeA (v t) (q t)) (-sin (v s + q s 6) * (v' + q' 6)) s ∧
    HasDerivAt (fun t => nodeB (v t) (q t))
      (cos (v s + q s 6) * (v' + q' 6) * cos (q s 4) - sin (v s + q s 6) * (sin (q s 4) * q' 4)) s := by
  constructor
  · exact (hv.fun_add (hq 6)).cos
  · refine ((hv.fun_add (hq 6)).sin.fun_mul (hq 4).cos).congr_deriv ?_
    ring

/-- The change of distance and angle along a path is the sum of the partials of the code. -/
theorem orbit_parts (ecc : ℝ → ℝ → ℝ) (x : ℝ) (p : ℕ → ℝ) (x' : ℝ) (q' : ℕ → ℝ) (E : ℝ) (hE : anomaly ecc x p = E)
    (hc : -0.9999999999 < cos E) (v r r' v' a' b' : ℝ) (hv : v = trueAnomaly p E) (hr : r = radius p E)
    (hr' : r' = (drvdx p (cos E) (sin E)).1 * x' + drdpar x p (cos E) (sin E) 0 * q' 0
        + drdpar x p (cos E) (sin E) 1 * q' 1
        + drdpar x p (cos E) (sin E) 2 * q' 2 + drdpar x p (cos E) (sin E) 3 * q' 3)
    (hv' : v' = (drvdx p (cos E) (sin E)).2 * x' + dvdpar x p (cos E) (sin E) 0 * q' 0
        + dvdpar x p (cos E) (sin E) 2 * q' 2 + dvdpar x p (cos E) (sin E) 3 * q' 3)
    (ha' : a' = -sin (v + p 6) * (v' + q' 6))
    (hb' : b' = cos (v + p 6) * (v' + q' 6) * cos (p 4) - sin (v + p 6) * (sin (p 4) * q' 4))
    (ρ : ℝ) (hρ : ρ = √(nodeB v p * nodeB v p + nodeA v p * nodeA v p)) :
    (ρ * r' + r * ((nodeB v p * b' + nodeA v p * a') / ρ)
      = (orbitDerivative ecc true x p).1 * x' + (orbitPartial ecc true x p 0).1 * q' 0
        + (orbitPartial ecc true x p 1).1 * q' 1 + (orbitPartial ecc true x p 2).1 * q' 2
        + (orbitPartial ecc true x p 3).1 * q' 3 + (orbitPartial ecc true x p 4).1 * q' 4
        + (orbitPartial ecc true x p 5).1 * q' 5 + (orbitPartial ecc true x p 6).1 * q' 6) ∧
    ((nodeA v p * b' - nodeB v p * a') / (nodeA v p * nodeA v p + nodeB v p * nodeB v p) + q' 5
      = (orbitDerivative ecc true x p).2 * x' + (orbitPartial ecc true x p 0).2 * q' 0
        + (orbitPartial ecc true x p 1).2 * q' 1 + (orbitPartial ecc true x p 2).2 * q' 2
        + (orbitPartial ecc true x p 3).2 * q' 3 + (orbitPartial ecc true x p 4).2 * q' 4
        + (orbitPartial ecc true x p 5).2 * q' 5 + (orbitPartial ecc true x p 6).2 * q' 6) := by
  have haw : away (cos E) = cos E := by
    unfold away
    rw [if_neg]
    intro h
    rw [h] at hc
    norm_num at hc
  have hssc : √(sin (v + p 6) * sin (v + p 6) * (cos (p 4) * cos (p 4)) + cos (v + p 6) * cos (v + p 6)) = ρ := by
    rw [hρ, nodeA, nodeB]
    congr 1
    ring
  subst hr' hv'
  constructor
  · simp only [orbitDerivative, orbitPartial, if_true, hE, haw, ← hv, ← hr, hssc]
    rw [ha', hb', nodeA, nodeB]
    ring
  · simp only [orbitDerivative, orbitPartial, if_true, hE, haw, ← hv, ← hr]
    rw [ha', hb', nodeA, nodeB]
    have hN : ∀ w, cos w * cos w + sin w * cos (p 4) * (sin w * cos (p 4))
        = cos (p 4) * cos (p 4) * (sin w * sin w) + cos w * cos w := fun w => by ring
    have hN' : ∀ w, cos w * cos w + sin w * sin w * (cos (p 4) * cos (p 4))
        = cos (p 4) * cos (p 4) * (sin w * sin w) + cos w * cos w := fun w => by ring
    rw [hN, hN']
    generalize cos (p 4) * cos (p 4) * (sin (v + p 6) * sin (v + p 6)) + cos (v + p 6) * cos (v + p 6) = N
    ring

theorem rectParts_false (ecc : ℝ → ℝ → ℝ) (x : ℝ) (p : ℕ → ℝ) (v : ℝ) (hv : v = trueAnomaly p (anomaly ecc x p))
    (ρ : ℝ) (hρ : ρ = √(nodeB v p * nodeB v p + nodeA v p * nodeA v p)) :
    orbitDerivative ecc false x p = rectParts (radius p (anomaly ecc x p) * ρ) (arctan2 (nodeB v p) (nodeA v p) + p 5)
      (orbitDerivative ecc true x p).1 (orbitDerivative ecc true x p).2 ∧
    ∀ k, orbitPartial ecc false x p k
      = rectParts (radius p (anomaly ecc x p) * ρ) (arctan2 (nodeB v p) (nodeA v p) + p 5)
      (orbitPartial ecc true x p k).1 (orbitPartial ecc true x p k).2 := by
  have hssc : √(sin (v + p 6) * sin (v + p 6) * (cos (p 4) * cos (p 4)) + cos (v + p 6) * cos (v + p 6)) = ρ := by
    rw [hρ, nodeA, nodeB]
    congr 1
    ring
  rw [← hssc]
  subst hv
  exact ⟨rfl, fun k => rfl⟩

/-- The path in rectangular coordinates. -/
theorem orbit_path (ecc : ℝ → ℝ → ℝ) (hs : Solves ecc) (q : ℝ → ℕ → ℝ) (X : ℝ → ℝ) (s x' : ℝ) (q' : ℕ → ℝ)
    (hq : ∀ j, HasDerivAt (fun t => q t j) (q' j) s) (hX : HasDerivAt X x' s) (he : |q s 0| < 1) (hP : q s 2 ≠ 0)
    (E : ℝ) (hE : anomaly ecc (X s) (q s) = E) (hc : -0.9999999999 < cos E) (x : ℝ) (hx : X s = x) (p : ℕ → ℝ)
    (hp : q s = p) (v : ℝ) (hv : v = trueAnomaly p E) (hn : nodeA v p ≠ 0 ∨ nodeB v p ≠ 0) :
    HasDerivAt (fun t => (orbit ecc false (X t) (q t)).1)
      ((orbitDerivative ecc false x p).1 * x' + (orbitPartial ecc false x p 0).1 * q' 0
        + (orbitPartial ecc false x p 1).1 * q' 1 + (orbitPartial ecc false x p 2).1 * q' 2
        + (orbitPartial ecc false x p 3).1 * q' 3 + (orbitPartial ecc false x p 4).1 * q' 4
        + (orbitPartial ecc false x p 5).1 * q' 5 + (orbitPartial ecc false x p 6).1 * q' 6) s ∧
    HasDerivAt (fun t => (orbit ecc false (X t) (q t)).2)
      ((orbitDerivative ecc false x p).2 * x' + (orbitPartial ecc false x p 0).2 * q' 0
        + (orbitPartial ecc false x p 1).2 * q' 1 + (orbitPartial ecc false x p 2).2 * q' 2
        + (orbitPartial ecc false x p 3).2 * q' 3 + (orbitPartial ecc false x p 4).2 * q' 4
        + (orbitPartial ecc false x p 5).2 * q' 5 + (orbitPartial ecc false x p 6).2 * q' 6) s ∧
    HasDerivAt (fun t => (orbit ecc true (X t) (q t)).1)
      ((orbitDerivative ecc true x p).1 * x' + (orbitPartial ecc true x p 0).1 * q' 0
        + (orbitPartial ecc true x p 1).1 * q' 1 + (orbitPartial ecc true x p 2).1 * q' 2
        + (orbitPartial ecc true x p 3).1 * q' 3 + (orbitPartial ecc true x p 4).1 * q' 4
        + (orbitPartial ecc true x p 5).1 * q' 5 + (orbitPartial ecc true x p 6).1 * q' 6) s ∧
    ((0 < nodeA v p ∨ nodeB v p ≠ 0) → HasDerivAt (fun t => (orbit ecc true (X t) (q t)).2)
      ((orbitDerivative ecc true x p).2 * x' + (orbitPartial ecc true x p 0).2 * q' 0
        + (orbitPartial ecc true x p 1).2 * q' 1 + (orbitPartial ecc true x p 2).2 * q' 2
        + (orbitPartial ecc true x p 3).2 * q' 3 + (orbitPartial ecc true x p 4).2 * q' 4
        + (orbitPartial ecc true x p 5).2 * q' 5 + (orbitPartial ecc true x p 6).2 * q' 6) s) := by
  have hV := true_path ecc hs q X s x' q' hq hX he hP E hE hc
  have hR := radius_path ecc hs q X s x' q' hq hX he hP E hE
  obtain ⟨hA, hB⟩ := node_path (fun t => trueAnomaly (q t) (anomaly ecc (X t) (q t))) q s _ q' hV hq
  have hpos : 0 < nodeB v p * nodeB v p + nodeA v p * nodeA v p := by
    rcases hn with h | h
    · have := mul_self_pos.2 h
      have := mul_self_nonneg (nodeB v p)
      linarith
    · have := mul_self_pos.2 h
      have := mul_self_nonneg (nodeA v p)
      linarith
  subst hx hp
  rw [← hE] at hv
  obtain ⟨hp1, hp2⟩ := orbit_parts ecc (X s) (q s) x' q' E hE hc v _ _ _ _ _ (by rw [hv, hE]) rfl rfl rfl rfl rfl _ rfl
  obtain ⟨hf1, hf2⟩ := rectParts_false ecc (X s) (q s) v hv _ rfl
  simp only [← hv] at hA hB
  have hsub : trueAnomaly (q s) (anomaly ecc (X s) (q s)) = v := hv.symm
  refine ⟨?_, ?_, ?_, ?_⟩
  · have h := (rect_deriv _ _ _ _ s _ _ _ _ hR hA hB (hq 5) (by simpa only [hsub] using hpos) _ rfl _ rfl).1
    refine h.congr_deriv ?_
    simp only [hsub]
    rw [hE, hp1, hp2, hf1]
    simp only [hf2, hE]
    simp only [rectParts]
    ring
  · have h := (rect_deriv _ _ _ _ s _ _ _ _ hR hA hB (hq 5) (by simpa only [hsub] using hpos) _ rfl _ rfl).2
    refine h.congr_deriv ?_
    simp only [hsub]
    rw [hE, hp1, hp2, hf1]
    simp only [hf2, hE]
    simp only [rectParts]
    ring
  · have h := hR.fun_mul (norm_deriv _ _ s _ _ hA hB (by simpa only [hsub] using hpos))
    refine h.congr_deriv ?_
    simp only [hsub]
    rw [hE, ← hp1]
    ring
  · intro hslit
    have h := (arctan2_deriv _ _ s _ _ hA hB (by simpa only [hsub] using hslit)).fun_add (hq 5)
    refine h.congr_deriv ?_
    simp only [hsub]
    exact hp2

/-- C89: the derivatives of the position on the sky, rectangular or spherical, to the seven parameters and to the
time.  Missing: the neighbourhood of the apastron (cos E ≤ -0.9999999999), where the code caps a divisor; positions
where the star is exactly behind or in front of the centre; for the position angle, the cut behind the node. -/
theorem C89_derivatives_partial (ecc : ℝ → ℝ → ℝ) (hs : Solves ecc) (x : ℝ) (p : ℕ → ℝ) (he : |p 0| < 1)
    (hP : p 2 ≠ 0) (hc : -0.9999999999 < cos (anomaly ecc x p)) (v : ℝ)
    (hv : v = trueAnomaly p (anomaly ecc x p)) (hn : cos (v + p 6) ≠ 0 ∨ sin (v + p 6) * cos (p 4) ≠ 0) :
    (∀ k < 7,
      HasDerivAt (fun t => (orbit ecc false x (Function.update p k t)).1) (orbitPartial ecc false x p k).1 (p k) ∧
      HasDerivAt (fun t => (orbit ecc false x (Function.update p k t)).2) (orbitPartial ecc false x p k).2 (p k) ∧
      HasDerivAt (fun t => (orbit ecc true x (Function.update p k t)).1) (orbitPartial ecc true x p k).1 (p k) ∧
      ((0 < cos (v + p 6) ∨ sin (v + p 6) * cos (p 4) ≠ 0) →
        HasDerivAt (fun t => (orbit ecc true x (Function.update p k t)).2) (orbitPartial ecc true x p k).2 (p k))) ∧
    HasDerivAt (fun t => (orbit ecc false t p).1) (orbitDerivative ecc false x p).1 x ∧
    HasDerivAt (fun t => (orbit ecc false t p).2) (orbitDerivative ecc false x p).2 x ∧
    HasDerivAt (fun t => (orbit ecc true t p).1) (orbitDerivative ecc true x p).1 x ∧
    ((0 < cos (v + p 6) ∨ sin (v + p 6) * cos (p 4) ≠ 0) →
      HasDerivAt (fun t => (orbit ecc true t p).2) (orbitDerivative ecc true x p).2 x) := by
  constructor
  · intro k hk
    obtain ⟨h1, h2, h3, h4⟩ := orbit_path ecc hs (Function.update p k) (fun _ => x) (p k) 0
      (fun j => if j = k then 1 else 0) (update_path p k) (hasDerivAt_const _ _) (by simpa using he)
      (by simpa using hP) (anomaly ecc x p) (by simp) hc x rfl p (by simp) v hv hn
    refine ⟨h1.congr_deriv ?_, h2.congr_deriv ?_, h3.congr_deriv ?_, fun h => (h4 h).congr_deriv ?_⟩ <;>
      interval_cases k <;> simp
  · obtain ⟨h1, h2, h3, h4⟩ := orbit_path ecc hs (fun _ => p) (fun t => t) x 1 (fun _ => 0)
      (fun j => hasDerivAt_const _ _) (hasDerivAt_id' x) he hP (anomaly ecc x p) rfl hc x rfl p rfl v hv hn
    refine ⟨h1.congr_deriv ?_, h2.congr_deriv ?_, h3.congr_deriv ?_, fun h => (h4 h).congr_deriv ?_⟩ <;> simp

/-- The hypotheses of C88 and C89 hold at the passage of the periastron of an eccentric, inclined orbit. -/
example : ∃ (ecc : ℝ → ℝ → ℝ) (p : ℕ → ℝ), Solves ecc ∧ |p 0| < 1 ∧ p 0 ≠ 0 ∧ p 2 ≠ 0 ∧
    -0.9999999999 < cos (anomaly ecc 0 p) ∧
    0 < cos (trueAnomaly p (anomaly ecc 0 p) + p 6) ∧ velocity ecc 0 p ≠ 0 ∧ cos (p 4) ≠ 1 := by
  obtain ⟨ecc, hs⟩ := solves_exists
  let p : ℕ → ℝ := fun k => if k = 0 then 1 / 2 else if k = 1 then 1 else if k = 2 then 3 else
    if k = 4 then 1 else 0
  have hE : anomaly ecc 0 p = 0 := by
    have h1 := hs (p 0) (meanAnomaly 0 p) (by norm_num [p, abs_lt])
    exact (C87_unique (p 0) (meanAnomaly 0 p) (by norm_num [p, abs_lt])).unique h1
      (by simp [IsEccentric, meanAnomaly, p])
  have hv : trueAnomaly p 0 = 0 := by
    have h2 : arctan2 0 (1 + 1) = 0 := by
      rw [arctan2, Complex.arg_eq_zero_iff]
      exact ⟨by norm_num, rfl⟩
    simpa [trueAnomaly] using h2
  have h1 : 0 < cos (1 : ℝ) := cos_one_pos
  have h2 : cos (1 : ℝ) < 1 := by
    have := cos_lt_cos_of_nonneg_of_le_pi (x := 0) (y := 1) le_rfl (by linarith [pi_gt_three]) one_pos
    simpa using this
  refine ⟨ecc, p, hs, by norm_num [p, abs_lt], by norm_num [p], by norm_num [p], ?_, ?_, ?_, ?_⟩
  · rw [hE]
    norm_num
  · rw [hE, hv]
    norm_num [p]
  · rw [velocity, hE, hv]
    simp only [p]
    norm_num
    nlinarith
  · simpa [p] using h2.ne

end BF.Kepler
