import Verif.Shapes
import Verif.Props.Splines
import Verif.Props.Tophats
import Mathlib.Analysis.SpecialFunctions.Trigonometric.Deriv

/-!
# C34, C78 and C79: models made of splines or of a shape
-/

namespace BF.Shapes

open BF.Poly BF.Splines BF.Kernels Finset

/-! ## Sines with splines as amplitudes -/

/-- The columns of the splines. -/
noncomputable def col (order : ℕ) (knots : List ℝ) (x : ℝ) (k : ℕ) : ℝ :=
  if k < order then x ^ k else bump order knots (k - order) x - bump order knots (k - order + 1) x

theorem spline_cols (order : ℕ) (knots : List ℝ) (h2 : 2 ≤ knots.length) (hs : knots.Pairwise (· ≤ ·)) (x : ℝ) :
    splinePartial order knots x = some ((List.range (nspline order knots)).map (col order knots x)) := by
  rw [C36_columns order knots h2 hs x, show nspline order knots = order + (knots.length - 1) by
    unfold nspline; omega, List.range_add, List.map_append, List.map_map]
  congr 2
  · apply List.map_congr_left
    intro k hk
    rw [col, if_pos (List.mem_range.1 hk)]
  · apply List.map_congr_left
    intro k _
    simp only [Function.comp]
    rw [col, if_neg (by omega), show order + k - order = k by omega]

theorem spline_value (order : ℕ) (knots : List ℝ) (h2 : 2 ≤ knots.length) (hs : knots.Pairwise (· ≤ ·)) (x : ℝ)
    (p : ℕ → ℝ) : splineResult order knots x p
      = some (∑ k ∈ range (nspline order knots), p k * col order knots x k) := by
  rw [splineResult, spline_cols order knots h2 hs, Option.map_some, linear_range]

theorem amp_value (order : ℕ) (knots : List ℝ) (h2 : 2 ≤ knots.length) (hs : knots.Pairwise (· ≤ ·)) (x : ℝ)
    (p : ℕ → ℝ) : amplitudes order knots x p
      = some (∑ k ∈ range (nspline order knots), p k * col order knots x k,
        ∑ k ∈ range (nspline order knots), p (nspline order knots + k) * col order knots x k) := by
  rw [amplitudes, spline_value order knots h2 hs, spline_value order knots h2 hs]
  rfl

/-- C34: the sine with splines: its result is a sine and a cosine of which the amplitudes are those of
`getAmplitudes`, and the partials are the derivatives. -/
theorem C34_sine_spline (freq : ℝ) (order : ℕ) (knots : List ℝ) (h2 : 2 ≤ knots.length)
    (hs : knots.Pairwise (· ≤ ·)) (x : ℝ) (p : ℕ → ℝ) :
    (∃ a b, amplitudes order knots x p = some (a, b) ∧ sineSplineResult freq order knots x p
      = some (a * Real.cos (2 * Real.pi * freq * x) + b * Real.sin (2 * Real.pi * freq * x))) ∧
    ∃ part, sineSplinePartial freq order knots x = some part ∧ part.length = 2 * nspline order knots ∧
      ∀ k d, part[k]? = some d →
        HasDerivAt (fun t => (sineSplineResult freq order knots x (Function.update p k t)).getD 0) d (p k) := by
  have hp : sineSplinePartial freq order knots x = some
      (((List.range (nspline order knots)).map (col order knots x)).map (Real.cos (2 * Real.pi * freq * x) * ·)
      ++ ((List.range (nspline order knots)).map (col order knots x)).map (Real.sin (2 * Real.pi * freq * x) * ·)) := by
    rw [sineSplinePartial, spline_cols order knots h2 hs]
    rfl
  constructor
  · refine ⟨_, _, amp_value order knots h2 hs x p, ?_⟩
    rw [sineSplineResult, hp, Option.map_some, linear_append, List.map_map, List.map_map, linear_range, linear_range,
      sum_mul, sum_mul]
    simp only [List.length_map, List.length_range, Function.comp]
    congr 2
    · exact sum_congr rfl fun k _ => by ring
    · exact sum_congr rfl fun k _ => by ring
  · refine ⟨_, hp, by simp; ring, fun k d hk => ?_⟩
    simp only [sineSplineResult, hp, Option.map_some, Option.getD_some]
    exact (C35_linear p _ k d hk).2

/-- C34: the derivative to x of the sine with splines: it raises for every x and all parameters, as the parameters of
both splines are offered to one of them. -/
theorem C34_counterexample_sine_spline (freq : ℝ) (order : ℕ) (knots : List ℝ) (h : 2 ≤ nspline order knots) (x : ℝ)
    (p : ℕ → ℝ) : sineSplineDerivative freq order knots x p = none := by
  unfold sineSplineDerivative splineDerivativeOf
  dsimp only
  rw [if_neg (by omega)]
  cases amplitudes order knots x p <;> rfl

theorem sum_update (n s : ℕ) (p c : ℕ → ℝ) (k : ℕ) :
    HasDerivAt (fun t => ∑ i ∈ range n, Function.update p k t (s + i) * c i)
      (if s ≤ k ∧ k < s + n then c (k - s) else 0) (p k) := by
  have h : HasDerivAt (fun t => ∑ i ∈ range n, Function.update p k t (s + i) * c i)
      (∑ i ∈ range n, (if s + i = k then 1 else 0) * c i) (p k) := by
    apply HasDerivAt.fun_sum
    intro i _
    apply HasDerivAt.mul_const
    by_cases hi : s + i = k
    · rw [if_pos hi, hi]
      simpa using hasDerivAt_id' (p k)
    · rw [if_neg hi]
      simp only [Function.update_of_ne hi]
      exact hasDerivAt_const _ _
  refine h.congr_deriv ?_
  split_ifs with hk
  · rw [sum_eq_single (k - s)]
    · rw [if_pos (by omega), one_mul]
    · intro i _ hi
      rw [if_neg (by omega), zero_mul]
    · intro hi
      exact absurd (mem_range.2 (by omega)) hi
  · apply sum_eq_zero
    intro i hi
    have := mem_range.1 hi
    rw [if_neg (by omega), zero_mul]

/-- C34: the drifting sine with splines: the partials are the derivatives. -/
theorem C34_sine_spline_drift (degree order : ℕ) (knots : List ℝ) (h2 : 2 ≤ knots.length)
    (hs : knots.Pairwise (· ≤ ·)) (x : ℝ) (p : ℕ → ℝ) :
    ∃ part, driftPartial degree order knots x p = some part ∧ part.length = degree + 1 + 2 * nspline order knots ∧
      ∀ k d, part[k]? = some d →
        HasDerivAt (fun t => (driftResult degree order knots x (Function.update p k t)).getD 0) d (p k) := by
  set nh := nspline order knots with hnh
  set c := col order knots x with hc
  set pol : (ℕ → ℝ) → ℝ := fun q => ∑ i ∈ range (degree + 1), q (0 + i) * x ^ i with hpol
  set A : (ℕ → ℝ) → ℝ := fun q => ∑ i ∈ range nh, q (degree + 1 + i) * c i with hA
  set B : (ℕ → ℝ) → ℝ := fun q => ∑ i ∈ range nh, q (degree + 1 + nh + i) * c i with hB
  have hpoly : ∀ q, polyResult degree x q = pol q := by
    intro q
    rw [(C35_poly degree x q).1]
    simp only [hpol, zero_add]
  have hres : ∀ q, driftResult degree order knots x q = some (A q * Real.cos (2 * Real.pi * x * pol q)
      + B q * Real.sin (2 * Real.pi * x * pol q)) := by
    intro q
    rw [driftResult, amp_value order knots h2 hs, Option.map_some, hpoly]
    simp only [hA, hB, hc, hnh, add_assoc]
  have hpart : driftPartial degree order knots x p = some
      (((List.range (degree + 1)).map fun i => B p * Real.cos (2 * Real.pi * x * pol p) * (2 * Real.pi * x * x ^ i)
        - A p * Real.sin (2 * Real.pi * x * pol p) * (2 * Real.pi * x * x ^ i))
      ++ ((List.range nh).map fun i => Real.cos (2 * Real.pi * x * pol p) * c i)
      ++ ((List.range nh).map fun i => Real.sin (2 * Real.pi * x * pol p) * c i)) := by
    rw [driftPartial, amp_value order knots h2 hs, spline_cols order knots h2 hs, hpoly, (C35_poly degree x p).2]
    simp only [Option.bind_some, Option.map_some, List.map_map, hA, hB, hc, hnh, add_assoc]
    rfl
  refine ⟨_, hpart, by simp; ring, fun k d hk => ?_⟩
  simp only [hres, Option.getD_some]
  have dA := sum_update nh (degree + 1) p c k
  have dB := sum_update nh (degree + 1 + nh) p c k
  have dP := sum_update (degree + 1) 0 p (fun i => x ^ i) k
  have e : ∀ f : (ℕ → ℝ) → ℝ, f (Function.update p k (p k)) = f p := fun f => by rw [Function.update_eq_self]
  have dT : HasDerivAt (fun t => 2 * Real.pi * x * pol (Function.update p k t)) _ (p k) := dP.const_mul (2 * Real.pi * x)
  have hfin := (dA.fun_mul dT.cos).fun_add (dB.fun_mul dT.sin)
  refine hfin.congr_deriv ?_
  simp only [Function.update_eq_self]
  have eA : ∑ i ∈ range nh, p (degree + 1 + i) * c i = A p := rfl
  have eB : ∑ i ∈ range nh, p (degree + 1 + nh + i) * c i = B p := rfl
  rw [eA, eB]
  rw [List.append_assoc, List.getElem?_append, List.getElem?_append] at hk
  simp only [List.length_map, List.length_range, List.getElem?_map] at hk
  split_ifs at hk with h1 h3
  · rw [List.getElem?_range h1] at hk
    obtain rfl := Option.some.inj hk
    rw [if_neg (show ¬ (degree + 1 ≤ k ∧ k < degree + 1 + nh) by omega), if_neg (show ¬ (degree + 1 + nh ≤ k ∧ k < degree + 1 + nh + nh) by omega),
      if_pos (show (0 ≤ k ∧ k < 0 + (degree + 1)) by omega), Nat.sub_zero]
    ring
  · rw [List.getElem?_range h3] at hk
    obtain rfl := Option.some.inj hk
    rw [if_pos (show (degree + 1 ≤ k ∧ k < degree + 1 + nh) by omega), if_neg (show ¬ (degree + 1 + nh ≤ k ∧ k < degree + 1 + nh + nh) by omega),
      if_neg (show ¬ (0 ≤ k ∧ k < 0 + (degree + 1)) by omega)]
    ring
  · by_cases h4 : k - (degree + 1) - nh < nh
    · rw [List.getElem?_range h4] at hk
      obtain rfl := Option.some.inj hk
      rw [if_neg (show ¬ (degree + 1 ≤ k ∧ k < degree + 1 + nh) by omega),
        if_pos (show (degree + 1 + nh ≤ k ∧ k < degree + 1 + nh + nh) by omega),
        if_neg (show ¬ (0 ≤ k ∧ k < 0 + (degree + 1)) by omega), show k - (degree + 1 + nh) = k - (degree + 1) - nh by omega]
      ring
    · rw [List.getElem?_eq_none (by simpa using h4)] at hk
      cases hk

/-- C34: the derivative to x of the drifting sine with splines raises for every x and all parameters. -/
theorem C34_counterexample_sine_spline_drift (degree order : ℕ) (knots : List ℝ) (h : 2 ≤ nspline order knots) (x : ℝ)
    (p : ℕ → ℝ) :
    driftDerivative degree order knots x p = none := by
  unfold driftDerivative splineDerivativeOf
  dsimp only
  rw [if_neg (by omega)]
  cases amplitudes order knots x (fun k => p (degree + 1 + k)) <;> rfl

/-- Four knots and cubic splines. -/
example : 2 ≤ ([0, 1, 2, 5] : List ℝ).length ∧ ([0, 1, 2, 5] : List ℝ).Pairwise (· ≤ ·) ∧
    2 ≤ nspline 3 [0, 1, 2, 5] := by
  refine ⟨by simp, ?_, by simp [nspline]⟩
  norm_num

/-! ## Products of splines -/

/-- The place of a parameter: the indices in all dimensions, the last one runs fastest. -/
def place : List (ℕ × List ℝ) → List ℕ → ℕ → ℕ
  | m :: models, i :: is, k => place models is (k * nspline m.1 m.2 + i)
  | _, _, k => k

/-- The product of the columns of the splines in all dimensions. -/
noncomputable def prodCol (x : ℕ → ℝ) : List (ℕ × List ℝ) → List ℕ → ℕ → ℝ
  | m :: models, i :: is, n => col m.1 m.2 (x n) i * prodCol x models is (n + 1)
  | _, _, _ => 1

/-- Indices that are in range. -/
def InRange : List (ℕ × List ℝ) → List ℕ → Prop
  | [], [] => True
  | m :: models, i :: is => i < nspline m.1 m.2 ∧ InRange models is
  | _, _ => False

theorem step_get (part mpart : List ℝ) : (surfaceStep part mpart).length = part.length * mpart.length ∧
    ∀ a b (ha : part[a]?.isSome) (hb : mpart[b]?.isSome), (surfaceStep part mpart)[a * mpart.length + b]?
      = some (part.getD a 0 * mpart.getD b 0) := by
  induction part with
  | nil => exact ⟨by simp [surfaceStep], fun a b ha => by simp at ha⟩
  | cons v part ih =>
    have e : surfaceStep (v :: part) mpart = mpart.map (fun b => v * b) ++ surfaceStep part mpart := by
      simp [surfaceStep]
    refine ⟨by rw [e, List.length_append, ih.1, List.length_map, List.length_cons]; ring, ?_⟩
    intro a b ha hb
    have hb' : b < mpart.length := by
      by_contra hcon
      rw [List.getElem?_eq_none (by omega)] at hb
      cases hb
    rw [e]
    cases a with
    | zero =>
      rw [zero_mul, zero_add, List.getElem?_append_left (by simpa using hb'), List.getElem?_map,
        List.getElem?_eq_getElem hb', List.getD_cons_zero, List.getD_eq_getElem?_getD, List.getElem?_eq_getElem hb']
      rfl
    | succ a =>
      rw [List.getElem?_append_right (by rw [List.length_map, Nat.succ_mul]; omega), List.length_map,
        show (a + 1) * mpart.length + b - mpart.length = a * mpart.length + b by rw [Nat.succ_mul]; omega,
        ih.2 a b (by simpa using ha) hb, List.getD_cons_succ]

theorem loop_get (x : ℕ → ℝ) (models : List (ℕ × List ℝ))
    (hm : ∀ m ∈ models, 2 ≤ m.2.length ∧ m.2.Pairwise (· ≤ ·)) (n : ℕ) (part : List ℝ) :
    ∃ res, surfaceLoop x models n part = some res ∧
      res.length = models.foldl (fun np m => np * (m.2.length + m.1 - 1)) part.length ∧
      ∀ is, InRange models is → ∀ a, part[a]?.isSome →
        res[place models is a]? = some (part.getD a 0 * prodCol x models is n) := by
  induction models generalizing n part with
  | nil =>
    refine ⟨part, rfl, rfl, ?_⟩
    intro is his a ha
    cases is with
    | nil =>
      simp only [place, prodCol, mul_one]
      obtain ⟨v, hv⟩ := Option.isSome_iff_exists.1 ha
      rw [List.getD_eq_getElem?_getD, hv]
      rfl
    | cons i is => exact absurd his (by simp [InRange])
  | cons m models ih =>
    obtain ⟨h2, hs⟩ := hm m (List.mem_cons_self ..)
    have hcol := spline_cols m.1 m.2 h2 hs (x n)
    obtain ⟨hlen, hget⟩ := step_get part ((List.range (nspline m.1 m.2)).map (col m.1 m.2 (x n)))
    obtain ⟨res, h3, h4, h5⟩ := ih (fun m' hm' => hm m' (List.mem_cons_of_mem _ hm')) (n + 1)
      (surfaceStep part ((List.range (nspline m.1 m.2)).map (col m.1 m.2 (x n))))
    refine ⟨res, by rw [surfaceLoop, hcol, Option.bind_some, h3], ?_, ?_⟩
    · rw [h4, hlen]
      simp [nspline]
    · intro is his a ha
      cases is with
      | nil => exact absurd his (by simp [InRange])
      | cons i is =>
        obtain ⟨hi, his⟩ := his
        have hmi : ((List.range (nspline m.1 m.2)).map (col m.1 m.2 (x n)))[i]? = some (col m.1 m.2 (x n) i) := by
          rw [List.getElem?_map, List.getElem?_range hi]
          rfl
        have h6 := hget a i ha (by rw [hmi]; rfl)
        rw [List.length_map, List.length_range] at h6
        have h7 := h5 is his (a * nspline m.1 m.2 + i) (by rw [h6]; rfl)
        simp only [place, prodCol]
        rw [h7, List.getD_eq_getElem?_getD, h6, Option.getD_some, List.getD_eq_getElem?_getD (l := List.map _ _), hmi,
          Option.getD_some, mul_assoc]

/-- C78: surface splines in any number of dimensions: there are as many partials as the constructor counts
parameters, and each of them is the product of one column of the splines in every dimension: with the last
dimension running fastest, all combinations occur. The result is linear in the parameters, so these are its
derivatives. -/
theorem C78_product (models : List (ℕ × List ℝ)) (hm : ∀ m ∈ models, 2 ≤ m.2.length ∧ m.2.Pairwise (· ≤ ·))
    (x : ℕ → ℝ) : ∃ part, surfacePartial models x = some part ∧ part.length = calcNp models ∧
      (∀ is, InRange models is → part[place models is 0]? = some (prodCol x models is 0)) ∧
      ∀ (p : ℕ → ℝ) (k : ℕ) (d : ℝ), part[k]? = some d →
        HasDerivAt (fun t => (surfaceResult models x (Function.update p k t)).getD 0) d (p k) := by
  obtain ⟨res, h1, h2, h3⟩ := loop_get x models hm 0 [1]
  refine ⟨res, h1, h2, fun is his => ?_, fun p k d hk => ?_⟩
  · have := h3 is his 0 rfl
    simpa using this
  · simp only [surfaceResult, surfacePartial, h1, Option.map_some, Option.getD_some]
    exact (C35_linear p res k d hk).2

/-- C78: the name of a parameter shows the indices in the wrong order: the names run fastest in the first dimension,
the parameters in the last one. Here the second parameter goes with the first column in x and the second one in y; it
is called `param_1_0`. -/
theorem C78_counterexample_name : ∃ (models : List (ℕ × List ℝ)) (is : List ℕ), InRange models is ∧
    surfaceName models (place models is 0) ≠ is :=
  ⟨[(1, [0, 1]), (2, [0, 1])], [0, 1], by simp [InRange, nspline], by simp [surfaceName, place, nspline]⟩

/-- Two dimensions: the hypotheses are met. -/
example : (∀ m ∈ [((3 : ℕ), ([0, 1, 2] : List ℝ)), (2, [0, 4])], 2 ≤ m.2.length ∧ m.2.Pairwise (· ≤ ·)) ∧
    InRange [(3, [0, 1, 2]), (2, [0, 4])] [4, 2] ∧ place [(3, [0, 1, 2]), (2, [0, 4])] [4, 2] 0 = 14 := by
  refine ⟨?_, by simp [InRange, nspline], rfl⟩
  intro m hm
  rw [List.mem_cons, List.mem_singleton] at hm
  rcases hm with rfl | rfl <;> norm_num

/-! ## Free shapes -/

theorem freeLoop_eq (k : ℝ → ℝ) (v : ℝ) (p0 : ℕ) (ps : List ℕ) :
    freeLoop k (v - p0) p0 ps = ps.map fun p : ℕ => k (v - p) := by
  induction ps generalizing p0 with
  | nil => rfl
  | cons p ps ih =>
    have e : v - p0 - ((p : ℝ) - p0) = v - p := by ring
    simp only [freeLoop, List.map_cons]
    rw [e, ih p]

/-- C79: the partial of a pixel does not depend on which others are asked for, or in which order: it is the shape,
shifted by the number of the pixel. Outside the domain it raises. -/
theorem C79_columns (m : Free) (x : ℝ) (parlist : Option (List ℕ)) :
    (m.inDomain x → m.partials x parlist = some ((parlist.getD (List.range m.npix)).map fun p : ℕ =>
      m.shape.result (m.npix * (x - m.xlo) / (m.xhi - m.xlo) + m.center - p))) ∧
    (¬ m.inDomain x → m.partials x parlist = none) := by
  constructor
  · intro h
    have := freeLoop_eq m.shape.result (m.npix * (x - m.xlo) / (m.xhi - m.xlo) + m.center) 0
      (parlist.getD (List.range m.npix))
    rw [Nat.cast_zero, sub_zero] at this
    rw [Free.partials, if_pos h, ← this]
  · intro h
    rw [Free.partials, if_neg h]

theorem free_value (m : Free) (x : ℝ) (hx : m.inDomain x) (p : ℕ → ℝ) : m.result x p
    = some (∑ k ∈ range m.npix, p k * m.shape.result (m.npix * (x - m.xlo) / (m.xhi - m.xlo) + m.center - k)) := by
  rw [Free.result, (C79_columns m x none).1 hx, Option.map_some, Option.getD_none, linear_range]

/-- C79: the model can be evaluated between its edges and, when its shape is bounded, as far outside of them as the
range of the shape; and nowhere else. -/
theorem C79_domain (m : Free) (x : ℝ) (p : ℕ → ℝ) :
    (∃ v, m.result x p = some v) ↔ ∀ r, m.shape.range = some r → m.xlo - r ≤ x ∧ x ≤ m.xhi + r := by
  have e : m.inDomain x ↔ ∀ r, m.shape.range = some r → m.xlo - r ≤ x ∧ x ≤ m.xhi + r := by
    simp only [Free.inDomain, not_or, not_lt, gt_iff_lt]
  rw [← e]
  constructor
  · rintro ⟨v, hv⟩
    by_contra hn
    rw [Free.result, (C79_columns m x none).2 hn] at hv
    cases hv
  · intro h
    exact ⟨_, free_value m x h p⟩

/-- C79: the partials are the derivatives of the result. -/
theorem C79_partials (m : Free) (x : ℝ) (hx : m.inDomain x) (p : ℕ → ℝ) : ∃ part,
    m.partials x none = some part ∧ part.length = m.npix ∧ ∀ (k : ℕ) (d : ℝ), part[k]? = some d →
      HasDerivAt (fun t => (m.result x (Function.update p k t)).getD 0) d (p k) := by
  refine ⟨_, (C79_columns m x none).1 hx, by simp, fun k d hk => ?_⟩
  simp only [Free.result, (C79_columns m x none).1 hx, Option.map_some, Option.getD_some]
  exact (C35_linear p _ k d hk).2

/-- C79: a constant is fitted exactly: with the same value in all pixels, any number of convolutions from 0 to 6 and
any place of the center, the result is the same everywhere, except near the edges. -/
theorem C79_constant (npix nconvolve : ℕ) (h6 : nconvolve ≤ 6) (center xlo xhi x c : ℝ)
    (hx : (makeFree npix none nconvolve center xlo (some xhi)).inDomain x)
    (hl : ((nconvolve : ℝ) + 1) / 2 - 1 < npix * (x - xlo) / (xhi - xlo) + center)
    (hr : npix * (x - xlo) / (xhi - xlo) + center < npix - ((nconvolve : ℝ) + 1) / 2) :
    ∃ v, (tophat nconvolve).integral = some v ∧
      (makeFree npix none nconvolve center xlo (some xhi)).result x (fun _ => c) = some (c * v) := by
  refine ⟨_, rfl, ?_⟩
  rw [free_value _ x hx, ← conv_unity h6 hl hr, Finset.mul_sum]
  rfl

/-- The default model of 10 pixels with 3 convolutions: the hypotheses hold at x is 4. -/
example : (makeFree 10 none 3 0.5 0 (some 10)).inDomain 4 ∧
    (((3 : ℕ) : ℝ) + 1) / 2 - 1 < (10 : ℕ) * ((4 : ℝ) - 0) / (10 - 0) + 0.5 ∧
    (10 : ℕ) * ((4 : ℝ) - 0) / (10 - 0) + 0.5 < (10 : ℕ) - (((3 : ℕ) : ℝ) + 1) / 2 := by
  refine ⟨?_, by norm_num, by norm_num⟩
  intro r hr
  have : r = 2 := by
    have h := Option.some.inj hr
    rw [← h]
    norm_num [tophatRange]
  subst this
  norm_num [makeFree]

theorem default_domain (npix : ℕ) (x : ℝ) (h0 : 0 ≤ x) (h1 : x ≤ npix) :
    (makeFree npix none 0 0.5 0 none).inDomain x := by
  intro r hr
  have : r = 0.5 := (Option.some.inj hr).symm
  subst this
  norm_num [makeFree]
  constructor <;> linarith

theorem default_value (npix : ℕ) (hn : 0 < npix) (x : ℝ) (h0 : 0 ≤ x) (h1 : x ≤ npix) (p : ℕ → ℝ) :
    (makeFree npix none 0 0.5 0 none).result x p = some (∑ k ∈ range npix, p k * convResult 0 (x + 1 / 2 - k)) := by
  rw [free_value _ x (default_domain npix x h0 h1)]
  congr 1
  refine Finset.sum_congr rfl fun k _ => ?_
  have hn' : (npix : ℝ) ≠ 0 := by exact_mod_cast hn.ne'
  have e : (makeFree npix none 0 0.5 0 none).npix * (x - (makeFree npix none 0 0.5 0 none).xlo)
      / ((makeFree npix none 0 0.5 0 none).xhi - (makeFree npix none 0 0.5 0 none).xlo)
      + (makeFree npix none 0 0.5 0 none).center - k = x + 1 / 2 - k := by
    simp only [makeFree, Option.getD_none, sub_zero]
    rw [mul_div_cancel_left₀ _ hn']
    norm_num
  rw [e]
  rfl

/-- C79, partial: the pixels of the default model are blocks, and each of them has a parameter of its own. But
between k and k+1 it is parameter k+1 that is used, where the documentation says k. -/
theorem C79_pixels_partial (npix k : ℕ) (hk : k + 1 < npix) (x : ℝ) (h0 : k < x) (h1 : x < k + 1) (p : ℕ → ℝ) :
    (makeFree npix none 0 0.5 0 none).result x p = some (p (k + 1)) := by
  have hn : (k : ℝ) + 1 ≤ npix := by exact_mod_cast hk.le
  have hk0 : (0 : ℝ) ≤ k := Nat.cast_nonneg k
  rw [default_value npix (by omega) x (by linarith) (by linarith), Finset.sum_eq_single (k + 1)]
  · have h2 : |x + 1 / 2 - ((k + 1 : ℕ) : ℝ)| < 0.5 := by
      push_cast
      rw [abs_lt]
      norm_num
      constructor <;> linarith
    simp only [convResult]
    rw [if_pos h2, mul_one]
  · intro j _ hj
    rw [conv0_zero, mul_zero]
    rcases lt_or_gt_of_ne hj with h | h
    · have : (j : ℝ) ≤ k := by exact_mod_cast (by omega : j ≤ k)
      exact lt_of_lt_of_le (by linarith) (le_abs_self _)
    · have : (k : ℝ) + 2 ≤ j := by exact_mod_cast (by omega : k + 2 ≤ j)
      exact lt_of_lt_of_le (by linarith) (neg_le_abs _)
  · intro h
    exact absurd (mem_range.2 hk) h

/-- C79: in the last pixel of the default model the result is 0, whatever the parameters are: the pixels are shifted
by one, as the center is added where it should be subtracted. -/
theorem C79_counterexample_last (npix : ℕ) (hn : 0 < npix) (x : ℝ) (h0 : (npix : ℝ) - 1 < x) (h1 : x ≤ npix)
    (p : ℕ → ℝ) : (makeFree npix none 0 0.5 0 none).result x p = some 0 := by
  have hn1 : (1 : ℝ) ≤ npix := by exact_mod_cast hn
  rw [default_value npix hn x (by linarith) h1, Finset.sum_eq_zero]
  intro j hj
  have : (j : ℝ) + 1 ≤ npix := by exact_mod_cast mem_range.1 hj
  rw [conv0_zero, mul_zero]
  exact lt_of_lt_of_le (by linarith) (le_abs_self _)

end BF.Shapes
