import Verif.Props.SameFit
import Verif.Props.BasicSplinesAll
import Verif.Props.BSplinesAll
import Mathlib.Algebra.Polynomial.Eval.Degree

/-!
# C127: which models have the same curves, and which fitters find the same parameters
-/

noncomputable section

namespace BF.SameFit

open BF.Fitters BF.LinearModels BF.Poly BF.Splines Finset

/-! ## Polynomials -/

theorem lin_result {X : Type*} (np : ℕ) (part : X → List ℝ) (x : X) (p : ℕ → ℝ) (hl : (part x).length = np) :
    (ofPartial np part).result x p = linearResult p (part x) := by
  rw [linear_sum, hl]
  simp [Lin.result, ofPartial]

theorem poly_curve (degree : ℕ) (x : ℝ) (p : ℕ → ℝ) :
    (polynomial degree).result x p = ∑ k ∈ range (degree + 1), p k * x ^ k := by
  rw [polynomial, lin_result _ _ _ _ (by rw [(C35_poly degree x p).2]; simp), ← (C35_poly degree x p).1]
  rfl

theorem cheb_curve (degree : ℕ) (x : ℝ) (p : ℕ → ℝ) :
    (chebyshev degree).result x p = ∑ k ∈ range (degree + 1), p k * (Polynomial.Chebyshev.T ℝ k).eval x := by
  rw [chebyshev, lin_result _ _ _ _ (by rw [(C35_chebyshev degree x p).2]; simp), ← (C35_chebyshev degree x p).1]
  rfl

/-- All polynomials up to a degree are sums of one polynomial of each degree. -/
theorem degree_basis (P : ℕ → Polynomial ℝ) (hP : ∀ k, (P k).natDegree = k) (hP0 : ∀ k, P k ≠ 0) (n : ℕ) :
    ∀ q : Polynomial ℝ, q.natDegree ≤ n → ∃ v : ℕ → ℝ, q = ∑ k ∈ range (n + 1), Polynomial.C (v k) * P k := by
  induction n with
  | zero =>
    intro q hq
    have h0 : (P 0).natDegree = 0 := hP 0
    refine ⟨fun _ => q.coeff 0 / (P 0).coeff 0, ?_⟩
    have hne : (P 0).coeff 0 ≠ 0 := by
      intro h
      apply hP0 0
      rw [Polynomial.eq_C_of_natDegree_eq_zero h0, h, Polynomial.C_0]
    rw [sum_range_one]
    conv_rhs => rw [Polynomial.eq_C_of_natDegree_eq_zero h0]
    rw [Polynomial.coeff_C_zero, ← Polynomial.C_mul, div_mul_cancel₀ _ hne]
    exact Polynomial.eq_C_of_natDegree_eq_zero (by omega)
  | succ n ih =>
    intro q hq
    have hne : (P (n + 1)).coeff (n + 1) ≠ 0 := by
      have := Polynomial.leadingCoeff_ne_zero.2 (hP0 (n + 1))
      rwa [Polynomial.leadingCoeff, hP] at this
    set c := q.coeff (n + 1) / (P (n + 1)).coeff (n + 1) with hc
    obtain ⟨v, hv⟩ := ih (q - Polynomial.C c * P (n + 1)) (by
      rw [Polynomial.natDegree_le_iff_coeff_eq_zero]
      intro N hN
      rw [Polynomial.coeff_sub, Polynomial.coeff_C_mul]
      rcases Nat.lt_or_ge (n + 1) N with h | h
      · rw [Polynomial.coeff_eq_zero_of_natDegree_lt (by omega),
          Polynomial.coeff_eq_zero_of_natDegree_lt (by rw [hP]; omega), mul_zero, sub_zero]
      · obtain rfl : N = n + 1 := by omega
        rw [hc, div_mul_cancel₀ _ hne, sub_self])
    refine ⟨fun k => if k = n + 1 then c else v k, ?_⟩
    rw [sum_range_succ]
    simp only [if_true]
    rw [← sub_eq_iff_eq_add, hv]
    refine sum_congr rfl fun k hk => ?_
    have := mem_range.1 hk
    rw [if_neg (by omega)]

/-- The curves of a polynomial model are the polynomials up to its degree. -/
theorem poly_all (degree : ℕ) (f : ℝ → ℝ) : (∃ p, ∀ x, (polynomial degree).result x p = f x) ↔
    ∃ q : Polynomial ℝ, q.natDegree ≤ degree ∧ ∀ x, q.eval x = f x := by
  constructor
  · rintro ⟨p, hp⟩
    refine ⟨∑ k ∈ range (degree + 1), Polynomial.C (p k) * Polynomial.X ^ k, ?_, fun x => ?_⟩
    · refine Polynomial.natDegree_sum_le_of_forall_le _ _ fun k hk => ?_
      refine (Polynomial.natDegree_C_mul_X_pow_le _ _).trans ?_
      have := mem_range.1 hk
      omega
    · rw [← hp x, poly_curve, Polynomial.eval_finsetSum]
      simp
  · rintro ⟨q, hq, hf⟩
    refine ⟨fun k => q.coeff k, fun x => ?_⟩
    rw [poly_curve, ← hf x, Polynomial.eval_eq_sum_range' (n := degree + 1) (by omega)]

theorem cheb_all (degree : ℕ) (f : ℝ → ℝ) : (∃ p, ∀ x, (chebyshev degree).result x p = f x) ↔
    ∃ q : Polynomial ℝ, q.natDegree ≤ degree ∧ ∀ x, q.eval x = f x := by
  have hT : ∀ k : ℕ, (Polynomial.Chebyshev.T ℝ k).natDegree = k := fun k => by
    rw [Polynomial.Chebyshev.natDegree_T]; simp
  have hT0 : ∀ k : ℕ, Polynomial.Chebyshev.T ℝ k ≠ 0 := fun k hk => by
    have := Polynomial.Chebyshev.T_eval_one ℝ (k : ℤ)
    rw [hk] at this
    simp at this
  constructor
  · rintro ⟨p, hp⟩
    refine ⟨∑ k ∈ range (degree + 1), Polynomial.C (p k) * Polynomial.Chebyshev.T ℝ k, ?_, fun x => ?_⟩
    · refine Polynomial.natDegree_sum_le_of_forall_le _ _ fun k hk => ?_
      refine (Polynomial.natDegree_C_mul_le _ _).trans ?_
      rw [hT]
      have := mem_range.1 hk
      omega
    · rw [← hp x, cheb_curve, Polynomial.eval_finsetSum]
      simp
  · rintro ⟨q, hq, hf⟩
    obtain ⟨v, hv⟩ := degree_basis (fun k : ℕ => Polynomial.Chebyshev.T ℝ k) hT hT0 degree q hq
    refine ⟨v, fun x => ?_⟩
    rw [cheb_curve, ← hf x, hv, Polynomial.eval_finsetSum]
    simp

/-- C127: a polynomial and a Chebyshev polynomial of the same degree. -/
theorem C127_chebyshev (degree : ℕ) (D : Set ℝ) : SameCurves id D (polynomial degree) (chebyshev degree) := by
  constructor
  · intro p
    obtain ⟨q, hq⟩ := (cheb_all degree fun x => (polynomial degree).result x p).2
      ((poly_all degree _).1 ⟨p, fun _ => rfl⟩)
    exact ⟨q, fun x _ => hq x⟩
  · intro q
    obtain ⟨p, hp⟩ := (poly_all degree fun x => (chebyshev degree).result x q).2
      ((cheb_all degree _).1 ⟨q, fun _ => rfl⟩)
    exact ⟨p, fun x _ => hp x⟩

/-- C127: a polynomial, with another unit and zero point for x. -/
theorem C127_polynomial (degree : ℕ) (a b : ℝ) (ha : a ≠ 0) (D : Set ℝ) :
    SameCurves (fun x => a * x + b) D (polynomial degree) (polynomial degree) := by
  have key : ∀ (f : ℝ → ℝ) (a b : ℝ), (∃ p, ∀ x, (polynomial degree).result x p = f x) →
      ∃ p, ∀ x, (polynomial degree).result x p = f (a * x + b) := by
    intro f a b h
    obtain ⟨q, hq, hf⟩ := (poly_all degree f).1 h
    refine (poly_all degree _).2 ⟨q.comp (Polynomial.C a * Polynomial.X + Polynomial.C b), ?_, fun x => ?_⟩
    · refine (Polynomial.natDegree_comp_le).trans ?_
      calc q.natDegree * (Polynomial.C a * Polynomial.X + Polynomial.C b).natDegree
          ≤ q.natDegree * 1 := Nat.mul_le_mul_left _ Polynomial.natDegree_linear_le
        _ ≤ degree := by omega
    · rw [← hf]
      simp
  constructor
  · intro p
    obtain ⟨q, hq⟩ := key (fun x => (polynomial degree).result x p) (1 / a) (-b / a) ⟨p, fun _ => rfl⟩
    refine ⟨q, fun x _ => ?_⟩
    rw [hq]
    congr 1
    field_simp
    ring
  · intro q
    obtain ⟨p, hp⟩ := key (fun x => (polynomial degree).result x q) a b ⟨q, fun _ => rfl⟩
    exact ⟨p, fun x _ => hp x⟩

/-! ## Splines -/

theorem splines_result (order : ℕ) (knots : List ℝ) (h2 : 2 ≤ knots.length) (hs : knots.Pairwise (· ≤ ·)) (x : ℝ)
    (p : ℕ → ℝ) : splineResult order knots x p = some ((splines order knots).result x p) := by
  have hc := C36_columns order knots h2 hs x
  rw [splineResult, splines, lin_result _ _ _ _ (by rw [hc]; simp; omega), hc]
  rfl

theorem splines_curves (order : ℕ) (knots : List ℝ) (h2 : 2 ≤ knots.length) (hs : knots.Pairwise (· ≤ ·)) (f : ℝ → ℝ) :
    (∃ p, ∀ x, (splines order knots).result x p = f x) ↔ BasicSplines.IsSpline order knots f := by
  rw [← BasicSplines.splines_all order knots h2 hs f]
  simp only [splines_result order knots h2 hs, Option.some.injEq]

theorem bsplines_result (order : ℕ) (knots : List ℝ) (h2 : 2 ≤ knots.length) (hs : knots.Pairwise (· < ·)) (x : ℝ)
    (h0 : knots.getD 0 0 ≤ x) (h1 : x ≤ knots.getD (knots.length - 1) 0) (p : ℕ → ℝ) :
    (BSplines.makeSpec knots order).result x p = some ((bsplines order knots).result x p) := by
  rw [BSplines.result_eq (BSplines.makeSpec knots order) ⟨h2, hs⟩ x h0 h1]
  congr 1
  unfold Lin.result
  rw [show (bsplines order knots).off x = 0 from rfl, zero_add]
  refine sum_congr rfl fun k hk => ?_
  rw [bsplines_part order knots ⟨h2, hs⟩ x k (mem_range.1 hk)]

/-- C127: a Splines and a BSplines model of the same order over the same knots, between the first and the last knot. -/
theorem C127_bsplines (order : ℕ) (knots : List ℝ) (h2 : 2 ≤ knots.length) (hs : knots.Pairwise (· < ·)) :
    SameCurves id {x | knots.getD 0 0 ≤ x ∧ x ≤ knots.getD (knots.length - 1) 0} (splines order knots)
      (bsplines order knots) := by
  have hle : knots.Pairwise (· ≤ ·) := hs.imp le_of_lt
  have key := fun f => BSplines.C81_same (BSplines.makeSpec knots order) ⟨h2, hs⟩ f
  constructor
  · intro p
    obtain ⟨q, hq⟩ := (key fun x => (splines order knots).result x p).2
      ⟨p, fun x _ _ => splines_result order knots h2 hle x p⟩
    refine ⟨q, fun x hx => ?_⟩
    have := hq x hx.1 hx.2
    rw [bsplines_result order knots h2 hs x hx.1 hx.2] at this
    exact Option.some.inj this
  · intro q
    obtain ⟨p, hp⟩ := (key fun x => (bsplines order knots).result x q).1
      ⟨q, fun x h0 h1 => bsplines_result order knots h2 hs x h0 h1 q⟩
    refine ⟨p, fun x hx => ?_⟩
    have := hp x hx.1 hx.2
    have e : splineResult (BSplines.makeSpec knots order).order (BSplines.makeSpec knots order).knots x p
      = some ((splines order knots).result x p) := splines_result order knots h2 hle x p
    rw [e] at this
    exact Option.some.inj this

/-- C127: a Splines and a BasicSplines model of the same order over the same knots, everywhere. -/
theorem C127_basicsplines (solve : BasicSplines.Solver) (hsolve : SolveSpec solve)
    (hregular : SolveRegular solve) (m : BasicSplines.Spec) (h2 : 2 ≤ m.knots.length)
    (hs : m.knots.Pairwise (· < ·)) (basis : ℕ → ℕ → ℕ → ℝ) (hb : m.makeBasis solve = some basis) (D : Set ℝ) :
    SameCurves id D (splines m.order m.knots) (basicSplines m basis) := by
  have hle : m.knots.Pairwise (· ≤ ·) := hs.imp le_of_lt
  have e : ∀ x p, (basicSplines m basis).result x p = m.result basis x p := fun x p => by
    rw [basicSplines, lin_result _ _ _ _ (by simp [BasicSplines.Spec.partials]), ← (BasicSplines.C75_partial m basis x p).1]
  have key := fun f => BasicSplines.C76_same solve hsolve hregular m h2 hs basis hb f
  constructor
  · intro p
    obtain ⟨q, hq⟩ := (key fun x => (splines m.order m.knots).result x p).2
      ⟨p, fun x => splines_result m.order m.knots h2 hle x p⟩
    exact ⟨q, fun x _ => (e x q).trans (hq x)⟩
  · intro q
    obtain ⟨p, hp⟩ := (key fun x => m.result basis x q).1 ⟨q, fun x => rfl⟩
    refine ⟨p, fun x _ => ?_⟩
    have := hp x
    rw [splines_result m.order m.knots h2 hle x p] at this
    exact (Option.some.inj this).trans (e x q).symm

theorem trunc_affine (n : ℕ) (a b k x : ℝ) (ha : 0 < a) : trunc n (a * k + b) (a * x + b) = a ^ n * trunc n k x := by
  unfold trunc
  have : a * k + b ≤ a * x + b ↔ k ≤ x := by
    rw [add_le_add_iff_right, mul_le_mul_iff_right₀ ha]
  by_cases h : k ≤ x
  · rw [if_pos (this.2 h), if_pos h, ← mul_pow]
    congr 1
    ring
  · rw [if_neg (fun h' => h (this.1 h')), if_neg h, mul_zero]

theorem spline_affine (order : ℕ) (knots : List ℝ) (a b : ℝ) (ha : 0 < a) (f : ℝ → ℝ)
    (hf : BasicSplines.IsSpline order (knots.map fun k => a * k + b) f) :
    BasicSplines.IsSpline order knots fun x => f (a * x + b) := by
  obtain ⟨c, d, h⟩ := hf
  obtain ⟨P, hP⟩ := (C127_polynomial order a b ha.ne' Set.univ).2 c
  refine ⟨P, fun j => d j * a ^ order, fun x => ?_⟩
  have hx := hP x trivial
  rw [poly_curve, poly_curve] at hx
  show f (a * x + b) = _
  rw [h, hx, List.length_map]
  congr 1
  refine sum_congr rfl fun j hj => ?_
  have hj := mem_range.1 hj
  have : (knots.map fun k => a * k + b).getD (j + 1) 0 = a * knots.getD (j + 1) 0 + b := by
    rw [List.getD_eq_getElem?_getD, List.getElem?_map, List.getD_eq_getElem?_getD,
      List.getElem?_eq_getElem (by omega)]
    rfl
  rw [this, trunc_affine order a b _ x ha]
  ring

/-- C127: splines, with another unit and zero point for x and for the knots. -/
theorem C127_splines (order : ℕ) (knots : List ℝ) (h2 : 2 ≤ knots.length) (hs : knots.Pairwise (· ≤ ·)) (a b : ℝ)
    (ha : 0 < a) (D : Set ℝ) :
    SameCurves (fun x => a * x + b) D (splines order knots) (splines order (knots.map fun k => a * k + b)) := by
  have h2' : 2 ≤ (knots.map fun k => a * k + b).length := by simpa using h2
  have hs' : (knots.map fun k => a * k + b).Pairwise (· ≤ ·) := by
    rw [List.pairwise_map]
    exact hs.imp fun h => by nlinarith
  have hback : (knots.map fun k => a * k + b).map (fun k => 1 / a * k + -b / a) = knots := by
    rw [List.map_map]
    convert List.map_id knots using 2
    funext k
    simp only [Function.comp]
    field_simp
    simp
  constructor
  · intro p
    have h1 := (splines_curves order knots h2 hs fun x => (splines order knots).result x p).1 ⟨p, fun _ => rfl⟩
    rw [← hback] at h1
    have h3 := spline_affine order _ (1 / a) (-b / a) (by positivity) _ h1
    rw [hback] at h3
    obtain ⟨q, hq⟩ := (splines_curves order _ h2' hs' _).2 h3
    refine ⟨q, fun x _ => ?_⟩
    rw [hq]
    congr 1
    field_simp
    ring
  · intro q
    have h1 := (splines_curves order _ h2' hs' fun x => (splines order (knots.map fun k => a * k + b)).result x q).1
      ⟨q, fun _ => rfl⟩
    obtain ⟨p, hp⟩ := (splines_curves order knots h2 hs _).2 (spline_affine order knots a b ha _ h1)
    exact ⟨p, fun x _ => hp x⟩

/-! ## Harmonics -/

theorem harmonic_turn (order : ℕ) (period a b : ℝ) (ha : a ≠ 0) (p : ℕ → ℝ) :
    ∃ q, ∀ x, (harmonic order (a * period)).result (a * x + b) q = (harmonic order period).result x p := by
  rcases eq_or_ne period 0 with rfl | hP
  · refine ⟨p, fun x => ?_⟩
    have h0 : ∀ (P x : ℝ), (harmonic order P).result x p
      = ∑ k ∈ range (2 * order), p k * (harmonic order P).part x k := fun P x => zero_add _
    rw [h0, h0, harmonic_sum, harmonic_sum]
    simp
  · set β : ℕ → ℝ := fun j => (j + 1) * (2 * Real.pi * b / (a * period)) with hβ
    refine ⟨fun k => if k % 2 = 0 then p k * Real.cos (β (k / 2)) - p (k + 1) * Real.sin (β (k / 2))
      else p (k - 1) * Real.sin (β (k / 2)) + p k * Real.cos (β (k / 2)), fun x => ?_⟩
    have h0 : ∀ (P x : ℝ) (p : ℕ → ℝ), (harmonic order P).result x p
      = ∑ k ∈ range (2 * order), p k * (harmonic order P).part x k := fun P x p => zero_add _
    rw [h0, h0, harmonic_sum, harmonic_sum]
    refine sum_congr rfl fun j _ => ?_
    have e1 : (2 * j) % 2 = 0 := by omega
    have e2 : ¬ (2 * j + 1) % 2 = 0 := by omega
    have e3 : 2 * j / 2 = j := by omega
    have e4 : (2 * j + 1) / 2 = j := by omega
    simp only [e1, e2, e3, e4, if_true, if_false, Nat.add_sub_cancel]
    have e5 : ((j : ℝ) + 1) * (2 * Real.pi * (a * x + b) / (a * period))
        = (j + 1) * (2 * Real.pi * x / period) + β j := by
      simp only [hβ]
      field_simp
    rw [e5, Real.cos_add, Real.sin_add]
    have := Real.sin_sq_add_cos_sq (β j)
    set s := Real.sin (β j)
    set c := Real.cos (β j)
    set S := Real.sin ((j + 1) * (2 * Real.pi * x / period))
    set C := Real.cos ((j + 1) * (2 * Real.pi * x / period))
    linear_combination (p (2 * j) * C + p (2 * j + 1) * S) * this

/-- C127: harmonics, with another unit for x and the period, and another zero point for x. -/
theorem C127_harmonic (order : ℕ) (period a b : ℝ) (ha : a ≠ 0) (D : Set ℝ) :
    SameCurves (fun x => a * x + b) D (harmonic order period) (harmonic order (a * period)) := by
  constructor
  · intro p
    obtain ⟨q, hq⟩ := harmonic_turn order period a b ha p
    exact ⟨q, fun x _ => hq x⟩
  · intro q
    obtain ⟨p, hp⟩ := harmonic_turn order (a * period) (1 / a) (-b / a) (by simpa using ha) q
    refine ⟨p, fun x _ => ?_⟩
    have := hp (a * x + b)
    rw [← this, ← mul_assoc, one_div, inv_mul_cancel₀ ha, one_mul]
    congr 1
    field_simp
    ring

/-! ## Fitters -/

/-- C127: without weights and accuracies the QR fitter finds the same parameters as the linear fitter. -/
theorem C127_qr (solve : ℕ → (ℕ → ℕ → ℝ) → (ℕ → ℝ) → Option (ℕ → ℝ)) (hsolve : SolveSpec solve)
    (hreg : SolveRegular solve) (qr : ℕ → ℕ → (ℕ → ℕ → ℝ) → (ℕ → ℕ → ℝ) × (ℕ → ℕ → ℝ))
    (inv : ℕ → (ℕ → ℕ → ℝ) → Option (ℕ → ℕ → ℝ)) (sqrt : ℝ → ℝ) (hqr : QrSpec qr inv) {X : Type*} (m : Lin X)
    (d : Data X) (hw : d.weights = none) (ha : d.accuracy = none) (p : ℕ → ℝ) (h : Fits solve m d p) (p0 : ℕ → ℝ)
    (M : ℕ → ℕ → ℝ) (t : Qr) (h' : qrFit qr inv sqrt m d ⟨initFitter m.np p0 none, true, M⟩ none = some t) :
    ∀ k < m.np, t.base.params k = p k := by
  have hd : Positive d := ⟨fun w e => (by rw [hw] at e; cases e), fun a e => (by rw [ha] at e; cases e)⟩
  have h1 := C31_unit_partial qr inv sqrt hqr m d _ t rfl rfl (Or.inl rfl) ha
    (fun w e => by rw [hw] at e; cases e) h' p
  intro k hk
  exact (determine_eq (fits_determine hreg hd h) (min_unique m d hd p _ (fits_min hsolve hd h) h1) k hk).symm

/-- A linear model as a model for the other fitters. -/
def toNl {X : Type*} (m : Lin X) : LM.Nl X := ⟨m.np, m.result, fun x _ k => m.part x k⟩

theorem toNl_proper {X : Type*} (m : Lin X) : Curve.Proper (toNl m) := by
  refine ⟨fun x p q h => result_congr m x h, fun x p k hk => ?_⟩
  have e : (fun t => (toNl m).result x (Function.update p k t)) = fun t => m.result x p + (t - p k) * m.part x k := by
    funext t
    rw [← sum_part_add m x p k hk (t - p k)]
    refine result_congr m x fun j _ => ?_
    by_cases hj : j = k
    · rw [hj, Function.update_self, if_pos rfl]
      ring
    · rw [Function.update_of_ne hj, if_neg hj, add_zero]
  rw [e]
  have := (((hasDerivAt_id (p k)).sub_const (p k)).mul_const (m.part x k)).const_add (m.result x p)
  simpa [toNl] using this

theorem chi_line {X : Type*} (m : Lin X) (d : Data X) (p q : ℕ → ℝ) (t : ℝ) :
    chiSquared m d (fun k => (1 - t) * p k + t * q k) = (1 - t) * chiSquared m d p + t * chiSquared m d q
      - t * (1 - t) * ∑ i ∈ range d.n, (m.result (d.x i) p - m.result (d.x i) q) ^ 2 * d.fitWgts i := by
  unfold chiSquared
  rw [mul_sum, mul_sum, mul_sum, ← sum_add_distrib, ← sum_sub_distrib]
  refine sum_congr rfl fun i _ => ?_
  have : m.result (d.x i) (fun k => (1 - t) * p k + t * q k)
      = (1 - t) * m.result (d.x i) p + t * m.result (d.x i) q := by
    simp only [Lin.result, add_mul, sum_add_distrib, mul_assoc, ← mul_sum]
    ring
  rw [this]
  ring

/-- C127: on a linear model the curve fitter finds the same parameters as the linear fitter, when these are within the
limits that are given to it. -/
theorem C127_curvefit (solve : ℕ → (ℕ → ℕ → ℝ) → (ℕ → ℝ) → Option (ℕ → ℝ)) (hsolve : SolveSpec solve)
    (hreg : SolveRegular solve) (cf : Curve.CurveFit) (hcf : Curve.CurveSpec cf) {X : Type*} (m : Lin X)
    (d : Data X) (hd : Positive d) (p : ℕ → ℝ) (h : Fits solve m d p) (p0 : ℕ → ℝ) (inipar : Option (ℕ → ℝ))
    (b : Curve.Bounds) (hb : b.Within m.np p) (prior : Option Curve.Bounds) (s : Fitter)
    (h' : Curve.fit cf (toNl m) d (initFitter m.np p0 none) inipar none (some b) prior = some s) :
    ∀ k < m.np, s.params k = p k := by
  obtain ⟨-, hw, ε, hε, hmin⟩ := Curve.C93_minimum_partial cf hcf (toNl m) (toNl_proper m) d (wgts_pos d hd)
    (initFitter m.np p0 none) s (fun j hj => by simp [initFitter, keepFixed] at hj) rfl inipar b prior h'
  have hchi : ∀ q, Curve.chi (toNl m) d (initFitter m.np p0 none) q = chiSquared m d q := by
    intro q
    simp only [Curve.chi, LM.chinorm, initFitter, keepFixed, range_zero, sum_empty, add_zero]
    rfl
  set q := s.params with hq
  -- a point on the line to the best parameters, near to q
  set B := ∑ k ∈ range m.np, |p k - q k| with hB
  have hB0 : 0 ≤ B := sum_nonneg fun _ _ => abs_nonneg _
  set t := ε / (ε + B + 1) with ht
  have htp : 0 < t := by positivity
  have ht1 : t < 1 := by
    rw [ht, div_lt_one (by positivity)]
    linarith
  have hbound : ∀ k < m.np, |(1 - t) * q k + t * p k - q k| < ε := by
    intro k hk
    have e : (1 - t) * q k + t * p k - q k = t * (p k - q k) := by ring
    rw [e, abs_mul, abs_of_pos htp]
    have h1 : |p k - q k| ≤ B := single_le_sum (f := fun k => |p k - q k|) (fun _ _ => abs_nonneg _) (mem_range.2 hk)
    calc t * |p k - q k| ≤ t * B := mul_le_mul_of_nonneg_left h1 htp.le
      _ = ε * (B / (ε + B + 1)) := by rw [ht]; ring
      _ < ε * 1 := by
        apply mul_lt_mul_of_pos_left _ hε
        rw [div_lt_one (by positivity)]
        linarith
      _ = ε := mul_one ε
  have hwithin : b.Within m.np fun k => (1 - t) * q k + t * p k := by
    intro a ha
    obtain ⟨l1, u1⟩ := hw a ha
    obtain ⟨l2, u2⟩ := hb a ha
    have hlo : min (q a) (p a) ≤ (1 - t) * q a + t * p a := by
      rcases le_total (q a) (p a) with hle | hle
      · rw [min_eq_left hle]; nlinarith
      · rw [min_eq_right hle]; nlinarith
    have hhi : (1 - t) * q a + t * p a ≤ max (q a) (p a) := by
      rcases le_total (q a) (p a) with hle | hle
      · rw [max_eq_right hle]; nlinarith
      · rw [max_eq_left hle]; nlinarith
    constructor
    · refine le_trans ?_ (EReal.coe_le_coe_iff.2 hlo)
      rcases min_choice (q a) (p a) with e | e <;> rw [e]
      · exact l1
      · exact l2
    · refine le_trans (EReal.coe_le_coe_iff.2 hhi) ?_
      rcases max_choice (q a) (p a) with e | e <;> rw [e]
      · exact u1
      · exact u2
  have h1 := hmin _ hwithin hbound
  rw [hchi, hchi, chi_line] at h1
  have h2 := fits_min hsolve hd h q
  have h3 : 0 ≤ t * (1 - t) * ∑ i ∈ range d.n, (m.result (d.x i) q - m.result (d.x i) p) ^ 2 * d.fitWgts i :=
    mul_nonneg (mul_nonneg htp.le (by linarith))
      (sum_nonneg fun i hi => mul_nonneg (sq_nonneg _) (wgts_pos d hd i (mem_range.1 hi)).le)
  have h4 : chiSquared m d q ≤ chiSquared m d p := by nlinarith
  intro k hk
  exact (determine_eq (fits_determine hreg hd h) (min_unique m d hd p q (fits_min hsolve hd h) h4) k hk).symm

/-! ## Examples -/

/-- Three data on a parabola-like shape. -/
def three : Data ℝ := ⟨3, fun i => i, fun i => if i = 1 then 5 else 1, none, none⟩

theorem three_positive : Positive three := ⟨fun w e => (by cases e), fun a e => (by cases e)⟩

/-- The theorems are about fits that can be done: with a solver that is as it should be, a line and a first order
Chebyshev polynomial fit these data, and the latter also in other units. -/
example : ∃ solve, SolveSpec solve ∧ SolveRegular solve ∧ SolveComplete solve ∧
    (∃ p, Fits solve (polynomial 1) three p) ∧ (∃ p, Fits solve (chebyshev 1) (moved id three) p) ∧
    ∃ p, Fits solve (polynomial 1) (moved (fun x => 2 * x + 1) three) p := by
  obtain ⟨solve, h1, h2, h3⟩ := solve_exists
  have hdet : Determine (polynomial 1) three [] := by
    rw [C119_polynomial]
    have : (range three.n).image three.x = {0, 1, 2} := by
      ext x
      simp [three, Finset.range_add_one]
      tauto
    rw [different, this]
    norm_num
  have hf := (fits_iff h2 h3 (polynomial 1) three three_positive).2 hdet
  exact ⟨solve, h1, h2, h3, hf,
    (C127_succeeds solve h2 h3 id Set.univ _ _ (C127_chebyshev 1 _) rfl three three_positive (by simp)).1 hf,
    (C127_succeeds solve h2 h3 _ Set.univ _ _ (C127_polynomial 1 2 1 (by norm_num) _) rfl three three_positive
      (by simp)).1 hf⟩

end BF.SameFit
