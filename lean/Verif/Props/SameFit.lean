import Verif.Props.Determined
import Verif.Props.Curve
import Mathlib.LinearAlgebra.FiniteDimensional.Lemmas

/-!
# C127: the fitted curve does not depend on the way the model and the data are written

The parameters of a fit depend on the functions in which the curve is written and on the units of x and y. The curve
does not.
-/

noncomputable section

namespace BF.SameFit

open BF.Fitters BF.LinearModels Finset

variable {X Y : Type*}

/-! ## Specification -/

/-- A fit with a new fitter, without kept parameters, from any parameters of the model. -/
def Fits (solve : ℕ → (ℕ → ℕ → ℝ) → (ℕ → ℝ) → Option (ℕ → ℝ)) (m : Lin X) (d : Data X) (p : ℕ → ℝ) : Prop :=
  ∃ p0 s, fit solve m d (initFitter m.np p0 none) none = some s ∧ s.params = p

/-- The data with another quantity for x: the same y, weights and accuracies. -/
def moved (φ : X → Y) (d : Data X) : Data Y := ⟨d.n, fun i => φ (d.x i), d.y, d.weights, d.accuracy⟩

/-- Over `D` the models have the same curves, when x is written as `φ x` for the second one. -/
def SameCurves (φ : X → Y) (D : Set X) (m : Lin X) (m' : Lin Y) : Prop :=
  (∀ p, ∃ q, ∀ x ∈ D, m'.result (φ x) q = m.result x p) ∧ ∀ q, ∃ p, ∀ x ∈ D, m.result x p = m'.result (φ x) q

/-! ## A minimum -/

theorem result_mid (m : Lin X) (x : X) (p q : ℕ → ℝ) :
    m.result x (fun k => (p k + q k) / 2) = (m.result x p + m.result x q) / 2 := by
  have : ∑ k ∈ range m.np, (p k + q k) / 2 * m.part x k
      = (∑ k ∈ range m.np, p k * m.part x k + ∑ k ∈ range m.np, q k * m.part x k) / 2 := by
    rw [← sum_add_distrib, sum_div]
    exact sum_congr rfl fun k _ => by ring
  simp only [Lin.result, this]
  ring

theorem chi_mid (m : Lin X) (d : Data X) (p q : ℕ → ℝ) :
    chiSquared m d (fun k => (p k + q k) / 2) = (chiSquared m d p + chiSquared m d q) / 2
      - (∑ i ∈ range d.n, (m.result (d.x i) p - m.result (d.x i) q) ^ 2 * d.fitWgts i) / 4 := by
  unfold chiSquared
  rw [← sum_add_distrib, sum_div, sum_div, ← sum_sub_distrib]
  refine sum_congr rfl fun i _ => ?_
  rw [result_mid]
  ring

/-- Two minima have the same results at the data. -/
theorem min_unique (m : Lin X) (d : Data X) (hd : Positive d) (p q : ℕ → ℝ)
    (hp : ∀ r, chiSquared m d p ≤ chiSquared m d r) (hq : chiSquared m d q ≤ chiSquared m d p) :
    ∀ i < d.n, m.result (d.x i) p = m.result (d.x i) q := by
  have h1 := hp fun k => (p k + q k) / 2
  rw [chi_mid] at h1
  have h2 : ∑ i ∈ range d.n, (m.result (d.x i) p - m.result (d.x i) q) ^ 2 * d.fitWgts i ≤ 0 := by linarith
  have hpos : ∀ i ∈ range d.n, 0 ≤ (m.result (d.x i) p - m.result (d.x i) q) ^ 2 * d.fitWgts i := fun i hi =>
    mul_nonneg (sq_nonneg _) (wgts_pos d hd i (mem_range.1 hi)).le
  intro i hi
  have h3 := (sum_eq_zero_iff_of_nonneg hpos).1 (le_antisymm h2 (sum_nonneg hpos)) i (mem_range.2 hi)
  have h4 := (mul_eq_zero.1 h3).resolve_right (wgts_pos d hd i hi).ne'
  exact sub_eq_zero.1 (pow_eq_zero_iff (two_ne_zero) |>.1 h4)

theorem positive_good {d : Data X} (h : Positive d) : d.Good := fun w hw i hi => (h.1 w hw i hi).le

theorem fits_min {solve : ℕ → (ℕ → ℕ → ℝ) → (ℕ → ℝ) → Option (ℕ → ℝ)} (hsolve : SolveSpec solve) {m : Lin X}
    {d : Data X} (hd : Positive d) {p : ℕ → ℝ} (h : Fits solve m d p) (q : ℕ → ℝ) :
    chiSquared m d p ≤ chiSquared m d q := by
  obtain ⟨p0, s, hs, rfl⟩ := h
  have := C30_all solve hsolve m d (positive_good hd) (initFitter m.np p0 none) s rfl
    (fun i hi => by simp [initFitter, keepFixed] at hi) hs q
  rwa [chiTotal_zero _ _ _ rfl, chiTotal_zero _ _ _ rfl] at this

theorem fits_determine {solve : ℕ → (ℕ → ℕ → ℝ) → (ℕ → ℝ) → Option (ℕ → ℝ)} (hreg : SolveRegular solve) {m : Lin X}
    {d : Data X} (hd : Positive d) {p : ℕ → ℝ} (h : Fits solve m d p) : Determine m d [] := by
  obtain ⟨p0, s, hs, rfl⟩ := h
  rw [determine_iff m d [] ⟨by simp, by simp⟩]
  have e : (fun k : ℕ => decide ((k : ℤ) ∉ ([] : List (ℤ × ℝ)).map Prod.fst)) = fun _ => true := by
    funext k
    simp
  rw [e, ← regular_iff m d hd { initFitter m.np p0 none with npfit := m.np } (fun _ => true) rfl]
  unfold fit at hs
  simp only [fitprolog, show (initFitter m.np p0 none).fitIndex = none from rfl, index_all] at hs
  obtain ⟨x, hx, -⟩ := Option.map_eq_some_iff.1 hs
  exact hreg _ _ _ _ hx

theorem fits_iff {solve : ℕ → (ℕ → ℕ → ℝ) → (ℕ → ℝ) → Option (ℕ → ℝ)} (hreg : SolveRegular solve)
    (hcom : SolveComplete solve) (m : Lin X) (d : Data X) (hd : Positive d) :
    (∃ p, Fits solve m d p) ↔ Determine m d [] := by
  constructor
  · rintro ⟨p, h⟩
    exact fits_determine hreg hd h
  · intro h
    obtain ⟨s, h⟩ := (C119_fit_all solve hreg hcom m d hd fun _ => 0).2 h
    exact ⟨s.params, _, s, h, rfl⟩

theorem determine_eq {m : Lin X} {d : Data X} (h : Determine m d []) {p q : ℕ → ℝ}
    (hr : ∀ i < d.n, m.result (d.x i) p = m.result (d.x i) q) : ∀ k < m.np, p k = q k :=
  h p q (by intro kv hkv; simp at hkv) (by intro kv hkv; simp at hkv) hr

theorem result_congr (m : Lin X) (x : X) {p q : ℕ → ℝ} (h : ∀ k < m.np, p k = q k) : m.result x p = m.result x q := by
  unfold Lin.result
  rw [sum_congr rfl fun k hk => by rw [h k (mem_range.1 hk)]]

theorem moved_positive {φ : X → Y} {d : Data X} (h : Positive d) : Positive (moved φ d) := h

theorem chi_moved {φ : X → Y} {m : Lin X} {m' : Lin Y} {d : Data X} {p q : ℕ → ℝ}
    (h : ∀ i < d.n, m'.result (φ (d.x i)) q = m.result (d.x i) p) :
    chiSquared m' (moved φ d) q = chiSquared m d p := by
  unfold chiSquared
  refine sum_congr rfl fun i hi => ?_
  show (d.y i - m'.result (φ (d.x i)) q) ^ 2 * d.fitWgts i = _
  rw [h i (mem_range.1 hi)]

/-! ## The same curves give the same fit -/

/-- C127: when two linear models have the same curves over the data, perhaps with another quantity for x, the fits have
the same results at the data and the same chi squared. -/
theorem C127_data (solve : ℕ → (ℕ → ℕ → ℝ) → (ℕ → ℝ) → Option (ℕ → ℝ)) (hsolve : SolveSpec solve) (φ : X → Y)
    (D : Set X) (m : Lin X) (m' : Lin Y) (hm : SameCurves φ D m m') (d : Data X) (hd : Positive d)
    (hD : ∀ i < d.n, d.x i ∈ D) (p p' : ℕ → ℝ) (h : Fits solve m d p) (h' : Fits solve m' (moved φ d) p') :
    (∀ i < d.n, m'.result (φ (d.x i)) p' = m.result (d.x i) p) ∧
    chiSquared m' (moved φ d) p' = chiSquared m d p := by
  obtain ⟨q, hq⟩ := hm.2 p'
  have e1 : chiSquared m' (moved φ d) p' = chiSquared m d q := chi_moved fun i hi => (hq _ (hD i hi)).symm
  have hmin : chiSquared m d q ≤ chiSquared m d p := by
    obtain ⟨r, hr⟩ := hm.1 p
    have e2 : chiSquared m' (moved φ d) r = chiSquared m d p := chi_moved fun i hi => hr _ (hD i hi)
    rw [← e1, ← e2]
    exact fits_min hsolve (moved_positive hd) h' r
  have hpq := min_unique m d hd p q (fits_min hsolve hd h) hmin
  have e3 : ∀ i < d.n, m'.result (φ (d.x i)) p' = m.result (d.x i) p := fun i hi => by
    rw [hpq i hi, hq _ (hD i hi)]
  exact ⟨e3, chi_moved e3⟩

/-- C127: and the fitted curves are the same everywhere, not only at the data. -/
theorem C127_curve (solve : ℕ → (ℕ → ℕ → ℝ) → (ℕ → ℝ) → Option (ℕ → ℝ)) (hsolve : SolveSpec solve)
    (hreg : SolveRegular solve) (φ : X → Y)
    (D : Set X) (m : Lin X) (m' : Lin Y) (hm : SameCurves φ D m m') (d : Data X) (hd : Positive d)
    (hD : ∀ i < d.n, d.x i ∈ D) (p p' : ℕ → ℝ) (h : Fits solve m d p) (h' : Fits solve m' (moved φ d) p') :
    ∀ x ∈ D, m'.result (φ x) p' = m.result x p := by
  obtain ⟨q, hq⟩ := hm.2 p'
  have h1 := (C127_data solve hsolve φ D m m' hm d hd hD p p' h h').1
  have h2 := determine_eq (fits_determine hreg hd h) (p := p) (q := q)
    fun i hi => by rw [hq _ (hD i hi), h1 i hi]
  intro x hx
  rw [result_congr m x h2, hq x hx]

/-! ## Success -/

/-- The values of a model at the data, without its offset. -/
def values (m : Lin X) (d : Data X) : (Fin m.np → ℝ) →ₗ[ℝ] (Fin d.n → ℝ) where
  toFun v i := ∑ k, v k * m.part (d.x i) k
  map_add' v w := by
    funext i
    simp only [Pi.add_apply, add_mul, sum_add_distrib]
  map_smul' a v := by
    funext i
    simp only [Pi.smul_apply, smul_eq_mul, RingHom.id_apply, mul_sum, mul_assoc]

theorem values_eq (m : Lin X) (d : Data X) (p : ℕ → ℝ) (i : Fin d.n) :
    values m d (fun k => p k) i = m.result (d.x i) p - m.off (d.x i) := by
  simp only [values, LinearMap.coe_mk, AddHom.coe_mk, Lin.result, add_sub_cancel_left]
  exact (Finset.sum_range fun k => p k * m.part (d.x i) k).symm

/-- A list of parameters as a function on all numbers. -/
def extend {n : ℕ} (v : Fin n → ℝ) (k : ℕ) : ℝ := if h : k < n then v ⟨k, h⟩ else 0

theorem extend_fin {n : ℕ} (v : Fin n → ℝ) : (fun k : Fin n => extend v k) = v := by
  funext k
  simp [extend]

theorem determine_ker (m : Lin X) (d : Data X) : Determine m d [] ↔ LinearMap.ker (values m d) = ⊥ := by
  rw [determine_iff m d [] ⟨by simp, by simp⟩, LinearMap.ker_eq_bot']
  have e : ∀ (v : ℕ → ℝ) (i : Fin d.n), values m d (fun k => v k) i = ∑ k ∈ range m.np, v k * m.part (d.x i) k :=
    fun v i => (Finset.sum_range fun k => v k * m.part (d.x i) k).symm
  constructor
  · intro h v hv
    have := h (extend v) (fun k _ hf => by simp at hf) fun i hi => by
      rw [← e (extend v) ⟨i, hi⟩, extend_fin, hv]
      rfl
    funext k
    have := this k k.2
    simpa [extend] using this
  · intro h v _ hz k hk
    have := h (fun k => v k) (by
      funext i
      rw [e]
      exact hz i i.2)
    exact congrFun this ⟨k, hk⟩

/-- The differences of the curves are the same functions. -/
theorem range_eq {φ : X → Y} {D : Set X} {m : Lin X} {m' : Lin Y} (hm : SameCurves φ D m m') (d : Data X)
    (hD : ∀ i < d.n, d.x i ∈ D) :
    LinearMap.range (values m d) = LinearMap.range (values m' (moved φ d)) := by
  obtain ⟨z, hz⟩ := hm.1 fun _ => 0
  obtain ⟨z', hz'⟩ := hm.2 fun _ => 0
  apply le_antisymm
  · rintro _ ⟨v, rfl⟩
    obtain ⟨q, hq⟩ := hm.1 (extend v)
    refine ⟨fun k => q k - z k, funext fun i => ?_⟩
    have h1 := values_eq m' (moved φ d) (fun k => q k - z k) i
    have h2 := values_eq m d (extend v) i
    rw [extend_fin] at h2
    refine h1.trans (Eq.trans ?_ h2.symm)
    have h3 := hq _ (hD i i.2)
    have h4 := hz _ (hD i i.2)
    show m'.result (φ (d.x i)) _ - m'.off (φ (d.x i)) = _
    have h5 : m'.result (φ (d.x i)) (fun k => q k - z k)
        = m'.result (φ (d.x i)) q - m'.result (φ (d.x i)) z + m'.off (φ (d.x i)) := by
      simp only [Lin.result, sub_mul, sum_sub_distrib]
      ring
    rw [h5, h3, h4]
    simp [Lin.result]
  · rintro _ ⟨v, rfl⟩
    obtain ⟨q, hq⟩ := hm.2 (extend v)
    refine ⟨fun k => q k - z' k, funext fun i => ?_⟩
    have h1 := values_eq m d (fun k => q k - z' k) i
    have h2 := values_eq m' (moved φ d) (extend v) i
    rw [extend_fin] at h2
    refine h1.trans (Eq.trans ?_ h2.symm)
    have h3 := hq _ (hD i i.2)
    have h4 := hz' _ (hD i i.2)
    show _ = m'.result (φ (d.x i)) _ - m'.off (φ (d.x i))
    have h5 : m.result (d.x i) (fun k => q k - z' k)
        = m.result (d.x i) q - m.result (d.x i) z' + m.off (d.x i) := by
      simp only [Lin.result, sub_mul, sum_sub_distrib]
      ring
    rw [h5, h3, h4]
    simp [Lin.result]

/-- C127: with as many parameters, the one fit succeeds if and only if the other does. -/
theorem C127_succeeds (solve : ℕ → (ℕ → ℕ → ℝ) → (ℕ → ℝ) → Option (ℕ → ℝ)) (hreg : SolveRegular solve)
    (hcom : SolveComplete solve) (φ : X → Y) (D : Set X) (m : Lin X) (m' : Lin Y) (hm : SameCurves φ D m m')
    (hnp : m.np = m'.np) (d : Data X) (hd : Positive d) (hD : ∀ i < d.n, d.x i ∈ D) :
    (∃ p, Fits solve m d p) ↔ ∃ p, Fits solve m' (moved φ d) p := by
  rw [fits_iff hreg hcom m d hd, fits_iff hreg hcom m' (moved φ d) (moved_positive hd), determine_ker, determine_ker]
  have h1 := LinearMap.finrank_range_add_finrank_ker (values m d)
  have h2 := LinearMap.finrank_range_add_finrank_ker (values m' (moved φ d))
  rw [← range_eq hm d hD] at h2
  rw [Module.finrank_fin_fun] at h1 h2
  have h3 : Module.finrank ℝ (LinearMap.ker (values m d)) = Module.finrank ℝ (LinearMap.ker (values m' (moved φ d))) := by
    have h4 : (moved φ d).n = d.n := rfl
    have : Module.finrank ℝ (LinearMap.range (values m d)) + Module.finrank ℝ (LinearMap.ker (values m' (moved φ d)))
      = m'.np := h2
    omega
  rw [← Submodule.finrank_eq_zero, ← Submodule.finrank_eq_zero, h3]

/-- C127: when both fits succeed, they have as many parameters. -/
theorem C127_number (solve : ℕ → (ℕ → ℕ → ℝ) → (ℕ → ℝ) → Option (ℕ → ℝ)) (hreg : SolveRegular solve)
    (φ : X → Y) (D : Set X) (m : Lin X) (m' : Lin Y) (hm : SameCurves φ D m m')
    (d : Data X) (hd : Positive d) (hD : ∀ i < d.n, d.x i ∈ D) (p p' : ℕ → ℝ) (h : Fits solve m d p)
    (h' : Fits solve m' (moved φ d) p') : m.np = m'.np := by
  have h1 := LinearMap.finrank_range_add_finrank_ker (values m d)
  have h2 := LinearMap.finrank_range_add_finrank_ker (values m' (moved φ d))
  rw [← range_eq hm d hD, (determine_ker _ _).1 (fits_determine hreg (moved_positive hd) h')] at h2
  rw [(determine_ker _ _).1 (fits_determine hreg hd h)] at h1
  rw [Module.finrank_fin_fun] at h1 h2
  simp only [finrank_bot, add_zero] at h1 h2
  rw [← h1]
  exact h2

/-! ## Other y -/

/-- The fit of data that are precisely on a curve of the model has the parameters of that curve. -/
theorem C127_exact (solve : ℕ → (ℕ → ℕ → ℝ) → (ℕ → ℝ) → Option (ℕ → ℝ)) (hsolve : SolveSpec solve)
    (hreg : SolveRegular solve) (m : Lin X) (d : Data X) (hd : Positive d) (c p : ℕ → ℝ)
    (hy : ∀ i < d.n, d.y i = m.result (d.x i) c) (h : Fits solve m d p) : ∀ k < m.np, p k = c k := by
  refine determine_eq (fits_determine hreg hd h) (min_unique m d hd p c (fits_min hsolve hd h) ?_)
  have h0 : chiSquared m d c = 0 := by
    unfold chiSquared
    exact sum_eq_zero fun i hi => by rw [hy i (mem_range.1 hi), sub_self]; ring
  rw [h0]
  exact sum_nonneg fun i hi => mul_nonneg (sq_nonneg _) (wgts_pos d hd i (mem_range.1 hi)).le

theorem sum_part_add (m : Lin X) (x : X) (p : ℕ → ℝ) (k : ℕ) (hk : k < m.np) (t : ℝ) :
    m.result x (fun j => p j + if j = k then t else 0) = m.result x p + t * m.part x k := by
  unfold Lin.result
  have : ∑ j ∈ range m.np, (p j + if j = k then t else 0) * m.part x j
      = ∑ j ∈ range m.np, p j * m.part x j + t * m.part x k := by
    simp only [add_mul, sum_add_distrib, ite_mul, zero_mul]
    rw [sum_ite_eq' (range m.np) k, if_pos (mem_range.2 hk)]
  rw [this]
  ring

/-- At a minimum the residuals are orthogonal to the functions of the model. -/
theorem min_normal (m : Lin X) (d : Data X) (hd : Positive d) (p : ℕ → ℝ)
    (hp : ∀ r, chiSquared m d p ≤ chiSquared m d r) (k : ℕ) (hk : k < m.np) :
    ∑ i ∈ range d.n, (d.y i - m.result (d.x i) p) * m.part (d.x i) k * d.fitWgts i = 0 := by
  set S := ∑ i ∈ range d.n, (d.y i - m.result (d.x i) p) * m.part (d.x i) k * d.fitWgts i with hS
  set Q := ∑ i ∈ range d.n, m.part (d.x i) k ^ 2 * d.fitWgts i with hQ
  have hQ0 : 0 ≤ Q := sum_nonneg fun i hi => mul_nonneg (sq_nonneg _) (wgts_pos d hd i (mem_range.1 hi)).le
  have key : ∀ t, chiSquared m d (fun j => p j + if j = k then t else 0)
      = chiSquared m d p - 2 * t * S + t ^ 2 * Q := by
    intro t
    unfold chiSquared
    rw [hS, hQ, mul_sum, mul_sum, ← sum_sub_distrib, ← sum_add_distrib]
    refine sum_congr rfl fun i _ => ?_
    rw [sum_part_add m _ p k hk]
    ring
  have h := hp fun j => p j + if j = k then S / (Q + 1) else 0
  rw [key] at h
  have hpos : 0 < Q + 1 := by linarith
  have e : -(2 * (S / (Q + 1)) * S) + (S / (Q + 1)) ^ 2 * Q = -(S ^ 2 * (Q + 2)) / (Q + 1) ^ 2 := by
    field_simp
    ring
  have h2 : 0 ≤ -(S ^ 2 * (Q + 2)) / (Q + 1) ^ 2 := by rw [← e]; linarith
  have h3 : -(S ^ 2 * (Q + 2)) / (Q + 1) ^ 2 ≤ 0 :=
    div_nonpos_of_nonpos_of_nonneg (by nlinarith [sq_nonneg S]) (by positivity)
  have h4 : -(S ^ 2 * (Q + 2)) / (Q + 1) ^ 2 = 0 := le_antisymm h3 h2
  rcases div_eq_zero_iff.1 h4 with h5 | h5
  · have h6 : S ^ 2 = 0 := by
      rcases mul_eq_zero.1 (neg_eq_zero.1 h5) with h6 | h6
      · exact h6
      · linarith
    exact pow_eq_zero_iff two_ne_zero |>.1 h6
  · exact absurd h5 (by positivity)

/-- C127: the fit is linear in the data: the fit of a sum of multiples has the sum of these multiples of the
parameters. The model has no constant part. -/
theorem C127_combine (solve : ℕ → (ℕ → ℕ → ℝ) → (ℕ → ℝ) → Option (ℕ → ℝ)) (hsolve : SolveSpec solve)
    (hreg : SolveRegular solve) (m : Lin X) (hoff : ∀ x, m.off x = 0) (d : Data X) (hd : Positive d) (y1 y2 : ℕ → ℝ)
    (a b : ℝ) (hy : ∀ i < d.n, d.y i = a * y1 i + b * y2 i) (p p1 p2 : ℕ → ℝ) (h : Fits solve m d p)
    (h1 : Fits solve m { d with y := y1 } p1) (h2 : Fits solve m { d with y := y2 } p2) :
    ∀ k < m.np, p k = a * p1 k + b * p2 k := by
  have hd1 : Positive { d with y := y1 } := hd
  have hd2 : Positive { d with y := y2 } := hd
  have n0 := min_normal m d hd p (fits_min hsolve hd h)
  have n1 := min_normal m _ hd1 p1 (fits_min hsolve hd1 h1)
  have n2 := min_normal m _ hd2 p2 (fits_min hsolve hd2 h2)
  set δ : ℕ → ℝ := fun k => p k - (a * p1 k + b * p2 k) with hδ
  set r : X → ℝ := fun x => ∑ k ∈ range m.np, δ k * m.part x k with hr
  have hres : ∀ x, m.result x p - (a * m.result x p1 + b * m.result x p2) = r x := by
    intro x
    simp only [Lin.result, hoff, zero_add, hr, hδ, sub_mul, add_mul, sum_sub_distrib, sum_add_distrib, mul_sum,
      mul_assoc]
  have hrk : ∀ k < m.np, ∑ i ∈ range d.n, r (d.x i) * m.part (d.x i) k * d.fitWgts i = 0 := by
    intro k hk
    have e0 := n0 k hk
    have e1 := n1 k hk
    have e2 := n2 k hk
    change ∑ i ∈ range d.n, (y1 i - m.result (d.x i) p1) * m.part (d.x i) k * d.fitWgts i = 0 at e1
    change ∑ i ∈ range d.n, (y2 i - m.result (d.x i) p2) * m.part (d.x i) k * d.fitWgts i = 0 at e2
    have : ∑ i ∈ range d.n, r (d.x i) * m.part (d.x i) k * d.fitWgts i
        = a * ∑ i ∈ range d.n, (y1 i - m.result (d.x i) p1) * m.part (d.x i) k * d.fitWgts i
          + b * ∑ i ∈ range d.n, (y2 i - m.result (d.x i) p2) * m.part (d.x i) k * d.fitWgts i
          - ∑ i ∈ range d.n, (d.y i - m.result (d.x i) p) * m.part (d.x i) k * d.fitWgts i := by
      rw [mul_sum, mul_sum, ← sum_add_distrib, ← sum_sub_distrib]
      refine sum_congr rfl fun i hi => ?_
      rw [← hres, hy i (mem_range.1 hi)]
      ring
    rw [this, e0, e1, e2]
    ring
  have hsq : ∑ i ∈ range d.n, r (d.x i) ^ 2 * d.fitWgts i = 0 := by
    have : ∑ i ∈ range d.n, r (d.x i) ^ 2 * d.fitWgts i
        = ∑ k ∈ range m.np, δ k * ∑ i ∈ range d.n, r (d.x i) * m.part (d.x i) k * d.fitWgts i := by
      simp only [mul_sum]
      rw [sum_comm]
      refine sum_congr rfl fun i _ => ?_
      have e : r (d.x i) ^ 2 * d.fitWgts i = (∑ k ∈ range m.np, δ k * m.part (d.x i) k) * (r (d.x i) * d.fitWgts i) := by
        rw [← show r (d.x i) = ∑ k ∈ range m.np, δ k * m.part (d.x i) k from rfl]
        ring
      rw [e, sum_mul]
      exact sum_congr rfl fun k _ => by ring
    rw [this]
    exact sum_eq_zero fun k hk => by rw [hrk k (mem_range.1 hk), mul_zero]
  have hz : ∀ i < d.n, r (d.x i) = 0 := by
    intro i hi
    have hpos : ∀ i ∈ range d.n, 0 ≤ r (d.x i) ^ 2 * d.fitWgts i := fun i hi =>
      mul_nonneg (sq_nonneg _) (wgts_pos d hd i (mem_range.1 hi)).le
    have h3 := (sum_eq_zero_iff_of_nonneg hpos).1 hsq i (mem_range.2 hi)
    exact pow_eq_zero_iff two_ne_zero |>.1 ((mul_eq_zero.1 h3).resolve_right (wgts_pos d hd i hi).ne')
  have := determine_eq (fits_determine hreg hd h) (p := p) (q := fun k => a * p1 k + b * p2 k) fun i hi => by
    rw [result_sub]
    exact hz i hi
  exact this

/-- C127: other units for y, and a curve of the model added to the data: the parameters follow, and chi squared goes with
the square of the unit. -/
theorem C127_units (solve : ℕ → (ℕ → ℕ → ℝ) → (ℕ → ℝ) → Option (ℕ → ℝ)) (hsolve : SolveSpec solve)
    (hreg : SolveRegular solve) (m : Lin X) (hoff : ∀ x, m.off x = 0) (d : Data X) (hd : Positive d)
    (a : ℝ) (c p p' : ℕ → ℝ) (h : Fits solve m d p)
    (h' : Fits solve m { d with y := fun i => a * d.y i + m.result (d.x i) c } p') :
    (∀ k < m.np, p' k = a * p k + c k) ∧
    chiSquared m { d with y := fun i => a * d.y i + m.result (d.x i) c } p' = a ^ 2 * chiSquared m d p := by
  set e : Data X := { d with y := fun i => a * d.y i + m.result (d.x i) c } with he
  have hde : Positive e := hd
  have hce : ∀ q, chiSquared m e (fun k => a * q k + c k) = a ^ 2 * chiSquared m d q := by
    intro q
    unfold chiSquared
    rw [mul_sum]
    refine sum_congr rfl fun i _ => ?_
    have : m.result (e.x i) (fun k => a * q k + c k) = a * m.result (d.x i) q + m.result (d.x i) c := by
      simp only [Lin.result, hoff, zero_add, add_mul, sum_add_distrib, mul_sum, mul_assoc]
      rfl
    rw [this]
    show (a * d.y i + m.result (d.x i) c - _) ^ 2 * d.fitWgts i = _
    ring
  have hk : ∀ k < m.np, p' k = a * p k + c k := by
    refine determine_eq (fits_determine hreg hde h') (min_unique m e hde p' _ (fits_min hsolve hde h') ?_)
    rw [hce]
    rcases eq_or_ne a 0 with rfl | ha
    · rw [zero_pow two_ne_zero, zero_mul]
      exact sum_nonneg fun i hi => mul_nonneg (sq_nonneg _) (wgts_pos e hde i (mem_range.1 hi)).le
    · have h1 := hce fun k => (p' k - c k) / a
      have h2 : (fun k => a * ((p' k - c k) / a) + c k) = p' := by
        funext k
        field_simp
        ring
      rw [h2] at h1
      rw [h1]
      exact mul_le_mul_of_nonneg_left (fits_min hsolve hd h _) (sq_nonneg a)
  refine ⟨hk, ?_⟩
  rw [← hce]
  unfold chiSquared
  exact sum_congr rfl fun i _ => by rw [result_congr m _ hk]

end BF.SameFit
