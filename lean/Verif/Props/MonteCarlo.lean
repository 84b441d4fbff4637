import Verif.MonteCarlo
import Mathlib.MeasureTheory.Integral.Bochner.Basic
import Mathlib.MeasureTheory.Function.L2Space
import Mathlib.MeasureTheory.Function.LpSeminorm.Basic
import Mathlib.Probability.Distributions.Gaussian.Real
import Mathlib.Probability.Independence.InfinitePi
import Mathlib.Probability.Independence.Integration
import Mathlib.Tactic.FieldSimp
import Mathlib.Tactic.Linarith
import Mathlib.Tactic.NormNum

/-!
# C102: Monte Carlo error bars
-/

noncomputable section

namespace BF.MonteCarlo

open Matrix MeasureTheory

variable {n : ℕ} {X : Type*}

/-! ## The variant -/

theorem zip_fold (ps : List (ℕ × ℝ)) : ∀ (par : List ℝ), (ps.map Prod.fst).Nodup →
    (ps.foldl (fun p a => p.set a.1 a.2) par).length = par.length ∧
    (∀ a ∈ ps, a.1 < par.length → (ps.foldl (fun p a => p.set a.1 a.2) par)[a.1]? = some a.2) ∧
    ∀ j : ℕ, j ∉ ps.map Prod.fst → (ps.foldl (fun p a => p.set a.1 a.2) par)[j]? = par[j]? := by
  induction ps with
  | nil => intro par _; simp
  | cons b ps ih =>
    intro par hn
    simp only [List.map_cons, List.nodup_cons] at hn
    obtain ⟨h1, h2, h3⟩ := ih (par.set b.1 b.2) hn.2
    simp only [List.foldl_cons]
    refine ⟨by rw [h1]; simp, ?_, ?_⟩
    · intro a ha hlt
      rcases List.mem_cons.1 ha with rfl | ha
      · rw [h3 _ hn.1, List.getElem?_set_self hlt]
      · exact h2 a ha (by simpa using hlt)
    · intro j hj
      simp only [List.map_cons, List.mem_cons, not_or] at hj
      rw [h3 j hj.2, List.getElem?_set_ne (fun h => hj.1 h.symm)]

/-- The random step of the fitted parameters. -/
def step (mc : MC n) (z : Fin n → ℝ) : Fin n → ℝ := mc.vec *ᵥ fun j => mc.sd j * z j

theorem mapM_get (par : List ℝ) : ∀ ix : List ℕ, (∀ i ∈ ix, i < par.length) →
    ix.mapM (fun i : ℕ => par[i]?) = some (ix.map fun i => par.getD i 0) := by
  intro ix
  induction ix with
  | nil => intro _; rfl
  | cons i ix ih =>
    intro h
    have hi := h i (by simp)
    simp [List.mapM_cons, ih (fun j hj => h j (by simp [hj])), List.getElem?_eq_getElem hi]

/-- C102, one variant: the listed parameters get their random step, all others stay as they are. -/
theorem C102_variant (mc : MC n) (params : List ℝ) (ix : List ℕ) (hi : mc.index = some ix) (hlen : ix.length = n) (hnd : ix.Nodup)
    (hr : ∀ i ∈ ix, i < params.length) (z : Fin n → ℝ) : ∃ q, variant mc params z = some q ∧ q.length = params.length ∧
      (∀ (k : Fin n) (i : ℕ), ix[k.val]? = some i → q.getD i 0 = params.getD i 0 + step mc z k) ∧
      ∀ j : ℕ, j ∉ ix → q[j]? = params[j]? := by
  have hz : (ix.zip (List.zipWith (· + ·) (ix.map fun i => params.getD i 0) (List.ofFn (step mc z)))).map Prod.fst = ix :=
    List.map_fst_zip (by simp [hlen])
  obtain ⟨h1, h2, h3⟩ := zip_fold (ix.zip (List.zipWith (· + ·) (ix.map fun i => params.getD i 0) (List.ofFn (step mc z)))) params
    (by rw [hz]; exact hnd)
  refine ⟨_, ?_, h1, ?_, ?_⟩
  · simp only [variant, hi, Option.elim_some, hlen, if_true, addAt, mapM_get params ix hr]
    rfl
  · intro k i hk
    obtain ⟨hk1, hk2⟩ := List.getElem?_eq_some_iff.1 hk
    have hmem : (i, params.getD i 0 + step mc z k) ∈
        ix.zip (List.zipWith (· + ·) (ix.map fun i => params.getD i 0) (List.ofFn (step mc z))) := by
      apply List.mem_iff_getElem?.2
      refine ⟨k.val, ?_⟩
      rw [List.getElem?_zip_eq_some]
      refine ⟨hk, ?_⟩
      simp [List.getElem?_zipWith, hk]
    rw [List.getD_eq_getElem?_getD, h2 _ hmem (hr i (List.mem_of_getElem? hk))]
    rfl
  · intro j hj
    exact h3 j (by rw [hz]; exact hj)

/-- The same without a list: all parameters get their step. -/
theorem C102_variant_all (mc : MC n) (params : List ℝ) (hi : mc.index = none) (hlen : params.length = n) (z : Fin n → ℝ) :
    ∃ q, variant mc params z = some q ∧ q.length = params.length ∧
      ∀ k : Fin n, q.getD k 0 = params.getD k 0 + step mc z k := by
  refine ⟨List.zipWith (· + ·) params (List.ofFn (step mc z)), ?_, by simp [hlen], ?_⟩
  · simp only [variant, hi, Option.elim_none, hlen, if_true]
    rfl
  · intro k
    have hk : k.val < params.length := by rw [hlen]; exact k.2
    simp [List.getD_eq_getElem?_getD, List.getElem?_zipWith, List.getElem?_eq_getElem hk]

/-! ## The error -/

/-- Result at `x` in cycle number `k`. -/
def outcome (result : X → List ℝ → ℝ) (stream : ℕ → ℕ → ℝ) (mc : MC n) (params : List ℝ) (g : Gen) (k : ℕ) (x : X) : ℝ :=
  result x ((variant mc params fun j => stream g.seed (g.pos + k * n + j)).getD [])

theorem cycles_spec (result : X → List ℝ → ℝ) (stream : ℕ → ℕ → ℝ) (mc : MC n) (params : List ℝ) (xs : List X)
    (hv : ∀ z, (variant mc params z).isSome) : ∀ (m : ℕ) (a b : X → ℝ) (g : Gen),
    cycles result stream mc params xs m (xs.map a) (xs.map b) g =
      some (xs.map (fun x => a x + ∑ k ∈ Finset.range m, outcome result stream mc params g k x),
        xs.map (fun x => b x + ∑ k ∈ Finset.range m, outcome result stream mc params g k x ^ 2), ⟨g.seed, g.pos + m * n⟩) := by
  intro m
  induction m with
  | zero => intro a b g; simp [cycles]
  | succ m ih =>
    intro a b g
    obtain ⟨q, hq⟩ := Option.isSome_iff_exists.1 (hv fun j => stream g.seed (g.pos + j))
    have h0 : ∀ x, outcome result stream mc params g 0 x = result x q := by
      intro x; simp [outcome, hq]
    have hs : ∀ k x, outcome result stream mc params ⟨g.seed, g.pos + n⟩ k x = outcome result stream mc params g (k + 1) x := by
      intro k x
      simp only [outcome]
      congr 4
      funext j
      congr 2
      ring
    have e1 : ∀ (c : X → ℝ) (d : X → ℝ), List.zipWith (· + ·) (xs.map c) (xs.map d) = xs.map fun x => c x + d x := by
      intro c d
      rw [List.zipWith_map, List.zipWith_self]
    simp only [cycles, hq, List.map_map, e1]
    rw [ih]
    simp only [Finset.sum_range_succ' _ m, h0, hs, Function.comp]
    congr 2
    · congr 1; funext x; ring
    · congr 2
      · congr 1; funext x; ring
      · ring

theorem variance_form (m : ℕ) (hm : 0 < m) (y : ℕ → ℝ) :
    (∑ k ∈ Finset.range m, y k ^ 2) / m - (∑ k ∈ Finset.range m, y k) / m * ((∑ k ∈ Finset.range m, y k) / m) =
      (∑ k ∈ Finset.range m, (y k - (∑ l ∈ Finset.range m, y l) / m) ^ 2) / m := by
  have hm' : (m : ℝ) ≠ 0 := by positivity
  set A := ∑ k ∈ Finset.range m, y k with hA
  have : ∑ k ∈ Finset.range m, (y k - A / m) ^ 2 = (∑ k ∈ Finset.range m, y k ^ 2) - 2 * (A / m) * A + m * (A / m) ^ 2 := by
    have : ∀ k, (y k - A / m) ^ 2 = y k ^ 2 - 2 * (A / m) * y k + (A / m) ^ 2 := fun k => by ring
    simp only [this, Finset.sum_add_distrib, Finset.sum_sub_distrib, ← Finset.mul_sum, ← hA]
    simp
  rw [this]
  field_simp
  ring

/-- C102. The error at each input is the standard deviation of the results over the cycles; each cycle uses its own random
numbers. -/
theorem C102_std (result : X → List ℝ → ℝ) (stream : ℕ → ℕ → ℝ) (mc : MC n) (params : List ℝ) (xs : List X) (g : Gen)
    (hv : ∀ z, (variant mc params z).isSome) (hm : 0 < mc.mcycles) :
    ∃ errs, getError result stream mc params xs g = some (errs, ⟨g.seed, g.pos + mc.mcycles * n⟩) ∧ errs.length = xs.length ∧
      ∀ (i : ℕ) (x : X), xs[i]? = some x →
        let y := fun k => outcome result stream mc params g k x
        let mean := (∑ k ∈ Finset.range mc.mcycles, y k) / mc.mcycles
        errs[i]? = some (√((∑ k ∈ Finset.range mc.mcycles, (y k - mean) ^ 2) / mc.mcycles)) := by
  have e1 : ∀ (f : ℝ → ℝ → ℝ) (c : X → ℝ) (d : X → ℝ), List.zipWith f (xs.map c) (xs.map d) = xs.map fun x => f (c x) (d x) := by
    intro f c d
    rw [List.zipWith_map, List.zipWith_self]
  refine ⟨_, by
    simp only [getError, cycles_spec result stream mc params xs hv, if_neg (show ¬ mc.mcycles = 0 by omega), List.map_map, e1]
    rfl, by simp, ?_⟩
  intro i x hx
  simp only [List.getElem?_map, hx, Option.map_some, Option.some.injEq, Function.comp, zero_add]
  rw [← variance_form _ hm]

/-! ## What the error is on average -/

/-- Weight of random number `j` in the result of a model with gradient `G`. -/
def load (mc : MC n) (G : Fin n → ℝ) (j : Fin n) : ℝ := ∑ k, G k * (mc.vec k j * mc.sd j)

theorem step_load (mc : MC n) (G : Fin n → ℝ) (z : Fin n → ℝ) : ∑ k, G k * step mc z k = ∑ j, load mc G j * z j := by
  simp only [step, mulVec, dotProduct, load, Finset.mul_sum, Finset.sum_mul]
  rw [Finset.sum_comm]
  refine Finset.sum_congr rfl fun j _ => Finset.sum_congr rfl fun k _ => by ring

theorem load_sq (mc : MC n) (G val : Fin n → ℝ) (cov : Matrix (Fin n) (Fin n) ℝ) (hsd : ∀ j, mc.sd j = √(val j)) (hval : ∀ j, 0 ≤ val j)
    (hcov : mc.vec * diagonal val * mc.vecᵀ = cov) : ∑ j, load mc G j ^ 2 = G ⬝ᵥ cov *ᵥ G := by
  have h1 : ∀ j, load mc G j ^ 2 = val j * (∑ k, G k * mc.vec k j) ^ 2 := by
    intro j
    have : load mc G j = mc.sd j * ∑ k, G k * mc.vec k j := by
      simp only [load, Finset.mul_sum]
      exact Finset.sum_congr rfl fun k _ => by ring
    rw [this, mul_pow, hsd, Real.sq_sqrt (hval j)]
  have h2 : ∀ i k, cov i k = ∑ j, mc.vec i j * val j * mc.vec k j := by
    intro i k
    rw [← hcov, Matrix.mul_apply]
    simp [Matrix.mul_diagonal]
  simp only [h1, dotProduct, mulVec, h2, sq, Finset.mul_sum, Finset.sum_mul]
  rw [Finset.sum_comm]
  refine Finset.sum_congr rfl fun i _ => ?_
  rw [Finset.sum_comm]
  exact Finset.sum_congr rfl fun k _ => Finset.sum_congr rfl fun j _ => by ring

theorem index_inj {n k l i j : ℕ} (p : ℕ) (hi : i < n) (hj : j < n) (h : p + k * n + i = p + l * n + j) : k = l ∧ i = j := by
  have h' : k * n + i = l * n + j := by omega
  have hn : 0 < n := by omega
  have e1 : (k * n + i) / n = k := by rw [mul_comm, Nat.mul_add_div hn, Nat.div_eq_of_lt hi, add_zero]
  have e2 : (l * n + j) / n = l := by rw [mul_comm, Nat.mul_add_div hn, Nat.div_eq_of_lt hj, add_zero]
  have hkl : k = l := by rw [← e1, ← e2, h']
  subst hkl
  exact ⟨rfl, by omega⟩

section Mean

variable {Ω : Type*} [MeasurableSpace Ω] (μ : Measure Ω)

/-- Uncorrelated random numbers with variance one, as `standard_normal` gives. -/
structure Standard (Z : ℕ → Ω → ℝ) : Prop where
  l2 : ∀ i, MemLp (Z i) 2 μ
  unit : ∀ i, ∫ ω, Z i ω * Z i ω ∂μ = 1
  uncorrelated : ∀ i j, i ≠ j → ∫ ω, Z i ω * Z j ω ∂μ = 0

/-- Deviation in cycle `k`. -/
def dev (a : Fin n → ℝ) (Z : ℕ → Ω → ℝ) (p k : ℕ) (ω : Ω) : ℝ := ∑ j : Fin n, a j * Z (p + k * n + j) ω

theorem dev_l2 (a : Fin n → ℝ) (Z : ℕ → Ω → ℝ) (hZ : Standard μ Z) (p k : ℕ) : MemLp (dev a Z p k) 2 μ := by
  have : dev a Z p k = fun ω => ∑ j : Fin n, a j * Z (p + k * n + j) ω := rfl
  rw [this]
  exact memLp_finset_sum _ fun j _ => (hZ.l2 _).const_mul _

theorem dev_cov (a : Fin n → ℝ) (Z : ℕ → Ω → ℝ) (hZ : Standard μ Z) (p k l : ℕ) :
    ∫ ω, dev a Z p k ω * dev a Z p l ω ∂μ = if k = l then ∑ j, a j ^ 2 else 0 := by
  have hint : ∀ i j, Integrable (fun ω => Z i ω * Z j ω) μ := fun i j => (hZ.l2 i).integrable_mul (hZ.l2 j)
  have hexp : ∀ ω, dev a Z p k ω * dev a Z p l ω =
      ∑ i : Fin n, ∑ j : Fin n, a i * a j * (Z (p + k * n + i) ω * Z (p + l * n + j) ω) := by
    intro ω
    simp only [dev, Finset.sum_mul_sum]
    exact Finset.sum_congr rfl fun i _ => Finset.sum_congr rfl fun j _ => by ring
  simp only [hexp]
  rw [integral_finset_sum _ fun i _ => integrable_finset_sum _ fun j _ => (hint _ _).const_mul _]
  have h1 : ∀ i : Fin n, ∫ ω, ∑ j : Fin n, a i * a j * (Z (p + k * n + i) ω * Z (p + l * n + j) ω) ∂μ =
      ∑ j : Fin n, a i * a j * (if k = l ∧ i = j then 1 else 0) := by
    intro i
    rw [integral_finset_sum _ fun j _ => (hint _ _).const_mul _]
    refine Finset.sum_congr rfl fun j _ => ?_
    rw [integral_const_mul]
    congr 1
    split_ifs with h
    · obtain ⟨rfl, rfl⟩ := h
      exact hZ.unit _
    · refine hZ.uncorrelated _ _ fun he => h ?_
      obtain ⟨h1, h2⟩ := index_inj p i.2 j.2 he
      exact ⟨h1, Fin.ext h2⟩
  simp only [h1]
  split_ifs with hkl
  · simp [hkl, sq]
  · simp [hkl]

theorem mean_variance (a : Fin n → ℝ) (Z : ℕ → Ω → ℝ) (hZ : Standard μ Z) (p m : ℕ) (hm : 0 < m) :
    ∫ ω, (∑ k ∈ Finset.range m, (dev a Z p k ω - (∑ l ∈ Finset.range m, dev a Z p l ω) / m) ^ 2) / m ∂μ =
      ((m : ℝ) - 1) / m * ∑ j, a j ^ 2 := by
  have hint : ∀ k l, Integrable (fun ω => dev a Z p k ω * dev a Z p l ω) μ :=
    fun k l => (dev_l2 μ a Z hZ p k).integrable_mul (dev_l2 μ a Z hZ p l)
  have hm' : (m : ℝ) ≠ 0 := by positivity
  have hexp : ∀ ω, (∑ k ∈ Finset.range m, (dev a Z p k ω - (∑ l ∈ Finset.range m, dev a Z p l ω) / m) ^ 2) / m =
      (∑ k ∈ Finset.range m, dev a Z p k ω * dev a Z p k ω) * (1 / m) -
        (∑ k ∈ Finset.range m, ∑ l ∈ Finset.range m, dev a Z p k ω * dev a Z p l ω) * (1 / m ^ 2) := by
    intro ω
    rw [← variance_form m hm, ← Finset.sum_mul_sum]
    simp only [← sq]
    field_simp
  simp only [hexp]
  rw [integral_sub ((integrable_finset_sum _ fun k _ => hint k k).mul_const _)
    ((integrable_finset_sum _ fun k _ => integrable_finset_sum _ fun l _ => hint k l).mul_const _),
    integral_mul_const, integral_mul_const, integral_finset_sum _ fun k _ => hint k k,
    integral_finset_sum _ fun k _ => integrable_finset_sum _ fun l _ => hint k l]
  have h2 : ∀ k ∈ Finset.range m, ∫ ω, ∑ l ∈ Finset.range m, dev a Z p k ω * dev a Z p l ω ∂μ = ∑ j, a j ^ 2 := by
    intro k hk
    rw [integral_finset_sum _ fun l _ => hint k l]
    simp only [dev_cov μ a Z hZ]
    rw [Finset.sum_ite_eq, if_pos hk]
  rw [Finset.sum_congr rfl h2]
  simp only [dev_cov μ a Z hZ, if_true, Finset.sum_const, Finset.card_range, nsmul_eq_mul]
  field_simp

/-- C102, on average. For a model that is linear in its parameters, with coefficients `b` at `x`, the square of the error is on
average `(m-1)/m` times the variance that follows from the covariance matrix: `gᵀ C g` with `g` the coefficients of the fitted
parameters. Other parameters have no influence. -/
theorem C102_mean (result : X → List ℝ → ℝ) (stream : Ω → ℕ → ℕ → ℝ) (mc : MC n) (params : List ℝ) (xs : List X) (g : Gen)
    (ix : List ℕ) (hi : mc.index = some ix) (hlen : ix.length = n) (hnd : ix.Nodup) (hr : ∀ i ∈ ix, i < params.length)
    (hm : 0 < mc.mcycles) (val : Fin n → ℝ) (cov : Matrix (Fin n) (Fin n) ℝ) (hsd : ∀ j, mc.sd j = √(val j)) (hval : ∀ j, 0 ≤ val j)
    (hcov : mc.vec * diagonal val * mc.vecᵀ = cov) (hZ : Standard μ (fun p ω => stream ω g.seed p))
    (x : X) (i : ℕ) (hx : xs[i]? = some x) (c : ℝ) (b : ℕ → ℝ)
    (hlin : ∀ p, p.length = params.length → result x p = c + ∑ j ∈ Finset.range params.length, b j * p.getD j 0) :
    ∃ err : Ω → List ℝ, (∀ ω, getError result (stream ω) mc params xs g = some (err ω, ⟨g.seed, g.pos + mc.mcycles * n⟩)) ∧
      ∫ ω, (err ω).getD i 0 ^ 2 ∂μ =
        ((mc.mcycles : ℝ) - 1) / mc.mcycles * ((fun k : Fin n => b (ix.getD k 0)) ⬝ᵥ cov *ᵥ fun k : Fin n => b (ix.getD k 0)) := by
  have hv : ∀ z, (variant mc params z).isSome := fun z => by
    obtain ⟨q, hq, -⟩ := C102_variant mc params ix hi hlen hnd hr z
    simp [hq]
  choose err he hl hstd using fun ω => C102_std result (stream ω) mc params xs g hv hm
  refine ⟨err, he, ?_⟩
  set G : Fin n → ℝ := fun k => b (ix.getD k 0) with hG
  have hget : ∀ k : Fin n, ix[k.val]? = some (ix.getD k 0) := by
    intro k
    have : k.val < ix.length := by rw [hlen]; exact k.2
    simp [List.getD_eq_getElem?_getD, List.getElem?_eq_getElem this]
  have hy : ∀ z, result x ((variant mc params z).getD []) =
      (c + ∑ j ∈ Finset.range params.length, b j * params.getD j 0) + ∑ k, G k * step mc z k := by
    intro z
    obtain ⟨q, hq, hql, h1, h2⟩ := C102_variant mc params ix hi hlen hnd hr z
    rw [hq, Option.getD_some, hlin q hql, add_assoc]
    congr 1
    have hd : ∑ j ∈ Finset.range params.length, b j * q.getD j 0 - ∑ j ∈ Finset.range params.length, b j * params.getD j 0 =
        ∑ k, G k * step mc z k := by
      rw [← Finset.sum_sub_distrib]
      have hsub : Finset.univ.image (fun k : Fin n => ix.getD k 0) ⊆ Finset.range params.length := by
        intro j hj
        obtain ⟨k, -, rfl⟩ := Finset.mem_image.1 hj
        exact Finset.mem_range.2 (hr _ (List.mem_of_getElem? (hget k)))
      rw [← Finset.sum_subset hsub, Finset.sum_image]
      · refine Finset.sum_congr rfl fun k _ => ?_
        rw [h1 k _ (hget k)]
        simp only [hG]; ring
      · intro k _ l _ hkl
        have hk := hget k
        have hl := hget l
        simp only at hkl
        rw [hkl, ← hl] at hk
        exact Fin.ext ((List.nodup_iff_getElem?_ne_getElem?.1 hnd |> fun hh => by
          by_contra hne
          rcases Nat.lt_or_gt_of_ne hne with h | h
          · exact hh k l h (by rw [hlen]; exact l.2) hk
          · exact hh l k h (by rw [hlen]; exact k.2) hk.symm))
      · intro j _ hj
        have : j ∉ ix := by
          intro hmem
          obtain ⟨k, hk⟩ := List.mem_iff_getElem?.1 hmem
          have hkn : k < n := by rw [← hlen]; exact (List.getElem?_eq_some_iff.1 hk).1
          apply hj
          refine Finset.mem_image.2 ⟨⟨k, hkn⟩, Finset.mem_univ _, ?_⟩
          simp [List.getD_eq_getElem?_getD, hk]
        rw [List.getD_eq_getElem?_getD, List.getD_eq_getElem?_getD, h2 j this]
        ring
    linarith
  rw [← load_sq mc G val cov hsd hval hcov, ← mean_variance μ (load mc G) (fun p ω => stream ω g.seed p) hZ g.pos mc.mcycles hm]
  refine integral_congr_ae (Filter.Eventually.of_forall fun ω => ?_)
  have hs := hstd ω i x hx
  simp only at hs
  simp only [List.getD_eq_getElem?_getD, hs, Option.getD_some]
  rw [Real.sq_sqrt (by positivity)]
  congr 1
  have ho : ∀ k, outcome result (stream ω) mc params g k x =
      (c + ∑ j ∈ Finset.range params.length, b j * params.getD j 0) + dev (load mc G) (fun p ω => stream ω g.seed p) g.pos k ω := by
    intro k
    simp only [outcome, hy, step_load, dev]
  refine Finset.sum_congr rfl fun k _ => ?_
  simp only [ho, Finset.sum_add_distrib, Finset.sum_const, Finset.card_range, nsmul_eq_mul]
  have : (mc.mcycles : ℝ) ≠ 0 := by positivity
  field_simp
  ring

end Mean

/-! ## Standard normal random numbers -/

open ProbabilityTheory in
/-- Independent standard normal numbers are such a sequence. -/
theorem normals_standard : Standard (Measure.infinitePi fun _ : ℕ => gaussianReal 0 1) (fun (p : ℕ) (ω : ℕ → ℝ) => ω p) := by
  have hmp : ∀ i : ℕ, MeasurePreserving (fun ω : ℕ → ℝ => ω i) (Measure.infinitePi fun _ : ℕ => gaussianReal 0 1) (gaussianReal 0 1) :=
    fun i => measurePreserving_eval_infinitePi _ i
  have hl2 : ∀ i : ℕ, MemLp (fun ω : ℕ → ℝ => ω i) 2 (Measure.infinitePi fun _ : ℕ => gaussianReal 0 1) := fun i =>
    MemLp.comp_measurePreserving (g := id) (memLp_id_gaussianReal' 2 (by simp)) (hmp i)
  have hmean : ∀ i : ℕ, ∫ ω : ℕ → ℝ, ω i ∂(Measure.infinitePi fun _ : ℕ => gaussianReal 0 1) = 0 := by
    intro i
    have h := integral_id_gaussianReal (μ := 0) (v := 1)
    rw [← (hmp i).map_eq, integral_map (hmp i).measurable.aemeasurable (by fun_prop)] at h
    exact h
  refine ⟨hl2, fun i => ?_, fun i j hij => ?_⟩
  · have h1 := variance_id_gaussianReal (μ := 0) (v := 1)
    rw [variance_eq_sub (memLp_id_gaussianReal' 2 (by simp))] at h1
    simp only [id, integral_id_gaussianReal, Pi.pow_apply, ne_eq, OfNat.ofNat_ne_zero, not_false_eq_true, zero_pow, sub_zero,
      NNReal.coe_one] at h1
    rw [← (hmp i).map_eq, integral_map (hmp i).measurable.aemeasurable (by fun_prop)] at h1
    simpa only [sq] using h1
  · have hind := (iIndepFun_infinitePi (P := fun _ : ℕ => gaussianReal 0 1) (X := fun _ x => x) (by fun_prop)).indepFun hij
    have := hind.integral_mul_eq_mul_integral (hl2 i).aestronglyMeasurable (hl2 j).aestronglyMeasurable
    simp only [Pi.mul_apply] at this
    rw [this, hmean, zero_mul]

/-! ## The generator -/

/-- C102, repeatability: the error from a fitter does not depend on the state of the generator, as it is seeded first. -/
theorem C102_repeat (eigh : Matrix (Fin n) (Fin n) ℝ → (Fin n → ℝ) × Matrix (Fin n) (Fin n) ℝ) (cov : Matrix (Fin n) (Fin n) ℝ)
    (fitIndex : Option (List ℕ)) (result : X → List ℝ → ℝ) (stream : ℕ → ℕ → ℝ) (params : List ℝ) (xs : List X) (g g' : Gen) :
    monteCarloError eigh cov fitIndex result stream params xs g = monteCarloError eigh cov fitIndex result stream params xs g' := rfl

/-- C102, from the fitter: with a covariance matrix without negative eigenvalues, a list of different parameters that exist and of the
right length, there are errors, one for each input, from 25 cycles. -/
theorem C102_fitter (eigh : Matrix (Fin n) (Fin n) ℝ → (Fin n → ℝ) × Matrix (Fin n) (Fin n) ℝ) (cov : Matrix (Fin n) (Fin n) ℝ)
    (heig : ∀ j, 0 ≤ (eigh cov).1 j) (fitIndex : Option (List ℕ)) (params : List ℝ)
    (hi : match fitIndex with
      | none => params.length = n
      | some ix => ix.length = n ∧ ix.Nodup ∧ ∀ i ∈ ix, i < params.length)
    (result : X → List ℝ → ℝ) (stream : ℕ → ℕ → ℝ) (xs : List X) (g : Gen) :
    ∃ errs, monteCarloError eigh cov fitIndex result stream params xs g = some (errs, ⟨12345, 25 * n⟩) ∧ errs.length = xs.length ∧
      ∀ e ∈ errs, 0 ≤ e := by
  have hc : construct eigh cov fitIndex 12345 25 g = some (⟨(eigh cov).2, fun j => √((eigh cov).1 j), fitIndex, 25⟩, ⟨12345, 0⟩) := by
    simp only [construct]
    rw [if_neg (by push Not; exact heig)]
  have hv : ∀ z, (variant (⟨(eigh cov).2, fun j => √((eigh cov).1 j), fitIndex, 25⟩ : MC n) params z).isSome := by
    intro z
    cases fitIndex with
    | none =>
      obtain ⟨q, hq, -⟩ := C102_variant_all ⟨(eigh cov).2, fun j => √((eigh cov).1 j), none, 25⟩ params rfl hi z
      simp [hq]
    | some ix =>
      obtain ⟨q, hq, -⟩ := C102_variant ⟨(eigh cov).2, fun j => √((eigh cov).1 j), some ix, 25⟩ params ix rfl hi.1 hi.2.1 hi.2.2 z
      simp [hq]
  obtain ⟨errs, h1, h2, h3⟩ := C102_std result stream ⟨(eigh cov).2, fun j => √((eigh cov).1 j), fitIndex, 25⟩ params xs ⟨12345, 0⟩ hv
    (by norm_num)
  refine ⟨errs, ?_, h2, ?_⟩
  · simp only [monteCarloError, hc, h1, zero_add]
  · intro e he
    obtain ⟨i, hi⟩ := List.mem_iff_getElem?.1 he
    have hlt : i < xs.length := by rw [← h2]; exact (List.getElem?_eq_some_iff.1 hi).1
    have := h3 i xs[i] (List.getElem?_eq_getElem hlt)
    simp only at this
    rw [hi] at this
    rw [Option.some.inj this]
    exact Real.sqrt_nonneg _

/-- C102, false as such: with one cycle the error is zero everywhere, whatever the covariance matrix. -/
theorem C102_counterexample_one (result : X → List ℝ → ℝ) (stream : ℕ → ℕ → ℝ) (mc : MC n) (params : List ℝ) (xs : List X) (g : Gen)
    (hv : ∀ z, (variant mc params z).isSome) (h1 : mc.mcycles = 1) :
    ∃ errs g', getError result stream mc params xs g = some (errs, g') ∧ errs.length = xs.length ∧ ∀ e ∈ errs, e = 0 := by
  obtain ⟨errs, h, h2, h3⟩ := C102_std result stream mc params xs g hv (by omega)
  refine ⟨errs, _, h, h2, fun e he => ?_⟩
  obtain ⟨i, hi⟩ := List.mem_iff_getElem?.1 he
  have hlt : i < xs.length := by rw [← h2]; exact (List.getElem?_eq_some_iff.1 hi).1
  have := h3 i xs[i] (List.getElem?_eq_getElem hlt)
  simp only [h1] at this
  rw [hi] at this
  rw [Option.some.inj this]
  simp

/-- The identity matrix is its own decomposition. -/
def eigh1 (_ : Matrix (Fin 1) (Fin 1) ℝ) : (Fin 1 → ℝ) × Matrix (Fin 1) (Fin 1) ℝ := (fun _ => 1, 1)

/-- Random numbers: zero after seed 1; 0, 2, 0, 2, ... after another one. -/
def flip (s p : ℕ) : ℝ := if s = 1 then 0 else if p % 2 = 0 then 0 else 2

def twice : MC 1 := ⟨1, fun _ => 1, none, 2⟩

theorem twice_step (z : Fin 1 → ℝ) (v : ℝ) : variant twice [v] z = some [v + z 0] := by
  simp [variant, twice]

theorem twice_error (s : ℕ) : getError (fun _ p => p.getD 0 0) flip twice [5] [()] ⟨s, 0⟩ = some ([if s = 1 then 0 else 1], ⟨s, 2⟩) := by
  have hm : twice.mcycles = 2 := rfl
  simp only [getError, hm, cycles, twice_step]
  by_cases hs : s = 1 <;> norm_num [flip, hs]

/-- The hypotheses of `C102_std` can be met. -/
example : ∃ errs, getError (fun _ p => p.getD 0 0) flip twice [5] [()] ⟨2, 0⟩ = some (errs, ⟨2, 2⟩) ∧ errs = [1] ∧
    (∀ z, (variant twice [5] z).isSome) ∧ 0 < twice.mcycles :=
  ⟨_, twice_error 2, by norm_num, fun z => by simp [twice_step], by norm_num [twice]⟩

/-- The hypotheses of `C102_fitter` can be met, with one fitted parameter out of two. -/
example : ∃ errs, monteCarloError eigh1 1 (some [1]) (fun x p => x * p.getD 1 0) flip [5, 6] [(1 : ℝ), 2] ⟨0, 0⟩ =
    some (errs, ⟨12345, 25 * 1⟩) ∧ errs.length = 2 ∧ ∀ e ∈ errs, 0 ≤ e :=
  C102_fitter eigh1 1 (by simp [eigh1]) (some [1]) [5, 6] (by simp) _ flip _ _

/-- C102, false as such: there is one generator for all. After making a second MonteCarlo, with its own seed, the first one gives
other errors. The state in which the user had the generator of numpy is lost. -/
theorem C102_counterexample_shared : ∃ (a b : MC 1) (g1 g2 : Gen) (e1 e2 : List ℝ) (h1 h2 : Gen),
    construct eigh1 1 none 1 2 ⟨7, 3⟩ = some (a, g1) ∧ construct eigh1 1 none 2 2 g1 = some (b, g2) ∧
    getError (fun _ p => p.getD 0 0) flip a [5] [()] g1 = some (e1, h1) ∧
    getError (fun _ p => p.getD 0 0) flip a [5] [()] g2 = some (e2, h2) ∧ e1 ≠ e2 := by
  have hc : ∀ s g, construct eigh1 1 none s 2 g = some (twice, ⟨s, 0⟩) := by
    intro s g
    simp [construct, eigh1, twice]
  refine ⟨twice, twice, _, _, _, _, _, _, hc 1 _, hc 2 _, twice_error 1, twice_error 2, ?_⟩
  norm_num

/-- C102, false as such: on average the square of the error is too small, by the factor `(m-1)/m`. Here one parameter with
variance one and two cycles: one half. -/
theorem C102_counterexample_small : ∃ err : (ℕ → ℝ) → List ℝ,
    (∀ ω, getError (fun (_ : Unit) p => p.getD 0 0) (fun _ p => ω p) { twice with index := some [0] } [5] [()] ⟨1, 0⟩ =
      some (err ω, ⟨1, 2⟩)) ∧
    ∫ ω, (err ω).getD 0 0 ^ 2 ∂(Measure.infinitePi fun _ : ℕ => ProbabilityTheory.gaussianReal 0 1) = 1 / 2 := by
  obtain ⟨err, h1, h2⟩ := C102_mean (Measure.infinitePi fun _ : ℕ => ProbabilityTheory.gaussianReal 0 1)
    (fun (_ : Unit) p => p.getD 0 0) (fun ω _ p => ω p) { twice with index := some [0] } [5] [()] ⟨1, 0⟩ [0] rfl rfl (by simp) (by simp)
    (by simp [twice]) (fun _ => 1) 1 (by simp [twice]) (by simp) (by simp [twice]) normals_standard () 0 rfl 0 (fun _ => 1)
    (by intro p hp; simp at hp; simp [hp])
  refine ⟨err, h1, ?_⟩
  rw [h2]
  norm_num [twice, dotProduct, mulVec]

end BF.MonteCarlo
