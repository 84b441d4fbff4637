import Verif.Props.LM
import Verif.Props.Determined
import Mathlib.Topology.Order.Compact
import Mathlib.Topology.MetricSpace.ProperSpace

/-!
# C136: the Levenberg-Marquardt fitter on a model that is linear in its parameters
-/

namespace BF.LM

open Finset BF.Fitters

variable {X : Type*}

/-! ## Specification -/

/-- A linear model, as the Levenberg-Marquardt fitter sees it: its partials do not depend on the parameters. -/
noncomputable def ofLin (m : Lin X) : Nl X := ⟨m.np, m.result, fun x _ k => m.part x k⟩

/-- What a change of 1 in parameter `k` does to datum `i`; the extra measurements come after the data. -/
noncomputable def effect (m : Lin X) (d : Data X) (s : Fitter) (i k : ℕ) : ℝ :=
  if i < d.n then m.part (d.x i) k else s.normdfdp (i - d.n) k

/-- A change of the parameters that leaves the kept ones as they are. -/
def Change (m : Lin X) (keep : List (ℤ × ℝ)) (δ : ℕ → ℝ) : Prop :=
  ∀ k < m.np, (k : ℤ) ∈ keep.map Prod.fst → δ k = 0

/-- No change of the fitted parameters goes unnoticed: one datum with weight changes. -/
def Noticed (m : Lin X) (d : Data X) (s : Fitter) (keep : List (ℤ × ℝ)) : Prop :=
  ∀ δ, Change m keep δ →
    (∀ i < d.n + s.nnorm, allWgts d s i ≠ 0 → ∑ k ∈ range m.np, effect m d s i k * δ k = 0) →
      ∀ k < m.np, δ k = 0

/-- The effects of the parameters do not cancel by more than a factor `κ` (in squares): the squares of the effects of
all parameters on all data add up to at most `κ` times the squares of the total effects. It is 1 when the parameters
are independent (the columns of the design matrix are orthogonal). -/
def Cancels (m : Lin X) (d : Data X) (s : Fitter) (keep : List (ℤ × ℝ)) (κ : ℝ) : Prop :=
  ∀ δ, Change m keep δ →
    ∑ i ∈ range (d.n + s.nnorm), allWgts d s i * ∑ k ∈ range m.np, (effect m d s i k * δ k) ^ 2
      ≤ κ * ∑ i ∈ range (d.n + s.nnorm), allWgts d s i * (∑ k ∈ range m.np, effect m d s i k * δ k) ^ 2

/-! ## Algebra of one step -/

section Algebra

variable (n K : ℕ) (R : ℕ → ℕ → ℝ) (w e : ℕ → ℝ) (lam : ℝ)

/-- The damped matrix. -/
noncomputable def damped (a b : ℕ) : ℝ :=
  if a = b ∧ a < K then (∑ i ∈ range n, R i a * (R i b * w i)) * (1 + lam)
  else ∑ i ∈ range n, R i a * (R i b * w i)

theorem damped_apply (dx : ℕ → ℝ) (a : ℕ) (ha : a < K) :
    ∑ b ∈ range K, damped n K R w lam a b * dx b
      = ∑ i ∈ range n, R i a * (w i * ∑ b ∈ range K, R i b * dx b)
        + lam * ((∑ i ∈ range n, w i * R i a ^ 2) * dx a) := by
  have h : ∀ b ∈ range K, damped n K R w lam a b * dx b
      = (∑ i ∈ range n, R i a * (R i b * w i)) * dx b
        + (if b = a then lam * ((∑ i ∈ range n, w i * R i a ^ 2) * dx a) else 0) := by
    intro b _
    unfold damped
    by_cases hb : b = a
    · subst hb
      rw [if_pos ⟨rfl, ha⟩, if_pos rfl]
      have : ∑ i ∈ range n, R i b * (R i b * w i) = ∑ i ∈ range n, w i * R i b ^ 2 :=
        sum_congr rfl fun i _ => by ring
      rw [this]
      ring
    · rw [if_neg (fun h => hb h.1.symm), if_neg hb, add_zero]
  rw [sum_congr rfl h, sum_add_distrib, sum_ite_eq' (range K) a, if_pos (mem_range.2 ha)]
  congr 1
  simp only [sum_mul, mul_sum]
  rw [sum_comm]
  exact sum_congr rfl fun i _ => sum_congr rfl fun b _ => by ring

theorem damped_inner (dx δ : ℕ → ℝ)
    (h : ∀ a < K, ∑ b ∈ range K, damped n K R w lam a b * dx b = ∑ i ∈ range n, R i a * (e i * w i)) :
    ∑ i ∈ range n, w i * (e i * ∑ a ∈ range K, R i a * δ a)
      = ∑ i ∈ range n, w i * ((∑ a ∈ range K, R i a * δ a) * ∑ a ∈ range K, R i a * dx a)
        + lam * ∑ a ∈ range K, (∑ i ∈ range n, w i * R i a ^ 2) * (δ a * dx a) := by
  have h1 : ∑ a ∈ range K, δ a * ∑ i ∈ range n, R i a * (e i * w i)
      = ∑ a ∈ range K, δ a * (∑ i ∈ range n, R i a * (w i * ∑ b ∈ range K, R i b * dx b)
        + lam * ((∑ i ∈ range n, w i * R i a ^ 2) * dx a)) := by
    apply sum_congr rfl
    intro a ha
    rw [← h a (mem_range.1 ha), damped_apply n K R w lam dx a (mem_range.1 ha)]
  have h2 : ∀ g : ℕ → ℝ, ∑ a ∈ range K, δ a * ∑ i ∈ range n, R i a * g i
      = ∑ i ∈ range n, g i * ∑ a ∈ range K, R i a * δ a := by
    intro g
    simp only [mul_sum]
    rw [sum_comm]
    exact sum_congr rfl fun i _ => sum_congr rfl fun b _ => by ring
  simp only [mul_add, sum_add_distrib] at h1
  rw [h2, h2] at h1
  have h3 : ∑ i ∈ range n, w i * (e i * ∑ a ∈ range K, R i a * δ a)
      = ∑ i ∈ range n, e i * w i * ∑ a ∈ range K, R i a * δ a := sum_congr rfl fun i _ => by ring
  rw [h3, h1, mul_sum]
  congr 1
  · exact sum_congr rfl fun i _ => by ring
  · exact sum_congr rfl fun i _ => by ring

/-- A half step lowers the sum of squares by a known amount. -/
theorem half_step (dx : ℕ → ℝ)
    (h : ∀ a < K, ∑ b ∈ range K, damped n K R w lam a b * dx b = ∑ i ∈ range n, R i a * (e i * w i)) :
    ∑ i ∈ range n, (e i - ∑ a ∈ range K, R i a * (0.5 * dx a)) ^ 2 * w i
      = ∑ i ∈ range n, e i ^ 2 * w i
        - (3 / 4 * ∑ i ∈ range n, w i * (∑ a ∈ range K, R i a * dx a) ^ 2
          + lam * ∑ a ∈ range K, (∑ i ∈ range n, w i * R i a ^ 2) * dx a ^ 2) := by
  have h1 := damped_inner n K R w e lam dx dx h
  have h2 : ∑ i ∈ range n, (e i - ∑ a ∈ range K, R i a * (0.5 * dx a)) ^ 2 * w i
      = ∑ i ∈ range n, e i ^ 2 * w i - ∑ i ∈ range n, w i * (e i * ∑ a ∈ range K, R i a * dx a)
        + 1 / 4 * ∑ i ∈ range n, w i * (∑ a ∈ range K, R i a * dx a) ^ 2 := by
    rw [mul_sum, ← sum_sub_distrib, ← sum_add_distrib]
    apply sum_congr rfl
    intro i _
    have : ∑ a ∈ range K, R i a * (0.5 * dx a) = 0.5 * ∑ a ∈ range K, R i a * dx a := by
      rw [mul_sum]
      exact sum_congr rfl fun a _ => by ring
    rw [this]
    ring
  rw [h2, h1]
  have h3 : ∑ i ∈ range n, w i * ((∑ a ∈ range K, R i a * dx a) * ∑ a ∈ range K, R i a * dx a)
      = ∑ i ∈ range n, w i * (∑ a ∈ range K, R i a * dx a) ^ 2 := sum_congr rfl fun i _ => by ring
  have h4 : ∑ a ∈ range K, (∑ i ∈ range n, w i * R i a ^ 2) * (dx a * dx a)
      = ∑ a ∈ range K, (∑ i ∈ range n, w i * R i a ^ 2) * dx a ^ 2 := sum_congr rfl fun i _ => by ring
  rw [h3, h4]
  ring

/-- What is left to be gained is bounded by what the step gains. -/
theorem step_gain (hw : ∀ i < n, 0 ≤ w i) (hl : 0 ≤ lam) (κ : ℝ) (hκ : 0 ≤ κ) (dx δ : ℕ → ℝ)
    (h : ∀ a < K, ∑ b ∈ range K, damped n K R w lam a b * dx b = ∑ i ∈ range n, R i a * (e i * w i))
    (hc : ∑ a ∈ range K, (∑ i ∈ range n, w i * R i a ^ 2) * δ a ^ 2
      ≤ κ * ∑ i ∈ range n, w i * (∑ a ∈ range K, R i a * δ a) ^ 2) :
    ∑ i ∈ range n, e i ^ 2 * w i - ∑ i ∈ range n, (e i - ∑ a ∈ range K, R i a * δ a) ^ 2 * w i
      ≤ (1 + lam * κ) * (∑ i ∈ range n, w i * (∑ a ∈ range K, R i a * dx a) ^ 2
          + lam * ∑ a ∈ range K, (∑ i ∈ range n, w i * R i a ^ 2) * dx a ^ 2) := by
  have h1 := damped_inner n K R w e lam dx δ h
  have h2 : ∑ i ∈ range n, e i ^ 2 * w i - ∑ i ∈ range n, (e i - ∑ a ∈ range K, R i a * δ a) ^ 2 * w i
      = 2 * ∑ i ∈ range n, w i * (e i * ∑ a ∈ range K, R i a * δ a)
        - ∑ i ∈ range n, w i * (∑ a ∈ range K, R i a * δ a) ^ 2 := by
    rw [mul_sum, ← sum_sub_distrib, ← sum_sub_distrib]
    exact sum_congr rfl fun i _ => by ring
  rw [h2, h1]
  set u := 1 + lam * κ with hu
  have hu1 : 1 ≤ u := by nlinarith
  have hu0 : 0 < u := by linarith
  have hp : ∀ a b : ℝ, 2 * (a * b) ≤ u⁻¹ * a ^ 2 + u * b ^ 2 := by
    intro a b
    have : 0 ≤ u⁻¹ * (a - u * b) ^ 2 := mul_nonneg (inv_nonneg.2 hu0.le) (sq_nonneg _)
    have e : u⁻¹ * (a - u * b) ^ 2 = u⁻¹ * a ^ 2 - 2 * (a * b) + u * b ^ 2 := by
      field_simp
      ring
    linarith
  have h3 : 2 * ∑ i ∈ range n, w i * ((∑ a ∈ range K, R i a * δ a) * ∑ a ∈ range K, R i a * dx a)
      ≤ u⁻¹ * ∑ i ∈ range n, w i * (∑ a ∈ range K, R i a * δ a) ^ 2
        + u * ∑ i ∈ range n, w i * (∑ a ∈ range K, R i a * dx a) ^ 2 := by
    rw [mul_sum, mul_sum, mul_sum, ← sum_add_distrib]
    apply sum_le_sum
    intro i hi
    have := mul_le_mul_of_nonneg_left (hp (∑ a ∈ range K, R i a * δ a) (∑ a ∈ range K, R i a * dx a))
      (hw i (mem_range.1 hi))
    linarith
  have h4 : 2 * ∑ a ∈ range K, (∑ i ∈ range n, w i * R i a ^ 2) * (δ a * dx a)
      ≤ u⁻¹ * ∑ a ∈ range K, (∑ i ∈ range n, w i * R i a ^ 2) * δ a ^ 2
        + u * ∑ a ∈ range K, (∑ i ∈ range n, w i * R i a ^ 2) * dx a ^ 2 := by
    rw [mul_sum, mul_sum, mul_sum, ← sum_add_distrib]
    apply sum_le_sum
    intro a _
    have := mul_le_mul_of_nonneg_left (hp (δ a) (dx a))
      (show 0 ≤ ∑ i ∈ range n, w i * R i a ^ 2 from
        sum_nonneg fun i hi => mul_nonneg (hw i (mem_range.1 hi)) (sq_nonneg _))
    linarith
  set Q := ∑ i ∈ range n, w i * (∑ a ∈ range K, R i a * δ a) ^ 2
  set D := ∑ a ∈ range K, (∑ i ∈ range n, w i * R i a ^ 2) * δ a ^ 2
  have h5 := mul_le_mul_of_nonneg_left h4 hl
  have h6 : u⁻¹ * (Q + lam * D) ≤ Q := by
    have h7 : Q + lam * D ≤ u * Q := by
      have := mul_le_mul_of_nonneg_left hc hl
      rw [hu]
      linarith
    calc u⁻¹ * (Q + lam * D) ≤ u⁻¹ * (u * Q) := mul_le_mul_of_nonneg_left h7 (inv_nonneg.2 hu0.le)
      _ = Q := by field_simp
  linarith

/-- The damped matrix is not singular. -/
theorem damped_regular (hw : ∀ i < n, 0 ≤ w i) (hl : 0 ≤ lam) (z : ℕ → ℝ)
    (h : ∀ a < K, ∑ b ∈ range K, damped n K R w lam a b * z b = 0) :
    ∀ i < n, w i ≠ 0 → ∑ a ∈ range K, R i a * z a = 0 := by
  have h1 := damped_inner n K R w (fun _ => 0) lam z z (by simpa using h)
  simp only [zero_mul, mul_zero, sum_const_zero] at h1
  have h2 : 0 ≤ lam * ∑ a ∈ range K, (∑ i ∈ range n, w i * R i a ^ 2) * (z a * z a) :=
    mul_nonneg hl (sum_nonneg fun a _ => mul_nonneg
      (sum_nonneg fun i hi => mul_nonneg (hw i (mem_range.1 hi)) (sq_nonneg _)) (mul_self_nonneg _))
  have h3 : ∀ i ∈ range n, 0 ≤ w i * ((∑ a ∈ range K, R i a * z a) * ∑ a ∈ range K, R i a * z a) :=
    fun i hi => mul_nonneg (hw i (mem_range.1 hi)) (mul_self_nonneg _)
  have h4 := sum_nonneg h3
  have h5 := (sum_eq_zero_iff_of_nonneg h3).1 (by linarith)
  intro i hi hwi
  rcases mul_eq_zero.1 (h5 i (mem_range.2 hi)) with h6 | h6
  · exact absurd h6 hwi
  · exact mul_self_eq_zero.1 h6

end Algebra

/-! ## Residuals -/

section Residuals

variable (m : Lin X) (d : Data X) (s : Fitter)

/-- The residual at datum `i`. -/
noncomputable def resid (p : ℕ → ℝ) (i : ℕ) : ℝ :=
  if i < d.n then d.y i - m.result (d.x i) p
  else s.normdata (i - d.n) - ∑ k ∈ range m.np, p k * s.normdfdp (i - d.n) k

theorem total_lin (p : ℕ → ℝ) : total (ofLin m) d s p = chiTotal m d s p := by
  unfold total chiTotal chiSquared
  simp only [ofLin]
  congr 1
  apply sum_congr rfl
  intro i _
  have : ∑ k ∈ range m.np, s.normdfdp i k * p k = ∑ k ∈ range m.np, p k * s.normdfdp i k :=
    sum_congr rfl fun k _ => mul_comm _ _
  rw [this]
  ring

theorem chi_resid (p : ℕ → ℝ) :
    chiTotal m d s p = ∑ i ∈ range (d.n + s.nnorm), resid m d s p i ^ 2 * allWgts d s i :=
  chiTotal_eq m d s p

theorem resid_change (p q : ℕ → ℝ) (i : ℕ) :
    resid m d s q i = resid m d s p i - ∑ k ∈ range m.np, effect m d s i k * (q k - p k) := by
  unfold resid effect
  by_cases h : i < d.n
  · simp only [if_pos h, Lin.result]
    have : ∑ k ∈ range m.np, m.part (d.x i) k * (q k - p k)
        = ∑ k ∈ range m.np, q k * m.part (d.x i) k - ∑ k ∈ range m.np, p k * m.part (d.x i) k := by
      rw [← sum_sub_distrib]
      exact sum_congr rfl fun k _ => by ring
    rw [this]
    ring
  · simp only [if_neg h]
    have : ∑ k ∈ range m.np, s.normdfdp (i - d.n) k * (q k - p k)
        = ∑ k ∈ range m.np, q k * s.normdfdp (i - d.n) k - ∑ k ∈ range m.np, p k * s.normdfdp (i - d.n) k := by
      rw [← sum_sub_distrib]
      exact sum_congr rfl fun k _ => by ring
    rw [this]
    ring

theorem wgts_all (hd : d.Good) (hnw : ∀ i < s.nnorm, 0 ≤ s.normweight i) :
    ∀ i < d.n + s.nnorm, 0 ≤ allWgts d s i := by
  intro i hi
  unfold allWgts
  split_ifs with h
  · exact wgts_nonneg d hd i h
  · exact hnw _ (by omega)

/-- The free parameters. -/
def free (keep : List (ℤ × ℝ)) (k : ℕ) : Bool := decide ((k : ℤ) ∉ keep.map Prod.fst)

/-- Sums over all parameters are those over the fitted ones. -/
theorem sum_free (keep : List (ℤ × ℝ)) (c g : ℕ → ℝ) (hg : ∀ k < m.np, (k : ℤ) ∈ keep.map Prod.fst → g k = 0) :
    ∑ k ∈ range m.np, c k * g k
      = ∑ a ∈ range (indexOf m.np (free keep)).length,
          c (pyIdx m.np ((indexOf m.np (free keep)).getD a 0))
            * g (pyIdx m.np ((indexOf m.np (free keep)).getD a 0)) := by
  simp only [index_at, index_length]
  rw [← sum_index m.np (free keep) fun k => c k * g k]
  apply sum_congr rfl
  intro k hk
  by_cases h : (k : ℤ) ∈ keep.map Prod.fst
  · have hf : free keep k = false := by unfold free; exact decide_eq_false (not_not.2 h)
    simp [hf, hg k (mem_range.1 hk) h]
  · have hf : free keep k = true := by unfold free; exact decide_eq_true h
    simp [hf]

end Residuals

/-! ## One trial -/

/-- What a step of the fitter from `p` to `p'` does. -/
def Descends (m : Lin X) (d : Data X) (s : Fitter) (keep : List (ℤ × ℝ)) (lam : ℝ) (p p' : ℕ → ℝ) : Prop :=
  Change m keep (fun k => p' k - p k) ∧ chiTotal m d s p' ≤ chiTotal m d s p ∧
  ∀ κ, 0 ≤ κ → Cancels m d s keep κ → ∀ q, Change m keep (fun k => q k - p k) →
    chiTotal m d s p - chiTotal m d s q
      ≤ 4 / 3 * (1 + lam * κ) * (chiTotal m d s p - chiTotal m d s p')

theorem insert_change (m : Lin X) (keep : List (ℤ × ℝ)) (p x : ℕ → ℝ) :
    Change m keep (fun k => insertParameters m.np p x (indexOf m.np (free keep)) k - p k) ∧
    ∀ a < (indexOf m.np (free keep)).length,
      insertParameters m.np p x (indexOf m.np (free keep))
        (pyIdx m.np ((indexOf m.np (free keep)).getD a 0)) = x a := by
  obtain ⟨h1, h2⟩ := insert_spec m.np (free keep) p x
  constructor
  · intro k hk hm
    have : (k : ℤ) ∉ indexOf m.np (free keep) := by
      simp only [indexOf, List.mem_map, List.mem_filter, not_exists, not_and]
      rintro a ⟨_, ha⟩ e
      have : a = k := by exact_mod_cast e
      subst this
      simp only [free, decide_eq_true_eq] at ha
      exact ha hm
    show _ - _ = _
    rw [h2 k hk this, sub_self]
  · intro a ha
    rw [index_at]
    exact h1 a _ (filter_at m.np (free keep) a ha)

theorem cancels_index (m : Lin X) (d : Data X) (s : Fitter) (keep : List (ℤ × ℝ)) (κ : ℝ)
    (hc : Cancels m d s keep κ) (δ : ℕ → ℝ) (hδ : Change m keep δ) :
    let idx := fun a => pyIdx m.np ((indexOf m.np (free keep)).getD a 0)
    let K := (indexOf m.np (free keep)).length
    ∑ a ∈ range K, (∑ i ∈ range (d.n + s.nnorm), allWgts d s i * effect m d s i (idx a) ^ 2) * δ (idx a) ^ 2
      ≤ κ * ∑ i ∈ range (d.n + s.nnorm), allWgts d s i * (∑ a ∈ range K, effect m d s i (idx a) * δ (idx a)) ^ 2 := by
  intro idx K
  have h := hc δ hδ
  have h1 : ∑ i ∈ range (d.n + s.nnorm), allWgts d s i * ∑ k ∈ range m.np, (effect m d s i k * δ k) ^ 2
      = ∑ a ∈ range K, (∑ i ∈ range (d.n + s.nnorm), allWgts d s i * effect m d s i (idx a) ^ 2)
          * δ (idx a) ^ 2 := by
    have h2 : ∀ i, ∑ k ∈ range m.np, (effect m d s i k * δ k) ^ 2
        = ∑ a ∈ range K, effect m d s i (idx a) ^ 2 * δ (idx a) ^ 2 := by
      intro i
      rw [← sum_free m keep (fun k => effect m d s i k ^ 2) (fun k => δ k ^ 2)
        (fun k hk hm => by rw [hδ k hk hm]; ring)]
      exact sum_congr rfl fun k _ => by ring
    simp only [h2, mul_sum, sum_mul]
    rw [sum_comm]
    exact sum_congr rfl fun a _ => sum_congr rfl fun i _ => by ring
  have h3 : ∀ i, ∑ k ∈ range m.np, effect m d s i k * δ k
      = ∑ a ∈ range K, effect m d s i (idx a) * δ (idx a) := fun i =>
    sum_free m keep (fun k => effect m d s i k) δ hδ
  simp only [h1, h3] at h
  exact h

/-- The first trial is accepted, unless the matrix cannot be solved or chi squared becomes 0. -/
theorem trial_linear (solve : ℕ → (ℕ → ℕ → ℝ) → (ℕ → ℝ) → Option (ℕ → ℝ)) (hsolve : SolveSpec solve)
    (m : Lin X) (d : Data X) (s : Fitter) (hd : d.Good) (hnw : ∀ i < s.nnorm, 0 ≤ s.normweight i)
    (keep : List (ℤ × ℝ)) (p mp : ℕ → ℝ) (chi : ℝ) (hchi : chiTotal m d s p ≤ chi) (same : Bool) (left : ℕ)
    (lam : ℝ) (hl : 0 ≤ lam) :
    let S : Setup X := ⟨solve, ofLin m, d, s, none, indexOf m.np (free keep)⟩
    (∃ st, trialfit S p mp chi same (left + 1) lam = .ok st ∧ st.left = left ∧ st.lamda = lam ∧
      st.chi = chiTotal m d s st.params ∧ Descends m d s keep lam p st.params) ∨
    (∃ f, trialfit S p mp chi same (left + 1) lam = .error f ∧
      ((f.err = .linalg ∧ ¬ (BF.LinearModels.SolveComplete solve ∧ Noticed m d s keep)) ∨
        (f.err = .value ∧ ∃ q, Change m keep (fun k => q k - p k) ∧ chiSquared m d q ≤ 0))) := by
  intro S
  set K := (indexOf m.np (free keep)).length with hK
  set idx : ℕ → ℕ := fun a => pyIdx m.np ((indexOf m.np (free keep)).getD a 0) with hidx
  set R : ℕ → ℕ → ℝ := fun i a => effect m d s i (idx a) with hR
  set N := d.n + s.nnorm with hN
  have hw := wgts_all d s hd hnw
  have hdes : ∀ pp i a, design (ofLin m) d s pp (indexOf m.np (free keep)) i a = R i a := by
    intro pp i a
    rfl
  set vec := vector (ofLin m) d s mp (indexOf m.np (free keep)) (fun i =>
    if i < d.n then (d.y i - (ofLin m).result (d.x i) p) * d.fitWgts i
    else (s.normdata (i - d.n) - ∑ k ∈ range (ofLin m).np, s.normdfdp (i - d.n) k * p k)
      * s.normweight (i - d.n)) with hvec
  have hv : ∀ a, vec a = ∑ i ∈ range N, R i a * (resid m d s p i * allWgts d s i) := by
    intro a
    rw [hvec]
    unfold vector
    apply sum_congr rfl
    intro i _
    rw [hdes]
    congr 1
    unfold resid allWgts
    by_cases hi : i < d.n
    · simp only [if_pos hi, ofLin]
    · simp only [if_neg hi, ofLin]
      congr 2
      exact sum_congr rfl fun k _ => mul_comm _ _
  have hh : (fun a b => if a = b ∧ a < K then hessian (ofLin m) d s p (indexOf m.np (free keep)) a b * (1 + lam)
      else hessian (ofLin m) d s p (indexOf m.np (free keep)) a b) = damped N K R (allWgts d s) lam := by
    funext a b
    rfl
  have hun : trialfit S p mp chi same (left + 1) lam = trialLoop S p vec chi same (left + 1)
      (hessian (ofLin m) d s p (indexOf m.np (free keep))) lam mp := rfl
  rw [hun]
  simp only [trialLoop]
  rw [show (fun a b => if a = b ∧ a < S.fi.length
        then hessian (ofLin m) d s p (indexOf m.np (free keep)) a b * (1 + lam)
        else hessian (ofLin m) d s p (indexOf m.np (free keep)) a b) = damped N K R (allWgts d s) lam from hh]
  rcases hs : solve K (damped N K R (allWgts d s) lam) vec with _ | dx
  · right
    refine ⟨⟨.linalg, mp⟩, ?_, Or.inl ⟨rfl, ?_⟩⟩
    · rw [show S.solve S.fi.length (damped N K R (allWgts d s) lam) vec = none from hs]
    · rintro ⟨hcomp, hnot⟩
      obtain ⟨x, hx⟩ := hcomp K (damped N K R (allWgts d s) lam) vec (by
        intro z hz
        have h0 := damped_regular N K R (allWgts d s) lam hw hl z hz
        obtain ⟨i1, i2⟩ := insert_change m keep (fun _ => 0) z
        set δ := insertParameters m.np (fun _ => 0) z (indexOf m.np (free keep)) with hδ
        have hch : Change m keep δ := by
          intro k hk hm
          simpa using i1 k hk hm
        have hz0 := hnot δ hch (by
          intro i hi hwi
          rw [sum_free m keep (fun k => effect m d s i k) δ hch, ← h0 i hi hwi]
          apply sum_congr rfl
          intro a ha
          rw [i2 a (mem_range.1 ha)])
        intro b hb
        rw [← i2 b hb]
        apply hz0
        rw [index_at]
        have hb' : b < ((List.range m.np).filter (free keep)).length := by rw [← index_length]; exact hb
        rw [List.getD_eq_getElem?_getD, List.getElem?_eq_getElem hb']
        exact List.mem_range.1 (List.mem_of_mem_filter (List.getElem_mem hb')))
      rw [hs] at hx
      cases hx
  · have hsol := hsolve K _ vec dx hs
    rw [show S.solve S.fi.length (damped N K R (allWgts d s) lam) vec = some dx from hs]
    simp only
    set newpar : ℕ → ℝ := fun a => p (idx a) + 0.5 * dx a with hnew
    set p' := insertParameters m.np p newpar (indexOf m.np (free keep)) with hp'
    have hp'' : insertParameters S.m.np p (checkLimits S.m.np S.lims S.fi
        fun a => p (pyIdx S.m.np (S.fi.getD a 0)) + 0.5 * dx a) S.fi = p' := rfl
    rw [hp'']
    obtain ⟨i1, i2⟩ := insert_change m keep p newpar
    have hsol' : ∀ a < K, ∑ b ∈ range K, damped N K R (allWgts d s) lam a b * dx b
        = ∑ i ∈ range N, R i a * (resid m d s p i * allWgts d s i) := by
      intro a ha
      rw [hsol a ha, hv]
    have hres : ∀ i, resid m d s p' i = resid m d s p i - ∑ a ∈ range K, R i a * (0.5 * dx a) := by
      intro i
      rw [resid_change m d s p p' i, sum_free m keep (fun k => effect m d s i k) _ i1]
      congr 1
      apply sum_congr rfl
      intro a ha
      show R i a * (p' (idx a) - p (idx a)) = _
      rw [show p' (idx a) = newpar a from i2 a (mem_range.1 ha), hnew]
      simp only
      ring
    have hstep := half_step N K R (allWgts d s) (resid m d s p) lam dx hsol'
    have hchi' : chiTotal m d s p' = chiTotal m d s p
        - (3 / 4 * ∑ i ∈ range N, allWgts d s i * (∑ a ∈ range K, R i a * dx a) ^ 2
          + lam * ∑ a ∈ range K, (∑ i ∈ range N, allWgts d s i * R i a ^ 2) * dx a ^ 2) := by
      rw [chi_resid m d s p', chi_resid m d s p]
      simp only [hres]
      exact hstep
    set G := ∑ i ∈ range N, allWgts d s i * (∑ a ∈ range K, R i a * dx a) ^ 2 with hG
    set D := ∑ a ∈ range K, (∑ i ∈ range N, allWgts d s i * R i a ^ 2) * dx a ^ 2 with hD
    have hG0 : 0 ≤ G := sum_nonneg fun i hi => mul_nonneg (hw i (mem_range.1 hi)) (sq_nonneg _)
    have hD0 : 0 ≤ D := sum_nonneg fun a _ => mul_nonneg
      (sum_nonneg fun i hi => mul_nonneg (hw i (mem_range.1 hi)) (sq_nonneg _)) (sq_nonneg _)
    have hlD : 0 ≤ lam * D := mul_nonneg hl hD0
    by_cases hz : chisq (ofLin m) d p' ≤ 0
    · right
      have hce : chiExtra S.m S.d S.s p' = none := by
        unfold chiExtra
        exact if_pos hz
      rw [hce]
      exact ⟨_, rfl, Or.inr ⟨rfl, p', i1, hz⟩⟩
    · left
      have hce : chiExtra S.m S.d S.s p' = some (chiTotal m d s p') := by
        have : chiExtra S.m S.d S.s p' = some (total (ofLin m) d s p') := by
          unfold chiExtra
          exact if_neg hz
        rw [this, total_lin]
      rw [hce]
      simp only
      rw [if_pos (by rw [hchi']; linarith)]
      refine ⟨_, rfl, rfl, rfl, rfl, i1, by rw [hchi']; linarith, ?_⟩
      intro κ hκ hc q hq
      have h1 := step_gain N K R (allWgts d s) (resid m d s p) lam hw hl κ hκ dx
        (fun a => q (idx a) - p (idx a)) hsol' (cancels_index m d s keep κ hc _ hq)
      have h2 : ∀ i, resid m d s q i = resid m d s p i - ∑ a ∈ range K, R i a * (q (idx a) - p (idx a)) := by
        intro i
        rw [resid_change m d s p q i, sum_free m keep (fun k => effect m d s i k) _ hq]
      have h3 : ∑ i ∈ range N, (resid m d s p i - ∑ a ∈ range K, R i a * (q (idx a) - p (idx a))) ^ 2
          * allWgts d s i = chiTotal m d s q := by
        rw [chi_resid m d s q]
        simp only [h2]
        rfl
      rw [h3, ← chi_resid m d s p] at h1
      refine le_trans h1 ?_
      have hu : 0 ≤ 1 + lam * κ := by positivity
      rw [hchi']
      have : G + lam * D ≤ 4 / 3 * (3 / 4 * G + lam * D) := by linarith
      calc (1 + lam * κ) * (G + lam * D) ≤ (1 + lam * κ) * (4 / 3 * (3 / 4 * G + lam * D)) :=
            mul_le_mul_of_nonneg_left this hu
        _ = 4 / 3 * (1 + lam * κ) * (chiTotal m d s p - (chiTotal m d s p - (3 / 4 * G + lam * D))) := by ring

/-! ## The loop -/

theorem Change.add {m : Lin X} {keep : List (ℤ × ℝ)} {p q r : ℕ → ℝ} (h1 : Change m keep fun k => q k - p k)
    (h2 : Change m keep fun k => r k - q k) : Change m keep fun k => r k - p k := by
  intro k hk hm
  have e1 : q k - p k = 0 := h1 k hk hm
  have e2 : r k - q k = 0 := h2 k hk hm
  show r k - p k = 0
  linarith

theorem Change.neg {m : Lin X} {keep : List (ℤ × ℝ)} {p q : ℕ → ℝ} (h1 : Change m keep fun k => q k - p k) :
    Change m keep fun k => p k - q k := by
  intro k hk hm
  have e1 : q k - p k = 0 := h1 k hk hm
  show p k - q k = 0
  linarith

theorem lamda_next (lam : ℝ) (h : 0 ≤ lam ∧ lam ≤ 0.001) :
    0 ≤ (if 1e-100 < lam then lam * 0.1 else lam) ∧ (if 1e-100 < lam then lam * 0.1 else lam) ≤ 0.001 := by
  obtain ⟨h1, h2⟩ := h
  split_ifs
  · constructor
    · positivity
    · linarith
  · exact ⟨h1, h2⟩

section Loop

variable (solve : ℕ → (ℕ → ℕ → ℝ) → (ℕ → ℝ) → Option (ℕ → ℝ)) (hsolve : SolveSpec solve)
  (m : Lin X) (d : Data X) (s : Fitter) (hd : d.Good) (hnw : ∀ i < s.nnorm, 0 ≤ s.normweight i)
  (keep : List (ℤ × ℝ)) (tolerance : ℝ)

include hsolve hd hnw

theorem main_linear (fuel left : ℕ) (lam : ℝ) (hl : 0 ≤ lam ∧ lam ≤ 0.001) (chi : ℝ) (p mp : ℕ → ℝ)
    (hchi : chiTotal m d s p ≤ chi) (same : Bool) (steps : List ((ℕ → ℝ) × ℝ)) (r : Done)
    (h : mainLoop ⟨solve, ofLin m, d, s, none, indexOf m.np (free keep)⟩ tolerance fuel left lam chi p mp same steps
      = .ok r) :
    Change m keep (fun k => r.params k - p k) ∧ chiTotal m d s r.params ≤ chiTotal m d s p ∧
    r.chi = chiTotal m d s r.params ∧ r.steps.length + r.left = steps.length + left ∧
    ∃ (pl : ℕ → ℝ) (cl lam' : ℝ), (0 ≤ lam' ∧ lam' ≤ 0.001) ∧ Change m keep (fun k => pl k - p k) ∧
      chiTotal m d s pl ≤ cl ∧ Descends m d s keep lam' pl r.params ∧
      cl - r.chi < (if cl < 1 then tolerance else tolerance * cl) := by
  induction fuel generalizing left lam chi p mp same steps with
  | zero => simp [mainLoop] at h
  | succ fuel ih =>
    simp only [mainLoop] at h
    by_cases h0 : left = 0
    · rw [if_pos h0] at h
      cases h
    rw [if_neg h0] at h
    obtain ⟨left, rfl⟩ := Nat.exists_eq_succ_of_ne_zero h0
    rcases trial_linear solve hsolve m d s hd hnw keep p mp chi hchi same left lam hl.1 with
      ⟨st, e, e1, e2, e3, hde⟩ | ⟨f, e, _⟩
    · rw [Nat.succ_eq_add_one, e] at h
      simp only at h
      by_cases hc : |chi - st.chi| < (if chi < 1 then tolerance else tolerance * chi)
      · rw [if_pos hc] at h
        cases h
        refine ⟨hde.1, hde.2.1, e3, ?_, p, chi, lam, hl, ?_, hchi, hde, ?_⟩
        · simp [e1]
          omega
        · intro k _ _
          exact sub_self _
        · exact lt_of_le_of_lt (le_abs_self _) hc
      · rw [if_neg hc] at h
        obtain ⟨i1, i2, i3, i4, pl, cl, lam', i5, i6, i7, i8, i9⟩ :=
          ih st.left _ (by rw [e2]; exact lamda_next lam hl) st.chi st.params st.params (le_of_eq e3.symm) true _ h
        refine ⟨hde.1.add i1, le_trans i2 hde.2.1, i3, ?_, pl, cl, lam', i5, hde.1.add i6, i7, i8, i9⟩
        rw [i4, e1]
        simp
        omega
    · rw [Nat.succ_eq_add_one, e] at h
      cases h

/-- The factor by which the excess of chi squared goes down, at least. -/
noncomputable def rate (κ : ℝ) : ℝ := 1 - 3 / (4 * (1 + 0.001 * κ))

omit hsolve hd hnw in
theorem rate_nonneg (κ : ℝ) (h : 0 ≤ κ) : 0 ≤ rate κ ∧ rate κ < 1 := by
  unfold rate
  have h1 : 0 < 4 * (1 + 0.001 * κ) := by positivity
  constructor
  · rw [sub_nonneg, div_le_one h1]
    nlinarith
  · have := div_pos (show (0 : ℝ) < 3 by norm_num) h1
    linarith

omit hsolve hd hnw in
/-- Each step brings chi squared closer to any value that can be reached. -/
theorem step_rate (lam κ : ℝ) (hl : 0 ≤ lam ∧ lam ≤ 0.001) (hκ : 0 ≤ κ) (hc : Cancels m d s keep κ) (p p' : ℕ → ℝ)
    (hde : Descends m d s keep lam p p') (q : ℕ → ℝ) (hq : Change m keep fun k => q k - p k) :
    chiTotal m d s p' - chiTotal m d s q ≤ rate κ * (chiTotal m d s p - chiTotal m d s q) := by
  have h1 := hde.2.2 κ hκ hc q hq
  have h2 := hde.2.1
  have h3 : lam * κ ≤ 0.001 * κ := mul_le_mul_of_nonneg_right hl.2 hκ
  have hu : 0 < 1 + 0.001 * κ := by positivity
  have h4 : chiTotal m d s p - chiTotal m d s q
      ≤ 4 / 3 * (1 + 0.001 * κ) * (chiTotal m d s p - chiTotal m d s p') := by
    refine le_trans h1 ?_
    apply mul_le_mul_of_nonneg_right _ (by linarith)
    linarith
  have h5 : 3 / (4 * (1 + 0.001 * κ)) * (chiTotal m d s p - chiTotal m d s q)
      ≤ chiTotal m d s p - chiTotal m d s p' := by
    have h6 : 0 ≤ 3 / (4 * (1 + 0.001 * κ)) := by positivity
    have := mul_le_mul_of_nonneg_left h4 h6
    have e : 3 / (4 * (1 + 0.001 * κ)) * (4 / 3 * (1 + 0.001 * κ) * (chiTotal m d s p - chiTotal m d s p'))
        = chiTotal m d s p - chiTotal m d s p' := by
      field_simp
    linarith
  unfold rate
  linarith

omit hsolve in
theorem chi_nonneg (p : ℕ → ℝ) : 0 ≤ chiTotal m d s p := by
  rw [chi_resid]
  exact sum_nonneg fun i hi => mul_nonneg (sq_nonneg _) (wgts_all d s hd hnw i (mem_range.1 hi))

theorem main_succeeds (hcomp : BF.LinearModels.SolveComplete solve) (hnot : Noticed m d s keep)
    (hpos : ∀ p, 0 < chiSquared m d p) (htol : 0 < tolerance) (κ : ℝ) (hκ : 0 ≤ κ) (hc : Cancels m d s keep κ)
    (n fuel left : ℕ) (hf : n < fuel) (hlt : n < left) (lam : ℝ) (hl : 0 ≤ lam ∧ lam ≤ 0.001) (B : ℝ) (p mp : ℕ → ℝ)
    (hB : ∀ q, Change m keep (fun k => q k - p k) → chiTotal m d s p - chiTotal m d s q ≤ B)
    (hn : rate κ ^ n * B < tolerance) (same : Bool) (steps : List ((ℕ → ℝ) × ℝ)) :
    ∃ r, mainLoop ⟨solve, ofLin m, d, s, none, indexOf m.np (free keep)⟩ tolerance fuel left lam
      (chiTotal m d s p) p mp same steps = .ok r ∧ r.steps.length ≤ steps.length + n + 1 := by
  induction n generalizing fuel left lam B p mp same steps with
  | zero =>
    obtain ⟨fuel, rfl⟩ := Nat.exists_eq_succ_of_ne_zero (show fuel ≠ 0 by omega)
    obtain ⟨left, rfl⟩ := Nat.exists_eq_succ_of_ne_zero (show left ≠ 0 by omega)
    simp only [mainLoop, Nat.succ_eq_add_one]
    rw [if_neg (by omega)]
    rcases trial_linear solve hsolve m d s hd hnw keep p mp _ le_rfl same left lam hl.1 with
      ⟨st, e, e1, e2, e3, hde⟩ | ⟨f, e, ⟨_, e2⟩ | ⟨_, q, _, e2⟩⟩
    · rw [e]
      simp only
      have h1 := hB st.params hde.1
      have h2 := hde.2.1
      rw [if_pos]
      · exact ⟨_, rfl, by simp⟩
      · rw [e3, abs_of_nonneg (by linarith)]
        simp only [pow_zero, one_mul] at hn
        split_ifs with hch
        · linarith
        · have : tolerance * 1 ≤ tolerance * chiTotal m d s p :=
            mul_le_mul_of_nonneg_left (not_lt.1 hch) htol.le
          linarith
    · exact absurd ⟨hcomp, hnot⟩ e2
    · exact absurd (hpos q) (not_lt.2 e2)
  | succ n ih =>
    obtain ⟨fuel, rfl⟩ := Nat.exists_eq_succ_of_ne_zero (show fuel ≠ 0 by omega)
    obtain ⟨left, rfl⟩ := Nat.exists_eq_succ_of_ne_zero (show left ≠ 0 by omega)
    simp only [mainLoop, Nat.succ_eq_add_one]
    rw [if_neg (by omega)]
    rcases trial_linear solve hsolve m d s hd hnw keep p mp _ le_rfl same left lam hl.1 with
      ⟨st, e, e1, e2, e3, hde⟩ | ⟨f, e, ⟨_, e2⟩ | ⟨_, q, _, e2⟩⟩
    · rw [e]
      simp only
      by_cases hcc : |chiTotal m d s p - st.chi|
          < (if chiTotal m d s p < 1 then tolerance else tolerance * chiTotal m d s p)
      · rw [if_pos hcc]
        refine ⟨_, rfl, ?_⟩
        simp only [List.length_append, List.length_singleton]
        omega
      · rw [if_neg hcc]
        obtain ⟨r, hr, hlen⟩ := ih fuel st.left (by omega) (by omega)
          (if 1e-100 < st.lamda then st.lamda * 0.1 else st.lamda)
          (by rw [e2]; exact lamda_next lam hl) (rate κ * B) st.params st.params (by
            intro q hq
            have hqp := hde.1.add hq
            exact le_trans (step_rate m d s keep lam κ hl hκ hc p st.params hde q hqp)
              (mul_le_mul_of_nonneg_left (hB q hqp) (rate_nonneg κ hκ).1)) (by
            rw [← mul_assoc, ← pow_succ]
            exact hn) true (steps ++ [(st.params, st.chi)])
        rw [← e3] at hr
        rw [hr]
        refine ⟨r, rfl, ?_⟩
        simp only [List.length_append, List.length_singleton] at hlen
        omega
    · exact absurd ⟨hcomp, hnot⟩ e2
    · exact absurd (hpos q) (not_lt.2 e2)

end Loop

/-! ## C136 -/

theorem prolog_free (m : Lin X) (s : Fitter) (keep : Option (List (ℤ × ℝ))) (hk : ProperKeep m.np (keep.getD []))
    (hs : keep = none → s.fitIndex = none) :
    (fitprolog m.np s keep).1 = indexOf m.np (free (keep.getD [])) := by
  rcases keep with _ | keep
  · simp only [fitprolog, hs rfl, index_all]
    congr 1
  · rw [prolog_keep m.np s keep hk]
    rfl

theorem prolog_agrees (m : Lin X) (s : Fitter) (keep : Option (List (ℤ × ℝ)))
    (hk : ProperKeep m.np (keep.getD [])) : Agrees (keep.getD []) (fitprolog m.np s keep).2.params := by
  rcases keep with _ | keep
  · intro kv hkv
    simp at hkv
  · rw [prolog_keep m.np s keep hk]
    exact store_kept m.np keep hk s.params

theorem agrees_change (m : Lin X) (keep : List (ℤ × ℝ)) (hk : ProperKeep m.np keep) (p q : ℕ → ℝ)
    (hp : Agrees keep p) (hq : Agrees keep q) : Change m keep fun k => q k - p k := by
  intro k _ hm
  have := agree_of m.np keep hk p q hp hq k (by simpa using hm)
  show q k - p k = 0
  rw [this, sub_self]

theorem prolog_same (m : Lin X) (d : Data X) (s : Fitter) (keep : Option (List (ℤ × ℝ))) :
    (fitprolog m.np s keep).2.nnorm = s.nnorm ∧ (fitprolog m.np s keep).2.normweight = s.normweight ∧
    (fitprolog m.np s keep).2.normdfdp = s.normdfdp ∧ (fitprolog m.np s keep).2.normdata = s.normdata := by
  unfold fitprolog keepFixed
  rcases keep with _ | k
  · rcases s.fitIndex with _ | fi <;> exact ⟨rfl, rfl, rfl, rfl⟩
  · exact ⟨rfl, rfl, rfl, rfl⟩

/-- Everything about the fit, in terms of the loop. -/
theorem fit_linear (solve : ℕ → (ℕ → ℕ → ℝ) → (ℕ → ℝ) → Option (ℕ → ℝ)) (hsolve : SolveSpec solve) (m : Lin X)
    (d : Data X) (hd : d.Good) (s : Fitter) (hnw : ∀ i < s.nnorm, 0 ≤ s.normweight i)
    (keep : Option (List (ℤ × ℝ))) (hk : ProperKeep m.np (keep.getD [])) (hs : keep = none → s.fitIndex = none)
    (par0 : Option (ℕ → ℝ)) (tolerance : ℝ) (maxiter : ℕ) (r : Done)
    (h : fit solve (ofLin m) d s none keep par0 tolerance maxiter = .ok r) :
    let p0 := par0.getD (fitprolog m.np s keep).2.params
    Change m (keep.getD []) (fun k => r.params k - p0 k) ∧ chiTotal m d s r.params ≤ chiTotal m d s p0 ∧
    r.chi = chiTotal m d s r.params ∧ r.steps.length + r.left = maxiter ∧
    ∃ (pl : ℕ → ℝ) (cl lam' : ℝ), (0 ≤ lam' ∧ lam' ≤ 0.001) ∧ Change m (keep.getD []) (fun k => pl k - p0 k) ∧
      chiTotal m d s pl ≤ cl ∧ Descends m d s (keep.getD []) lam' pl r.params ∧
      cl - r.chi < (if cl < 1 then tolerance else tolerance * cl) := by
  intro p0
  unfold fit fitLoop at h
  have hfi := prolog_free m s keep hk hs
  obtain ⟨g1, g2, g3, g4⟩ := prolog_same m d s keep
  simp only at h
  rcases hf : fitprolog m.np s keep with ⟨fi, s'⟩
  have hf' : fitprolog (ofLin m).np s keep = (fi, s') := hf
  rw [hf'] at h
  rw [hf] at hfi g1 g2 g3 g4
  simp only at hfi g1 g2 g3 g4 h
  have hp0 : par0.getD s'.params = p0 := by simp only [p0, hf]
  rw [hp0] at h
  obtain ⟨s'p, s'f, s'n, s'nn, s'd, s'y, s'w⟩ := s'
  simp only at g1 g2 g3 g4
  subst g1 g2 g3 g4
  have hchi : ∀ q, chiTotal m d ⟨s'p, s'f, s'n, s.nnorm, s.normdfdp, s.normdata, s.normweight⟩ q
      = chiTotal m d s q := fun q => rfl
  split at h
  · cases h
  · rename_i chi0 hc0
    have e0 := chiExtra_some _ _ _ _ _ hc0
    rw [total_lin] at e0
    rw [hfi] at h
    have := main_linear solve hsolve m d ⟨s'p, s'f, s'n, s.nnorm, s.normdfdp, s.normdata, s.normweight⟩ hd hnw
      (keep.getD []) tolerance (maxiter + 1) maxiter 0.001 ⟨by norm_num, le_rfl⟩ (chi0 + 1) p0 _
      (by rw [e0]; linarith) _ [] r h
    simp only [List.length_nil, zero_add] at this
    exact this

/-- C136: on a linear model each trial step is accepted at once: as many steps are made as iterations are used, and
chi squared does not rise above that of the start. -/
theorem C136_accepts (solve : ℕ → (ℕ → ℕ → ℝ) → (ℕ → ℝ) → Option (ℕ → ℝ)) (hsolve : SolveSpec solve) (m : Lin X)
    (d : Data X) (hd : d.Good) (s : Fitter) (hnw : ∀ i < s.nnorm, 0 ≤ s.normweight i)
    (keep : Option (List (ℤ × ℝ))) (hk : ProperKeep m.np (keep.getD [])) (hs : keep = none → s.fitIndex = none)
    (par0 : Option (ℕ → ℝ)) (tolerance : ℝ) (maxiter : ℕ) (r : Done)
    (h : fit solve (ofLin m) d s none keep par0 tolerance maxiter = .ok r) :
    r.steps.length + r.left = maxiter ∧
    chiTotal m d s r.params ≤ chiTotal m d s (par0.getD (fitprolog m.np s keep).2.params) := by
  obtain ⟨_, h2, _, h4, _⟩ := fit_linear solve hsolve m d hd s hnw keep hk hs par0 tolerance maxiter r h
  exact ⟨h4, h2⟩

/-- C136: chi squared of the result is the least there is, up to a known multiple of the tolerance. `κ` tells how much
the effects of the parameters cancel. -/
theorem C136_accurate (solve : ℕ → (ℕ → ℕ → ℝ) → (ℕ → ℝ) → Option (ℕ → ℝ)) (hsolve : SolveSpec solve) (m : Lin X)
    (d : Data X) (hd : d.Good) (s : Fitter) (hnw : ∀ i < s.nnorm, 0 ≤ s.normweight i)
    (keep : Option (List (ℤ × ℝ))) (hk : ProperKeep m.np (keep.getD [])) (hs : keep = none → s.fitIndex = none)
    (par0 : Option (ℕ → ℝ)) (hp0 : ∀ p, par0 = some p → Agrees (keep.getD []) p)
    (tolerance : ℝ) (ht : 0 < tolerance ∧ tolerance < 1) (maxiter : ℕ) (r : Done)
    (h : fit solve (ofLin m) d s none keep par0 tolerance maxiter = .ok r)
    (κ : ℝ) (hκ : 0 ≤ κ) (hc : Cancels m d s (keep.getD []) κ) (q : ℕ → ℝ) (hq : Agrees (keep.getD []) q) :
    chiTotal m d s r.params
      ≤ chiTotal m d s q
        + (1 / 3 + κ / 750) * (tolerance / (1 - tolerance) * max 1 (chiTotal m d s r.params)) := by
  obtain ⟨_, _, h3, _, pl, cl, lam, hl, h5, h6, h7, h8⟩ :=
    fit_linear solve hsolve m d hd s hnw keep hk hs par0 tolerance maxiter r h
  have hag : Agrees (keep.getD []) (par0.getD (fitprolog m.np s keep).2.params) := by
    rcases hpar : par0 with _ | p
    · exact prolog_agrees m s keep hk
    · exact hp0 p hpar
  have hqp := agrees_change m (keep.getD []) hk _ q hag hq
  have hql : Change m (keep.getD []) fun k => q k - pl k := h5.neg.add hqp
  have g1 := h7.2.2 κ hκ hc q hql
  have g2 := h7.2.1
  set c := chiTotal m d s r.params with hcdef
  set Δ := chiTotal m d s pl - c with hΔ
  have hΔ0 : 0 ≤ Δ := by linarith
  have g3 : 4 / 3 * (1 + lam * κ) * Δ ≤ 4 / 3 * (1 + 0.001 * κ) * Δ := by
    apply mul_le_mul_of_nonneg_right _ hΔ0
    have := mul_le_mul_of_nonneg_right hl.2 hκ
    linarith
  have g4 : c - chiTotal m d s q ≤ (1 / 3 + κ / 750) * Δ := by
    have : (1 / 3 + κ / 750) * Δ = 4 / 3 * (1 + 0.001 * κ) * Δ - Δ := by ring
    linarith
  have h1t : 0 < 1 - tolerance := by linarith [ht.2]
  have hM : 1 ≤ max 1 c := le_max_left _ _
  have g5 : Δ ≤ tolerance / (1 - tolerance) * max 1 c := by
    have hstep : Δ < (if cl < 1 then tolerance else tolerance * cl) := by
      rw [h3] at h8
      linarith
    split_ifs at hstep h8 with hcl
    · have : tolerance ≤ tolerance / (1 - tolerance) := by
        rw [le_div_iff₀ h1t]
        nlinarith [ht.1]
      have h9 : tolerance / (1 - tolerance) * 1 ≤ tolerance / (1 - tolerance) * max 1 c :=
        mul_le_mul_of_nonneg_left hM (div_nonneg ht.1.le h1t.le)
      linarith
    · have h9 : cl * (1 - tolerance) ≤ max 1 c := by
        have := le_max_right 1 c
        rw [h3] at h8
        nlinarith
      have h10 : cl ≤ max 1 c / (1 - tolerance) := by
        rw [le_div_iff₀ h1t]
        exact h9
      have h11 := mul_le_mul_of_nonneg_left h10 ht.1.le
      have : tolerance / (1 - tolerance) * max 1 c = tolerance * (max 1 c / (1 - tolerance)) := by ring
      linarith
  have := mul_le_mul_of_nonneg_left g5 (show 0 ≤ 1 / 3 + κ / 750 by positivity)
  linarith

/-- C136: and the result is close to the least squares solution `q`, as far as the data can tell: the weighted squares
of the differences in all data are bounded by twice that. -/
theorem C136_parameters (solve : ℕ → (ℕ → ℕ → ℝ) → (ℕ → ℝ) → Option (ℕ → ℝ)) (hsolve : SolveSpec solve) (m : Lin X)
    (d : Data X) (hd : d.Good) (s : Fitter) (hnw : ∀ i < s.nnorm, 0 ≤ s.normweight i)
    (keep : Option (List (ℤ × ℝ))) (hk : ProperKeep m.np (keep.getD [])) (hs : keep = none → s.fitIndex = none)
    (par0 : Option (ℕ → ℝ)) (hp0 : ∀ p, par0 = some p → Agrees (keep.getD []) p)
    (tolerance : ℝ) (ht : 0 < tolerance ∧ tolerance < 1) (maxiter : ℕ) (r : Done)
    (h : fit solve (ofLin m) d s none keep par0 tolerance maxiter = .ok r)
    (κ : ℝ) (hκ : 0 ≤ κ) (hc : Cancels m d s (keep.getD []) κ) (q : ℕ → ℝ) (hq : Agrees (keep.getD []) q)
    (hmin : ∀ q', Agrees (keep.getD []) q' → chiTotal m d s q ≤ chiTotal m d s q') :
    ∑ i ∈ range (d.n + s.nnorm), allWgts d s i * (∑ k ∈ range m.np, effect m d s i k * (r.params k - q k)) ^ 2
      ≤ 2 * ((1 / 3 + κ / 750) * (tolerance / (1 - tolerance) * max 1 (chiTotal m d s r.params))) := by
  have h1 := C136_accurate solve hsolve m d hd s hnw keep hk hs par0 hp0 tolerance ht maxiter r h κ hκ hc q hq
  obtain ⟨hch, _⟩ := fit_linear solve hsolve m d hd s hnw keep hk hs par0 tolerance maxiter r h
  have hag : Agrees (keep.getD []) (par0.getD (fitprolog m.np s keep).2.params) := by
    rcases hpar : par0 with _ | p
    · exact prolog_agrees m s keep hk
    · exact hp0 p hpar
  have hr : Agrees (keep.getD []) r.params := by
    intro kv hkv
    have hb := hk.2 kv hkv
    have e : r.params kv.1.toNat - _ = 0 := hch kv.1.toNat (by omega) (by
      rw [Int.toNat_of_nonneg hb.1]
      exact List.mem_map_of_mem hkv)
    have := hag kv hkv
    linarith
  set mid : ℕ → ℝ := fun k => (r.params k + q k) / 2 with hmid
  have hm := hmin mid (by
    intro kv hkv
    have e1 := hr kv hkv
    have e2 := hq kv hkv
    show (r.params _ + q _) / 2 = kv.2
    rw [e1, e2]
    ring)
  set E : ℕ → ℝ := fun i => ∑ k ∈ range m.np, effect m d s i k * (r.params k - q k) with hE
  have hr' : ∀ i, resid m d s r.params i = resid m d s q i - E i := fun i => resid_change m d s q r.params i
  have hm' : ∀ i, resid m d s mid i = resid m d s q i - E i / 2 := by
    intro i
    rw [resid_change m d s q mid i, hE]
    simp only
    rw [sum_div]
    congr 1
    apply sum_congr rfl
    intro k _
    rw [hmid]
    ring
  have hpar : chiTotal m d s mid = (chiTotal m d s r.params + chiTotal m d s q) / 2
      - 1 / 4 * ∑ i ∈ range (d.n + s.nnorm), allWgts d s i * E i ^ 2 := by
    rw [chi_resid m d s mid, chi_resid m d s r.params, chi_resid m d s q, ← sum_add_distrib, sum_div, mul_sum,
      ← sum_sub_distrib]
    apply sum_congr rfl
    intro i _
    rw [hm', hr']
    ring
  show ∑ i ∈ range (d.n + s.nnorm), allWgts d s i * E i ^ 2 ≤ _
  linarith

/-- C136: the fit succeeds. When all fitted parameters matter to the data, and chi squared is nowhere 0 (then the
fitter raises an error), it converges in the number of iterations it takes to bring chi squared of the start below
the tolerance, by a factor that is about 4 per iteration for independent parameters. -/
theorem C136_succeeds (solve : ℕ → (ℕ → ℕ → ℝ) → (ℕ → ℝ) → Option (ℕ → ℝ)) (hsolve : SolveSpec solve)
    (hcomp : BF.LinearModels.SolveComplete solve) (m : Lin X)
    (d : Data X) (hd : d.Good) (s : Fitter) (hnw : ∀ i < s.nnorm, 0 ≤ s.normweight i)
    (keep : Option (List (ℤ × ℝ))) (hk : ProperKeep m.np (keep.getD [])) (hs : keep = none → s.fitIndex = none)
    (par0 : Option (ℕ → ℝ)) (tolerance : ℝ) (ht : 0 < tolerance) (hnot : Noticed m d s (keep.getD []))
    (hpos : ∀ p, 0 < chiSquared m d p) (κ : ℝ) (hκ : 0 ≤ κ) (hc : Cancels m d s (keep.getD []) κ) (N : ℕ)
    (hN : (1 - 3 / (4 * (1 + 0.001 * κ))) ^ N * chiTotal m d s (par0.getD (fitprolog m.np s keep).2.params)
      < tolerance) (maxiter : ℕ) (hmax : N + 2 ≤ maxiter) :
    ∃ r, fit solve (ofLin m) d s none keep par0 tolerance maxiter = .ok r ∧ r.steps.length ≤ N + 2 := by
  unfold fit fitLoop
  have hfi := prolog_free m s keep hk hs
  obtain ⟨g1, g2, g3, g4⟩ := prolog_same m d s keep
  simp only
  rcases hf : fitprolog m.np s keep with ⟨fi, s'⟩
  have hf' : fitprolog (ofLin m).np s keep = (fi, s') := hf
  rw [hf']
  rw [hf] at hfi g1 g2 g3 g4 hN
  simp only at hfi g1 g2 g3 g4 hN ⊢
  obtain ⟨s'p, s'f, s'n, s'nn, s'd, s'y, s'w⟩ := s'
  simp only at g1 g2 g3 g4 hN ⊢
  subst g1 g2 g3 g4
  set s2 : Fitter := ⟨s'p, s'f, s'n, s.nnorm, s.normdfdp, s.normdata, s.normweight⟩ with hs2
  have hchi : ∀ q, chiTotal m d s q = chiTotal m d s2 q := fun q => rfl
  have hnot' : Noticed m d s2 (keep.getD []) := hnot
  have hc' : Cancels m d s2 (keep.getD []) κ := hc
  have hnw' : ∀ i < s2.nnorm, 0 ≤ s2.normweight i := hnw
  set p0 := par0.getD s'p with hp0
  rw [hchi] at hN
  have hce : chiExtra (ofLin m) d s2 p0 = some (chiTotal m d s2 p0) := by
    have : chiExtra (ofLin m) d s2 p0 = some (total (ofLin m) d s2 p0) := by
      unfold chiExtra
      exact if_neg (not_le.2 (hpos p0))
    rw [this, total_lin]
  rw [hce]
  simp only
  rw [hfi]
  obtain ⟨left, rfl⟩ := Nat.exists_eq_add_of_le hmax
  simp only [mainLoop]
  rw [if_neg (by omega)]
  have hleft : N + 2 + left = N + 1 + left + 1 := by omega
  rw [hleft]
  rcases trial_linear solve hsolve m d s2 hd hnw' (keep.getD []) p0 s'p (chiTotal m d s2 p0 + 1) (by linarith)
      par0.isNone (N + 1 + left) 0.001 (by norm_num) with
    ⟨st, e, e1, e2, e3, hde⟩ | ⟨f, e, ⟨_, e2⟩ | ⟨_, q, _, e2⟩⟩
  · rw [e]
    simp only [List.nil_append]
    by_cases hcc : |chiTotal m d s2 p0 + 1 - st.chi|
        < (if chiTotal m d s2 p0 + 1 < 1 then tolerance else tolerance * (chiTotal m d s2 p0 + 1))
    · rw [if_pos hcc]
      exact ⟨_, rfl, by simp⟩
    · rw [if_neg hcc, e3]
      obtain ⟨r, hr, hlen⟩ := main_succeeds solve hsolve m d s2 hd hnw' (keep.getD []) tolerance hcomp hnot' hpos ht
        κ hκ hc' N (N + 1 + left + 1) st.left (by omega) (by omega)
        (if 1e-100 < st.lamda then st.lamda * 0.1 else st.lamda)
        (by rw [e2]; exact lamda_next 0.001 ⟨by norm_num, le_rfl⟩) (chiTotal m d s2 p0) st.params st.params (by
          intro q _
          have := chi_nonneg m d s2 hd hnw' q
          have := hde.2.1
          linarith) hN true [(st.params, chiTotal m d s2 st.params)]
      refine ⟨r, hr, ?_⟩
      simp only [List.length_singleton] at hlen
      omega
  · exact absurd ⟨hcomp, hnot'⟩ e2
  · exact absurd (hpos q) (not_lt.2 e2)

/-! ### There always is a bound on the cancellation -/

/-- A function of the parameters from a vector. -/
noncomputable def extend (n : ℕ) (v : Fin n → ℝ) (k : ℕ) : ℝ := if h : k < n then v ⟨k, h⟩ else 0

theorem extend_continuous (n k : ℕ) : Continuous fun v : Fin n → ℝ => extend n v k := by
  unfold extend
  by_cases h : k < n
  · simp only [dif_pos h]
    exact continuous_apply _
  · simp only [dif_neg h]
    exact continuous_const

/-- C136: when all fitted parameters matter to the data, there is a bound on how much their effects cancel. -/
theorem C136_cancels (m : Lin X) (d : Data X) (hd : d.Good) (s : Fitter)
    (hnw : ∀ i < s.nnorm, 0 ≤ s.normweight i) (keep : List (ℤ × ℝ)) (hnot : Noticed m d s keep) :
    ∃ κ, 0 ≤ κ ∧ Cancels m d s keep κ := by
  have hw := wgts_all d s hd hnw
  set f : (ℕ → ℝ) → ℝ := fun δ =>
    ∑ i ∈ range (d.n + s.nnorm), allWgts d s i * (∑ k ∈ range m.np, effect m d s i k * δ k) ^ 2 with hf
  set g : (ℕ → ℝ) → ℝ := fun δ =>
    ∑ i ∈ range (d.n + s.nnorm), allWgts d s i * ∑ k ∈ range m.np, (effect m d s i k * δ k) ^ 2 with hg
  have hf0 : ∀ δ, 0 ≤ f δ := fun δ => sum_nonneg fun i hi => mul_nonneg (hw i (mem_range.1 hi)) (sq_nonneg _)
  have hg0 : ∀ δ, 0 ≤ g δ := fun δ => sum_nonneg fun i hi => mul_nonneg (hw i (mem_range.1 hi))
    (sum_nonneg fun _ _ => sq_nonneg _)
  have hfc : Continuous fun v : Fin m.np → ℝ => f (extend m.np v) :=
    continuous_finset_sum _ fun i _ => continuous_const.mul
      ((continuous_finset_sum _ fun k _ => continuous_const.mul (extend_continuous _ k)).pow 2)
  have hgc : Continuous fun v : Fin m.np → ℝ => g (extend m.np v) :=
    continuous_finset_sum _ fun i _ => continuous_const.mul
      (continuous_finset_sum _ fun k _ => (continuous_const.mul (extend_continuous _ k)).pow 2)
  set T : Set (Fin m.np → ℝ) := Metric.sphere 0 1 ∩ {v | Change m keep (extend m.np v)} with hT
  have hclosed : IsClosed {v : Fin m.np → ℝ | Change m keep (extend m.np v)} := by
    have : {v : Fin m.np → ℝ | Change m keep (extend m.np v)}
        = ⋂ k : ℕ, ⋂ _ : k < m.np, ⋂ _ : (k : ℤ) ∈ keep.map Prod.fst, {v | extend m.np v k = 0} := by
      ext v
      simp [Change]
    rw [this]
    exact isClosed_iInter fun k => isClosed_iInter fun _ => isClosed_iInter fun _ =>
      isClosed_eq (extend_continuous _ k) continuous_const
  have hcomp : IsCompact T := (isCompact_sphere _ _).inter_right hclosed
  -- from a change of the parameters to a vector of length 1
  have key : ∀ δ, Change m keep δ → (∀ k < m.np, δ k = 0) ∨ ∃ (t : ℝ) (v : Fin m.np → ℝ), v ∈ T ∧
      ∀ k < m.np, δ k = t * extend m.np v k := by
    intro δ hδ
    set u : Fin m.np → ℝ := fun k => δ k with hu
    by_cases h0 : u = 0
    · left
      intro k hk
      exact congrFun h0 ⟨k, hk⟩
    · right
      have hn : ‖u‖ ≠ 0 := norm_ne_zero_iff.2 h0
      have hv : ∀ k < m.np, extend m.np (‖u‖⁻¹ • u) k = ‖u‖⁻¹ * δ k := by
        intro k hk
        unfold extend
        rw [dif_pos hk]
        rfl
      refine ⟨‖u‖, ‖u‖⁻¹ • u, ⟨?_, ?_⟩, ?_⟩
      · rw [mem_sphere_zero_iff_norm, norm_smul, norm_inv, norm_norm, inv_mul_cancel₀ hn]
      · intro k hk hm
        rw [hv k hk, hδ k hk hm, mul_zero]
      · intro k hk
        rw [hv k hk, ← mul_assoc, mul_inv_cancel₀ hn, one_mul]
  have hfs : ∀ (δ η : ℕ → ℝ) (t : ℝ), (∀ k < m.np, δ k = t * η k) → f δ = t ^ 2 * f η := by
    intro δ η t h
    rw [hf]
    simp only
    rw [mul_sum]
    apply sum_congr rfl
    intro i _
    have : ∑ k ∈ range m.np, effect m d s i k * δ k = t * ∑ k ∈ range m.np, effect m d s i k * η k := by
      rw [mul_sum]
      apply sum_congr rfl
      intro k hk
      rw [h k (mem_range.1 hk)]
      ring
    rw [this]
    ring
  have hgs : ∀ (δ η : ℕ → ℝ) (t : ℝ), (∀ k < m.np, δ k = t * η k) → g δ = t ^ 2 * g η := by
    intro δ η t h
    rw [hg]
    simp only
    rw [mul_sum]
    apply sum_congr rfl
    intro i _
    have : ∑ k ∈ range m.np, (effect m d s i k * δ k) ^ 2
        = t ^ 2 * ∑ k ∈ range m.np, (effect m d s i k * η k) ^ 2 := by
      rw [mul_sum]
      apply sum_congr rfl
      intro k hk
      rw [h k (mem_range.1 hk)]
      ring
    rw [this]
    ring
  rcases T.eq_empty_or_nonempty with hemp | hne
  · refine ⟨0, le_rfl, ?_⟩
    intro δ hδ
    rcases key δ hδ with h0 | ⟨t, v, hv, _⟩
    · have := hgs δ (fun _ => 0) 0 (by simpa using h0)
      have e : g δ = 0 := by rw [this]; ring
      show g δ ≤ 0 * f δ
      rw [e, zero_mul]
    · rw [hemp] at hv
      exact absurd hv (Set.notMem_empty v)
  · obtain ⟨v1, hv1, hmin⟩ := hcomp.exists_isMinOn hne hfc.continuousOn
    obtain ⟨v2, hv2, hmax⟩ := hcomp.exists_isMaxOn hne hgc.continuousOn
    have hcpos : 0 < f (extend m.np v1) := by
      rcases lt_or_eq_of_le (hf0 (extend m.np v1)) with h | h
      · exact h
      · exfalso
        have hz := (sum_eq_zero_iff_of_nonneg (s := range (d.n + s.nnorm)) (fun i hi =>
          mul_nonneg (hw i (mem_range.1 hi)) (sq_nonneg _))).1 h.symm
        have hall := hnot (extend m.np v1) hv1.2 (by
          intro i hi hwi
          rcases mul_eq_zero.1 (hz i (mem_range.2 hi)) with h | h
          · exact absurd h hwi
          · exact pow_eq_zero_iff (two_ne_zero) |>.1 h)
        have : v1 = 0 := by
          funext k
          have := hall k.1 k.2
          unfold extend at this
          rw [dif_pos k.2] at this
          exact this
        have hnorm := mem_sphere_zero_iff_norm.1 hv1.1
        rw [this, norm_zero] at hnorm
        exact zero_ne_one hnorm
    refine ⟨g (extend m.np v2) / f (extend m.np v1), div_nonneg (hg0 _) hcpos.le, ?_⟩
    intro δ hδ
    show g δ ≤ g (extend m.np v2) / f (extend m.np v1) * f δ
    rcases key δ hδ with h0 | ⟨t, v, hv, hδv⟩
    · have e1 : g δ = 0 := by
        rw [hgs δ (fun _ => 0) 0 (by simpa using h0)]
        ring
      rw [e1]
      exact mul_nonneg (div_nonneg (hg0 _) hcpos.le) (hf0 _)
    · rw [hfs δ _ t hδv, hgs δ _ t hδv]
      have a1 : f (extend m.np v1) ≤ f (extend m.np v) := hmin hv
      have a2 : g (extend m.np v) ≤ g (extend m.np v2) := hmax hv
      have a3 : g (extend m.np v2) ≤ g (extend m.np v2) / f (extend m.np v1) * f (extend m.np v) := by
        rw [div_mul_eq_mul_div, le_div_iff₀ hcpos]
        exact mul_le_mul_of_nonneg_left a1 (hg0 _)
      have := mul_le_mul_of_nonneg_left (le_trans a2 a3) (sq_nonneg t)
      linarith

/-- C136: so with enough iterations the fit always succeeds. -/
theorem C136_converges (solve : ℕ → (ℕ → ℕ → ℝ) → (ℕ → ℝ) → Option (ℕ → ℝ)) (hsolve : SolveSpec solve)
    (hcomp : BF.LinearModels.SolveComplete solve) (m : Lin X)
    (d : Data X) (hd : d.Good) (s : Fitter) (hnw : ∀ i < s.nnorm, 0 ≤ s.normweight i)
    (keep : Option (List (ℤ × ℝ))) (hk : ProperKeep m.np (keep.getD [])) (hs : keep = none → s.fitIndex = none)
    (par0 : Option (ℕ → ℝ)) (tolerance : ℝ) (ht : 0 < tolerance) (hnot : Noticed m d s (keep.getD []))
    (hpos : ∀ p, 0 < chiSquared m d p) :
    ∃ n, ∀ maxiter ≥ n, ∃ r, fit solve (ofLin m) d s none keep par0 tolerance maxiter = .ok r := by
  obtain ⟨κ, hκ, hc⟩ := C136_cancels m d hd s hnw (keep.getD []) hnot
  set c0 := chiTotal m d s (par0.getD (fitprolog m.np s keep).2.params) with hc0
  have hc00 : 0 ≤ c0 := chi_nonneg m d s hd hnw _
  obtain ⟨r0, r1⟩ := rate_nonneg κ hκ
  obtain ⟨N, hN⟩ := exists_pow_lt_of_lt_one (show 0 < tolerance / (c0 + 1) by positivity) r1
  refine ⟨N + 2, fun maxiter hmax => ?_⟩
  have h1 : rate κ ^ N * c0 < tolerance := by
    rw [lt_div_iff₀ (by linarith)] at hN
    have : 0 ≤ rate κ ^ N := pow_nonneg r0 N
    nlinarith
  obtain ⟨r, hr, _⟩ := C136_succeeds solve hsolve hcomp m d hd s hnw keep hk hs par0 tolerance ht hnot hpos κ hκ hc N
    h1 maxiter hmax
  exact ⟨r, hr⟩

/-- A straight line through three points that are not on a line: all hypotheses hold, so the fit converges from any
start. -/
example (p0 : ℕ → ℝ) : ∃ solve, SolveSpec solve ∧ ∃ n, ∀ maxiter ≥ n, ∃ r,
    fit solve (ofLin (⟨2, fun _ => 0, fun x k => x ^ k⟩ : Lin ℝ))
      ⟨3, fun i => i, fun i => if i = 1 then 1 else 0, none, none⟩ (initFitter 2 p0 none) none none none 0.0001 maxiter
      = .ok r := by
  obtain ⟨solve, h1, _, h3⟩ := BF.LinearModels.solve_exists
  refine ⟨solve, h1, ?_⟩
  apply C136_converges solve h1 h3
  · intro w hw
    cases hw
  · intro i hi
    simp [initFitter, keepFixed] at hi
  · exact ⟨by simp, by simp⟩
  · intro _
    rfl
  · norm_num
  · intro δ _ h k hk
    have hw : ∀ i < 3, allWgts (⟨3, fun i => (i : ℝ), fun i => if i = 1 then 1 else 0, none, none⟩ : Data ℝ)
        (initFitter 2 p0 none) i = 1 := by
      intro i hi
      simp [allWgts, hi, Data.fitWgts]
    have a0 := h 0 (by show 0 < 3 + _; omega) (by rw [hw 0 (by norm_num)]; norm_num)
    have a1 := h 1 (by show 1 < 3 + _; omega) (by rw [hw 1 (by norm_num)]; norm_num)
    simp [effect, sum_range_succ] at a0 a1
    have hk : k < 2 := hk
    rcases (show k = 0 ∨ k = 1 by omega) with rfl | rfl
    · exact a0
    · linarith
  · intro p
    simp only [chiSquared, Lin.result, sum_range_succ, range_zero, sum_empty, Data.fitWgts]
    norm_num
    by_cases ha : p 0 = 0
    · by_cases hb : p 1 = 0
      · rw [ha, hb]
        norm_num
      · rw [ha]
        have := mul_self_pos.2 hb
        nlinarith [sq_nonneg (1 - p 1), sq_nonneg (p 1 * 2)]
    · have := mul_self_pos.2 ha
      nlinarith [sq_nonneg (1 - (p 0 + p 1)), sq_nonneg (p 0 + p 1 * 2)]

end BF.LM
