import Verif.BSplines
import Verif.Props.Cox
import Verif.Props.Poly

/-!
# C80: B-splines
-/

namespace BF.BSplines

open BF.Poly BF.Cox Finset

/-- Knots that can be used: at least two, increasing. -/
def Good (m : Spec) : Prop := 2 ≤ m.knots.length ∧ m.knots.Pairwise (· < ·)

/-- A knot. -/
noncomputable def Spec.knot (m : Spec) (j : ℕ) : ℝ := m.knots.getD j 0

/-- The augmented knots, without end. -/
noncomputable def aug (m : Spec) (i : ℕ) : ℝ := m.knot (min (i - m.order) (m.knots.length - 1))

/-- The last interval. -/
def lastInt (m : Spec) : ℕ := m.knots.length + m.order - 2

theorem head_eq (l : List ℝ) : l.headD 0 = l.getD 0 0 := by cases l <;> rfl

theorem last_eq (l : List ℝ) : l.getLastD 0 = l.getD (l.length - 1) 0 := by
  rw [List.getLastD_eq_getLast?, List.getLast?_eq_getElem?, List.getD_eq_getElem?_getD]

theorem knot_lt {m : Spec} (hm : Good m) {i j : ℕ} (hij : i < j) (hj : j < m.knots.length) : m.knot i < m.knot j := by
  have := List.pairwise_iff_getElem.1 hm.2 i j (by omega) hj hij
  rwa [Spec.knot, Spec.knot, List.getD_eq_getElem?_getD, List.getD_eq_getElem?_getD,
    List.getElem?_eq_getElem (show i < m.knots.length by omega), List.getElem?_eq_getElem hj]

theorem knot_le {m : Spec} (hm : Good m) {i j : ℕ} (hij : i ≤ j) (hj : j < m.knots.length) : m.knot i ≤ m.knot j := by
  rcases hij.eq_or_lt with rfl | h
  · exact le_rfl
  · exact (knot_lt hm h hj).le

theorem aug_length (m : Spec) : (augknt m.knots m.order).length = m.knots.length + 2 * m.order := by
  simp [augknt]
  ring

theorem aug_get (m : Spec) (hm : Good m) (i : ℕ) (hi : i < m.knots.length + 2 * m.order) :
    (augknt m.knots m.order).getD i 0 = aug m i := by
  have h2 := hm.1
  rw [augknt, List.getD_eq_getElem?_getD, List.append_assoc, List.getElem?_append]
  simp only [List.length_replicate]
  split_ifs with h
  · rw [List.getElem?_replicate, if_pos h, Option.getD_some, head_eq, aug, Spec.knot, show min (i - m.order) (m.knots.length - 1) = 0 by omega]
  · rw [List.getElem?_append]
    split_ifs with h3
    · rw [aug, Spec.knot, show min (i - m.order) (m.knots.length - 1) = i - m.order by omega, List.getD_eq_getElem?_getD]
    · rw [List.getElem?_replicate, if_pos (by omega), Option.getD_some, last_eq, aug, Spec.knot,
        show min (i - m.order) (m.knots.length - 1) = m.knots.length - 1 by omega]

theorem aug_knots (m : Spec) (hm : Good m) : Knots (aug m) (lastInt m) where
  mono := by
    intro i j hij
    have h2 := hm.1
    exact knot_le hm (by omega) (by omega)
  lt := by
    have h2 := hm.1
    unfold lastInt
    exact knot_lt hm (by omega) (by omega)
  stop := by
    intro i hi
    have h2 := hm.1
    unfold lastInt at *
    unfold aug
    congr 1
    omega

theorem aug_first (m : Spec) (hm : Good m) (i : ℕ) : aug m i = aug m 0 ↔ i ≤ m.order := by
  have h2 := hm.1
  constructor
  · intro h
    by_contra hcon
    have : aug m 0 < aug m i := knot_lt hm (by omega) (by omega)
    exact this.ne' h
  · intro h
    unfold aug
    congr 1
    omega

theorem aug_zero (m : Spec) : aug m 0 = m.knot 0 := by
  simp [aug]

theorem aug_last (m : Spec) (hm : Good m) : aug m (lastInt m + 1) = m.knot (m.knots.length - 1) := by
  have h2 := hm.1
  unfold aug lastInt
  congr 1
  omega

/-! ## The basis is that of Cox and de Boor -/

theorem basis_length (b : Bspline) (x : ℝ) (p : ℕ) : (b.basis x p).length = b.knots.length - 1 - p := by
  cases p <;> simp [Bspline.basis, Bspline.basis0]

theorem getD_map (n : ℕ) (f : ℕ → ℝ) (i : ℕ) (hi : i < n) : ((List.range n).map f).getD i 0 = f i := by
  rw [List.getD_eq_getElem?_getD, List.getElem?_map, List.getElem?_range hi]
  rfl

theorem basis_eq (b : Bspline) (x : ℝ) (T B : ℕ → ℝ) (hT : ∀ i, i < b.knots.length → b.t i = T i)
    (hB : ∀ i, i < b.knots.length - 1 → (b.basis0 x).getD i 0 = B i) (p i : ℕ) (hi : i < b.knots.length - 1 - p) :
    (b.basis x p).getD i 0 = cox T B x p i := by
  induction p generalizing i with
  | zero => exact hB i (by omega)
  | succ p ih =>
    rw [Bspline.basis]
    rw [getD_map _ _ i hi, ih i (by omega), ih (i + 1) (by omega), cox, Bspline.first, Bspline.second,
      hT i (by omega), hT (i + 1) (by omega), hT (i + p + 1) (by omega), hT (i + p + 2) (by omega)]
    congr 1
    · split_ifs with h
      · rfl
      · rw [not_not.1 h, div_zero]
    · split_ifs with h
      · rfl
      · rw [not_not.1 h, div_zero]

theorem cox_shift (T B : ℕ → ℝ) (x : ℝ) (p i : ℕ) :
    cox (fun k => T (k + 1)) (fun k => B (k + 1)) x p i = cox T B x p (i + 1) := by
  induction p generalizing i with
  | zero => rfl
  | succ p ih =>
    rw [cox, cox, ih, ih]
    simp only [show i + p + 1 + 1 = i + 1 + p + 1 by ring, show i + p + 2 + 1 = i + 1 + p + 2 by ring]

theorem basis0_eq (m : Spec) (hm : Good m) (x : ℝ) (i : ℕ) (hi : i < m.bspline.knots.length - 1) :
    (m.bspline.basis0 x).getD i 0 = zeroth (aug m) (lastInt m) x i := by
  have h2 := hm.1
  have hl : m.bspline.knots.length = m.knots.length + 2 * m.order := aug_length m
  have ht : ∀ i, i < m.bspline.knots.length → m.bspline.t i = aug m i := fun i h => aug_get m hm i (by omega)
  rw [Bspline.basis0, getD_map _ _ i hi, zeroth, ht i (by omega), ht (i + 1) (by omega)]
  congr 1
  rw [eq_iff_iff, Bspline.lastKnot, ht (i + 1) (by omega), ht 0 (by omega)]
  have hidx : i + 1 = m.bspline.knots.length - m.bspline.order - 1 ↔ i = lastInt m := by
    show i + 1 = m.bspline.knots.length - m.order - 1 ↔ _
    unfold lastInt
    omega
  simp only [hidx]
  constructor
  · rintro ⟨h1, h3 | ⟨-, h3⟩⟩
    · exact ⟨h1, Or.inl h3⟩
    · by_cases h4 : i = lastInt m
      · rw [if_pos h4] at h3
        exact ⟨h1, Or.inr ⟨h4, h3⟩⟩
      · rw [if_neg h4] at h3
        have := (aug_knots m hm).mono (Nat.zero_le i)
        linarith
  · rintro ⟨h1, h3 | ⟨h4, h3⟩⟩
    · exact ⟨h1, Or.inl h3⟩
    · exact ⟨h1, Or.inr ⟨rfl, by rw [if_pos h4]; exact h3⟩⟩

/-- The functions of the model. -/
noncomputable def Spec.fn (m : Spec) (x : ℝ) (i : ℕ) : ℝ := cox (aug m) (zeroth (aug m) (lastInt m) x) x m.order i

theorem call_eq (m : Spec) (hm : Good m) (x : ℝ) : m.bspline.call x = (List.range m.npar).map (m.fn x) := by
  have h2 := hm.1
  have hl : m.bspline.knots.length = m.knots.length + 2 * m.order := aug_length m
  have hlen : (m.bspline.call x).length = m.npar := by
    rw [Bspline.call, basis_length, hl]
    show _ - 1 - m.order = _
    unfold Spec.npar
    omega
  apply List.ext_getElem
  · rw [hlen]
    simp
  · intro i h1 h3
    rw [hlen] at h1
    have h4 := basis_eq m.bspline x (aug m) (zeroth (aug m) (lastInt m) x) (fun i h => aug_get m hm i (by omega))
      (fun i h => basis0_eq m hm x i h) m.order i (by rw [hl]; unfold Spec.npar at h1; omega)
    rw [List.getElem_map, List.getElem_range, Spec.fn, ← h4, List.getD_eq_getElem?_getD,
      List.getElem?_eq_getElem (by rw [basis_length, hl]; unfold Spec.npar at h1; omega)]
    rfl

theorem partials_eq (m : Spec) (hm : Good m) (x : ℝ) (h0 : m.knot 0 ≤ x) (h1 : x ≤ m.knot (m.knots.length - 1)) :
    m.partials x = some ((List.range m.npar).map (m.fn x)) := by
  rw [Spec.partials, if_neg, call_eq m hm]
  rw [head_eq, last_eq]
  rintro (h | h)
  · exact absurd h (not_lt.2 h0)
  · exact absurd h (not_lt.2 h1)

theorem result_eq (m : Spec) (hm : Good m) (x : ℝ) (h0 : m.knot 0 ≤ x) (h1 : x ≤ m.knot (m.knots.length - 1))
    (p : ℕ → ℝ) : m.result x p = some (∑ k ∈ range m.npar, p k * m.fn x k) := by
  rw [Spec.result, partials_eq m hm x h0 h1, Option.map_some, linear_range]

theorem fn_unity (m : Spec) (hm : Good m) (x : ℝ) (h0 : m.knot 0 ≤ x) (h1 : x ≤ m.knot (m.knots.length - 1)) :
    ∑ k ∈ range m.npar, m.fn x k = 1 := by
  have h2 := hm.1
  refine unity (aug_knots m hm) x ?_ ?_ m.order ((aug_first m hm m.order).2 le_rfl) m.npar ?_
  · rw [aug_zero]
    exact h0
  · rw [aug_last m hm]
    exact h1
  · unfold lastInt Spec.npar
    omega

theorem list_sum (n : ℕ) (f : ℕ → ℝ) : ((List.range n).map f).sum = ∑ k ∈ range n, f k := by
  induction n with
  | zero => rfl
  | succ n ih => rw [List.range_succ, List.map_append, List.sum_append, ih, sum_range_succ]; simp

/-! ## The properties -/

/-- C80: the domain is from the first knot to the last one; there the partials are as many as the parameters,
not negative, and their sum is 1. Elsewhere it raises. -/
theorem C80_unity (m : Spec) (hm : Good m) (x : ℝ) :
    (m.knot 0 ≤ x → x ≤ m.knot (m.knots.length - 1) →
      ∃ part, m.partials x = some part ∧ part.length = m.npar ∧ (∀ v ∈ part, 0 ≤ v) ∧ part.sum = 1) ∧
    ((x < m.knot 0 ∨ m.knot (m.knots.length - 1) < x) → m.partials x = none) := by
  refine ⟨fun h0 h1 => ⟨_, partials_eq m hm x h0 h1, by simp, ?_, ?_⟩, fun h => ?_⟩
  · intro v hv
    obtain ⟨k, -, rfl⟩ := List.mem_map.1 hv
    exact nonneg (aug_knots m hm) x m.order k
  · rw [← fn_unity m hm x h0 h1]
    exact list_sum _ _
  · rw [Spec.partials, head_eq, last_eq]
    exact if_pos h

/-- C80: the partials are the derivatives to the parameters. -/
theorem C80_partials (m : Spec) (hm : Good m) (x : ℝ) (h0 : m.knot 0 ≤ x) (h1 : x ≤ m.knot (m.knots.length - 1))
    (p : ℕ → ℝ) : ∃ part, m.partials x = some part ∧ ∀ (k : ℕ) (d : ℝ), part[k]? = some d →
      HasDerivAt (fun t => (m.result x (Function.update p k t)).getD 0) d (p k) := by
  refine ⟨_, partials_eq m hm x h0 h1, fun k d hk => ?_⟩
  simp only [Spec.result, partials_eq m hm x h0 h1, Option.map_some, Option.getD_some]
  exact (C35_linear p _ k d hk).2

/-- C80: the result is nowhere below the smallest nor above the largest of the parameters. -/
theorem C80_hull (m : Spec) (hm : Good m) (x : ℝ) (h0 : m.knot 0 ≤ x) (h1 : x ≤ m.knot (m.knots.length - 1))
    (p : ℕ → ℝ) (lo hi : ℝ) (hp : ∀ k < m.npar, lo ≤ p k ∧ p k ≤ hi) :
    ∃ v, m.result x p = some v ∧ lo ≤ v ∧ v ≤ hi := by
  refine ⟨_, result_eq m hm x h0 h1 p, ?_, ?_⟩
  · calc lo = ∑ k ∈ range m.npar, lo * m.fn x k := by rw [← mul_sum, fn_unity m hm x h0 h1, mul_one]
      _ ≤ _ := sum_le_sum fun k hk => mul_le_mul_of_nonneg_right (hp k (mem_range.1 hk)).1
        (nonneg (aug_knots m hm) x m.order k)
  · calc _ ≤ ∑ k ∈ range m.npar, hi * m.fn x k :=
        sum_le_sum fun k hk => mul_le_mul_of_nonneg_right (hp k (mem_range.1 hk)).2
          (nonneg (aug_knots m hm) x m.order k)
      _ = hi := by rw [← mul_sum, fn_unity m hm x h0 h1, mul_one]

/-- C80: a parameter has influence over `order + 1` intervals between knots at most. -/
theorem C80_local (m : Spec) (hm : Good m) (x : ℝ) (k : ℕ) (hk : k < m.npar)
    (hx : x < m.knot (k - m.order) ∨ m.knot (min (k + 1) (m.knots.length - 1)) < x) (p : ℕ → ℝ) (t : ℝ) :
    m.result x (Function.update p k t) = m.result x p := by
  have h2 := hm.1
  by_cases h : x < m.knot 0 ∨ m.knot (m.knots.length - 1) < x
  · rw [Spec.result, Spec.result, (C80_unity m hm x).2 h]
    rfl
  · push Not at h
    rw [result_eq m hm x h.1 h.2, result_eq m hm x h.1 h.2]
    congr 1
    apply sum_congr rfl
    intro j _
    by_cases hj : j = k
    · subst hj
      have : m.fn x j = 0 := by
        by_contra hcon
        obtain ⟨-, b, c, -⟩ := support (aug_knots m hm) x m.order j hcon
        rw [aug] at b c
        rcases hx with hx | hx
        · rw [show min (j - m.order) (m.knots.length - 1) = j - m.order by unfold Spec.npar at hk; omega] at b
          exact absurd b (not_le.2 hx)
        · rw [show j + m.order + 1 - m.order = j + 1 by omega] at c
          exact absurd c (not_le.2 hx)
      rw [this, mul_zero, mul_zero]
    · rw [Function.update_of_ne hj]

/-- C80: at the first knot the result is the first parameter, at the last knot the last one. -/
theorem C80_ends (m : Spec) (hm : Good m) (p : ℕ → ℝ) :
    m.result (m.knot 0) p = some (p 0) ∧ m.result (m.knot (m.knots.length - 1)) p = some (p (m.npar - 1)) := by
  have h2 := hm.1
  have hle : m.knot 0 ≤ m.knot (m.knots.length - 1) := knot_le hm (by omega) (by omega)
  have single : ∀ x, m.knot 0 ≤ x → x ≤ m.knot (m.knots.length - 1) → ∀ j < m.npar,
      (∀ i, m.fn x i ≠ 0 → i = j) → m.result x p = some (p j) := by
    intro x h0 h1 j hj h
    have hz : ∀ i ∈ range m.npar, i ≠ j → m.fn x i = 0 := by
      intro i _ hi
      by_contra hcon
      exact hi (h i hcon)
    have hu := fn_unity m hm x h0 h1
    rw [sum_eq_single_of_mem j (mem_range.2 hj) hz] at hu
    rw [result_eq m hm x h0 h1, sum_eq_single_of_mem j (mem_range.2 hj), hu, mul_one]
    intro i hi hij
    rw [hz i hi hij, mul_zero]
  constructor
  · refine single _ le_rfl hle 0 (by unfold Spec.npar; omega) fun i hi => ?_
    have := left_end (aug_knots m hm) m.order (aug_first m hm) (by unfold lastInt; omega) m.order i (by
      rw [aug_zero]
      exact hi)
    omega
  · refine single _ hle le_rfl (m.npar - 1) (by unfold Spec.npar; omega) fun i hi => ?_
    have := right_end (aug_knots m hm) m.order i (by
      rw [aug_last m hm]
      exact hi)
    rw [this]
    unfold lastInt Spec.npar
    omega

/-! ## The derivative to x -/

open Classical in
/-- The functions of order 0 of which all intervals are half open. -/
noncomputable def openZero (T : ℕ → ℝ) (x : ℝ) (i : ℕ) : ℝ := if T i ≤ x ∧ x < T (i + 1) then 1 else 0

theorem open_eq (m : Spec) (hm : Good m) (x : ℝ) (h1 : x < m.knot (m.knots.length - 1)) :
    openZero (aug m) x = zeroth (aug m) (lastInt m) x := by
  funext i
  rw [openZero, zeroth]
  congr 1
  rw [eq_iff_iff]
  constructor
  · rintro ⟨a, b⟩
    exact ⟨a, Or.inl b⟩
  · rintro ⟨a, b | ⟨rfl, b⟩⟩
    · exact ⟨a, b⟩
    · rw [aug_last m hm] at b
      exact absurd b h1.ne

theorem cox_zero (T B : ℕ → ℝ) (hB : ∀ i, B i = 0) (x : ℝ) (p i : ℕ) : cox T B x p i = 0 := by
  induction p generalizing i with
  | zero => exact hB i
  | succ p ih => rw [cox, ih, ih, mul_zero, mul_zero, add_zero]

theorem diff_eq (m : Spec) (hm : Good m) (x : ℝ) :
    m.bspline.diff x = (List.range m.npar).map (rate (aug m) (openZero (aug m) x) x m.order) := by
  have h2 := hm.1
  have hl : (augknt m.knots m.order).length = m.knots.length + 2 * m.order := aug_length m
  have hlb : m.bspline.knots.length = m.knots.length + 2 * m.order := hl
  have ht : ∀ i, i < m.knots.length + 2 * m.order → m.bspline.t i = aug m i := fun i h => aug_get m hm i h
  obtain ⟨knots, order, eps⟩ := m
  cases order with
  | zero =>
    have : (Spec.bspline ⟨knots, 0, eps⟩).diff x
        = List.replicate ((Spec.bspline ⟨knots, 0, eps⟩).call 0).length 0 := rfl
    rw [this, call_eq _ hm, List.length_map, List.length_range]
    have hr : rate (aug ⟨knots, 0, eps⟩) (openZero (aug ⟨knots, 0, eps⟩) x) x 0 = fun _ => 0 := by
      funext i
      rfl
    simp only
    rw [hr]
    simp
  | succ q =>
    have hd : (Spec.bspline ⟨knots, q + 1, eps⟩).diff x
        = (List.range (((Spec.bspline ⟨knots, q + 1, eps⟩)).knots.length - (q + 1) - 1)).map fun i =>
          (if (Spec.bspline ⟨knots, q + 1, eps⟩).t (i + q + 1) - (Spec.bspline ⟨knots, q + 1, eps⟩).t i ≠ 0 then
            ((q + 1 : ℕ) : ℝ) / ((Spec.bspline ⟨knots, q + 1, eps⟩).t (i + q + 1)
              - (Spec.bspline ⟨knots, q + 1, eps⟩).t i) else 0)
            * (({ knots := (augknt knots (q + 1)).dropLast, order := q, last := false } : Bspline).call x).getD i 0
          + (if (Spec.bspline ⟨knots, q + 1, eps⟩).t (i + q + 2) - (Spec.bspline ⟨knots, q + 1, eps⟩).t (i + 1) ≠ 0 then
            -((q + 1 : ℕ) : ℝ) / ((Spec.bspline ⟨knots, q + 1, eps⟩).t (i + q + 2)
              - (Spec.bspline ⟨knots, q + 1, eps⟩).t (i + 1)) else 0)
            * (({ knots := (augknt knots (q + 1)).tail, order := q, last := false } : Bspline).call x).getD i 0 := rfl
    simp only at hl hlb ht h2
    have hn : (Spec.bspline ⟨knots, q + 1, eps⟩).knots.length - (q + 1) - 1 = Spec.npar ⟨knots, q + 1, eps⟩ := by
      rw [hlb]
      unfold Spec.npar
      simp only
      omega
    rw [hd, hn]
    apply List.map_congr_left
    intro i hi
    have hi' : i < q + 1 + knots.length - 1 := List.mem_range.1 hi
    rw [ht i (by omega), ht (i + 1) (by omega), ht (i + q + 1) (by omega), ht (i + q + 2) (by omega)]
    generalize hT : aug ⟨knots, q + 1, eps⟩ = T at *
    have hget : ∀ i, i < knots.length + 2 * (q + 1) → (augknt knots (q + 1)).getD i 0 = T i := fun i h => ht i h
    have e1 : (({ knots := (augknt knots (q + 1)).dropLast, order := q, last := false } : Bspline).call x).getD i 0
        = cox T (openZero T x) x q i := by
      have hg : ∀ j, j < knots.length + 2 * (q + 1) - 1 → (augknt knots (q + 1)).dropLast.getD j 0 = T j := by
        intro j hj
        rw [← hget j (by omega), List.getD_eq_getElem?_getD, List.getD_eq_getElem?_getD,
          List.getElem?_dropLast, if_pos (by rw [hl]; omega)]
      refine basis_eq _ x T (openZero T x) ?_ ?_ q i ?_
      · intro j hj
        simp only [List.length_dropLast, hl] at hj
        exact hg j (by omega)
      · intro j hj
        simp only [List.length_dropLast, hl] at hj
        rw [Bspline.basis0, getD_map _ _ j (by simp only [List.length_dropLast, hl]; omega), openZero]
        simp only [Bspline.t, hg j (by omega), hg (j + 1) (by omega), Bool.false_eq_true, false_and, or_false]
      · simp only [List.length_dropLast, hl]
        omega
    have e2 : (({ knots := (augknt knots (q + 1)).tail, order := q, last := false } : Bspline).call x).getD i 0
        = cox T (openZero T x) x q (i + 1) := by
      have hg : ∀ j, j < knots.length + 2 * (q + 1) - 1 → (augknt knots (q + 1)).tail.getD j 0 = T (j + 1) := by
        intro j hj
        rw [← hget (j + 1) (by omega), List.getD_eq_getElem?_getD, List.getD_eq_getElem?_getD, List.getElem?_tail]
      rw [← cox_shift]
      refine basis_eq _ x (fun k => T (k + 1)) (fun k => openZero T x (k + 1)) ?_ ?_ q i ?_
      · intro j hj
        simp only [List.length_tail, hl] at hj
        exact hg j (by omega)
      · intro j hj
        simp only [List.length_tail, hl] at hj
        rw [Bspline.basis0, getD_map _ _ j (by simp only [List.length_tail, hl]; omega), openZero]
        simp only [Bspline.t, hg j (by omega), hg (j + 1) (by omega), Bool.false_eq_true, false_and, or_false]
      · simp only [List.length_tail, hl]
        omega
    rw [e1, e2]
    have n1 : ∀ a c : ℝ, (if a ≠ 0 then c / a else 0) = c / a := by
      intro a c
      split_ifs with h
      · rfl
      · rw [not_not.1 h, div_zero]
    rw [n1, n1, rate]
    push_cast
    ring

/-- C80: between the first and the last knot the derivative to x is that of the result: for order 0 and 1 where it
exists, off the knots, and everywhere for higher orders. -/
theorem C80_derivative (m : Spec) (hm : Good m) (x : ℝ) (h0 : m.knot 0 < x) (h1 : x < m.knot (m.knots.length - 1))
    (h : 2 ≤ m.order ∨ x ∉ m.knots) (p : ℕ → ℝ) :
    HasDerivAt (fun t => (m.result t p).getD 0) (m.derivative x p) x := by
  have h2 := hm.1
  have hT := aug_knots m hm
  have hx : x < aug m (lastInt m + 1) := by rw [aug_last m hm]; exact h1
  have hd : m.derivative x p
      = ∑ k ∈ range m.npar, p k * rate (aug m) (zeroth (aug m) (lastInt m) x) x m.order k := by
    rw [Spec.derivative]
    rw [last_eq, if_neg (show x ≠ m.knots.getD (m.knots.length - 1) 0 from h1.ne), diff_eq m hm, linear_range, open_eq m hm x h1]
  have hcase : (∀ i, aug m i ≠ x) ∨ (2 ≤ m.order ∧ ∀ i, aug m i = x → aug m (i + 1) ≠ x) := by
    rcases h with h | h
    · right
      refine ⟨h, fun i hi hi1 => ?_⟩
      have ha : m.order < i := by
        by_contra hcon
        have := (aug_first m hm i).2 (by omega)
        rw [hi, aug_zero] at this
        exact absurd this h0.ne'
      have hb : i + 1 ≤ lastInt m := by
        by_contra hcon
        have := hT.stop (i + 1) (by omega)
        rw [hi1, aug_last m hm] at this
        exact absurd this h1.ne
      have : aug m i < aug m (i + 1) := by
        unfold lastInt at hb
        exact knot_lt hm (by omega) (by omega)
      linarith
    · left
      intro i hi
      apply h
      rw [← hi, aug, Spec.knot, List.getD_eq_getElem?_getD, List.getElem?_eq_getElem (by omega)]
      exact List.getElem_mem _
  have hs : HasDerivAt (fun t => ∑ k ∈ range m.npar, p k * m.fn t k) (m.derivative x p) x := by
    rw [hd]
    apply HasDerivAt.fun_sum
    intro k _
    exact (cox_rate hT x hx m.order k hcase).const_mul (p k)
  refine hs.congr_of_eventuallyEq ?_
  filter_upwards [lt_mem_nhds h0, gt_mem_nhds h1] with t h3 h4
  rw [result_eq m hm t h3.le h4.le, Option.getD_some]

/-- C80: at the last knot the derivative to x is 0, whatever the parameters are: of the splines of one order less
the last interval is half open, and the attribute that should repair this is 0. -/
theorem C80_counterexample_end (knots : List ℝ) (order : ℕ) (hm : Good (makeSpec knots order)) (p : ℕ → ℝ) :
    (makeSpec knots order).derivative ((makeSpec knots order).knot (knots.length - 1)) p = 0 := by
  set m := makeSpec knots order with hmdef
  have hT := aug_knots m hm
  rw [Spec.derivative]
  rw [last_eq, show m.eps = 0 from rfl, sub_zero, one_mul]
  have : (if m.knot (knots.length - 1) = m.knots.getD (m.knots.length - 1) 0 then m.knots.getD (m.knots.length - 1) 0
      else m.knot (knots.length - 1)) = aug m (lastInt m + 1) := by
    rw [if_pos (show m.knot (knots.length - 1) = m.knots.getD (m.knots.length - 1) 0 from rfl), aug_last m hm]
    rfl
  rw [this, diff_eq m hm, linear_range]
  have hz : ∀ i, openZero (aug m) (aug m (lastInt m + 1)) i = 0 := by
    intro i
    rw [openZero, if_neg]
    rintro ⟨-, c⟩
    rcases le_or_gt (i + 1) (lastInt m + 1) with g | g
    · exact absurd (hT.mono g) (not_le.2 c)
    · rw [hT.stop (i + 1) (by omega)] at c
      exact lt_irrefl _ c
  apply sum_eq_zero
  intro k _
  cases order with
  | zero =>
    show p k * rate _ _ _ 0 k = 0
    rw [rate, mul_zero]
  | succ q =>
    show p k * rate _ _ _ (q + 1) k = 0
    rw [rate, cox_zero _ _ hz, cox_zero _ _ hz]
    ring

/-- Four knots: the hypotheses are met, and there are six parameters. -/
example : Good (makeSpec [0, 1, 2, 5] 3) ∧ (makeSpec [0, 1, 2, 5] 3).npar = 6 ∧
    (makeSpec [0, 1, 2, 5] 3).knot 0 < 1 ∧ 1 < (makeSpec [0, 1, 2, 5] 3).knot 3 := by
  refine ⟨⟨by simp [makeSpec], ?_⟩, rfl, by simp [makeSpec, Spec.knot], by simp [makeSpec, Spec.knot]⟩
  norm_num [makeSpec]

/-! ## Arrays -/

/-- C80: for an array of points the results are those of each of the points, unless there is one parameter only. -/
theorem C80_array_partial (m : Spec) (hm : Good m) (h1 : m.npar ≠ 1) (xdata : List ℝ)
    (hx : ∀ x ∈ xdata, m.knot 0 ≤ x ∧ x ≤ m.knot (m.knots.length - 1)) (p : ℕ → ℝ) :
    ∃ res, m.results xdata p = some res ∧ res.map some = xdata.map fun x => m.result x p := by
  have hmat : m.matrix xdata = some (xdata.map m.bspline.call) := by
    rw [Spec.matrix, if_neg, squeezed, if_neg]
    · rfl
    · rw [call_eq m hm]
      simp [h1]
    · rw [head_eq, last_eq]
      rintro (⟨x, h, h'⟩ | ⟨x, h, h'⟩)
      · exact absurd h' (not_lt.2 (hx x h).1)
      · exact absurd h' (not_lt.2 (hx x h).2)
  refine ⟨_, by rw [Spec.results, hmat, Option.map_some], ?_⟩
  rw [List.map_map, List.map_map]
  apply List.map_congr_left
  intro x h
  simp only [Function.comp]
  rw [result_eq m hm x (hx x h).1 (hx x h).2, call_eq m hm]
  congr 1
  apply sum_congr rfl
  intro k hk
  rw [getD_map _ _ k (mem_range.1 hk)]

/-- C80: with one parameter, two knots and order 0, the matrix is transposed: for two points there is one result. -/
theorem C80_counterexample_single (p : ℕ → ℝ) : ∃ res, (makeSpec [0, 1] 0).results [1 / 4, 1 / 2] p = some res ∧
    res.length = 1 := by
  have hm : Good (makeSpec [0, 1] 0) := ⟨by simp [makeSpec], by simp [makeSpec]⟩
  have hmat : (makeSpec [0, 1] 0).matrix [1 / 4, 1 / 2]
      = some [[1 / 4, 1 / 2].map fun x => ((makeSpec [0, 1] 0).bspline.call x).getD 0 0] := by
    rw [Spec.matrix, if_neg, squeezed, if_pos]
    · simp [collmat]
    · rw [call_eq _ hm]
      simp [makeSpec, Spec.npar, collmat]
    · simp only [makeSpec]
      norm_num
  exact ⟨_, by rw [Spec.results, hmat, Option.map_some], rfl⟩

end BF.BSplines
