import Mathlib.Analysis.Calculus.Deriv.Mul
import Mathlib.Analysis.Calculus.Deriv.Add
import Mathlib.Analysis.Calculus.Deriv.Inv
import Mathlib.Analysis.Calculus.FDeriv.Extend
import Mathlib.Algebra.Polynomial.Roots
import Mathlib.Algebra.Polynomial.BigOperators
import Mathlib.Data.Real.Basic
import Mathlib.Tactic.Linarith
import Mathlib.Tactic.FieldSimp
import Mathlib.Tactic.Ring

/-!
# The recursion of Cox and de Boor, for a monotone sequence of knots
-/

namespace BF.Cox

open Finset

/-- The recursion, from the functions of order 0 on. -/
noncomputable def cox (T : ℕ → ℝ) (B : ℕ → ℝ) (x : ℝ) : ℕ → ℕ → ℝ
  | 0, i => B i
  | p + 1, i => (x - T i) / (T (i + p + 1) - T i) * cox T B x p i
      + (T (i + p + 2) - x) / (T (i + p + 2) - T (i + 1)) * cox T B x p (i + 1)

open Classical in
/-- The functions of order 0; interval `e` is closed. -/
noncomputable def zeroth (T : ℕ → ℝ) (e : ℕ) (x : ℝ) (i : ℕ) : ℝ :=
  if T i ≤ x ∧ (x < T (i + 1) ∨ (i = e ∧ x = T (i + 1))) then 1 else 0

/-- The knots: they do not decrease, and `e` is the last interval that is not empty. -/
structure Knots (T : ℕ → ℝ) (e : ℕ) : Prop where
  mono : Monotone T
  lt : T e < T (e + 1)
  stop : ∀ i, e < i → T i = T (e + 1)

variable {T : ℕ → ℝ} {e : ℕ}

/-- Where the functions are not zero. -/
theorem support (hT : Knots T e) (x : ℝ) (p i : ℕ) (h : cox T (zeroth T e x) x p i ≠ 0) :
    T i < T (i + p + 1) ∧ T i ≤ x ∧ x ≤ T (i + p + 1) ∧ (x < T (i + p + 1) ∨ x = T (e + 1)) := by
  induction p generalizing i with
  | zero =>
    have h0 : T i ≤ x ∧ (x < T (i + 1) ∨ (i = e ∧ x = T (i + 1))) := by
      by_contra hcon
      exact h (by rw [cox, zeroth, if_neg hcon])
    rcases h0 with ⟨h1, h2 | ⟨rfl, h2⟩⟩
    · exact ⟨h1.trans_lt h2, h1, h2.le, Or.inl h2⟩
    · exact ⟨hT.lt, h1, h2.le, Or.inr h2⟩
  | succ p ih =>
    by_cases h1 : cox T (zeroth T e x) x p i = 0
    · by_cases h2 : cox T (zeroth T e x) x p (i + 1) = 0
      · exact absurd (by rw [cox, h1, h2]; ring) h
      · obtain ⟨a, b, c, d⟩ := ih (i + 1) h2
        rw [show i + 1 + p + 1 = i + (p + 1) + 1 by ring] at a c d
        have := hT.mono (show i ≤ i + 1 by omega)
        exact ⟨this.trans_lt a, this.trans b, c, d⟩
    · obtain ⟨a, b, c, d⟩ := ih i h1
      have := hT.mono (show i + p + 1 ≤ i + (p + 1) + 1 by omega)
      refine ⟨a.trans_le this, b, c.trans this, ?_⟩
      rcases d with d | d
      · exact Or.inl (d.trans_le this)
      · exact Or.inr d

theorem nonneg (hT : Knots T e) (x : ℝ) (p i : ℕ) : 0 ≤ cox T (zeroth T e x) x p i := by
  induction p generalizing i with
  | zero =>
    rw [cox, zeroth]
    split_ifs <;> norm_num
  | succ p ih =>
    rw [cox]
    apply add_nonneg
    · by_cases h1 : cox T (zeroth T e x) x p i = 0
      · rw [h1, mul_zero]
      · obtain ⟨a, b, -, -⟩ := support hT x p i h1
        exact mul_nonneg (div_nonneg (by linarith) (by linarith)) (ih i)
    · by_cases h1 : cox T (zeroth T e x) x p (i + 1) = 0
      · rw [h1, mul_zero]
      · obtain ⟨a, -, c, -⟩ := support hT x p (i + 1) h1
        rw [show i + 1 + p + 1 = i + p + 2 by ring] at a c
        exact mul_nonneg (div_nonneg (by linarith) (by linarith)) (ih (i + 1))

/-- A sum of functions as a sum of functions of one order less. -/
theorem lower (hT : Knots T e) (x : ℝ) (p n : ℕ) (c : ℕ → ℝ) (d : ℕ → ℝ)
    (h0 : cox T (zeroth T e x) x p 0 = 0) (hn : cox T (zeroth T e x) x p n = 0)
    (hd : ∀ i, i + 1 < n → T (i + 1) < T (i + 1 + p + 1) →
      c (i + 1) * (x - T (i + 1)) + c i * (T (i + 1 + p + 1) - x) = d (i + 1) * (T (i + 1 + p + 1) - T (i + 1))) :
    ∑ i ∈ range n, c i * cox T (zeroth T e x) x (p + 1) i
      = ∑ i ∈ range (n + 1), d i * cox T (zeroth T e x) x p i := by
  cases n with
  | zero => simp [h0]
  | succ n =>
    have e1 : ∀ i, c i * cox T (zeroth T e x) x (p + 1) i
        = c i * ((x - T i) / (T (i + p + 1) - T i) * cox T (zeroth T e x) x p i)
          + c i * ((T (i + p + 2) - x) / (T (i + p + 2) - T (i + 1)) * cox T (zeroth T e x) x p (i + 1)) := by
      intro i
      rw [cox]
      ring
    simp only [e1]
    rw [sum_add_distrib, sum_range_succ' (fun i => c i * ((x - T i) / (T (i + p + 1) - T i)
      * cox T (zeroth T e x) x p i)), sum_range_succ (fun i => c i * ((T (i + p + 2) - x)
      / (T (i + p + 2) - T (i + 1)) * cox T (zeroth T e x) x p (i + 1))), h0, hn,
      sum_range_succ _ (n + 1), sum_range_succ', h0, hn]
    simp only [mul_zero, add_zero]
    rw [← sum_add_distrib]
    apply sum_congr rfl
    intro i hi
    by_cases h1 : cox T (zeroth T e x) x p (i + 1) = 0
    · rw [h1]
      ring
    · obtain ⟨a, -, -, -⟩ := support hT x p (i + 1) h1
      have h2 := hd i (by have := mem_range.1 hi; omega) a
      have ha : T (i + 1 + p + 1) - T (i + 1) ≠ 0 := by linarith
      rw [show i + p + 2 = i + 1 + p + 1 by ring]
      have : c (i + 1) * (x - T (i + 1)) / (T (i + 1 + p + 1) - T (i + 1))
          + c i * (T (i + 1 + p + 1) - x) / (T (i + 1 + p + 1) - T (i + 1)) = d (i + 1) := by
        rw [← add_div, h2, mul_div_cancel_right₀ _ ha]
      rw [← this]
      ring

theorem zeroth_sum (hT : Knots T e) (x : ℝ) (h0 : T 0 ≤ x) (h1 : x ≤ T (e + 1)) (n : ℕ) (hn : e < n) :
    ∑ i ∈ range n, zeroth T e x i = 1 := by
  rcases h1.lt_or_eq with h | h
  · have : ∀ i, zeroth T e x i = (if T i ≤ x then 1 else 0) - (if T (i + 1) ≤ x then 1 else 0) := by
      intro i
      have hm := hT.mono (show i ≤ i + 1 by omega)
      rw [zeroth]
      by_cases a : T i ≤ x
      · by_cases b : T (i + 1) ≤ x
        · rw [if_neg, if_pos a, if_pos b, sub_self]
          rintro ⟨-, c | ⟨rfl, c⟩⟩
          · linarith
          · exact absurd c h.ne
        · rw [if_pos ⟨a, Or.inl (not_le.1 b)⟩, if_pos a, if_neg b, sub_zero]
      · rw [if_neg (fun hc => a hc.1), if_neg a, if_neg (fun hc => a (hm.trans hc)), sub_self]
    simp only [this]
    rw [sum_range_sub', if_pos h0, if_neg, sub_zero]
    rw [hT.stop n hn]
    exact not_le.2 h
  · subst h
    rw [sum_eq_single e]
    · rw [zeroth, if_pos ⟨hT.lt.le, Or.inr ⟨rfl, rfl⟩⟩]
    · intro i _ hi
      rw [zeroth, if_neg]
      rintro ⟨-, c | ⟨d, -⟩⟩
      · rcases le_or_gt (i + 1) (e + 1) with g | g
        · exact absurd (hT.mono g) (not_le.2 c)
        · rw [hT.stop (i + 1) (by omega)] at c
          exact lt_irrefl _ c
      · exact hi d
    · intro h
      exact absurd (mem_range.2 hn) h

/-- The functions at the borders vanish for lower orders: there the knots coincide. -/
theorem border_zero (hT : Knots T e) (x : ℝ) (p i : ℕ) (h : T (i + p + 1) ≤ T i) :
    cox T (zeroth T e x) x p i = 0 := by
  by_contra hcon
  exact absurd (support hT x p i hcon).1 (not_lt.2 h)

/-- The functions add up to 1. -/
theorem unity (hT : Knots T e) (x : ℝ) (h0 : T 0 ≤ x) (h1 : x ≤ T (e + 1)) (p : ℕ) (hp : T p = T 0) (n : ℕ)
    (hn : e < n) : ∑ i ∈ range n, cox T (zeroth T e x) x p i = 1 := by
  induction p generalizing n with
  | zero => exact zeroth_sum hT x h0 h1 n hn
  | succ p ih =>
    have h2 : T p = T 0 := le_antisymm (hp ▸ hT.mono (by omega)) (hT.mono (by omega))
    have := lower hT x p n (fun _ => 1) (fun _ => 1) (border_zero hT x p 0 (by rw [zero_add, hp]))
      (border_zero hT x p n (by rw [hT.stop _ hn, hT.stop _ (by omega)])) (fun i _ _ => by ring)
    simp only [one_mul] at this
    rw [this, ih h2 (n + 1) (by omega)]

open Polynomial in
/-- The polynomial that goes with a function: it vanishes at the knots inside its range. -/
noncomputable def psi (T : ℕ → ℝ) (p i : ℕ) : ℝ[X] := ∏ r ∈ range p, (X - C (T (i + r + 1)))

open Polynomial in
/-- The identity of Marsden. -/
theorem marsden (hT : Knots T e) (x : ℝ) (h0 : T 0 ≤ x) (h1 : x ≤ T (e + 1)) (p : ℕ) (hp : T p = T 0) (n : ℕ)
    (hn : e < n) : ∑ i ∈ range n, C (cox T (zeroth T e x) x p i) * psi T p i = (X - C x) ^ p := by
  apply Polynomial.funext
  intro y
  rw [eval_finsetSum]
  simp only [eval_mul, eval_C, eval_pow, eval_sub, eval_X]
  induction p generalizing n with
  | zero =>
    simp only [psi, range_zero, prod_empty, eval_one, mul_one, pow_zero]
    exact zeroth_sum hT x h0 h1 n hn
  | succ p ih =>
    have h2 : T p = T 0 := le_antisymm (hp ▸ hT.mono (by omega)) (hT.mono (by omega))
    have hl := lower hT x p n (fun i => (psi T (p + 1) i).eval y) (fun i => (psi T p i).eval y * (y - x))
      (border_zero hT x p 0 (by rw [zero_add, hp]))
      (border_zero hT x p n (by rw [hT.stop _ hn, hT.stop _ (by omega)])) (by
        intro i _ _
        have ea : (psi T (p + 1) (i + 1)).eval y = (psi T p (i + 1)).eval y * (y - T (i + 1 + p + 1)) := by
          simp only [psi, prod_range_succ, eval_mul, eval_sub, eval_X, eval_C]
        have eb : (psi T (p + 1) i).eval y = (psi T p (i + 1)).eval y * (y - T (i + 1)) := by
          simp only [psi, prod_range_succ', eval_mul, eval_sub, eval_X, eval_C, add_zero]
          congr 3
          funext r
          rw [show i + (r + 1) + 1 = i + 1 + r + 1 by ring]
        rw [ea, eb]
        ring)
    simp only [mul_comm (cox T (zeroth T e x) x (p + 1) _)]
    rw [hl]
    have e2 : ∀ i, eval y (psi T p i) * (y - x) * cox T (zeroth T e x) x p i
        = cox T (zeroth T e x) x p i * eval y (psi T p i) * (y - x) := fun i => by ring
    simp only [e2]
    rw [← sum_mul, ih h2 (n + 1) (by omega), pow_succ]

/-! ## Ends -/

theorem left_end (hT : Knots T e) (o : ℕ) (ho : ∀ i, T i = T 0 ↔ i ≤ o) (hoe : o ≤ e) (p i : ℕ)
    (h : cox T (zeroth T e (T 0)) (T 0) p i ≠ 0) : i + p = o := by
  induction p generalizing i with
  | zero =>
    obtain ⟨a, b, -, -⟩ := support hT (T 0) 0 i h
    have h1 : T i = T 0 := le_antisymm b (hT.mono (Nat.zero_le i))
    have h2 := (ho i).1 h1
    by_contra hne
    have := (ho (i + 0 + 1)).2 (by omega)
    rw [this, h1] at a
    exact lt_irrefl _ a
  | succ p ih =>
    by_cases h2 : cox T (zeroth T e (T 0)) (T 0) p (i + 1) = 0
    · exfalso
      rw [cox, h2, mul_zero, add_zero] at h
      have h3 := ih i (right_ne_zero_of_mul h)
      rw [(ho i).2 (by omega), sub_self, zero_div, zero_mul] at h
      exact h rfl
    · have := ih (i + 1) h2
      omega

theorem right_end (hT : Knots T e) (p i : ℕ) (h : cox T (zeroth T e (T (e + 1))) (T (e + 1)) p i ≠ 0) : i = e := by
  induction p generalizing i with
  | zero =>
    by_contra hi
    apply h
    rw [cox, zeroth, if_neg]
    rintro ⟨-, c | ⟨d, -⟩⟩
    · rcases le_or_gt (i + 1) (e + 1) with g | g
      · exact absurd (hT.mono g) (not_le.2 c)
      · rw [hT.stop (i + 1) (by omega)] at c
        exact lt_irrefl _ c
    · exact hi d
  | succ p ih =>
    by_cases h2 : cox T (zeroth T e (T (e + 1))) (T (e + 1)) p i = 0
    · exfalso
      rw [cox, h2, mul_zero, zero_add] at h
      have h3 := ih (i + 1) (right_ne_zero_of_mul h)
      rw [hT.stop (i + p + 2) (by omega), sub_self, zero_div, zero_mul] at h
      exact h rfl
    · exact ih i h2

/-! ## Derivatives -/

/-- The derivative, in terms of the functions of one order less. -/
noncomputable def rate (T : ℕ → ℝ) (B : ℕ → ℝ) (x : ℝ) : ℕ → ℕ → ℝ
  | 0, _ => 0
  | p + 1, i => (p + 1 : ℝ) / (T (i + p + 1) - T i) * cox T B x p i
      - (p + 1 : ℝ) / (T (i + p + 2) - T (i + 1)) * cox T B x p (i + 1)

/-- The identity behind the formula of the derivative. -/
theorem rate_step (hT : Monotone T) (B : ℕ → ℝ) (x : ℝ) (q i : ℕ) :
    (x - T i) / (T (i + q + 1) - T i) * rate T B x q i
      + (T (i + q + 2) - x) / (T (i + q + 2) - T (i + 1)) * rate T B x q (i + 1)
    = q * (1 / (T (i + q + 1) - T i) * cox T B x q i - 1 / (T (i + q + 2) - T (i + 1)) * cox T B x q (i + 1)) := by
  cases q with
  | zero => simp [rate]
  | succ q =>
    simp only [rate, cox]
    rw [show i + 1 + q + 1 = i + q + 2 by ring, show i + 1 + q + 2 = i + q + 3 by ring,
      show i + 1 + 1 = i + 2 by ring, show i + (q + 1) + 1 = i + q + 2 by ring,
      show i + (q + 1) + 2 = i + q + 3 by ring]
    generalize cox T B x q i = m0
    generalize cox T B x q (i + 1) = m1
    generalize cox T B x q (i + 2) = m2
    have h1 := hT (show i ≤ i + 1 by omega)
    have h2 := hT (show i + 1 ≤ i + q + 2 by omega)
    have h3 := hT (show i + q + 2 ≤ i + q + 3 by omega)
    generalize T i = a at *
    generalize T (i + 1) = b at *
    generalize T (i + q + 2) = c at *
    generalize T (i + q + 3) = d at *
    generalize T (i + q + 1) = f at *
    generalize T (i + 2) = g at *
    push_cast
    rcases h2.eq_or_lt with h | h
    · rw [h, sub_self]
      simp only [div_zero, zero_mul]
      ring
    · have n1 : c - a ≠ 0 := by linarith
      have n2 : d - b ≠ 0 := by linarith
      have n3 : c - b ≠ 0 := by linarith
      have key : (m1 / (c - b)) * (-(x - a) / (c - a) + (d - x) / (d - b))
          = (m1 / (c - b)) * ((c - x) / (c - a) - (x - b) / (d - b)) := by
        congr 1
        field_simp
        ring
      linear_combination (q + 1 : ℝ) * key

theorem cox_deriv (hT : Monotone T) (B : ℝ → ℕ → ℝ) (x : ℝ) (hB : ∀ i, ∀ᶠ y in nhds x, B y i = B x i) (p i : ℕ) :
    HasDerivAt (fun y => cox T (B y) y p i) (rate T (B x) x p i) x := by
  induction p generalizing i with
  | zero =>
    have h : (fun y => cox T (B y) y 0 i) =ᶠ[nhds x] fun _ => B x i := hB i
    exact (hasDerivAt_const x (B x i)).congr_of_eventuallyEq h
  | succ p ih =>
    have d1 : HasDerivAt (fun y => (y - T i) / (T (i + p + 1) - T i)) (1 / (T (i + p + 1) - T i)) x :=
      ((hasDerivAt_id' x).sub_const _).div_const _
    have d2 : HasDerivAt (fun y => (T (i + p + 2) - y) / (T (i + p + 2) - T (i + 1)))
        (-1 / (T (i + p + 2) - T (i + 1))) x :=
      ((hasDerivAt_id' x).const_sub _).div_const _
    have h := (d1.fun_mul (ih i)).fun_add (d2.fun_mul (ih (i + 1)))
    refine HasDerivAt.congr_deriv (f := fun y => cox T (B y) y (p + 1) i) h ?_
    have hs := rate_step hT (B x) x p i
    have e1 : rate T (B x) x (p + 1) i = (p + 1 : ℝ) / (T (i + p + 1) - T i) * cox T (B x) x p i
      - (p + 1 : ℝ) / (T (i + p + 2) - T (i + 1)) * cox T (B x) x p (i + 1) := rfl
    rw [e1]
    linear_combination hs

/-- Off the knots the functions of order 0 are constant. -/
theorem zeroth_near (x : ℝ) (hx : ∀ i, T i ≠ x) (i : ℕ) : ∀ᶠ y in nhds x, zeroth T e y i = zeroth T e x i := by
  have near : ∀ k, ∀ᶠ y in nhds x, (T k < y ↔ T k < x) ∧ (y < T k ↔ x < T k) ∧ y ≠ T k := by
    intro k
    rcases lt_or_gt_of_ne (hx k) with h | h
    · filter_upwards [lt_mem_nhds h] with y hy
      exact ⟨by simp [h, hy], ⟨fun c => absurd c (not_lt.2 hy.le), fun c => absurd c (not_lt.2 h.le)⟩, hy.ne'⟩
    · filter_upwards [gt_mem_nhds h] with y hy
      exact ⟨⟨fun c => absurd c (not_lt.2 hy.le), fun c => absurd c (not_lt.2 h.le)⟩, by simp [h, hy], hy.ne⟩
  filter_upwards [near i, near (i + 1)] with y h1 h2
  rw [zeroth, zeroth]
  congr 1
  have a : T i ≤ y ↔ T i ≤ x := by
    rw [← not_lt, ← not_lt, h1.2.1]
  rw [a, h2.2.1, eq_iff_iff]
  constructor
  · rintro ⟨u, v | ⟨-, v⟩⟩
    · exact ⟨u, Or.inl v⟩
    · exact absurd v h2.2.2
  · rintro ⟨u, v | ⟨-, v⟩⟩
    · exact ⟨u, Or.inl v⟩
    · exact absurd v (hx (i + 1)).symm

theorem zeroth_bound (x : ℝ) (i : ℕ) : |zeroth T e x i| ≤ 1 := by
  rw [zeroth]
  split_ifs <;> norm_num

/-- What vanishes times what is bounded. -/
theorem squeeze (f g : ℝ → ℝ) (x : ℝ) (hf : ContinuousAt f x) (h0 : f x = 0) (hg : ∀ y, |g y| ≤ 1) :
    ContinuousAt (fun y => f y * g y) x := by
  rw [ContinuousAt, h0, zero_mul]
  have h1 : Filter.Tendsto (fun y => |f y|) (nhds x) (nhds 0) := by
    have := hf.abs
    rw [ContinuousAt, h0, abs_zero] at this
    exact this
  refine squeeze_zero_norm (fun y => ?_) h1
  rw [Real.norm_eq_abs, abs_mul]
  exact mul_le_of_le_one_right (abs_nonneg _) (hg y)

/-- A point that is at most one knot; near it, the function of order 0 of an interval not ending there is constant. -/
theorem zeroth_near_off (x : ℝ) (i : ℕ) (h1 : T i ≠ x) (h2 : T (i + 1) ≠ x) :
    ContinuousAt (fun y => zeroth T e y i) x := by
  have : (fun y => zeroth T e y i) =ᶠ[nhds x] fun _ => zeroth T e x i := by
    have h := zeroth_near (T := fun k => if k = i then T i else if k = i + 1 then T (i + 1) else x + 1) (e := e) x (by
      intro k
      split_ifs
      · exact h1
      · exact h2
      · linarith) i
    have e1 : ∀ y, zeroth (fun k => if k = i then T i else if k = i + 1 then T (i + 1) else x + 1) e y i
        = zeroth T e y i := by
      intro y
      simp [zeroth]
    simp only [e1] at h
    exact h
  exact continuousAt_const.congr this.symm

/-- The functions of order 1 are continuous where no two knots coincide, inside the domain. -/
theorem cont1 (hT : Knots T e) (x : ℝ) (hx : x < T (e + 1)) (hs : ∀ i, T i = x → T (i + 1) ≠ x) (i : ℕ) :
    ContinuousAt (fun y => cox T (zeroth T e y) y 1 i) x := by
  have hle := hT.mono (show i ≤ i + 1 by omega)
  have hle2 := hT.mono (show i + 1 ≤ i + 2 by omega)
  have c1 : ContinuousAt (fun y => (y - T i) / (T (i + 1) - T i)) x := by fun_prop
  have c2 : ContinuousAt (fun y => (T (i + 2) - y) / (T (i + 2) - T (i + 1))) x := by fun_prop
  have e1 : (fun y => cox T (zeroth T e y) y 1 i) = fun y => (y - T i) / (T (i + 1) - T i) * zeroth T e y i
      + (T (i + 2) - y) / (T (i + 2) - T (i + 1)) * zeroth T e y (i + 1) := by
    funext y
    rfl
  rw [e1]
  by_cases h1 : T (i + 1) = x
  · -- the middle knot
    have n0 : T i ≠ x := fun h => hs i h h1
    have n2 : T (i + 2) ≠ x := hs (i + 1) h1
    have l0 : T i < x := lt_of_le_of_ne (h1 ▸ hle) n0
    have l2 : x < T (i + 2) := lt_of_le_of_ne (h1 ▸ hle2) n2.symm
    have hsum : ∀ᶠ y in nhds x, zeroth T e y i + zeroth T e y (i + 1) = 1 := by
      filter_upwards [lt_mem_nhds l0, gt_mem_nhds l2, gt_mem_nhds hx] with y h3 h4 h5
      rw [zeroth, zeroth]
      rcases lt_or_ge y (T (i + 1)) with h6 | h6
      · rw [if_pos ⟨h3.le, Or.inl h6⟩, if_neg (fun hc => absurd hc.1 (not_le.2 h6)), add_zero]
      · rw [if_neg, if_pos ⟨h6, Or.inl h4⟩, zero_add]
        rintro ⟨-, c | ⟨rfl, c⟩⟩
        · linarith
        · linarith
    have g : ContinuousAt (fun y => ((y - T i) / (T (i + 1) - T i) - 1) * zeroth T e y i
        + ((T (i + 2) - y) / (T (i + 2) - T (i + 1)) - 1) * zeroth T e y (i + 1) + 1) x := by
      refine ContinuousAt.add (ContinuousAt.add (squeeze _ _ x (c1.sub continuousAt_const) ?_
        fun y => zeroth_bound y i) (squeeze _ _ x (c2.sub continuousAt_const) ?_ fun y => zeroth_bound y (i + 1)))
        continuousAt_const
      · rw [h1, div_self (by linarith), sub_self]
      · rw [h1, div_self (by linarith), sub_self]
    refine g.congr ?_
    filter_upwards [hsum] with y hy
    linear_combination -hy
  · apply ContinuousAt.add
    · by_cases h0 : T i = x
      · exact squeeze _ _ x c1 (by rw [h0, sub_self, zero_div]) fun y => zeroth_bound y i
      · exact c1.mul (zeroth_near_off x i h0 h1)
    · by_cases h2 : T (i + 2) = x
      · exact squeeze _ _ x c2 (by rw [h2, sub_self, zero_div]) fun y => zeroth_bound y (i + 1)
      · exact c2.mul (zeroth_near_off x (i + 1) h1 h2)

theorem cont (hT : Knots T e) (x : ℝ) (hx : x < T (e + 1)) (hs : ∀ i, T i = x → T (i + 1) ≠ x) (p i : ℕ) :
    ContinuousAt (fun y => cox T (zeroth T e y) y (p + 1) i) x := by
  induction p generalizing i with
  | zero => exact cont1 hT x hx hs i
  | succ p ih =>
    have c1 : ContinuousAt (fun y => (y - T i) / (T (i + (p + 1) + 1) - T i)) x := by fun_prop
    have c2 : ContinuousAt (fun y => (T (i + (p + 1) + 2) - y) / (T (i + (p + 1) + 2) - T (i + 1))) x := by fun_prop
    exact (c1.mul (ih i)).add (c2.mul (ih (i + 1)))

/-- A derivative that is known near a point and continuous there. -/
theorem deriv_extend {f g : ℝ → ℝ} {x : ℝ} (hd : ∀ᶠ y in nhds x, y ≠ x → HasDerivAt f (g y) y)
    (hf : ContinuousAt f x) (hg : ContinuousAt g x) : HasDerivAt f (g x) x := by
  obtain ⟨s, hs, hso, hxs⟩ := eventually_nhds_iff.1 hd
  have A : HasDerivWithinAt f (g x) (Set.Ici x) x := by
    refine hasDerivWithinAt_Ici_of_tendsto_deriv (s := Set.Ioi x ∩ s)
      (fun y hy => (hs y hy.2 (ne_of_gt hy.1)).differentiableAt.differentiableWithinAt) hf.continuousWithinAt
      (Filter.inter_mem self_mem_nhdsWithin (mem_nhdsWithin_of_mem_nhds (hso.mem_nhds hxs))) ?_
    refine (hg.tendsto.mono_left (nhdsWithin_le_nhds (s := Set.Ioi x))).congr' ?_
    filter_upwards [self_mem_nhdsWithin, mem_nhdsWithin_of_mem_nhds (hso.mem_nhds hxs)] with y hy hys
    exact (hs y hys (ne_of_gt hy)).deriv.symm
  have B : HasDerivWithinAt f (g x) (Set.Iic x) x := by
    refine hasDerivWithinAt_Iic_of_tendsto_deriv (s := Set.Iio x ∩ s)
      (fun y hy => (hs y hy.2 (ne_of_lt hy.1)).differentiableAt.differentiableWithinAt) hf.continuousWithinAt
      (Filter.inter_mem self_mem_nhdsWithin (mem_nhdsWithin_of_mem_nhds (hso.mem_nhds hxs))) ?_
    refine (hg.tendsto.mono_left (nhdsWithin_le_nhds (s := Set.Iio x))).congr' ?_
    filter_upwards [self_mem_nhdsWithin, mem_nhdsWithin_of_mem_nhds (hso.mem_nhds hxs)] with y hy hys
    exact (hs y hys (ne_of_lt hy)).deriv.symm
  have := B.union A
  rwa [Set.Iic_union_Ici, hasDerivWithinAt_univ] at this

/-- The derivative of the functions: off the knots for all orders, at single knots too for orders above 1. -/
theorem cox_rate (hT : Knots T e) (x : ℝ) (hx : x < T (e + 1)) (p i : ℕ)
    (h : (∀ i, T i ≠ x) ∨ (2 ≤ p ∧ ∀ i, T i = x → T (i + 1) ≠ x)) :
    HasDerivAt (fun y => cox T (zeroth T e y) y p i) (rate T (zeroth T e x) x p i) x := by
  by_cases hk : ∀ i, T i ≠ x
  · exact cox_deriv hT.mono (zeroth T e) x (zeroth_near x hk) p i
  · rcases h with h | ⟨h2, hs⟩
    · exact absurd h hk
    · push Not at hk
      obtain ⟨k, hk⟩ := hk
      obtain ⟨q, rfl⟩ : ∃ q, p = q + 2 := ⟨p - 2, by omega⟩
      -- near x there are no other knots
      have hlow : ∀ᶠ y in nhds x, k = 0 ∨ T (k - 1) < y := by
        rcases Nat.eq_zero_or_pos k with h0 | h0
        · exact Filter.Eventually.of_forall fun y => Or.inl h0
        · have h3 : T (k - 1) < x := by
            refine lt_of_le_of_ne (hk ▸ hT.mono (by omega)) fun h4 => ?_
            have := hs (k - 1) h4
            rw [show k - 1 + 1 = k by omega] at this
            exact this hk
          filter_upwards [lt_mem_nhds h3] with y hy
          exact Or.inr hy
      have hhigh : ∀ᶠ y in nhds x, y < T (k + 1) :=
        gt_mem_nhds (lt_of_le_of_ne (hk ▸ hT.mono (by omega)) (hs k hk).symm)
      have hne : ∀ᶠ y in nhds x, y ≠ x → ∀ j, T j ≠ y := by
        filter_upwards [hlow, hhigh] with y h3 h4 h5 j h6
        rcases lt_trichotomy j k with h7 | h7 | h7
        · rcases h3 with h3 | h3
          · omega
          · exact absurd (h6 ▸ hT.mono (show j ≤ k - 1 by omega)) (not_le.2 h3)
        · exact h5 (by rw [← h6, h7, hk])
        · exact absurd (h6 ▸ hT.mono (show k + 1 ≤ j by omega)) (not_le.2 h4)
      have hcs : ContinuousAt (fun y => rate T (zeroth T e y) y (q + 2) i) x := by
        simp only [rate]
        exact (continuousAt_const.mul (cont hT x hx hs q i)).sub
          (continuousAt_const.mul (cont hT x hx hs q (i + 1)))
      refine deriv_extend (f := fun y => cox T (zeroth T e y) y (q + 2) i)
        (g := fun y => rate T (zeroth T e y) y (q + 2) i) ?_ (cont hT x hx hs (q + 1) i) hcs
      filter_upwards [hne] with y h3 h4
      exact cox_deriv hT.mono (zeroth T e) y (zeroth_near y (h3 h4)) (q + 2) i

end BF.Cox
