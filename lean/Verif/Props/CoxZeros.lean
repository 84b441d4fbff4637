import Verif.Props.Cox
import Mathlib.Analysis.Calculus.Deriv.MeanValue
import Mathlib.Analysis.Calculus.Deriv.Comp
import Mathlib.Topology.Order.OrderClosed
import Mathlib.Topology.Algebra.Order.Field
import Mathlib.Order.Interval.Finset.Nat
import Mathlib.Data.List.Chain

/-!
# Zeros of sums of splines

The theorem of Schoenberg and Whitney for knots that coincide at the ends only.
-/

namespace BF.Cox

open Finset

variable {T : ℕ → ℝ} {e : ℕ}

/-- A sum of functions. -/
noncomputable def spl (T : ℕ → ℝ) (e p M : ℕ) (c : ℕ → ℝ) (x : ℝ) : ℝ :=
  ∑ j ∈ range M, c j * cox T (zeroth T e x) x p j

/-- The coefficients of the derivative. -/
noncomputable def dc (T : ℕ → ℝ) (p : ℕ) (c : ℕ → ℝ) : ℕ → ℝ
  | 0 => (p + 1 : ℝ) / (T (0 + p + 1) - T 0) * c 0
  | j + 1 => (p + 1 : ℝ) / (T (j + p + 2) - T (j + 1)) * (c (j + 1) - c j)

theorem spl_deriv (hT : Knots T e) (p M : ℕ) (c : ℕ → ℝ) (hc : ∀ j, M ≤ j → c j = 0) (x : ℝ) (hx : ∀ i, T i ≠ x) :
    HasDerivAt (spl T e (p + 1) M c) (spl T e p (M + 1) (dc T p c) x) x := by
  have h : HasDerivAt (fun y => ∑ j ∈ range M, c j * cox T (zeroth T e y) y (p + 1) j)
      (∑ j ∈ range M, c j * rate T (zeroth T e x) x (p + 1) j) x :=
    HasDerivAt.fun_sum fun j _ => (cox_deriv hT.mono (zeroth T e) x (zeroth_near x hx) (p + 1) j).const_mul (c j)
  refine h.congr_deriv ?_
  rw [spl, sum_range_succ']
  have h2 : ∑ j ∈ range (M + 1), c j * ((p + 1 : ℝ) / (T (j + p + 1) - T j) * cox T (zeroth T e x) x p j)
      = ∑ j ∈ range M, c j * ((p + 1 : ℝ) / (T (j + p + 1) - T j) * cox T (zeroth T e x) x p j) := by
    rw [sum_range_succ, hc M le_rfl, zero_mul, add_zero]
  rw [sum_range_succ'] at h2
  have h3 : ∑ j ∈ range M, c j * rate T (zeroth T e x) x (p + 1) j
      = ∑ j ∈ range M, c j * ((p + 1 : ℝ) / (T (j + p + 1) - T j) * cox T (zeroth T e x) x p j)
        - ∑ j ∈ range M, c j * ((p + 1 : ℝ) / (T (j + p + 2) - T (j + 1)) * cox T (zeroth T e x) x p (j + 1)) := by
    rw [← sum_sub_distrib]
    exact sum_congr rfl fun j _ => by rw [rate]; ring
  have h4 : ∑ j ∈ range M, dc T p c (j + 1) * cox T (zeroth T e x) x p (j + 1)
      = ∑ j ∈ range M, c (j + 1) * ((p + 1 : ℝ) / (T (j + 1 + p + 1) - T (j + 1)) * cox T (zeroth T e x) x p (j + 1))
        - ∑ j ∈ range M, c j * ((p + 1 : ℝ) / (T (j + p + 2) - T (j + 1)) * cox T (zeroth T e x) x p (j + 1)) := by
    rw [← sum_sub_distrib]
    exact sum_congr rfl fun j _ => by rw [dc, show j + 1 + p + 1 = j + p + 2 by ring]; ring
  rw [h3, h4, ← h2, dc]
  ring

/-! ## Continuity -/

theorem zeroth_right (hT : Knots T e) (x : ℝ) (hx : x < T (e + 1)) (i : ℕ) :
    ∀ᶠ y in nhdsWithin x (Set.Ici x), zeroth T e y i = zeroth T e x i := by
  have near : ∀ k, ∀ᶠ y in nhdsWithin x (Set.Ici x), (T k ≤ y ↔ T k ≤ x) := by
    intro k
    rcases le_or_gt (T k) x with h | h
    · filter_upwards [self_mem_nhdsWithin] with y hy
      exact ⟨fun _ => h, fun _ => h.trans hy⟩
    · filter_upwards [mem_nhdsWithin_of_mem_nhds (gt_mem_nhds h)] with y hy
      exact ⟨fun c => absurd c (not_le.2 hy), fun c => absurd c (not_le.2 h)⟩
  filter_upwards [near i, near (i + 1), mem_nhdsWithin_of_mem_nhds (gt_mem_nhds hx)] with y h1 h2 h3
  rw [zeroth, zeroth]
  congr 1
  rw [h1, ← not_le, h2, not_le, eq_iff_iff]
  constructor
  · rintro ⟨u, v | ⟨rfl, v⟩⟩
    · exact ⟨u, Or.inl v⟩
    · exact absurd v h3.ne
  · rintro ⟨u, v | ⟨rfl, v⟩⟩
    · exact ⟨u, Or.inl v⟩
    · exact absurd v hx.ne

theorem zeroth_left (hT : Knots T e) (i : ℕ) :
    ∀ᶠ y in nhdsWithin (T (e + 1)) (Set.Iic (T (e + 1))), zeroth T e y i = zeroth T e (T (e + 1)) i := by
  filter_upwards [self_mem_nhdsWithin, mem_nhdsWithin_of_mem_nhds (lt_mem_nhds hT.lt)] with y hy hy2
  have hy : y ≤ T (e + 1) := hy
  rw [zeroth, zeroth]
  congr 1
  rw [eq_iff_iff]
  rcases lt_trichotomy i e with h | h | h
  · have h1 := hT.mono (show i + 1 ≤ e by omega)
    constructor
    · rintro ⟨-, v | ⟨v, -⟩⟩
      · linarith
      · omega
    · rintro ⟨-, v | ⟨v, -⟩⟩
      · linarith [hT.lt]
      · omega
  · subst h
    refine ⟨fun _ => ⟨hT.lt.le, Or.inr ⟨rfl, rfl⟩⟩, fun _ => ⟨hy2.le, ?_⟩⟩
    rcases hy.lt_or_eq with g | g
    · exact Or.inl g
    · exact Or.inr ⟨rfl, g⟩
  · rw [hT.stop i h, hT.stop (i + 1) (by omega)]
    constructor
    · rintro ⟨u, v | ⟨v, -⟩⟩
      · linarith
      · omega
    · rintro ⟨u, v | ⟨v, -⟩⟩
      · exact absurd v (lt_irrefl _)
      · omega

theorem cox_within (x : ℝ) (s : Set ℝ) (h : ∀ i, ∀ᶠ y in nhdsWithin x s, zeroth T e y i = zeroth T e x i) (p i : ℕ) :
    ContinuousWithinAt (fun y => cox T (zeroth T e y) y p i) s x := by
  induction p generalizing i with
  | zero =>
    exact continuousWithinAt_const.congr_of_eventuallyEq (f := fun _ => zeroth T e x i) (h i) rfl
  | succ p ih =>
    have c1 : ContinuousWithinAt (fun y => (y - T i) / (T (i + p + 1) - T i)) s x :=
      ContinuousAt.continuousWithinAt (by fun_prop)
    have c2 : ContinuousWithinAt (fun y => (T (i + p + 2) - y) / (T (i + p + 2) - T (i + 1))) s x :=
      ContinuousAt.continuousWithinAt (by fun_prop)
    exact (c1.mul (ih i)).add (c2.mul (ih (i + 1)))

/-- Inside, no two knots coincide. -/
def Simple (T : ℕ → ℝ) (e : ℕ) : Prop := ∀ x, T 0 < x → x < T (e + 1) → ∀ i, T i = x → T (i + 1) ≠ x

theorem spl_cont (hT : Knots T e) (hs : Simple T e) (p M : ℕ) (c : ℕ → ℝ) :
    ContinuousOn (spl T e (p + 1) M c) (Set.Icc (T 0) (T (e + 1))) := by
  have key : ∀ j, ContinuousOn (fun y => cox T (zeroth T e y) y (p + 1) j) (Set.Icc (T 0) (T (e + 1))) := by
    intro j x hx
    rcases hx.2.lt_or_eq with h | h
    · rcases hx.1.lt_or_eq with g | g
      · exact (cont hT x h (hs x g h) p j).continuousWithinAt
      · refine (cox_within x (Set.Ici x) (zeroth_right hT x h) (p + 1) j).mono ?_
        rw [← g]
        exact Set.Icc_subset_Ici_self
    · rw [h]
      exact (cox_within _ _ (zeroth_left hT) (p + 1) j).mono Set.Icc_subset_Iic_self
  exact continuousOn_finset_sum _ fun j _ => continuousOn_const.mul (key j)

/-! ## Signs of the derivative -/

theorem rise (f g : ℝ → ℝ) (S : Finset ℝ) : ∀ u v : ℝ, u < v → ContinuousOn f (Set.Icc u v) →
    (∀ y ∈ Set.Ioo u v, y ∉ S → HasDerivAt f (g y) y) → f u < f v → ∃ y ∈ Set.Ioo u v, y ∉ S ∧ 0 < g y := by
  induction S using Finset.induction with
  | empty =>
    intro u v huv hc hd h
    obtain ⟨y, hy, he⟩ := exists_hasDerivAt_eq_slope f g huv hc fun y hy => hd y hy (by simp)
    exact ⟨y, hy, by simp, by rw [he]; exact div_pos (by linarith) (by linarith)⟩
  | insert a S _ ih =>
    intro u v huv hc hd h
    by_cases ha : a ∈ Set.Ioo u v
    · rcases lt_or_ge (f u) (f a) with h1 | h1
      · obtain ⟨y, hy, h2, h3⟩ := ih u a ha.1 (hc.mono (Set.Icc_subset_Icc_right ha.2.le))
          (fun y hy h2 => hd y ⟨hy.1, hy.2.trans ha.2⟩ (by simp [hy.2.ne, h2])) h1
        exact ⟨y, ⟨hy.1, hy.2.trans ha.2⟩, by simp [hy.2.ne, h2], h3⟩
      · obtain ⟨y, hy, h2, h3⟩ := ih a v ha.2 (hc.mono (Set.Icc_subset_Icc_left ha.1.le))
          (fun y hy h2 => hd y ⟨ha.1.trans hy.1, hy.2⟩ (by simp [hy.1.ne', h2])) (by linarith)
        exact ⟨y, ⟨ha.1.trans hy.1, hy.2⟩, by simp [hy.1.ne', h2], h3⟩
    · have hne : ∀ y ∈ Set.Ioo u v, y ≠ a := fun y hy h2 => ha (h2 ▸ hy)
      obtain ⟨y, hy, h2, h3⟩ := ih u v huv hc (fun y hy h2 => hd y hy (by simp [hne y hy, h2])) h
      exact ⟨y, hy, by simp [hne y hy, h2], h3⟩

/-- Between two points with different values the derivative has the sign of the difference. -/
def Slopes (f g : ℝ → ℝ) (a b : ℝ) : Prop :=
  ∀ u v, a ≤ u → u < v → v ≤ b → f u ≠ f v → ∃ y, u < y ∧ y < v ∧ 0 < g y * (f v - f u)

theorem spl_slopes (hT : Knots T e) (hs : Simple T e) (p M : ℕ) (c : ℕ → ℝ) (hc : ∀ j, M ≤ j → c j = 0) :
    Slopes (spl T e (p + 1) M c) (spl T e p (M + 1) (dc T p c)) (T 0) (T (e + 1)) := by
  intro u v hu huv hv hne
  have hS : ∀ y, y ∉ (range (e + 2)).image T → ∀ i, T i ≠ y := by
    intro y hy i hi
    apply hy
    rw [mem_image]
    rcases le_or_gt i e with h | h
    · exact ⟨i, mem_range.2 (by omega), hi⟩
    · exact ⟨e + 1, mem_range.2 (by omega), by rw [← hT.stop i h, hi]⟩
  have hcont := (spl_cont hT hs p M c).mono (Set.Icc_subset_Icc hu hv)
  rcases lt_or_gt_of_ne hne with h | h
  · obtain ⟨y, hy, -, h3⟩ := rise _ (spl T e p (M + 1) (dc T p c)) ((range (e + 2)).image T) u v huv hcont
      (fun y _ h2 => spl_deriv hT p M c hc y (hS y h2)) h
    exact ⟨y, hy.1, hy.2, mul_pos h3 (by linarith)⟩
  · obtain ⟨y, hy, -, h3⟩ := rise (fun y => -spl T e (p + 1) M c y) (fun y => -spl T e p (M + 1) (dc T p c) y)
      ((range (e + 2)).image T) u v huv hcont.neg
      (fun y _ h2 => (spl_deriv hT p M c hc y (hS y h2)).fun_neg) (by simpa using h)
    exact ⟨y, hy.1, hy.2, mul_pos_of_neg_of_neg (by linarith) (by linarith)⟩

/-! ## Changes of sign -/

/-- A list of ascending points where a function has alternating signs. -/
def Alt (f : ℝ → ℝ) : List ℝ → Prop
  | [] => True
  | [x] => f x ≠ 0
  | x :: y :: l => x < y ∧ f x * f y < 0 ∧ Alt f (y :: l)

theorem Alt.head {f : ℝ → ℝ} {x : ℝ} {l : List ℝ} (h : Alt f (x :: l)) : f x ≠ 0 := by
  cases l with
  | nil => exact h
  | cons y l => exact left_ne_zero_of_mul h.2.1.ne

theorem Alt.cons {f : ℝ → ℝ} {x : ℝ} {l : List ℝ} (h : Alt f l) (hx : f x ≠ 0) (h2 : ∀ y ∈ l.head?, x < y ∧ f x * f y < 0) :
    Alt f (x :: l) := by
  cases l with
  | nil => exact hx
  | cons y l => exact ⟨(h2 y rfl).1, (h2 y rfl).2, h⟩

theorem opp {a b c : ℝ} (h1 : 0 < a * c) (h2 : b * c < 0) : a * b < 0 := by
  have h3 : (a * c) * (b * c) < 0 := mul_neg_of_pos_of_neg h1 h2
  have h4 : (a * c) * (b * c) = (a * b) * (c * c) := by ring
  rw [h4] at h3
  by_contra h5
  exact absurd h3 (not_lt.2 (mul_nonneg (not_lt.1 h5) (mul_self_nonneg c)))

theorem same {a b c : ℝ} (h1 : 0 < a * c) (h2 : 0 < b * c) : 0 < a * b := by
  have h3 : 0 < (a * c) * (b * c) := mul_pos h1 h2
  have h4 : (a * c) * (b * c) = (a * b) * (c * c) := by ring
  rw [h4] at h3
  by_contra h5
  exact absurd h3 (not_lt.2 (mul_nonpos_of_nonpos_of_nonneg (not_lt.1 h5) (mul_self_nonneg c)))

theorem alt_slopes (f g : ℝ → ℝ) (a b : ℝ) (hS : Slopes f g a b) (R : ℕ)
    (hR : R = 0 ∨ (R = 1 ∧ ∀ x, a ≤ x → x ≤ b → f x ≠ 0 → ∃ w, x < w ∧ w ≤ b ∧ f w = 0)) (l : List ℝ) :
    ∀ x, Alt f (x :: l) → (∀ y ∈ x :: l, a ≤ y ∧ y ≤ b) →
      ∃ ys : List ℝ, ys.length = l.length + R ∧ Alt g ys ∧ (∀ y ∈ ys, x < y ∧ y ≤ b) ∧ ∀ y ∈ ys.head?, g y * f x < 0 := by
  induction l with
  | nil =>
    intro x hx hm
    rcases hR with rfl | ⟨rfl, hR⟩
    · exact ⟨[], rfl, trivial, by simp, by simp⟩
    · obtain ⟨w, h1, h2, h3⟩ := hR x (hm x (by simp)).1 (hm x (by simp)).2 hx.head
      obtain ⟨y, h4, h5, h6⟩ := hS x w (hm x (by simp)).1 h1 h2 (by rw [h3]; exact hx.head)
      rw [h3, zero_sub] at h6
      refine ⟨[y], rfl, left_ne_zero_of_mul h6.ne', by simpa using ⟨h4, h5.le.trans h2⟩, ?_⟩
      simp only [List.head?_cons, Option.mem_some_iff, forall_eq']
      linarith
  | cons z l ih =>
    intro x hx hm
    obtain ⟨ys, h1, h2, h3, h4⟩ := ih z hx.2.2 fun y hy => hm y (List.mem_cons_of_mem _ hy)
    have hne : f x ≠ f z := by
      intro h
      have := hx.2.1
      rw [h] at this
      exact absurd this (not_lt.2 (mul_self_nonneg _))
    obtain ⟨y, h5, h6, h7⟩ := hS x z (hm x (by simp)).1 hx.1 (hm z (by simp)).2 hne
    have h8 : 0 < g y * f z := by
      rcases lt_or_gt_of_ne (Alt.head hx.2.2) with h | h
      · have : 0 < f x := by
          by_contra h9
          exact absurd hx.2.1 (not_lt.2 (mul_nonneg_of_nonpos_of_nonpos (not_lt.1 h9) h.le))
        exact mul_pos_of_neg_of_neg (neg_of_mul_pos_left h7 (by linarith)) h
      · have : f x < 0 := by
          by_contra h9
          exact absurd hx.2.1 (not_lt.2 (mul_nonneg (not_lt.1 h9) h.le))
        exact mul_pos ((pos_iff_pos_of_mul_pos h7).2 (by linarith)) h
    refine ⟨y :: ys, by simp [h1]; ring, h2.cons (left_ne_zero_of_mul h7.ne') ?_, ?_, ?_⟩
    · intro w hw
      exact ⟨h6.trans (h3 w (List.mem_of_mem_head? hw)).1, opp h8 (h4 w hw)⟩
    · intro w hw
      rcases List.mem_cons.1 hw with rfl | hw
      · exact ⟨h5, h6.le.trans (hm z (by simp)).2⟩
      · exact ⟨hx.1.trans (h3 w hw).1, (h3 w hw).2⟩
    · simp only [List.head?_cons, Option.mem_some_iff, forall_eq']
      have := opp h8 hx.2.1
      exact this

/-! ## Ends of a block -/

theorem top (hT : Knots T e) (i : ℕ) : T i ≤ T (e + 1) := by
  rcases le_or_gt i e with h | h
  · exact hT.mono (by omega)
  · exact (hT.stop i h).le

theorem term (p M : ℕ) (c : ℕ → ℝ) (x : ℝ) (h : spl T e p M c x ≠ 0) :
    ∃ j < M, c j ≠ 0 ∧ cox T (zeroth T e x) x p j ≠ 0 := by
  obtain ⟨j, hj, h2⟩ := exists_ne_zero_of_sum_ne_zero h
  exact ⟨j, mem_range.1 hj, left_ne_zero_of_mul h2, right_ne_zero_of_mul h2⟩

theorem start_zero (hT : Knots T e) (p : ℕ) : ∀ j, T j < T (j + p + 1) →
    cox T (zeroth T e (T j)) (T j) (p + 1) j = 0 := by
  have key : ∀ p j x, T j = x → x < T (j + p + 1) → cox T (zeroth T e x) x (p + 1) j = 0 := by
    intro p
    induction p with
    | zero =>
      intro j x hj h
      have h2 : cox T (zeroth T e x) x 0 (j + 1) = 0 := by
        by_contra h3
        exact absurd (support hT x 0 (j + 1) h3).2.1 (not_le.2 h)
      rw [cox, h2, hj, sub_self, zero_div, zero_mul, mul_zero, add_zero]
    | succ p ih =>
      intro j x hj h
      have h2 : cox T (zeroth T e x) x (p + 1) (j + 1) = 0 := by
        rcases (hT.mono (show j ≤ j + 1 by omega)).lt_or_eq with h3 | h3
        · by_contra h4
          exact absurd (support hT x (p + 1) (j + 1) h4).2.1 (not_le.2 (by rw [← hj]; exact h3))
        · exact ih (j + 1) x (by rw [← h3, hj]) (by rw [show j + 1 + p + 1 = j + (p + 1) + 1 by ring]; exact h)
      rw [cox, h2, hj, sub_self, zero_div, zero_mul, mul_zero, add_zero]
  exact fun j h => key p j (T j) rfl h

/-- The coefficients that play a role are those of a block. -/
def Block (T : ℕ → ℝ) (p M : ℕ) (c : ℕ → ℝ) (r s : ℕ) : Prop :=
  (∀ j, M ≤ j → c j = 0) ∧ ∀ j, c j ≠ 0 → T j < T (j + p + 1) → r ≤ j ∧ j ≤ s

theorem block_left (hT : Knots T e) (p M : ℕ) (c : ℕ → ℝ) (r s : ℕ) (hb : Block T (p + 1) M c r s)
    (h : T r < T (r + p + 1)) : spl T e (p + 1) M c (T r) = 0 := by
  by_contra hne
  obtain ⟨j, -, h1, h2⟩ := term (p + 1) M c _ hne
  obtain ⟨h3, h4, -, -⟩ := support hT _ _ _ h2
  obtain ⟨h5, -⟩ := hb.2 j h1 h3
  have h6 : T j = T r := le_antisymm h4 (hT.mono h5)
  apply h2
  rw [← h6]
  exact start_zero hT p j (by rw [h6]; exact h.trans_le (hT.mono (by omega)))

theorem block_right (hT : Knots T e) (p M : ℕ) (c : ℕ → ℝ) (r s : ℕ) (hb : Block T (p + 1) M c r s)
    (h : T (s + 1) < T (s + p + 2)) : spl T e (p + 1) M c (T (s + p + 2)) = 0 := by
  by_contra hne
  obtain ⟨j, -, h1, h2⟩ := term (p + 1) M c _ hne
  obtain ⟨h3, -, -, h4⟩ := support hT _ _ _ h2
  obtain ⟨-, h5⟩ := hb.2 j h1 h3
  rcases h4 with h4 | h4
  · exact absurd (hT.mono (show j + (p + 1) + 1 ≤ s + p + 2 by omega)) (not_le.2 h4)
  · rw [h4] at h2
    have h6 := right_end hT (p + 1) j h2
    rw [hT.stop (s + 1) (by omega), hT.stop (s + p + 2) (by omega)] at h
    exact lt_irrefl _ h

theorem block_inside (hT : Knots T e) (p M : ℕ) (c : ℕ → ℝ) (r s : ℕ) (hb : Block T p M c r s) (x : ℝ)
    (h : spl T e p M c x ≠ 0) : T r ≤ x ∧ x ≤ T (s + p + 1) := by
  obtain ⟨j, -, h1, h2⟩ := term p M c _ h
  obtain ⟨h3, h4, h5, -⟩ := support hT _ _ _ h2
  obtain ⟨h6, h7⟩ := hb.2 j h1 h3
  exact ⟨(hT.mono h6).trans h4, h5.trans (hT.mono (by omega))⟩

open Classical in
/-- The block of the derivative. -/
theorem block_deriv (hT : Knots T e) (p M : ℕ) (c : ℕ → ℝ) (r s : ℕ) (hb : Block T (p + 1) M c r s) (hrs : r ≤ s)
    (hr : T r < T (r + p + 2)) (hs : T s < T (s + p + 2)) :
    ∃ L R : ℕ, (L = 0 ∨ (L = 1 ∧ T r < T (r + p + 1))) ∧ (R = 0 ∨ (R = 1 ∧ T (s + 1) < T (s + p + 2))) ∧
      ∃ r' s', r' + L = r + 1 ∧ s' = s + R ∧ r' ≤ s' ∧ T r' < T (r' + p + 1) ∧ T s' < T (s' + p + 1) ∧
        Block T p (M + 1) (dc T p c) r' s' := by
  have key : ∀ j, dc T p c j ≠ 0 → T j < T (j + p + 1) → r ≤ j ∧ j ≤ s + 1 := by
    intro j h1 h2
    have h3 := hT.mono (show j + p + 1 ≤ j + (p + 1) + 1 by omega)
    cases j with
    | zero =>
      have h4 := hb.2 0 (right_ne_zero_of_mul h1) (h2.trans_le h3)
      exact ⟨h4.1, by omega⟩
    | succ j =>
      have h4 : c (j + 1) ≠ 0 ∨ c j ≠ 0 := by
        by_contra h5
        push Not at h5
        exact h1 (by rw [dc, h5.1, h5.2, sub_zero, mul_zero])
      rcases h4 with h4 | h4
      · have := hb.2 (j + 1) h4 (h2.trans_le h3)
        omega
      · have := hb.2 j h4 ((hT.mono (show j ≤ j + 1 by omega)).trans_lt
          (by rw [show j + (p + 1) + 1 = j + 1 + p + 1 by ring]; exact h2))
        omega
  have hM : ∀ j, M + 1 ≤ j → dc T p c j = 0 := by
    intro j hj
    obtain ⟨k, rfl⟩ : ∃ k, j = k + 1 := ⟨j - 1, by omega⟩
    rw [dc, hb.1 _ (by omega), hb.1 _ (by omega), sub_zero, mul_zero]
  by_cases hL : T r < T (r + p + 1) <;> by_cases hR : T (s + 1) < T (s + p + 2)
  · refine ⟨1, 1, Or.inr ⟨rfl, hL⟩, Or.inr ⟨rfl, hR⟩, r, s + 1, rfl, rfl, by omega, hL,
      by rw [show s + 1 + p + 1 = s + p + 2 by ring]; exact hR, hM, key⟩
  · refine ⟨1, 0, Or.inr ⟨rfl, hL⟩, Or.inl rfl, r, s, rfl, rfl, by omega, hL, ?_, hM, ?_⟩
    · exact lt_of_lt_of_le (hs.trans_le (not_lt.1 hR)) (hT.mono (by omega))
    · intro j h1 h2
      have h3 := key j h1 h2
      refine ⟨h3.1, ?_⟩
      by_contra h4
      have h5 : j = s + 1 := by omega
      subst h5
      exact hR (by rw [show s + p + 2 = s + 1 + p + 1 by ring]; exact h2)
  · refine ⟨0, 1, Or.inl rfl, Or.inr ⟨rfl, hR⟩, r + 1, s + 1, rfl, rfl, by omega, ?_,
      by rw [show s + 1 + p + 1 = s + p + 2 by ring]; exact hR, hM, ?_⟩
    · rw [show r + 1 + p + 1 = r + p + 2 by ring]
      exact lt_of_le_of_lt ((hT.mono (by omega)).trans (not_lt.1 hL)) hr
    · intro j h1 h2
      have h3 := key j h1 h2
      refine ⟨?_, h3.2⟩
      by_contra h4
      have h5 : j = r := by omega
      subst h5
      exact hL h2
  · have hl2 : T (r + 1) < T (r + p + 2) := lt_of_le_of_lt ((hT.mono (by omega)).trans (not_lt.1 hL)) hr
    have hlt : r < s := by
      by_contra h1
      have h2 : r = s := by omega
      subst h2
      exact hR hl2
    refine ⟨0, 0, Or.inl rfl, Or.inl rfl, r + 1, s, rfl, rfl, by omega,
      by rw [show r + 1 + p + 1 = r + p + 2 by ring]; exact hl2,
      lt_of_lt_of_le (hs.trans_le (not_lt.1 hR)) (hT.mono (by omega)), hM, ?_⟩
    intro j h1 h2
    have h3 := key j h1 h2
    constructor
    · by_contra h4
      have h5 : j = r := by omega
      subst h5
      exact hL h2
    · by_contra h4
      have h5 : j = s + 1 := by omega
      subst h5
      exact hR (by rw [show s + p + 2 = s + 1 + p + 1 by ring]; exact h2)

theorem zeroth_one (x : ℝ) (j : ℕ) (h : zeroth T e x j ≠ 0) :
    zeroth T e x j = 1 ∧ T j ≤ x ∧ (x < T (j + 1) ∨ (j = e ∧ x = T (j + 1))) := by
  rw [zeroth] at h ⊢
  by_cases h1 : T j ≤ x ∧ (x < T (j + 1) ∨ (j = e ∧ x = T (j + 1)))
  · rw [if_pos h1]
    exact ⟨rfl, h1⟩
  · rw [if_neg h1] at h
    exact absurd rfl h

theorem zeroth_le (hT : Knots T e) (x y : ℝ) (hxy : x ≤ y) (j k : ℕ) (hj : zeroth T e x j ≠ 0) (hk : zeroth T e y k ≠ 0) :
    j ≤ k := by
  obtain ⟨-, h1, h2⟩ := zeroth_one x j hj
  obtain ⟨-, h3, h4⟩ := zeroth_one y k hk
  by_contra h5
  have h6 := hT.mono (show k + 1 ≤ j by omega)
  rcases h4 with h4 | ⟨rfl, h4⟩
  · linarith
  · rcases h2 with h2 | ⟨h2, -⟩
    · rw [hT.stop (j + 1) (by omega)] at h2
      linarith
    · omega

theorem spl_zeroth (hT : Knots T e) (M : ℕ) (c : ℕ → ℝ) (x : ℝ) (j : ℕ) (hj : j < M) (h : zeroth T e x j ≠ 0) :
    spl T e 0 M c x = c j := by
  rw [spl, sum_eq_single j]
  · rw [cox, (zeroth_one x j h).1, mul_one]
  · intro k _ hk
    by_cases h2 : zeroth T e x k = 0
    · rw [cox, h2, mul_zero]
    · exact absurd (le_antisymm (zeroth_le hT x x le_rfl k j h2 h) (zeroth_le hT x x le_rfl j k h h2)) hk
  · exact fun h2 => absurd (mem_range.2 hj) h2

theorem alt_zeroth (hT : Knots T e) (M : ℕ) (c : ℕ → ℝ) (r s : ℕ) (hb : Block T 0 M c r s) (l : List ℝ) :
    ∀ x j, Alt (spl T e 0 M c) (x :: l) → j < M → zeroth T e x j ≠ 0 → l.length + j ≤ s := by
  induction l with
  | nil =>
    intro x j h hj h2
    have h3 : c j ≠ 0 := by
      rw [← spl_zeroth hT M c x j hj h2]
      exact Alt.head h
    have := (hb.2 j h3 (support hT x 0 j h2).1).2
    simpa using this
  | cons y l ih =>
    intro x j h hj h2
    obtain ⟨k, hk, -, h3⟩ := term 0 M c y h.2.2.head
    have h4 := ih y k h.2.2 hk h3
    have h5 := zeroth_le hT x y h.1.le j k h2 h3
    have h6 : j ≠ k := by
      rintro rfl
      have := h.2.1
      rw [spl_zeroth hT M c x j hj h2, spl_zeroth hT M c y j hj h3] at this
      exact absurd this (not_lt.2 (mul_self_nonneg _))
    simp only [List.length_cons]
    omega

/-- A sum of functions of a block changes sign less often than there are functions. -/
theorem changes (hT : Knots T e) (hsm : Simple T e) (p : ℕ) : ∀ (M : ℕ) (c : ℕ → ℝ) (r s : ℕ) (l : List ℝ), r ≤ s →
    T r < T (r + p + 1) → T s < T (s + p + 1) → Block T p M c r s → Alt (spl T e p M c) l →
    (∀ x ∈ l, T 0 ≤ x ∧ x ≤ T (e + 1)) → l.length + r ≤ s + 1 := by
  induction p with
  | zero =>
    intro M c r s l hrs _ _ hb hl _
    cases l with
    | nil => simp; omega
    | cons x l =>
      obtain ⟨j, hj, h1, h2⟩ := term 0 M c x hl.head
      have h3 := alt_zeroth hT M c r s hb l x j hl hj h2
      have h4 := (hb.2 j h1 (support hT x 0 j h2).1).1
      simp only [List.length_cons]
      omega
  | succ p ih =>
    intro M c r s l hrs hr hs hb hl hm
    cases l with
    | nil => simp; omega
    | cons x l =>
      obtain ⟨L, R, hL, hR, r', s', e1, e2, h1, h2, h3, h4⟩ := block_deriv hT p M c r s hb hrs hr hs
      have hS := spl_slopes hT hsm p M c hb.1
      obtain ⟨ys, g1, g2, g3, g4⟩ := alt_slopes _ _ _ _ hS R (by
        rcases hR with rfl | ⟨rfl, hR⟩
        · exact Or.inl rfl
        · refine Or.inr ⟨rfl, fun x _ _ hx => ⟨T (s + p + 2), ?_, top hT _, block_right hT p M c r s hb hR⟩⟩
          refine lt_of_le_of_ne (block_inside hT _ M c r s hb x hx).2 fun h5 => hx ?_
          rw [h5]
          exact block_right hT p M c r s hb hR) l x hl hm
      have hx := hm x (by simp)
      rcases hL with rfl | ⟨rfl, hL⟩
      · have := ih (M + 1) _ r' s' ys h1 h2 h3 h4 g2 fun y hy => ⟨hx.1.trans (g3 y hy).1.le, (g3 y hy).2⟩
        simp only [List.length_cons]
        omega
      · have h0 := block_left hT p M c r s hb hL
        have hlt : T r < x := by
          refine lt_of_le_of_ne (block_inside hT _ M c r s hb x hl.head).1 fun h5 => hl.head ?_
          rw [← h5]
          exact h0
        obtain ⟨y, k1, k2, k3⟩ := hS (T r) x (hT.mono (Nat.zero_le r)) hlt hx.2 (by rw [h0]; exact hl.head.symm)
        rw [h0, sub_zero] at k3
        have h5 : Alt (spl T e p (M + 1) (dc T p c)) (y :: ys) :=
          g2.cons (left_ne_zero_of_mul k3.ne') fun w hw =>
            ⟨k2.trans (g3 w (List.mem_of_mem_head? hw)).1, opp k3 (g4 w hw)⟩
        have := ih (M + 1) _ r' s' (y :: ys) h1 h2 h3 h4 h5 (by
          intro w hw
          rcases List.mem_cons.1 hw with rfl | hw
          · exact ⟨(hT.mono (Nat.zero_le r)).trans k1.le, k2.le.trans hx.2⟩
          · exact ⟨hx.1.trans (g3 w hw).1.le, (g3 w hw).2⟩)
        simp only [List.length_cons] at this ⊢
        omega

/-! ## Zeros -/

theorem alt_add (g : ℝ → ℝ) (ys : List ℝ) (hne : ys ≠ []) (h : Alt g ys) (y1 y2 v : ℝ) (h1 : y1 < y2) (h2 : y2 < v)
    (hv : ∀ y ∈ ys, v < y) (h3 : g y1 * g y2 < 0) : ∃ y, (y = y1 ∨ y = y2) ∧ Alt g (y :: ys) := by
  obtain ⟨w, l, rfl⟩ : ∃ w l, ys = w :: l := by
    cases ys with
    | nil => exact absurd rfl hne
    | cons w l => exact ⟨w, l, rfl⟩
  have hw := hv w (by simp)
  have hw0 := h.head
  rcases lt_or_ge (g y2 * g w) 0 with h4 | h4
  · exact ⟨y2, Or.inr rfl, h2.trans hw, h4, h⟩
  · have h5 : 0 < g y2 * g w := lt_of_le_of_ne h4 (mul_ne_zero (right_ne_zero_of_mul h3.ne) hw0).symm
    refine ⟨y1, Or.inl rfl, h1.trans (h2.trans hw), ?_, h⟩
    have := opp (a := g w) (b := g y1) (c := g y2) (by linarith [mul_comm (g y2) (g w)]) h3
    linarith [mul_comm (g w) (g y1)]

theorem alt_zeros (f g : ℝ → ℝ) (a b w : ℝ) (hS : Slopes f g a b) (hw : w ≤ b)
    (hd : ∀ u v, a ≤ u → u < v → v ≤ w → ∃ q, u < q ∧ q < v ∧ f q ≠ 0) (R : ℕ) (hR : R = 0 ∨ (R = 1 ∧ f w = 0))
    (zs : List ℝ) : ∀ z, (z :: zs).Pairwise (· < ·) → (∀ y ∈ z :: zs, a ≤ y ∧ y < w ∧ f y = 0) →
      ∃ ys : List ℝ, ys.length = zs.length + 1 + R ∧ Alt g ys ∧ ∀ y ∈ ys, z < y ∧ y < w := by
  induction zs with
  | nil =>
    intro z _ hm
    obtain ⟨h1, h2, h3⟩ := hm z (by simp)
    obtain ⟨q, q1, q2, q3⟩ := hd z w h1 h2 le_rfl
    obtain ⟨y, k1, k2, k3⟩ := hS z q h1 q1 (q2.le.trans hw) (by rw [h3]; exact q3.symm)
    rw [h3, sub_zero] at k3
    rcases hR with rfl | ⟨rfl, hR⟩
    · exact ⟨[y], rfl, left_ne_zero_of_mul k3.ne', by simpa using ⟨k1, k2.trans q2⟩⟩
    · obtain ⟨y2, m1, m2, m3⟩ := hS q w (h1.trans q1.le) q2 hw (by rw [hR]; exact q3)
      rw [hR, zero_sub] at m3
      refine ⟨[y, y2], rfl, ⟨k2.trans m1, opp k3 (by linarith), right_ne_zero_of_mul (opp k3 (by linarith)).ne⟩, ?_⟩
      intro x hx
      simp only [List.mem_cons, List.not_mem_nil, or_false] at hx
      rcases hx with rfl | rfl
      · exact ⟨k1, k2.trans q2⟩
      · exact ⟨q1.trans m1, m2⟩
  | cons z2 zs ih =>
    intro z hp hm
    obtain ⟨h1, h2, h3⟩ := hm z (by simp)
    obtain ⟨-, h5, h6⟩ := hm z2 (by simp)
    have hz : z < z2 := (List.pairwise_cons.1 hp).1 z2 (by simp)
    obtain ⟨ys, g1, g2, g3⟩ := ih z2 (List.pairwise_cons.1 hp).2 fun y hy => hm y (List.mem_cons_of_mem _ hy)
    obtain ⟨q, q1, q2, q3⟩ := hd z z2 h1 hz h5.le
    obtain ⟨y, k1, k2, k3⟩ := hS z q h1 q1 (q2.le.trans (h5.le.trans hw)) (by rw [h3]; exact q3.symm)
    rw [h3, sub_zero] at k3
    obtain ⟨y2, m1, m2, m3⟩ := hS q z2 (h1.trans q1.le) q2 (h5.le.trans hw) (by rw [h6]; exact q3)
    rw [h6, zero_sub] at m3
    obtain ⟨x, hx, hA⟩ := alt_add g ys (by intro h; rw [h] at g1; simp at g1; omega) g2 y y2 z2 (k2.trans m1) m2
      (fun y hy => (g3 y hy).1) (opp k3 (by linarith))
    refine ⟨x :: ys, by simp [g1]; ring, hA, ?_⟩
    intro v hv
    rcases List.mem_cons.1 hv with rfl | hv
    · rcases hx with rfl | rfl
      · exact ⟨k1, k2.trans (q2.trans h5)⟩
      · exact ⟨q1.trans m1, m2.trans h5⟩
    · exact ⟨hz.trans (g3 v hv).1, (g3 v hv).2⟩

/-- A sum of functions of a block that is nowhere zero for a while has less zeros than there are functions. -/
theorem zeros (hT : Knots T e) (hsm : Simple T e) (p M : ℕ) (c : ℕ → ℝ) (r s : ℕ) (hrs : r ≤ s)
    (hr : T r < T (r + p + 2)) (hs : T s < T (s + p + 2)) (hb : Block T (p + 1) M c r s) (z : ℝ) (zs : List ℝ)
    (hp : (z :: zs).Pairwise (· < ·))
    (hz : ∀ y ∈ z :: zs, T r < y ∧ y < T (s + p + 2) ∧ spl T e (p + 1) M c y = 0)
    (hd : ∀ u v, T r ≤ u → u < v → v ≤ T (s + p + 2) → ∃ q, u < q ∧ q < v ∧ spl T e (p + 1) M c q ≠ 0) :
    (z :: zs).length + r ≤ s := by
  obtain ⟨L, R, hL, hR, r', s', e1, e2, h1, h2, h3, h4⟩ := block_deriv hT p M c r s hb hrs hr hs
  have h0r := hT.mono (Nat.zero_le r)
  have hS : Slopes (spl T e (p + 1) M c) (spl T e p (M + 1) (dc T p c)) (T r) (T (e + 1)) :=
    fun u v hu => spl_slopes hT hsm p M c hb.1 u v (h0r.trans hu)
  obtain ⟨ys, g1, g2, g3⟩ := alt_zeros _ _ (T r) (T (e + 1)) (T (s + p + 2)) hS (top hT _) hd R (by
    rcases hR with rfl | ⟨rfl, hR⟩
    · exact Or.inl rfl
    · exact Or.inr ⟨rfl, block_right hT p M c r s hb hR⟩) zs z hp fun y hy => ⟨(hz y hy).1.le, (hz y hy).2⟩
  obtain ⟨i1, i2, i3⟩ := hz z (by simp)
  have hin : ∀ y ∈ ys, T 0 ≤ y ∧ y ≤ T (e + 1) := fun y hy =>
    ⟨h0r.trans (i1.le.trans (g3 y hy).1.le), (g3 y hy).2.le.trans (top hT _)⟩
  rcases hL with rfl | ⟨rfl, hL⟩
  · have := changes hT hsm p (M + 1) _ r' s' ys h1 h2 h3 h4 g2 hin
    simp only [List.length_cons]
    omega
  · have h0 := block_left hT p M c r s hb hL
    obtain ⟨q, q1, q2, q3⟩ := hd (T r) z le_rfl i1 i2.le
    obtain ⟨y, k1, k2, k3⟩ := hS (T r) q le_rfl q1 (q2.le.trans (i2.le.trans (top hT _))) (by rw [h0]; exact q3.symm)
    rw [h0, sub_zero] at k3
    obtain ⟨y2, m1, m2, m3⟩ := hS q z q1.le q2 (i2.le.trans (top hT _)) (by rw [i3]; exact q3)
    rw [i3, zero_sub] at m3
    obtain ⟨x, hx, hA⟩ := alt_add _ ys (by intro h; rw [h] at g1; simp at g1; omega) g2 y y2 z (k2.trans m1) m2
      (fun y hy => (g3 y hy).1) (opp k3 (by linarith))
    have := changes hT hsm p (M + 1) _ r' s' (x :: ys) h1 h2 h3 h4 hA (by
      intro v hv
      rcases List.mem_cons.1 hv with rfl | hv
      · rcases hx with rfl | rfl
        · exact ⟨h0r.trans k1.le, k2.le.trans (q2.le.trans (i2.le.trans (top hT _)))⟩
        · exact ⟨h0r.trans (q1.le.trans m1.le), m2.le.trans (i2.le.trans (top hT _))⟩
      · exact hin v hv)
    simp only [List.length_cons] at this ⊢
    omega

/-! ## Local independence -/

/-- Where a sum of functions is zero for a while, the coefficients of all functions there are zero. -/
theorem local_zero (hT : Knots T e) (P : ℕ) (hP : T P = T 0) (p : ℕ) (hpP : p ≤ P) : ∀ (M : ℕ) (c : ℕ → ℝ) (i : ℕ)
    (u v : ℝ), e < M → p ≤ i → T i ≤ u → u < v → v ≤ T (i + 1) → (∀ j, M ≤ j → c j = 0) →
    (∀ x, u < x → x < v → spl T e p M c x = 0) → ∀ j, i ≤ j + p → j ≤ i → c j = 0 := by
  induction p with
  | zero =>
    intro M c i u v hM _ hu huv hv hc hz j h1 h2
    obtain rfl : j = i := by omega
    rcases lt_or_ge j M with h3 | h3
    · have h4 : zeroth T e ((u + v) / 2) j ≠ 0 := by
        rw [zeroth, if_pos ⟨by linarith, Or.inl (by linarith)⟩]
        exact one_ne_zero
      rw [← spl_zeroth hT M c _ j h3 h4]
      exact hz _ (by linarith) (by linarith)
    · exact hc j h3
  | succ p ih =>
    intro M c i u v hM hpi hu huv hv hc hz
    have hnk : ∀ x, u < x → x < v → ∀ k, T k ≠ x := by
      intro x h1 h2 k h3
      rcases le_or_gt k i with h4 | h4
      · have := hT.mono h4
        linarith
      · have := hT.mono (show i + 1 ≤ k by omega)
        linarith
    have hz2 : ∀ x, u < x → x < v → spl T e p (M + 1) (dc T p c) x = 0 := by
      intro x h1 h2
      have h3 := spl_deriv hT p M c hc x (hnk x h1 h2)
      have h4 : (fun _ => (0 : ℝ)) =ᶠ[nhds x] spl T e (p + 1) M c := by
        filter_upwards [lt_mem_nhds h1, gt_mem_nhds h2] with y hy1 hy2
        exact (hz y hy1 hy2).symm
      exact (h3.congr_of_eventuallyEq h4).unique (hasDerivAt_const x (0 : ℝ))
    have hD := ih (by omega) (M + 1) (dc T p c) i u v (by omega) (by omega) hu huv hv (by
      intro j hj
      obtain ⟨k, rfl⟩ : ∃ k, j = k + 1 := ⟨j - 1, by omega⟩
      rw [dc, hc _ (by omega), hc _ (by omega), sub_zero, mul_zero]) hz2
    have hlt : T i < T (i + 1) := by linarith
    have hstep : ∀ j, i ≤ j + p + 1 → j < i → c j = c (j + 1) := by
      intro j h1 h2
      have h3 := hD (j + 1) (by omega) (by omega)
      rw [dc] at h3
      have h4 := hT.mono (show j + 1 ≤ i by omega)
      have h5 := hT.mono (show i + 1 ≤ j + p + 2 by omega)
      have h6 : (p + 1 : ℝ) / (T (j + p + 2) - T (j + 1)) ≠ 0 :=
        (div_pos (by positivity) (by linarith)).ne'
      have := (mul_eq_zero.1 h3).resolve_left h6
      linarith
    have hconst : ∀ k j, j + k = i → i ≤ j + p + 1 → c j = c i := by
      intro k
      induction k with
      | zero => intro j h1 _; rw [← h1]; rfl
      | succ k ihk => intro j h1 h2; rw [hstep j h2 (by omega), ihk (j + 1) (by omega) (by omega)]
    have hci : c i = 0 := by
      have h1 : u < (u + v) / 2 := by linarith
      have h2 : (u + v) / 2 < v := by linarith
      generalize hx : (u + v) / 2 = x at h1 h2
      have h3 := hz x h1 h2
      have hpz : T (p + 1) = T 0 := le_antisymm (hP ▸ hT.mono hpP) (hT.mono (Nat.zero_le _))
      have h4 := unity hT x ((hT.mono (Nat.zero_le i)).trans (hu.trans h1.le)) (h2.le.trans (hv.trans (top hT _)))
        (p + 1) hpz M hM
      have h5 : spl T e (p + 1) M c x = c i * ∑ j ∈ range M, cox T (zeroth T e x) x (p + 1) j := by
        rw [spl, mul_sum]
        apply sum_congr rfl
        intro j _
        by_cases h6 : cox T (zeroth T e x) x (p + 1) j = 0
        · rw [h6, mul_zero, mul_zero]
        · obtain ⟨-, a1, a2, -⟩ := support hT x (p + 1) j h6
          have b1 : j ≤ i := by
            by_contra h7
            have := hT.mono (show i + 1 ≤ j by omega)
            linarith
          have b2 : i ≤ j + p + 1 := by
            by_contra h7
            have := hT.mono (show j + (p + 1) + 1 ≤ i by omega)
            linarith
          rw [hconst (i - j) j (by omega) b2]
      rw [h5, h4, mul_one] at h3
      exact h3
    intro j h1 h2
    rw [hconst (i - j) j (by omega) (by omega), hci]

/-! ## Interpolation -/

theorem interval (hT : Knots T e) (x : ℝ) (h0 : T 0 ≤ x) (h1 : x < T (e + 1)) : ∃ i, T i ≤ x ∧ x < T (i + 1) := by
  classical
  have hex : ∃ i, x < T (i + 1) := ⟨e, h1⟩
  refine ⟨Nat.find hex, ?_, Nat.find_spec hex⟩
  rcases Nat.eq_zero_or_pos (Nat.find hex) with h | h
  · rw [h]
    exact h0
  · have := Nat.find_min hex (show Nat.find hex - 1 < Nat.find hex by omega)
    rw [show Nat.find hex - 1 + 1 = Nat.find hex by omega] at this
    exact not_lt.1 this

/-- The theorem of Schoenberg and Whitney: a sum of functions that is zero at a site inside the range of each of them is
zero altogether. -/
theorem whitney (hT : Knots T e) (hsm : Simple T e) (p : ℕ) (hP : T (p + 1) = T 0) (τ : ℕ → ℝ)
    (hτ : ∀ i j, i < j → j ≤ e → τ i < τ j) (c : ℕ → ℝ) (hin : ∀ i, c i ≠ 0 → T i < τ i ∧ τ i < T (i + p + 2))
    (hc : ∀ j, e + 1 ≤ j → c j = 0) (hz : ∀ i, i ≤ e → spl T e (p + 1) (e + 1) c (τ i) = 0) (j : ℕ) : c j = 0 := by
  classical
  by_contra hj
  have hex : ∃ r, c r ≠ 0 := ⟨j, hj⟩
  obtain ⟨r, hr, hrmin⟩ : ∃ r, c r ≠ 0 ∧ ∀ k < r, c k = 0 :=
    ⟨Nat.find hex, Nat.find_spec hex, fun k hk => not_not.1 (Nat.find_min hex hk)⟩
  have hub : ∀ k, c k ≠ 0 → k ≤ e := by
    intro k hk
    by_contra h
    exact hk (hc k (by omega))
  have hex2 : ∃ s, r ≤ s ∧ c s ≠ 0 ∧ ∀ k, s < k → k < s + p + 2 → c k = 0 := by
    have hg := Nat.findGreatest_spec (P := fun k => c k ≠ 0) (hub r hr) hr
    refine ⟨Nat.findGreatest (fun k => c k ≠ 0) e, Nat.le_findGreatest (hub r hr) hr, hg, ?_⟩
    intro k hk _
    by_contra h
    exact Nat.findGreatest_is_greatest hk (hub k h) h
  obtain ⟨s, ⟨hrs, hs, hsgap⟩, hsmin⟩ : ∃ s, (r ≤ s ∧ c s ≠ 0 ∧ ∀ k, s < k → k < s + p + 2 → c k = 0) ∧
      ∀ m < s, ¬ (r ≤ m ∧ c m ≠ 0 ∧ ∀ k, m < k → k < m + p + 2 → c k = 0) :=
    ⟨Nat.find hex2, Nat.find_spec hex2, fun m hm => Nat.find_min hex2 hm⟩
  have re := hub r hr
  have se := hub s hs
  -- the block
  let d : ℕ → ℝ := fun k => if k ≤ s then c k else 0
  have hdc : ∀ k, k ≤ s → d k = c k := fun k hk => if_pos hk
  have hd0 : ∀ k, s < k → d k = 0 := fun k hk => if_neg (by omega)
  have hb : Block T (p + 1) (e + 1) d r s := by
    constructor
    · exact fun k hk => hd0 k (by omega)
    · intro k hk _
      constructor
      · by_contra h
        exact hk (by rw [hdc k (by omega), hrmin k (by omega)])
      · by_contra h
        exact hk (hd0 k (by omega))
  have heq : ∀ x, x < T (s + p + 2) → spl T e (p + 1) (e + 1) d x = spl T e (p + 1) (e + 1) c x := by
    intro x hx
    apply sum_congr rfl
    intro k _
    rcases Nat.lt_or_ge s k with h1 | h1
    · rw [hd0 k h1, zero_mul]
      rcases Nat.lt_or_ge k (s + p + 2) with h2 | h2
      · rw [hsgap k h1 h2, zero_mul]
      · have : cox T (zeroth T e x) x (p + 1) k = 0 := by
          by_contra h3
          have h4 := (support hT x (p + 1) k h3).2.1
          have h5 := hT.mono h2
          linarith
        rw [this, mul_zero]
    · rw [hdc k h1]
  have hle : ∀ k, r ≤ k → k ≤ s → T r < τ k ∧ τ k < T (s + p + 2) := by
    intro k h1 h2
    have le : ∀ i j, i ≤ j → j ≤ e → τ i ≤ τ j := by
      intro i j hij hj
      rcases hij.lt_or_eq with h | rfl
      · exact (hτ i j h hj).le
      · exact le_rfl
    exact ⟨(hin r hr).1.trans_le (le r k h1 (by omega)), (le k s h2 se).trans_lt (hin s hs).2⟩
  -- nowhere zero for a while
  have hd : ∀ u v, T r ≤ u → u < v → v ≤ T (s + p + 2) → ∃ q, u < q ∧ q < v ∧ spl T e (p + 1) (e + 1) d q ≠ 0 := by
    intro u v hu huv hv
    by_contra hno
    push Not at hno
    have hx1 : u < (u + v) / 2 := by linarith
    have hx2 : (u + v) / 2 < v := by linarith
    generalize (u + v) / 2 = x at hx1 hx2
    obtain ⟨i, i1, i2⟩ := interval hT x ((hT.mono (Nat.zero_le r)).trans (hu.trans hx1.le))
      (hx2.trans_le (hv.trans (top hT _)))
    have hpi : p + 1 ≤ i := by
      by_contra h
      have h2 := hT.mono (show i + 1 ≤ p + 1 by omega)
      have h3 := hT.mono (Nat.zero_le r)
      linarith
    have hri : r ≤ i := by
      by_contra h
      have h2 := hT.mono (show i + 1 ≤ r by omega)
      linarith
    have his : i < s + p + 2 := by
      by_contra h
      have h2 := hT.mono (show s + p + 2 ≤ i by omega)
      linarith
    have hall := local_zero hT (p + 1) hP (p + 1) le_rfl (e + 1) d i x (min v (T (i + 1))) (by omega) hpi i1
      (lt_min hx2 i2) (min_le_right _ _) hb.1 fun y h1 h2 => hno y (hx1.trans h1) (h2.trans_le (min_le_left _ _))
    rcases Nat.lt_or_ge (r + (p + 1)) i with h1 | h1
    · rcases Nat.lt_or_ge i s with h2 | h2
      · -- a gap before the end
        have hg := Nat.findGreatest_spec (P := fun k => c k ≠ 0) (show r ≤ i by omega) hr
        have hgr := Nat.le_findGreatest (P := fun k => c k ≠ 0) (show r ≤ i by omega) hr
        have hgi := Nat.findGreatest_le (P := fun k => c k ≠ 0) i
        have hgx : ∀ k, Nat.findGreatest (fun k => c k ≠ 0) i < k → k ≤ i → c k = 0 := fun k a b =>
          not_not.1 (Nat.findGreatest_is_greatest a b)
        generalize Nat.findGreatest (fun k => c k ≠ 0) i = m at hg hgr hgi hgx
        have hm : m + (p + 1) < i := by
          by_contra h3
          exact hg (by rw [← hdc m (by omega)]; exact hall m (by omega) hgi)
        exact hsmin m (by omega) ⟨hgr, hg, fun k a b => hgx k a (by omega)⟩
      · exact hs (by rw [← hdc s le_rfl]; exact hall s (by omega) h2)
    · exact hr (by rw [← hdc r hrs]; exact hall r h1 hri)
  -- the sites
  have hlist : ((List.range (s - r + 1)).map fun k => τ (r + k)).Pairwise (· < ·) := by
    rw [List.pairwise_map]
    refine List.pairwise_lt_range.imp_of_mem ?_
    intro a b ha hb hab
    have := List.mem_range.1 hb
    exact hτ _ _ (by omega) (by omega)
  have hmem : ∀ y ∈ (List.range (s - r + 1)).map (fun k => τ (r + k)), T r < y ∧ y < T (s + p + 2) ∧
      spl T e (p + 1) (e + 1) d y = 0 := by
    intro y hy
    obtain ⟨k, hk, rfl⟩ := List.mem_map.1 hy
    have := List.mem_range.1 hk
    obtain ⟨a1, a2⟩ := hle (r + k) (by omega) (by omega)
    exact ⟨a1, a2, by rw [heq _ a2, hz _ (by omega)]⟩
  have hlen : ((List.range (s - r + 1)).map fun k => τ (r + k)).length = s - r + 1 := by simp
  generalize (List.range (s - r + 1)).map (fun k => τ (r + k)) = zs at hlist hmem hlen
  cases zs with
  | nil => simp at hlen
  | cons z zs =>
    obtain ⟨a1, a2⟩ := hin r hr
    obtain ⟨b1, b2⟩ := hin s hs
    have := zeros hT hsm p (e + 1) d r s hrs (a1.trans a2) (b1.trans b2) hb z zs hlist hmem hd
    omega

end BF.Cox
