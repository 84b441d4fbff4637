import Verif.Shapes
import Verif.Props.Kernels

/-!
# The shifted tophats add up to a constant
-/

namespace BF.Shapes

open BF.Kernels

theorem conv1_piece0 {x r : ℝ} (hr : |x| = r) (h0 : 0 ≤ r) (h1 : r < 1) :
    convResult 1 x = 1 - r := by
  simp only [convResult, hr]
  rw [if_pos h1]

theorem conv1_window {f : ℝ} (h0 : 0 ≤ f) (h1 : f < 1) :
    convResult 1 (f - 1) + convResult 1 f = 1 := by
  rcases h0.eq_or_lt with rfl | h0
  · norm_num [convResult, abs_of_nonneg, abs_of_neg]
  · rw [conv1_piece0 (x := (f - 1)) (abs_of_nonpos (by linarith)) (by linarith) (by linarith),
      conv1_piece0 (x := f) (abs_of_nonneg (by linarith)) (by linarith) (by linarith)]
    ring

theorem conv2_piece0 {x r : ℝ} (hr : |x| = r) (h0 : 0 ≤ r) (h1 : r < 0.5) :
    convResult 2 x = (3 - 4 * r ^ 2) / 3 := by
  simp only [convResult, hr]
  rw [if_pos (show r < 1.5 by norm_num at h0 h1 ⊢; linarith), if_pos (show r < 0.5 by norm_num at h0 h1 ⊢; linarith)]
  try ring

theorem conv2_piece1 {x r : ℝ} (hr : |x| = r) (h0 : 0.5 ≤ r) (h1 : r < 1.5) :
    convResult 2 x = (9 - 12 * r + 4 * r ^ 2) / 6 := by
  simp only [convResult, hr]
  rw [if_pos (show r < 1.5 by norm_num at h0 h1 ⊢; linarith), if_neg (show ¬ r < 0.5 by norm_num at h0 h1 ⊢; linarith)]
  try ring

theorem conv2_window {f : ℝ} (h0 : -(1 / 2) ≤ f) (h1 : f < 1 / 2) :
    convResult 2 (f - 1) + convResult 2 f + convResult 2 (f + 1) = 4 / 3 := by
  rcases h0.eq_or_lt with rfl | h0
  · norm_num [convResult, abs_of_nonneg, abs_of_neg]
  · rw [conv2_piece1 (x := (f - 1)) (abs_of_nonpos (by linarith)) (by norm_num; linarith) (by norm_num; linarith),
      conv2_piece0 (x := f) rfl (abs_nonneg f) (by rw [abs_lt]; constructor <;> norm_num <;> linarith),
      conv2_piece1 (x := (f + 1)) (abs_of_nonneg (by linarith)) (by norm_num; linarith) (by norm_num; linarith)]
    rw [sq_abs]
    ring

theorem conv3_piece0 {x r : ℝ} (hr : |x| = r) (h0 : 0 ≤ r) (h1 : r < 1) :
    convResult 3 x = (4 - 6 * r ^ 2 + 3 * r ^ 3) / 4 := by
  simp only [convResult, hr]
  rw [if_pos (show r < 2 by norm_num at h0 h1 ⊢; linarith), if_pos (show r < 1 by norm_num at h0 h1 ⊢; linarith)]
  try ring

theorem conv3_piece1 {x r : ℝ} (hr : |x| = r) (h0 : 1 ≤ r) (h1 : r < 2) :
    convResult 3 x = (8 - 12 * r + 6 * r ^ 2 - r ^ 3) / 4 := by
  simp only [convResult, hr]
  rw [if_pos (show r < 2 by norm_num at h0 h1 ⊢; linarith), if_neg (show ¬ r < 1 by norm_num at h0 h1 ⊢; linarith)]
  try ring

theorem conv3_window {f : ℝ} (h0 : 0 ≤ f) (h1 : f < 1) :
    convResult 3 (f - 2) + convResult 3 (f - 1) + convResult 3 f + convResult 3 (f + 1) = 3 / 2 := by
  rcases h0.eq_or_lt with rfl | h0
  · norm_num [convResult, abs_of_nonneg, abs_of_neg]
  · rw [conv3_piece1 (x := (f - 2)) (abs_of_nonpos (by linarith)) (by linarith) (by linarith),
      conv3_piece0 (x := (f - 1)) (abs_of_nonpos (by linarith)) (by linarith) (by linarith),
      conv3_piece0 (x := f) (abs_of_nonneg (by linarith)) (by linarith) (by linarith),
      conv3_piece1 (x := (f + 1)) (abs_of_nonneg (by linarith)) (by linarith) (by linarith)]
    ring

theorem conv4_piece0 {x r : ℝ} (hr : |x| = r) (h0 : 0 ≤ r) (h1 : r < 0.5) :
    convResult 4 x = (115 - 120 * r ^ 2 + 48 * r ^ 4) / 115 := by
  simp only [convResult, hr]
  rw [if_pos (show r < 2.5 by norm_num at h0 h1 ⊢; linarith), if_pos (show r < 0.5 by norm_num at h0 h1 ⊢; linarith)]
  try ring

theorem conv4_piece1 {x r : ℝ} (hr : |x| = r) (h0 : 0.5 ≤ r) (h1 : r < 1.5) :
    convResult 4 x = (55 + 20 * r - 120 * r ^ 2 + 80 * r ^ 3 - 16 * r ^ 4) * 2 / 115 := by
  simp only [convResult, hr]
  rw [if_pos (show r < 2.5 by norm_num at h0 h1 ⊢; linarith), if_neg (show ¬ r < 0.5 by norm_num at h0 h1 ⊢; linarith), if_pos (show r < 1.5 by norm_num at h0 h1 ⊢; linarith)]
  try ring

theorem conv4_piece2 {x r : ℝ} (hr : |x| = r) (h0 : 1.5 ≤ r) (h1 : r < 2.5) :
    convResult 4 x = (625 - 1000 * r + 600 * r ^ 2 - 160 * r ^ 3 + 16 * r ^ 4) / 230 := by
  simp only [convResult, hr]
  rw [if_pos (show r < 2.5 by norm_num at h0 h1 ⊢; linarith), if_neg (show ¬ r < 0.5 by norm_num at h0 h1 ⊢; linarith), if_neg (show ¬ r < 1.5 by norm_num at h0 h1 ⊢; linarith)]
  try ring

theorem conv4_window {f : ℝ} (h0 : -(1 / 2) ≤ f) (h1 : f < 1 / 2) :
    convResult 4 (f - 2) + convResult 4 (f - 1) + convResult 4 f + convResult 4 (f + 1) + convResult 4 (f + 2) = 192 / 115 := by
  rcases h0.eq_or_lt with rfl | h0
  · norm_num [convResult, abs_of_nonneg, abs_of_neg]
  · rw [conv4_piece2 (x := (f - 2)) (abs_of_nonpos (by linarith)) (by norm_num; linarith) (by norm_num; linarith),
      conv4_piece1 (x := (f - 1)) (abs_of_nonpos (by linarith)) (by norm_num; linarith) (by norm_num; linarith),
      conv4_piece0 (x := f) rfl (abs_nonneg f) (by rw [abs_lt]; constructor <;> norm_num <;> linarith),
      conv4_piece1 (x := (f + 1)) (abs_of_nonneg (by linarith)) (by norm_num; linarith) (by norm_num; linarith),
      conv4_piece2 (x := (f + 2)) (abs_of_nonneg (by linarith)) (by norm_num; linarith) (by norm_num; linarith)]
    rw [show |f| ^ 4 = f ^ 4 by rw [show (4 : ℕ) = 2 * 2 from rfl, pow_mul, sq_abs, pow_mul], sq_abs]
    ring

theorem conv5_piece0 {x r : ℝ} (hr : |x| = r) (h0 : 0 ≤ r) (h1 : r < 1) :
    convResult 5 x = (33 - 30 * r ^ 2 + 15 * r ^ 4 - 5 * r ^ 5) / 33 := by
  simp only [convResult, hr]
  rw [if_pos (show r < 3 by norm_num at h0 h1 ⊢; linarith), if_pos (show r < 1 by norm_num at h0 h1 ⊢; linarith)]
  try ring

theorem conv5_piece1 {x r : ℝ} (hr : |x| = r) (h0 : 1 ≤ r) (h1 : r < 2) :
    convResult 5 x = (51 + 75 * r - 210 * r ^ 2 + 150 * r ^ 3 - 45 * r ^ 4 + 5 * r ^ 5) / 66 := by
  simp only [convResult, hr]
  rw [if_pos (show r < 3 by norm_num at h0 h1 ⊢; linarith), if_neg (show ¬ r < 1 by norm_num at h0 h1 ⊢; linarith), if_pos (show r < 2 by norm_num at h0 h1 ⊢; linarith)]
  try ring

theorem conv5_piece2 {x r : ℝ} (hr : |x| = r) (h0 : 2 ≤ r) (h1 : r < 3) :
    convResult 5 x = (243 - 405 * r + 270 * r ^ 2 - 90 * r ^ 3 + 15 * r ^ 4 - r ^ 5) / 66 := by
  simp only [convResult, hr]
  rw [if_pos (show r < 3 by norm_num at h0 h1 ⊢; linarith), if_neg (show ¬ r < 1 by norm_num at h0 h1 ⊢; linarith), if_neg (show ¬ r < 2 by norm_num at h0 h1 ⊢; linarith)]
  try ring

theorem conv5_window {f : ℝ} (h0 : 0 ≤ f) (h1 : f < 1) :
    convResult 5 (f - 3) + convResult 5 (f - 2) + convResult 5 (f - 1) + convResult 5 f + convResult 5 (f + 1) + convResult 5 (f + 2) = 20 / 11 := by
  rcases h0.eq_or_lt with rfl | h0
  · norm_num [convResult, abs_of_nonneg, abs_of_neg]
  · rw [conv5_piece2 (x := (f - 3)) (abs_of_nonpos (by linarith)) (by linarith) (by linarith),
      conv5_piece1 (x := (f - 2)) (abs_of_nonpos (by linarith)) (by linarith) (by linarith),
      conv5_piece0 (x := (f - 1)) (abs_of_nonpos (by linarith)) (by linarith) (by linarith),
      conv5_piece0 (x := f) (abs_of_nonneg (by linarith)) (by linarith) (by linarith),
      conv5_piece1 (x := (f + 1)) (abs_of_nonneg (by linarith)) (by linarith) (by linarith),
      conv5_piece2 (x := (f + 2)) (abs_of_nonneg (by linarith)) (by linarith) (by linarith)]
    ring

theorem conv6_piece0 {x r : ℝ} (hr : |x| = r) (h0 : 0 ≤ r) (h1 : r < 0.5) :
    convResult 6 x = (5887 - 4620 * r ^ 2 + 1680 * r ^ 4 - 320 * r ^ 6) / 5887 := by
  simp only [convResult, hr]
  rw [if_pos (show r < 3.5 by norm_num at h0 h1 ⊢; linarith), if_pos (show r < 0.5 by norm_num at h0 h1 ⊢; linarith)]
  try ring

theorem conv6_piece1 {x r : ℝ} (hr : |x| = r) (h0 : 0.5 ≤ r) (h1 : r < 1.5) :
    convResult 6 x = (23583 - 420 * r - 16380 * r ^ 2 - 5600 * r ^ 3 + 15120 * r ^ 4 - 6720 * r ^ 5 + 960 * r ^ 6) / 23548 := by
  simp only [convResult, hr]
  rw [if_pos (show r < 3.5 by norm_num at h0 h1 ⊢; linarith), if_neg (show ¬ r < 0.5 by norm_num at h0 h1 ⊢; linarith), if_pos (show r < 1.5 by norm_num at h0 h1 ⊢; linarith)]
  try ring

theorem conv6_piece2 {x r : ℝ} (hr : |x| = r) (h0 : 1.5 ≤ r) (h1 : r < 2.5) :
    convResult 6 x = (4137 + 30408 * r - 59220 * r ^ 2 + 42560 * r ^ 3 - 15120 * r ^ 4 + 2688 * r ^ 5 - 192 * r ^ 6) / 11774 := by
  simp only [convResult, hr]
  rw [if_pos (show r < 3.5 by norm_num at h0 h1 ⊢; linarith), if_neg (show ¬ r < 0.5 by norm_num at h0 h1 ⊢; linarith), if_neg (show ¬ r < 1.5 by norm_num at h0 h1 ⊢; linarith), if_pos (show r < 2.5 by norm_num at h0 h1 ⊢; linarith)]
  try ring

theorem conv6_piece3 {x r : ℝ} (hr : |x| = r) (h0 : 2.5 ≤ r) (h1 : r < 3.5) :
    convResult 6 x = (117649 - 201684 * r + 144060 * r ^ 2 - 54880 * r ^ 3 + 11760 * r ^ 4 - 1344 * r ^ 5 + 64 * r ^ 6) / 23548 := by
  simp only [convResult, hr]
  rw [if_pos (show r < 3.5 by norm_num at h0 h1 ⊢; linarith), if_neg (show ¬ r < 0.5 by norm_num at h0 h1 ⊢; linarith), if_neg (show ¬ r < 1.5 by norm_num at h0 h1 ⊢; linarith), if_neg (show ¬ r < 2.5 by norm_num at h0 h1 ⊢; linarith)]
  try ring

theorem conv6_window {f : ℝ} (h0 : -(1 / 2) ≤ f) (h1 : f < 1 / 2) :
    convResult 6 (f - 3) + convResult 6 (f - 2) + convResult 6 (f - 1) + convResult 6 f + convResult 6 (f + 1) + convResult 6 (f + 2) + convResult 6 (f + 3) = 11520 / 5887 := by
  rcases h0.eq_or_lt with rfl | h0
  · norm_num [convResult, abs_of_nonneg, abs_of_neg]
  · rw [conv6_piece3 (x := (f - 3)) (abs_of_nonpos (by linarith)) (by norm_num; linarith) (by norm_num; linarith),
      conv6_piece2 (x := (f - 2)) (abs_of_nonpos (by linarith)) (by norm_num; linarith) (by norm_num; linarith),
      conv6_piece1 (x := (f - 1)) (abs_of_nonpos (by linarith)) (by norm_num; linarith) (by norm_num; linarith),
      conv6_piece0 (x := f) rfl (abs_nonneg f) (by rw [abs_lt]; constructor <;> norm_num <;> linarith),
      conv6_piece1 (x := (f + 1)) (abs_of_nonneg (by linarith)) (by norm_num; linarith) (by norm_num; linarith),
      conv6_piece2 (x := (f + 2)) (abs_of_nonneg (by linarith)) (by norm_num; linarith) (by norm_num; linarith),
      conv6_piece3 (x := (f + 3)) (abs_of_nonneg (by linarith)) (by norm_num; linarith) (by norm_num; linarith)]
    rw [show |f| ^ 6 = f ^ 6 by rw [show (6 : ℕ) = 2 * 3 from rfl, pow_mul, sq_abs, pow_mul],
      show |f| ^ 4 = f ^ 4 by rw [show (4 : ℕ) = 2 * 2 from rfl, pow_mul, sq_abs, pow_mul], sq_abs]
    ring

open Finset

/-- A sum over all pixels is a sum over a window, when nothing is outside either of them. -/
theorem sum_window {N : ℕ} {g : ℤ → ℝ} {W : Finset ℤ} (h1 : ∀ k : ℤ, 0 ≤ k → k < N → k ∉ W → g k = 0)
    (h2 : ∀ k ∈ W, k < 0 ∨ (N : ℤ) ≤ k → g k = 0) : ∑ k ∈ range N, g k = ∑ k ∈ W, g k := by
  have e : ∑ k ∈ range N, g k = ∑ k ∈ Finset.Ico (0 : ℤ) N, g k := by
    refine Finset.sum_bij (fun (k : ℕ) _ => (k : ℤ)) ?_ ?_ ?_ ?_
    · intro k hk
      have := mem_range.1 hk
      rw [Finset.mem_Ico]
      omega
    · intro a _ b _ hab
      exact_mod_cast hab
    · intro b hb
      obtain ⟨h3, h4⟩ := Finset.mem_Ico.1 hb
      refine ⟨b.toNat, mem_range.2 (by omega), by simp [h3]⟩
    · intro k _
      rfl
  rw [e]
  have e1 : ∑ k ∈ Finset.Ico (0 : ℤ) N, g k = ∑ k ∈ Finset.Ico (0 : ℤ) N ∩ W, g k := by
    refine (Finset.sum_subset Finset.inter_subset_left ?_).symm
    intro k hk hn
    have := Finset.mem_Ico.1 hk
    refine h1 k this.1 this.2 fun hw => hn (Finset.mem_inter.2 ⟨hk, hw⟩)
  have e2 : ∑ k ∈ W, g k = ∑ k ∈ Finset.Ico (0 : ℤ) N ∩ W, g k := by
    refine (Finset.sum_subset Finset.inter_subset_right ?_).symm
    intro k hk hn
    refine h2 k hk ?_
    by_contra hcon
    refine hn (Finset.mem_inter.2 ⟨Finset.mem_Ico.2 ?_, hk⟩)
    push Not at hcon
    exact hcon
  rw [e1, e2]

theorem conv_zero {n : ℕ} (h1 : 1 ≤ n) (h6 : n ≤ 6) {x : ℝ} (hx : ((n : ℝ) + 1) / 2 ≤ |x|) : convResult n x = 0 := by
  interval_cases n <;> norm_num at hx <;> simp only [convResult] <;> exact if_neg (by norm_num; linarith)

theorem conv0_zero {x : ℝ} (hx : (1 : ℝ) / 2 < |x|) : convResult 0 x = 0 := by
  simp only [convResult]
  rw [if_neg (by norm_num; linarith), if_neg (by norm_num; linarith)]

/-- The window around a place. -/
theorem window_sum {n N a : ℕ} {v : ℝ} {q : ℤ} (h1 : 1 ≤ n) (h6 : n ≤ 6)
    (hl : ((n : ℝ) + 1) / 2 - 1 < v) (hr : v < N - ((n : ℝ) + 1) / 2)
    (hw : ∀ j : ℤ, ¬ (-(a : ℤ) ≤ j ∧ j < n + 1 - a) → ((n : ℝ) + 1) / 2 ≤ |v - q + j|) :
    ∑ k ∈ range N, convResult n (v - k) = ∑ j ∈ range (n + 1), convResult n (v - q + j - a) := by
  have e : ∑ k ∈ range N, convResult n (v - k) = ∑ k ∈ range N, (fun k : ℤ => convResult n (v - k)) k := by
    simp
  rw [e, sum_window (g := fun k : ℤ => convResult n (v - k)) (W := (range (n + 1)).image fun j : ℕ => q - j + a)]
  · rw [Finset.sum_image (by intro x _ y _ hxy; simp only at hxy; omega)]
    refine Finset.sum_congr rfl fun j _ => ?_
    congr 1
    push_cast
    ring
  · intro k _ _ hk
    apply conv_zero h1 h6
    have h3 := hw (q - k) (by
      intro hc
      apply hk
      rw [Finset.mem_image]
      refine ⟨(q - k + a).toNat, mem_range.2 (by omega), by omega⟩)
    refine h3.trans_eq ?_
    congr 1
    push_cast
    ring
  · intro k _ hk
    apply conv_zero h1 h6
    rcases hk with hk | hk
    · have : (k : ℝ) ≤ -1 := by exact_mod_cast (by omega : k ≤ -1)
      exact le_trans (by linarith) (le_abs_self _)
    · have : (N : ℝ) ≤ k := by exact_mod_cast hk
      exact le_trans (by linarith) (neg_le_abs _)

/-- The tophats of all pixels add up to the integral. -/
theorem conv_unity {n N : ℕ} (h6 : n ≤ 6) {v : ℝ} (hl : ((n : ℝ) + 1) / 2 - 1 < v)
    (hr : v < N - ((n : ℝ) + 1) / 2) : ∑ k ∈ range N, convResult n (v - k) = tophatIntegral.getD n 0 := by
  have odd : ∀ a : ℕ, n + 1 = 2 * a → ∑ k ∈ range N, convResult n (v - k)
      = ∑ j ∈ range (n + 1), convResult n (Int.fract v + j - a) := by
    intro a ha
    have haR : ((n : ℝ) + 1) / 2 = a := by
      have : (n : ℝ) + 1 = 2 * a := by exact_mod_cast ha
      rw [this]
      ring
    refine window_sum (q := ⌊v⌋) (by omega) h6 hl hr fun j hj => ?_
    have f0 := Int.fract_nonneg v
    have f1 := Int.fract_lt_one v
    change _ ≤ |Int.fract v + j|
    rw [haR]
    by_cases h : -(a : ℤ) ≤ j
    · have : (a : ℝ) ≤ j := by exact_mod_cast (by omega : (a : ℤ) ≤ j)
      exact le_trans (by linarith) (le_abs_self _)
    · have : (j : ℝ) ≤ -a - 1 := by exact_mod_cast (by omega : j ≤ -(a : ℤ) - 1)
      exact le_trans (by linarith) (neg_le_abs _)
  have even : ∀ a : ℕ, 1 ≤ a → n = 2 * a → ∃ f : ℝ, -(1 / 2) ≤ f ∧ f < 1 / 2 ∧ ∑ k ∈ range N, convResult n (v - k)
      = ∑ j ∈ range (n + 1), convResult n (f + j - a) := by
    intro a h1 ha
    have haR : ((n : ℝ) + 1) / 2 = a + 1 / 2 := by
      have : (n : ℝ) = 2 * a := by exact_mod_cast ha
      rw [this]
      ring
    have f0 := Int.floor_le (v + 1 / 2)
    have f1 := Int.lt_floor_add_one (v + 1 / 2)
    refine ⟨v - ⌊v + 1 / 2⌋, by linarith, by linarith, ?_⟩
    refine window_sum (q := ⌊v + 1 / 2⌋) (by omega) h6 hl hr fun j hj => ?_
    rw [haR]
    by_cases h : -(a : ℤ) ≤ j
    · have : (a : ℝ) + 1 ≤ j := by exact_mod_cast (by omega : (a : ℤ) + 1 ≤ j)
      exact le_trans (by linarith) (le_abs_self _)
    · have : (j : ℝ) ≤ -a - 1 := by exact_mod_cast (by omega : j ≤ -(a : ℤ) - 1)
      exact le_trans (by linarith) (neg_le_abs _)
  have f0 := Int.fract_nonneg v
  have f1 := Int.fract_lt_one v
  interval_cases n
  · clear odd even
    have f0 := Int.floor_le (v + 1 / 2)
    have f1 := Int.lt_floor_add_one (v + 1 / 2)
    norm_num at hl hr
    have e : ∑ k ∈ range N, convResult 0 (v - k) = ∑ k ∈ range N, (fun k : ℤ => convResult 0 (v - k)) k := by simp
    rw [e, sum_window (g := fun k : ℤ => convResult 0 (v - k)) (W := {⌊v + 1 / 2⌋, ⌊v + 1 / 2⌋ - 1})]
    · rw [Finset.sum_pair (by omega)]
      push_cast
      rcases f0.eq_or_lt with h | h
      · rw [h, show v - (v + 1 / 2) = -(1 / 2) by ring, show v - (v + 1 / 2 - 1) = 1 / 2 by ring]
        norm_num [convResult, tophatIntegral, abs_of_nonneg]
      · have h2 : |v - ⌊v + 1 / 2⌋| < 0.5 := by
          rw [abs_lt]
          norm_num
          constructor <;> linarith
        rw [conv0_zero (x := v - (⌊v + 1 / 2⌋ - 1)) (lt_of_lt_of_le (by linarith) (le_abs_self _))]
        simp only [convResult]
        rw [if_pos h2]
        norm_num [tophatIntegral]
    · intro k _ _ hk
      apply conv0_zero
      rw [Finset.mem_insert, Finset.mem_singleton, not_or] at hk
      rcases lt_or_ge k ⌊v + 1 / 2⌋ with h | h
      · have : (k : ℝ) ≤ ⌊v + 1 / 2⌋ - 2 := by exact_mod_cast (by omega : k ≤ ⌊v + 1 / 2⌋ - 2)
        exact lt_of_lt_of_le (by linarith) (le_abs_self _)
      · have : (⌊v + 1 / 2⌋ : ℝ) + 1 ≤ k := by exact_mod_cast (by omega : ⌊v + 1 / 2⌋ + 1 ≤ k)
        exact lt_of_lt_of_le (by linarith) (neg_le_abs _)
    · intro k _ hk
      apply conv0_zero
      rcases hk with hk | hk
      · have : (k : ℝ) ≤ -1 := by exact_mod_cast (by omega : k ≤ -1)
        exact lt_of_lt_of_le (by linarith) (le_abs_self _)
      · have : (N : ℝ) ≤ k := by exact_mod_cast hk
        exact lt_of_lt_of_le (by linarith) (neg_le_abs _)
  · rw [odd 1 rfl]
    have := conv1_window f0 f1
    norm_num [Finset.sum_range_succ, tophatIntegral] at this ⊢
    exact this
  · obtain ⟨f, h0, h1, e⟩ := even 1 (by omega) rfl
    rw [e]
    have := conv2_window h0 h1
    norm_num [Finset.sum_range_succ, tophatIntegral, add_sub_assoc] at this ⊢
    exact this
  · rw [odd 2 rfl]
    have := conv3_window f0 f1
    norm_num [Finset.sum_range_succ, tophatIntegral, add_sub_assoc] at this ⊢
    exact this
  · obtain ⟨f, h0, h1, e⟩ := even 2 (by omega) rfl
    rw [e]
    have := conv4_window h0 h1
    norm_num [Finset.sum_range_succ, tophatIntegral, add_sub_assoc] at this ⊢
    exact this
  · rw [odd 3 rfl]
    have := conv5_window f0 f1
    norm_num [Finset.sum_range_succ, tophatIntegral, add_sub_assoc] at this ⊢
    exact this
  · obtain ⟨f, h0, h1, e⟩ := even 3 (by omega) rfl
    rw [e]
    have := conv6_window h0 h1
    norm_num [Finset.sum_range_succ, tophatIntegral, add_sub_assoc] at this ⊢
    exact this

end BF.Shapes
