import Verif.LogFactorial
import Mathlib.Analysis.SpecialFunctions.Stirling
import Mathlib.Analysis.Real.Pi.Bounds
import Mathlib.Algebra.BigOperators.Field
import Mathlib.Tactic.Linarith
import Mathlib.Tactic.FieldSimp
import Mathlib.Tactic.Positivity
import Mathlib.Tactic.IntervalCases

/-!
# C44: the logarithm of the factorial
-/

namespace BF.LogFactorial

open Finset

/-! ## Enclosures of logarithms, by counting in units of 1e-24 -/

/-- One term of the series of log( (j+1)/j ), rounded down to an integer number of units. -/
def term (j i : ℕ) : ℕ := 2 * 10 ^ 24 / ((2 * i + 1) * (2 * j + 1) ^ (2 * i + 1))

/-- Sum of the first `n` terms. -/
def terms (j : ℕ) : ℕ → ℕ
  | 0 => 0
  | n + 1 => terms j n + term j n

theorem terms_spec (j n : ℕ) :
    (terms j n : ℝ) ≤ 10 ^ 24 * (2 * ∑ i ∈ range n, (1 / (2 * j + 1 : ℝ)) ^ (2 * i + 1) / (2 * i + 1)) ∧
    10 ^ 24 * (2 * ∑ i ∈ range n, (1 / (2 * j + 1 : ℝ)) ^ (2 * i + 1) / (2 * i + 1)) ≤ terms j n + n := by
  induction n with
  | zero => simp [terms]
  | succ n ih =>
    rw [sum_range_succ]
    have e : (10 : ℝ) ^ 24 * (2 * ((1 / (2 * j + 1 : ℝ)) ^ (2 * n + 1) / (2 * n + 1)))
        = ((2 * 10 ^ 24 : ℕ) : ℝ) / (((2 * n + 1) * (2 * j + 1) ^ (2 * n + 1) : ℕ) : ℝ) := by
      push_cast
      rw [div_pow, one_pow]
      field_simp
      norm_num
    have h1 : (term j n : ℝ) ≤ 10 ^ 24 * (2 * ((1 / (2 * j + 1 : ℝ)) ^ (2 * n + 1) / (2 * n + 1))) := by
      rw [e]; exact Nat.cast_div_le
    have h2 : (10 : ℝ) ^ 24 * (2 * ((1 / (2 * j + 1 : ℝ)) ^ (2 * n + 1) / (2 * n + 1))) ≤ term j n + 1 := by
      rw [e]
      have := Nat.lt_div_mul_add (a := 2 * 10 ^ 24) (b := (2 * n + 1) * (2 * j + 1) ^ (2 * n + 1))
        (by positivity)
      rw [div_le_iff₀ (by positivity)]
      have h : (((2 * 10 ^ 24 : ℕ)) : ℝ) ≤ ((term j n * ((2 * n + 1) * (2 * j + 1) ^ (2 * n + 1))
          + ((2 * n + 1) * (2 * j + 1) ^ (2 * n + 1)) : ℕ) : ℝ) := by
        exact_mod_cast this.le
      refine h.trans (le_of_eq ?_)
      push_cast
      ring
    simp only [terms]
    push_cast
    constructor <;> nlinarith [ih.1, ih.2]

/-- log( (j+1)/j ) to 27 units. -/
theorem step_spec (j : ℕ) (hj : 1 ≤ j) :
    (terms j 26 : ℝ) ≤ 10 ^ 24 * (Real.log (j + 1) - Real.log j) ∧
    10 ^ 24 * (Real.log (j + 1) - Real.log j) ≤ terms j 26 + 27 := by
  have hj' : (1 : ℝ) ≤ j := by exact_mod_cast hj
  obtain ⟨a, b⟩ := terms_spec j 26
  set x : ℝ := 1 / (2 * j + 1) with hx
  have hx0 : 0 ≤ x := by positivity
  have hx1 : x ≤ 1 / 3 := by
    rw [hx]; apply div_le_div_of_nonneg_left <;> linarith
  have hlog : Real.log (j + 1) - Real.log j = Real.log ((1 + x) / (1 - x)) := by
    rw [← Real.log_div (by positivity) (by positivity)]
    congr 1
    have : (1 : ℝ) - x ≠ 0 := by linarith
    rw [div_eq_div_iff (by positivity) this, hx]
    field_simp
    ring
  have h1 := Real.sum_range_le_log_div hx0 (by linarith) 26
  have h2 := Real.log_div_le_sum_range_add hx0 (by linarith) 26
  have hpow : x ^ (2 * 26 + 1) ≤ (1 / 3) ^ (2 * 26 + 1) := pow_le_pow_left₀ hx0 hx1 _
  have htail : x ^ (2 * 26 + 1) / (1 - x ^ 2) ≤ (1 / 3) ^ (2 * 26 + 1) / (8 / 9) := by
    apply div_le_div₀ (by positivity) hpow (by norm_num)
    nlinarith
  have hnum : (10 : ℝ) ^ 24 * (2 * ((1 / 3) ^ (2 * 26 + 1) / (8 / 9))) ≤ 1 := by norm_num
  rw [hlog]
  push_cast at b
  constructor
  · nlinarith
  · nlinarith

/-- ( log k, log k! ) in units. -/
def acc : ℕ → ℕ × ℕ
  | 0 => (0, 0)
  | 1 => (0, 0)
  | n + 2 => let r := acc (n + 1); (r.1 + terms (n + 1) 26, r.2 + (r.1 + terms (n + 1) 26))

theorem acc_spec (n : ℕ) :
    ((acc (n + 1)).1 ≤ 10 ^ 24 * Real.log ((n + 1 : ℕ) : ℝ) ∧
      10 ^ 24 * Real.log ((n + 1 : ℕ) : ℝ) ≤ (acc (n + 1)).1 + 27 * (n : ℝ)) ∧
    ((acc (n + 1)).2 ≤ 10 ^ 24 * Real.log ((n + 1).factorial : ℝ) ∧
      10 ^ 24 * Real.log ((n + 1).factorial : ℝ) ≤ (acc (n + 1)).2 + 27 * (n : ℝ) ^ 2) := by
  induction n with
  | zero => simp [acc]
  | succ n ih =>
    obtain ⟨⟨a, b⟩, c, d⟩ := ih
    obtain ⟨s, t⟩ := step_spec (n + 1) (by omega)
    have hf : Real.log ((n + 1 + 1).factorial : ℝ)
        = Real.log ((n + 1 + 1 : ℕ) : ℝ) + Real.log ((n + 1).factorial : ℝ) := by
      rw [Nat.factorial_succ, Nat.cast_mul, Real.log_mul] <;> positivity
    have hacc : acc (n + 1 + 1) = ((acc (n + 1)).1 + terms (n + 1) 26,
        (acc (n + 1)).2 + ((acc (n + 1)).1 + terms (n + 1) 26)) := rfl
    have hn : (0 : ℝ) ≤ n := Nat.cast_nonneg n
    have e : (((n + 1 : ℕ) : ℝ) + 1) = ((n + 1 + 1 : ℕ) : ℝ) := by push_cast; ring
    rw [e] at s t
    rw [hf, hacc]
    generalize Real.log ((n + 1 + 1 : ℕ) : ℝ) = X at *
    generalize Real.log ((n + 1 : ℕ) : ℝ) = Y at *
    generalize Real.log ((n + 1).factorial : ℝ) = Z at *
    push_cast
    refine ⟨⟨by linarith, by linarith⟩, by linarith, by nlinarith⟩

/-! ## The table -/

/-- All entries are right to one part in 2^52, in units of 1e-24; checked in the kernel. -/
theorem table_ok : ∀ k < 100, (acc k).2 * 2 ^ 52 ≤ digits.getD k 0 * 10 ^ 8 * 2 ^ 52 + (acc k).2 ∧
    digits.getD k 0 * 10 ^ 8 * 2 ^ 52 ≤ (acc k).2 * 2 ^ 52 + (acc k).2 := by
  decide +kernel

theorem digits_length : digits.length = 100 := by decide +kernel

/-- C44: in the range of the table (k < 100) the result is log k! to the precision of a double. -/
theorem C44_table (k : ℕ) (hk : k < 100) :
    ∃ v, scalar k = some v ∧
      |v - Real.log (k.factorial : ℝ)| ≤ Real.log (k.factorial : ℝ) / 2 ^ 52 + 1e-18 := by
  refine ⟨(digits.getD k 0 : ℝ) / 10 ^ 16, ?_, ?_⟩
  · have h1 : (k : ℤ) < 100 := by exact_mod_cast hk
    have h2 : k < digits.length := by rw [digits_length]; exact hk
    have h3 : digits[k]? = some (digits.getD k 0) := by
      rw [List.getD_eq_getElem?_getD, List.getElem?_eq_getElem h2, Option.getD_some]
    simp only [scalar, if_pos h1, if_pos (Int.natCast_nonneg k), Int.toNat_natCast, logfact]
    rw [List.getElem?_map, h3, Option.map_some]
  · obtain ⟨a, b⟩ := table_ok k hk
    have a' : (((acc k).2 * 2 ^ 52 : ℕ) : ℝ)
        ≤ ((digits.getD k 0 * 10 ^ 8 * 2 ^ 52 + (acc k).2 : ℕ) : ℝ) := by exact_mod_cast a
    have b' : ((digits.getD k 0 * 10 ^ 8 * 2 ^ 52 : ℕ) : ℝ)
        ≤ (((acc k).2 * 2 ^ 52 + (acc k).2 : ℕ) : ℝ) := by exact_mod_cast b
    push_cast at a' b'
    have hacc : ((acc k).2 : ℝ) ≤ 10 ^ 24 * Real.log (k.factorial : ℝ) ∧
        10 ^ 24 * Real.log (k.factorial : ℝ) ≤ (acc k).2 + 27 * 10 ^ 4 := by
      rcases k with _ | n
      · simp [acc]
      · obtain ⟨_, c, d⟩ := acc_spec n
        refine ⟨c, d.trans ?_⟩
        have hn : (n : ℝ) ≤ 100 := by exact_mod_cast (by omega : n ≤ 100)
        have hn0 : (0 : ℝ) ≤ n := Nat.cast_nonneg n
        nlinarith
    generalize Real.log (k.factorial : ℝ) = X at *
    generalize ((digits.getD k 0 : ℕ) : ℝ) = D at *
    generalize (((acc k).2 : ℕ) : ℝ) = A at *
    rw [abs_le]
    constructor <;> norm_num at * <;> linarith [hacc.1, hacc.2]

/-! ## Stirling's formula with its error -/

theorem sdiff_poly (x : ℝ) (hx : 0 ≤ x) :
    (1 / (12 * (x + 1)) - 1 / (360 * (x + 1) ^ 3)) - (1 / (12 * (x + 2)) - 1 / (360 * (x + 2) ^ 3))
      ≤ 1 / 3 * (1 / (2 * x + 3) ^ 2) + 1 / 5 * (1 / (2 * x + 3) ^ 4) := by
  rw [← sub_nonneg]
  have : 1 / 3 * (1 / (2 * x + 3) ^ 2) + 1 / 5 * (1 / (2 * x + 3) ^ 4)
      - ((1 / (12 * (x + 1)) - 1 / (360 * (x + 1) ^ 3)) - (1 / (12 * (x + 2)) - 1 / (360 * (x + 2) ^ 3)))
      = (63 + 153 * x + 141 * x ^ 2 + 60 * x ^ 3 + 10 * x ^ 4)
        / (360 * (x + 1) ^ 3 * (x + 2) ^ 3 * (2 * x + 3) ^ 4) := by
    field_simp
    ring
  rw [this]
  positivity

open Filter Topology Stirling in
theorem sdiff_bounds (n : ℕ) :
    Real.log (stirlingSeq (n + 1)) - Real.log (stirlingSeq (n + 2))
      ≤ 1 / (12 * (n + 1 : ℝ)) - 1 / (12 * (n + 2 : ℝ)) ∧
    (1 / (12 * (n + 1 : ℝ)) - 1 / (360 * (n + 1 : ℝ) ^ 3)) - (1 / (12 * (n + 2 : ℝ)) - 1 / (360 * (n + 2 : ℝ) ^ 3))
      ≤ Real.log (stirlingSeq (n + 1)) - Real.log (stirlingSeq (n + 2)) := by
  have hs := log_stirlingSeq_sdiff_hasSum n
  have hn : (0 : ℝ) ≤ n := Nat.cast_nonneg n
  set y : ℝ := (1 / (2 * ((n + 1 : ℕ) : ℝ) + 1)) ^ 2 with hy
  have hy0 : 0 < y := by positivity
  have hyv : y = 1 / (2 * (n : ℝ) + 3) ^ 2 := by
    rw [hy, div_pow, one_pow]; push_cast; ring_nf
  have hy1 : y < 1 := by
    rw [hyv, div_lt_one (by positivity)]; nlinarith
  constructor
  · have hg : HasSum (fun k : ℕ => (1 / 3 * y) * y ^ k) ((1 / 3 * y) * (1 - y)⁻¹) :=
      (hasSum_geometric_of_lt_one hy0.le hy1).mul_left _
    have hle := hasSum_le (fun k => by
      have : (1 : ℝ) / (2 * ((k + 1 : ℕ) : ℝ) + 1) ≤ 1 / 3 := by
        apply div_le_div_of_nonneg_left <;> push_cast <;> linarith [Nat.cast_nonneg (α := ℝ) k]
      calc (1 : ℝ) / (2 * ((k + 1 : ℕ) : ℝ) + 1) * y ^ (k + 1) ≤ 1 / 3 * y ^ (k + 1) :=
            mul_le_mul_of_nonneg_right this (by positivity)
        _ = (1 / 3 * y) * y ^ k := by ring) hs hg
    refine hle.trans (le_of_eq ?_)
    have h1 : 1 - y ≠ 0 := by linarith
    rw [hyv] at h1 ⊢
    have h2 : (2 * (n : ℝ) + 3) ^ 2 - 1 ≠ 0 := by nlinarith
    rw [show 1 - 1 / (2 * (n : ℝ) + 3) ^ 2 = ((2 * (n : ℝ) + 3) ^ 2 - 1) / (2 * (n : ℝ) + 3) ^ 2 by field_simp]
    rw [inv_div]
    have h3 : (2 * (n : ℝ) + 3) ^ 2 - 1 = 4 * (n + 1) * (n + 2) := by ring
    rw [h3]
    field_simp
    ring
  · have hle := sum_le_hasSum (range 2) (fun k _ => by positivity) hs
    refine le_trans ?_ hle
    have h2 : ∑ i ∈ range 2, (1 : ℝ) / (2 * ((i + 1 : ℕ) : ℝ) + 1) * y ^ (i + 1)
        = 1 / 3 * (1 / (2 * (n : ℝ) + 3) ^ 2) + 1 / 5 * (1 / (2 * (n : ℝ) + 3) ^ 4) := by
      have : y ^ 2 = 1 / (2 * (n : ℝ) + 3) ^ 4 := by
        rw [hyv, div_pow, one_pow, ← pow_mul]
      rw [sum_range_succ, sum_range_succ, sum_range_zero, ← hyv, ← this]
      norm_num
    rw [h2]
    exact sdiff_poly n hn

open Filter Topology Stirling in
theorem stirling_bounds (n : ℕ) :
    Real.log (stirlingSeq (n + 1)) - 1 / (12 * (n + 1 : ℝ)) ≤ Real.log (√Real.pi) ∧
    Real.log (√Real.pi) ≤ Real.log (stirlingSeq (n + 1)) - (1 / (12 * (n + 1 : ℝ)) - 1 / (360 * (n + 1 : ℝ) ^ 3)) := by
  have hlim : Tendsto (fun n : ℕ => Real.log (stirlingSeq (n + 1))) atTop (𝓝 (Real.log (√Real.pi))) :=
    ((Real.continuousAt_log (by positivity)).tendsto.comp tendsto_stirlingSeq_sqrt_pi).comp
      (tendsto_add_atTop_nat 1)
  have hinv : Tendsto (fun n : ℕ => 1 / ((n : ℝ) + 1)) atTop (𝓝 0) := tendsto_one_div_add_atTop_nhds_zero_nat
  have hz1 : Tendsto (fun n : ℕ => 1 / (12 * (n + 1 : ℝ))) atTop (𝓝 0) := by
    have := hinv.const_mul (1 / 12)
    rw [mul_zero] at this
    refine this.congr fun n => ?_
    field_simp
  have hz3 : Tendsto (fun n : ℕ => 1 / (360 * (n + 1 : ℝ) ^ 3)) atTop (𝓝 0) := by
    have := (hinv.pow 3).const_mul (1 / 360)
    rw [zero_pow (by norm_num), mul_zero] at this
    refine this.congr fun n => ?_
    field_simp
  constructor
  · have hm : Monotone fun n : ℕ => Real.log (stirlingSeq (n + 1)) - 1 / (12 * (n + 1 : ℝ)) := by
      refine monotone_nat_of_le_succ fun n => ?_
      have := (sdiff_bounds n).1
      push_cast
      rw [show (n : ℝ) + 1 + 1 = n + 2 by ring]
      linarith
    have hl := hlim.sub hz1
    rw [sub_zero] at hl
    exact hm.ge_of_tendsto hl n
  · have hm : Antitone fun n : ℕ => Real.log (stirlingSeq (n + 1))
        - (1 / (12 * (n + 1 : ℝ)) - 1 / (360 * (n + 1 : ℝ) ^ 3)) := by
      refine antitone_nat_of_succ_le fun n => ?_
      have := (sdiff_bounds n).2
      push_cast
      rw [show (n : ℝ) + 1 + 1 = n + 2 by ring]
      linarith
    have hl := hlim.sub (hz1.sub hz3)
    rw [sub_zero, sub_zero] at hl
    exact hm.le_of_tendsto hl n

/-- The constant in the code is log( sqrt( 2 pi ) ) to 1e-16. -/
theorem const_ok : |0.9189385332046727 - 1 / 2 * Real.log (2 * Real.pi)| ≤ 1e-16 := by
  -- 2 pi = 6 * ( pi / 3 )
  have h6 := (acc_spec 5).1
  have hlog : Real.log (2 * Real.pi) = Real.log ((5 + 1 : ℕ) : ℝ) + Real.log (Real.pi / 3) := by
    rw [← Real.log_mul (by norm_num) (by positivity)]
    congr 1
    push_cast
    ring
  have hlo : Real.log (3.14159265358979323846 / 3) ≤ Real.log (Real.pi / 3) :=
    Real.log_le_log (by norm_num) (by linarith [Real.pi_gt_d20])
  have hhi : Real.log (Real.pi / 3) ≤ Real.log (3.14159265358979323847 / 3) :=
    Real.log_le_log (by positivity) (by linarith [Real.pi_lt_d20])
  have e1 : (3.14159265358979323846 / 3 : ℝ)
      = (1 + 0.14159265358979323846 / 6.14159265358979323846) / (1 - 0.14159265358979323846 / 6.14159265358979323846) := by
    norm_num
  have e2 : (3.14159265358979323847 / 3 : ℝ)
      = (1 + 0.14159265358979323847 / 6.14159265358979323847) / (1 - 0.14159265358979323847 / 6.14159265358979323847) := by
    norm_num
  have l1 := Real.sum_range_le_log_div (x := 0.14159265358979323846 / 6.14159265358979323846) (by norm_num)
    (by norm_num) 6
  have l2 := Real.log_div_le_sum_range_add (x := 0.14159265358979323847 / 6.14159265358979323847) (by norm_num)
    (by norm_num) 6
  rw [← e1] at l1
  rw [← e2] at l2
  simp only [sum_range_succ, sum_range_zero] at l1 l2
  have ha : (acc 6).1 = 1791759469228055000812440 := by decide +kernel
  rw [show 5 + 1 = 6 from rfl] at h6 hlog
  rw [ha] at h6
  rw [hlog]
  generalize Real.log ((6 : ℕ) : ℝ) = X at *
  generalize Real.log (Real.pi / 3) = Y at *
  generalize Real.log (3.14159265358979323846 / 3) = Y1 at *
  generalize Real.log (3.14159265358979323847 / 3) = Y2 at *
  obtain ⟨a, b⟩ := h6
  norm_num at a b l1 l2
  rw [abs_le]
  constructor
  · norm_num
    linarith
  · norm_num
    linarith

/-- log k! in terms of the sequence of Stirling. -/
theorem log_factorial_eq (n : ℕ) : Real.log ((n + 1).factorial : ℝ)
    = Real.log (Stirling.stirlingSeq (n + 1)) + 1 / 2 * Real.log 2 + ((n + 1 : ℝ) + 1 / 2) * Real.log (n + 1 : ℝ)
      - (n + 1 : ℝ) := by
  have h := Stirling.log_stirlingSeq_formula (n + 1)
  have hp : (0 : ℝ) < n + 1 := by positivity
  rw [h, Nat.cast_add, Nat.cast_one, Real.log_mul (by norm_num) hp.ne', Real.log_div hp.ne' (Real.exp_pos 1).ne',
    Real.log_exp]
  ring

/-- C44: from 100 on the result is not below log k! (but for the rounding of the constant) and not more than
1 / ( 360 k^3 ) above it. -/
theorem C44_stirling (k : ℕ) (hk : 100 ≤ k) :
    ∃ v, scalar k = some v ∧ -1e-16 ≤ v - Real.log (k.factorial : ℝ) ∧
      v - Real.log (k.factorial : ℝ) ≤ 1 / (360 * (k : ℝ) ^ 3) + 1e-16 := by
  have h1 : ¬ (k : ℤ) < 100 := by exact_mod_cast not_lt.2 hk
  refine ⟨stirling k, by simp only [scalar, if_neg h1, Int.cast_natCast], ?_⟩
  obtain ⟨n, rfl⟩ : ∃ n, k = n + 1 := ⟨k - 1, by omega⟩
  obtain ⟨a, b⟩ := stirling_bounds n
  obtain ⟨c, d⟩ := abs_le.1 const_ok
  have hpi : 1 / 2 * Real.log (2 * Real.pi) = 1 / 2 * Real.log 2 + Real.log (√Real.pi) := by
    rw [Real.log_mul (by norm_num) Real.pi_pos.ne', Real.log_sqrt Real.pi_pos.le]
    ring
  rw [hpi] at c d
  rw [log_factorial_eq]
  unfold stirling
  push_cast
  have e1 : (1.0 : ℝ) / (12.0 * ((n : ℝ) + 1)) = 1 / (12 * ((n : ℝ) + 1)) := by norm_num
  have e2 : (n : ℝ) + 1 + 0.5 = (n : ℝ) + 1 + 1 / 2 := by norm_num
  rw [e1, e2]
  constructor <;> linarith

/-- C44: together, for all numbers k the error is at most 3e-9. -/
theorem C44_all (k : ℕ) : ∃ v, scalar k = some v ∧ |v - Real.log (k.factorial : ℝ)| ≤ 3e-9 := by
  by_cases hk : k < 100
  · obtain ⟨v, h1, h2⟩ := C44_table k hk
    refine ⟨v, h1, h2.trans ?_⟩
    have h3 : Real.log (k.factorial : ℝ) ≤ 10000 := by
      have hf : (k.factorial : ℝ) ≤ 100 ^ k := by
        exact_mod_cast (Nat.factorial_le_pow k).trans (Nat.pow_le_pow_left hk.le k)
      have h4 : Real.log (k.factorial : ℝ) ≤ k * Real.log 100 := by
        rw [← Real.log_pow]
        exact Real.log_le_log (by positivity) hf
      have h5 : Real.log 100 ≤ 100 := (Real.log_le_sub_one_of_pos (by norm_num)).trans (by norm_num)
      have h6 : (k : ℝ) ≤ 100 := by exact_mod_cast hk.le
      have h7 : (0 : ℝ) ≤ k := Nat.cast_nonneg k
      nlinarith [Real.log_nonneg (by norm_num : (1 : ℝ) ≤ 100)]
    calc Real.log (k.factorial : ℝ) / 2 ^ 52 + 1e-18 ≤ 10000 / 2 ^ 52 + 1e-18 := by gcongr
      _ ≤ 3e-9 := by norm_num
  · obtain ⟨v, h1, h2, h3⟩ := C44_stirling k (not_lt.1 hk)
    refine ⟨v, h1, abs_le.2 ⟨le_trans (by norm_num) h2, h3.trans ?_⟩⟩
    have hk' : (100 : ℝ) ≤ k := by exact_mod_cast not_lt.1 hk
    have : 1 / (360 * (k : ℝ) ^ 3) ≤ 1 / (360 * 100 ^ 3) := by
      apply div_le_div_of_nonneg_left (by norm_num) (by norm_num)
      exact mul_le_mul_of_nonneg_left (pow_le_pow_left₀ (by norm_num) hk' 3) (by norm_num)
    refine (add_le_add_left this _).trans ?_
    norm_num

/-- Beyond the table the code is not better than that. -/
example : ∃ v, scalar 100 = some v ∧ |v - Real.log (Nat.factorial 100 : ℝ)| ≤ 3e-9 := C44_all 100

/-! ## Arrays -/

theorem fill_fill (f g : ℤ → Option ℝ) (ks : List ℤ) :
    (fill (fun k => decide (k < 100)) f ks (List.replicate ks.length 0)).bind
      (fill (fun k => decide (100 ≤ k)) g ks) = ks.mapM fun k => if k < 100 then f k else g k := by
  induction ks with
  | nil => simp [fill]
  | cons k ks ih =>
    rw [List.mapM_cons, ← ih]
    simp only [List.length_cons, List.replicate_succ, fill]
    by_cases hk : k < 100
    · have hk' : ¬ 100 ≤ k := not_le.2 hk
      simp only [hk, decide_true, if_true]
      cases f k with
      | none => simp
      | some x =>
        cases fill (fun k => decide (k < 100)) f ks (List.replicate ks.length 0) with
        | none => simp
        | some xs =>
          simp only [Option.bind_some, fill, hk', decide_false, Bool.false_eq_true, if_false]
          cases fill (fun k => decide (100 ≤ k)) g ks xs <;> simp
    · have hk' : 100 ≤ k := not_lt.1 hk
      simp only [hk, decide_false, Bool.false_eq_true, if_false]
      cases fill (fun k => decide (k < 100)) f ks (List.replicate ks.length 0) with
      | none => cases g k <;> simp
      | some xs =>
        simp only [Option.bind_some, fill, hk', decide_true, if_true]
        cases g k with
        | none => simp
        | some y => cases fill (fun k => decide (100 ≤ k)) g ks xs <;> simp

/-- C44: an array of any length but 1 is treated element by element; it fails when one of its elements
does. -/
theorem C44_array_partial (ks : List ℤ) (h : ks.length ≠ 1) : array ks = ks.mapM scalar := by
  unfold array
  rw [if_neg h]
  exact fill_fill _ _ ks

/-- Not true of the code: a list of one number raises, where all other lists are accepted. -/
theorem C44_counterexample_single : array [3] = none ∧ ∃ v, array [3, 3] = some v := by
  refine ⟨by simp [array], ?_⟩
  obtain ⟨v, hv, -⟩ := C44_table 3 (by norm_num)
  refine ⟨[v, v], ?_⟩
  rw [C44_array_partial _ (by simp)]
  have hv' : scalar 3 = some v := hv
  simp [List.mapM_cons, hv']

/-- Not true of the code: a negative number, that has no factorial, is not refused; -1 gives log 99!. -/
theorem C44_counterexample_negative : scalar (-1) = scalar 99 := by
  simp [scalar]

end BF.LogFactorial
