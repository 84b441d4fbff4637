import Verif.Nice
import Mathlib.Tactic.Linarith
import Mathlib.Tactic.NormNum
import Mathlib.Tactic.Ring
import Mathlib.Tactic.Positivity
import Mathlib.Tactic.FieldSimp

/-!
# C141: nice numbers
-/

noncomputable section

namespace BF.Nice

open Classical

/-! ## Specification -/

/-- One digit, or ten, times a power of ten, with a sign. -/
def OneDigit (y : ℝ) : Prop := ∃ (d : ℕ) (k : ℤ), 1 ≤ d ∧ d ≤ 10 ∧ |y| = d * (10 : ℝ) ^ k

/-! ## The loops -/

theorem down_some (n : ℕ) : ∀ (x m : ℝ) (k : ℤ) (p : ℝ × ℝ), 1 ≤ x → m = (10 : ℝ) ^ k → downLoop n (x, m) = some p →
    p.1 * p.2 = x * m ∧ 1 ≤ p.1 ∧ p.1 ≤ 10 ∧ ∃ k' : ℤ, p.2 = (10 : ℝ) ^ k' := by
  induction n with
  | zero => intro x m k p _ _ h; cases h
  | succ n ih =>
    intro x m k p h1 hm h
    simp only [downLoop] at h
    by_cases hx : x > 10
    · rw [if_pos hx] at h
      obtain ⟨a, b, c, d⟩ := ih (x / 10) (m * 10) (k + 1) p (by linarith)
        (by rw [hm, zpow_add_one₀ (by norm_num)]) h
      exact ⟨by rw [a]; ring, b, c, d⟩
    · rw [if_neg hx] at h
      cases h
      exact ⟨rfl, h1, not_lt.1 hx, k, hm⟩

theorem down_id (n : ℕ) (x m : ℝ) (p : ℝ × ℝ) (hx : x ≤ 10) (h : downLoop n (x, m) = some p) : p = (x, m) := by
  rcases n with _ | n
  · cases h
  · simp only [downLoop] at h
    rw [if_neg (not_lt.2 hx)] at h
    cases h
    rfl

theorem up_some (n : ℕ) : ∀ (x m : ℝ) (k : ℤ) (p : ℝ × ℝ), x ≤ 10 → m = (10 : ℝ) ^ k → upLoop n (x, m) = some p →
    p.1 * p.2 = x * m ∧ 1 ≤ p.1 ∧ p.1 ≤ 10 ∧ ∃ k' : ℤ, p.2 = (10 : ℝ) ^ k' := by
  induction n with
  | zero => intro x m k p _ _ h; cases h
  | succ n ih =>
    intro x m k p h1 hm h
    simp only [upLoop] at h
    by_cases hx : x < 1
    · rw [if_pos hx] at h
      obtain ⟨a, b, c, d⟩ := ih (x * 10) (m / 10) (k - 1) p (by linarith)
        (by rw [hm, zpow_sub_one₀ (by norm_num)]; ring) h
      exact ⟨by rw [a]; ring, b, c, d⟩
    · rw [if_neg hx] at h
      cases h
      exact ⟨rfl, not_lt.1 hx, h1, k, hm⟩

theorem down_ends (n : ℕ) : ∀ x m : ℝ, x ≤ 10 ^ n → downLoop (n + 1) (x, m) ≠ none := by
  induction n with
  | zero =>
    intro x m hx
    simp only [downLoop]
    rw [if_neg (by norm_num at hx; linarith)]
    simp
  | succ n ih =>
    intro x m hx
    rw [downLoop]
    by_cases h : x > 10
    · rw [if_pos h]
      exact ih _ _ (by rw [div_le_iff₀ (by norm_num)]; rw [pow_succ] at hx; exact hx)
    · rw [if_neg h]; simp

theorem up_ends (n : ℕ) : ∀ x m : ℝ, 1 ≤ x * 10 ^ n → upLoop (n + 1) (x, m) ≠ none := by
  induction n with
  | zero =>
    intro x m hx
    simp only [upLoop]
    rw [if_neg (by norm_num at hx; linarith)]
    simp
  | succ n ih =>
    intro x m hx
    rw [upLoop]
    by_cases h : x < 1
    · rw [if_pos h]
      exact ih _ _ (by rw [pow_succ] at hx; nlinarith)
    · rw [if_neg h]; simp

/-! ## C141 -/

/-- What comes out for a number that is not zero. -/
theorem nice_form (fuel : ℕ) (x y : ℝ) (hx : x ≠ 0) (h : nicenumber fuel x = some y) :
    ∃ (u : ℝ) (k : ℤ), 1 ≤ u ∧ u ≤ 10 ∧ |x| = u * (10 : ℝ) ^ k ∧
      y = (if x < 0 then -1 else 1) * ⌊u⌋ * (10 : ℝ) ^ k := by
  simp only [nicenumber, if_neg hx] at h
  set sx : ℝ × ℝ := if x < 0 then (-1, |x|) else (1, x) with hsx
  have h1 : sx.1 = if x < 0 then -1 else 1 := by rw [hsx]; split <;> rfl
  have h2 : sx.2 = |x| := by
    rw [hsx]
    by_cases hn : x < 0
    · rw [if_pos hn]
    · rw [if_neg hn, abs_of_nonneg (not_lt.1 hn)]
  rw [h1, h2] at h
  rcases hd : downLoop fuel (|x|, 1) with _ | p
  · rw [hd] at h; cases h
  · rw [hd] at h
    simp only at h
    rcases hu : upLoop fuel p with _ | q
    · rw [hu] at h; cases h
    · rw [hu] at h
      simp only [Option.some.injEq] at h
      have key : q.1 * q.2 = |x| ∧ 1 ≤ q.1 ∧ q.1 ≤ 10 ∧ ∃ k' : ℤ, q.2 = (10 : ℝ) ^ k' := by
        rcases le_or_gt 1 |x| with hl | hl
        · obtain ⟨a, b, c, k, hk⟩ := down_some fuel |x| 1 0 p hl (by simp) hd
          obtain ⟨a', b', c', d'⟩ := up_some fuel p.1 p.2 k q c hk hu
          exact ⟨by rw [a', a, mul_one], b', c', d'⟩
        · have := down_id fuel |x| 1 p (by linarith) hd
          subst this
          obtain ⟨a', b', c', d'⟩ := up_some fuel |x| 1 0 q (by linarith) (by simp) hu
          exact ⟨by rw [a', mul_one], b', c', d'⟩
      obtain ⟨a, b, c, k, hk⟩ := key
      refine ⟨q.1, k, b, c, by rw [← hk, a], ?_⟩
      have ht : trunc q.1 = ⌊q.1⌋ := by rw [trunc, if_pos (by linarith)]
      rw [← h, hk, ht]

/-- C141: a nice number has one digit, has the sign of the number, is not larger in size and is more than half of it. -/
theorem C141_nice (fuel : ℕ) (x y : ℝ) (hx : x ≠ 0) (h : nicenumber fuel x = some y) :
    OneDigit y ∧ |y| ≤ |x| ∧ |x| < 2 * |y| ∧ 0 < x * y := by
  obtain ⟨u, k, h1, h10, hxu, hy⟩ := nice_form fuel x y hx h
  have hp : (0 : ℝ) < (10 : ℝ) ^ k := zpow_pos (by norm_num) k
  have hf1 : (1 : ℤ) ≤ ⌊u⌋ := Int.le_floor.2 (by simpa using h1)
  have hf1' : (1 : ℝ) ≤ ⌊u⌋ := by exact_mod_cast hf1
  have hfu : (⌊u⌋ : ℝ) ≤ u := Int.floor_le u
  have hfl : u < ⌊u⌋ + 1 := Int.lt_floor_add_one u
  have hay : |y| = ⌊u⌋ * (10 : ℝ) ^ k := by
    rw [hy, abs_mul, abs_mul, abs_of_pos hp, abs_of_nonneg (by linarith : (0 : ℝ) ≤ ⌊u⌋)]
    split <;> simp
  refine ⟨⟨⌊u⌋.toNat, k, by omega, ?_, ?_⟩, ?_, ?_, ?_⟩
  · have : (⌊u⌋ : ℝ) ≤ 10 := by linarith
    have : ⌊u⌋ ≤ 10 := by exact_mod_cast this
    omega
  · rw [hay]
    congr 1
    have : ((⌊u⌋.toNat : ℤ) : ℝ) = ⌊u⌋ := by rw [Int.toNat_of_nonneg (by omega)]
    exact_mod_cast this.symm
  · rw [hay, hxu]; gcongr
  · rw [hay, hxu]
    nlinarith
  · have hpos : 0 < (⌊u⌋ : ℝ) * (10 : ℝ) ^ k := by positivity
    rw [hy]
    by_cases hn : x < 0
    · rw [if_pos hn]; nlinarith
    · rw [if_neg hn]
      have : 0 < x := lt_of_le_of_ne (not_lt.1 hn) (Ne.symm hx)
      nlinarith [mul_pos this hpos]

/-- C141: there always is a nice number. -/
theorem C141_ends (x : ℝ) : ∃ fuel y, nicenumber fuel x = some y := by
  by_cases hx : x = 0
  · exact ⟨0, x, by rw [nicenumber, if_pos hx]⟩
  · obtain ⟨a, ha⟩ := pow_unbounded_of_one_lt |x| (by norm_num : (1 : ℝ) < 10)
    obtain ⟨b, hb⟩ := pow_unbounded_of_one_lt (1 / |x|) (by norm_num : (1 : ℝ) < 10)
    have hpos : 0 < |x| := abs_pos.2 hx
    have hb' : 1 ≤ |x| * 10 ^ b := by
      rw [div_lt_iff₀ hpos] at hb
      linarith [mul_comm |x| ((10 : ℝ) ^ b)]
    have ha' : |x| ≤ 10 ^ (a + b) := by
      calc |x| ≤ 10 ^ a := ha.le
        _ ≤ 10 ^ (a + b) := pow_le_pow_right₀ (by norm_num) (by omega)
    have hb2 : ∀ z : ℝ, 0 < z → 1 ≤ z * 10 ^ b → 1 ≤ z * 10 ^ (a + b) := by
      intro z hz h
      calc 1 ≤ z * 10 ^ b := h
        _ ≤ z * 10 ^ (a + b) := by
          have : (10 : ℝ) ^ b ≤ 10 ^ (a + b) := pow_le_pow_right₀ (by norm_num) (by omega)
          nlinarith
    refine ⟨a + b + 1, ?_⟩
    have hd := down_ends (a + b) |x| 1 ha'
    obtain ⟨p, hp⟩ := Option.ne_none_iff_exists'.1 hd
    have hu : upLoop (a + b + 1) p ≠ none := by
      have hz : 1 ≤ p.1 * 10 ^ (a + b) := by
        rcases le_or_gt 1 |x| with hl | hl
        · obtain ⟨_, b1, _, _⟩ := down_some _ |x| 1 0 p hl (by simp) hp
          have : (1 : ℝ) ≤ 10 ^ (a + b) := one_le_pow₀ (by norm_num)
          nlinarith
        · have := down_id _ |x| 1 p (by linarith) hp
          subst this
          exact hb2 _ hpos hb'
      exact up_ends (a + b) p.1 p.2 hz
    obtain ⟨q, hq⟩ := Option.ne_none_iff_exists'.1 hu
    simp only [nicenumber, if_neg hx]
    by_cases hn : x < 0
    · simp only [if_pos hn, hp, hq]
      exact ⟨_, rfl⟩
    · have : |x| = x := abs_of_nonneg (not_lt.1 hn)
      rw [this] at hp
      simp only [if_neg hn, hp, hq]
      exact ⟨_, rfl⟩

/-- C141: rounding to integers gives back integers that are not negative, also when they are a little off. -/
theorem C141_fix (n : ℕ) (x : ℝ) (h : (n : ℝ) - 0.000001 ≤ x) (h' : x < n + 0.999999) : fix2int x = n := by
  have h0 : (0 : ℝ) ≤ n := Nat.cast_nonneg n
  rw [fix2int, trunc, if_pos (by linarith)]
  rw [Int.floor_eq_iff]
  constructor
  · push_cast; linarith
  · push_cast; linarith

/-- C141, where it fails: a negative integer becomes one higher. -/
theorem C141_counterexample_negative (n : ℕ) (hn : 0 < n) : fix2int (-(n : ℝ)) = -(n : ℤ) + 1 := by
  have h1 : (1 : ℝ) ≤ n := by exact_mod_cast hn
  rw [fix2int, trunc, if_neg (by norm_num; linarith)]
  rw [Int.ceil_eq_iff]
  constructor
  · push_cast; linarith
  · push_cast; linarith

/-- The nice number of -37 is -30. -/
example : nicenumber 3 (-37) = some (-30) := by
  norm_num [nicenumber, downLoop, upLoop, trunc]

example : fix2int 2.9999995 = 3 := by
  have := C141_fix 3 2.9999995 (by norm_num) (by norm_num)
  simpa using this

end BF.Nice
