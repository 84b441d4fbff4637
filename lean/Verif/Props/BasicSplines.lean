import Verif.BasicSplines
import Verif.Props.Splines
import Verif.Props.Fitters
import Mathlib.Data.Nat.Choose.Sum
import Mathlib.LinearAlgebra.Matrix.NonsingularInverse
import Mathlib.LinearAlgebra.Matrix.ToLinearEquiv

/-!
# C75 … : basic splines
-/

namespace BF.BasicSplines

open BF.Poly BF.Splines BF.Fitters Finset

/-! ## Specification -/

/-- A spline: a polynomial plus truncated powers at the inner knots. -/
def IsSpline (order : ℕ) (knots : List ℝ) (f : ℝ → ℝ) : Prop :=
  ∃ c d : ℕ → ℝ, ∀ x, f x = ∑ i ∈ range (order + 1), c i * x ^ i
    + ∑ j ∈ range (knots.length - 2), d j * trunc order (knots.getD (j + 1) 0) x

/-! ## The rows of the equations -/

theorem getD_map_range (n : ℕ) (f : ℕ → ℝ) (j : ℕ) (hj : j < n) : ((List.range n).map f).getD j 0 = f j := by
  rw [List.getD_eq_getElem?_getD, List.getElem?_map, List.getElem?_range hj]
  rfl

theorem getD_mul (a b : List ℝ) (j : ℕ) (ha : j < a.length) (hb : j < b.length) :
    (mul a b).getD j 0 = a.getD j 0 * b.getD j 0 := by
  simp only [mul, List.getD_eq_getElem?_getD, List.getElem?_zipWith, List.getElem?_eq_getElem ha,
    List.getElem?_eq_getElem hb]
  rfl

theorem roll_length (l : List ℝ) (s : ℕ) : (roll l s).length = l.length := by simp [roll]

theorem roll_at (l : List ℝ) (s j : ℕ) (hj : j < l.length) (hs : s ≤ j) : (roll l s).getD j 0 = l.getD (j - s) 0 := by
  rw [roll, getD_map_range _ _ _ hj, Nat.mod_eq_of_lt (show s < l.length by omega),
    show j + l.length - s = (j - s) + l.length by omega, Nat.add_mod_right, Nat.mod_eq_of_lt (by omega)]

theorem turn_spec (k0 : ℕ) (x : ℝ) (k : ℕ) (hk : k ≤ k0) :
    (turn k0 x k).1.length = k0 ∧ (turn k0 x k).2.length = k0 ∧
    (∀ j < k0, k ≤ j → (turn k0 x k).1.getD j 0 = x ^ (j - k)) ∧
    ∀ j < k0, (turn k0 x k).2.getD j 0 = (j.descFactorial k : ℝ) := by
  induction k with
  | zero =>
    refine ⟨by simp [turn, power], by simp [turn], ?_, ?_⟩
    · intro j hj _
      simp only [turn, power]
      rw [getD_map_range _ _ _ hj, Nat.sub_zero]
    · intro j hj
      simp [turn, hj, List.getD_eq_getElem?_getD]
  | succ k ih =>
    obtain ⟨h1, h2, h3, h4⟩ := ih (by omega)
    refine ⟨by simp [turn, roll_length, h1], by simp [turn, mul, roll_length, h2, arange], ?_, ?_⟩
    · intro j hj hkj
      simp only [turn]
      rw [roll_at _ _ _ (by rw [h1]; exact hj) (by omega), h3 _ (by omega) (by omega)]
      congr 1
      omega
    · intro j hj
      have hlen : (arange k0).length = k0 := by simp [arange]
      simp only [turn]
      rw [getD_mul _ _ _ (by rw [h2]; exact hj) (by rw [roll_length, hlen]; exact hj), h4 j hj]
      rcases Nat.lt_or_ge j k with hjk | hjk
      · rw [Nat.descFactorial_of_lt hjk, Nat.descFactorial_of_lt (by omega)]
        simp
      · rw [roll_at _ _ _ (by rw [hlen]; exact hj) hjk, arange, getD_map_range _ _ _ (by omega),
          Nat.descFactorial_succ]
        push_cast
        ring

theorem diffRow_length (k0 : ℕ) (x : ℝ) (k : ℕ) (hk : k ≤ k0) : (diffRow k0 x k).length = k0 := by
  obtain ⟨h1, h2, -, -⟩ := turn_spec k0 x k hk
  simp [diffRow, mul, h1, h2]

/-- A row is a derivative of the powers. -/
theorem diffRow_at (k0 : ℕ) (x : ℝ) (k : ℕ) (hk : k ≤ k0) (j : ℕ) (hj : j < k0) :
    (diffRow k0 x k).getD j 0 = (j.descFactorial k : ℝ) * x ^ (j - k) := by
  obtain ⟨h1, h2, h3, h4⟩ := turn_spec k0 x k hk
  rw [diffRow, getD_mul _ _ _ (by rw [h1]; exact hj) (by rw [h2]; exact hj), h4 j hj]
  rcases Nat.lt_or_ge j k with hjk | hjk
  · rw [Nat.descFactorial_of_lt hjk]
    simp
  · rw [h3 j hj hjk, mul_comm]

theorem place_sum (np i : ℕ) (l : List ℝ) (b : ℕ → ℝ) (h : i + l.length ≤ np) :
    ∑ c ∈ range np, place i l (fun _ => 0) c * b c = ∑ j ∈ range l.length, l.getD j 0 * b (i + j) := by
  have e1 : ∑ c ∈ range np, place i l (fun _ => 0) c * b c
      = ∑ c ∈ Ico i (i + l.length), l.getD (c - i) 0 * b c := by
    rw [← sum_subset (s₁ := Ico i (i + l.length))]
    · apply sum_congr rfl
      intro c hc
      rw [mem_Ico] at hc
      rw [place, if_pos hc]
    · intro c hc
      rw [mem_Ico] at hc
      exact mem_range.2 (by omega)
    · intro c _ hc
      rw [mem_Ico] at hc
      rw [place, if_neg hc, zero_mul]
  rw [e1, sum_Ico_eq_sum_range]
  simp

theorem place_two (np i k0 : ℕ) (l l' : List ℝ) (hl : l.length = k0) (b : ℕ → ℝ) (h : i + k0 + l'.length ≤ np) :
    ∑ c ∈ range np, place (i + k0) l' (place i l fun _ => 0) c * b c
      = ∑ j ∈ range l'.length, l'.getD j 0 * b (i + k0 + j) + ∑ j ∈ range l.length, l.getD j 0 * b (i + j) := by
  rw [← place_sum np (i + k0) l' b h, ← place_sum np i l b (by omega), ← sum_add_distrib]
  apply sum_congr rfl
  intro c _
  rw [← add_mul]
  congr 1
  unfold place
  by_cases h1 : i + k0 ≤ c ∧ c < i + k0 + l'.length
  · rw [if_pos h1, if_pos h1, if_neg (by omega), add_zero]
  · rw [if_neg h1, if_neg h1, zero_add]

/-! ## What the equations say -/

theorem desc_choose (j k : ℕ) : (j.descFactorial k : ℝ) = (k.factorial : ℝ) * (j.choose k : ℝ) := by
  exact_mod_cast Nat.descFactorial_eq_factorial_mul_choose j k

/-- The derivatives at the left side of a piece. -/
theorem row_zero (k0 k : ℕ) (hk : k < k0) (b : ℕ → ℝ) :
    ∑ j ∈ range k0, (diffRow k0 0 k).getD j 0 * b j = (k.factorial : ℝ) * b k := by
  rw [sum_eq_single k]
  · rw [diffRow_at k0 0 k hk.le k hk, Nat.descFactorial_self]
    simp
  · intro j hj hne
    rw [diffRow_at k0 0 k hk.le j (mem_range.1 hj)]
    rcases Nat.lt_or_ge j k with h | h
    · rw [Nat.descFactorial_of_lt h]
      simp
    · rw [zero_pow (by omega)]
      simp
  · intro h
    exact absurd (mem_range.2 hk) h

/-- The derivatives at the right side of a piece. -/
theorem row_right (k0 k : ℕ) (hk : k < k0) (d : ℝ) (b : ℕ → ℝ) :
    ∑ j ∈ range k0, (diffRow k0 d k).getD j 0 * b j
      = (k.factorial : ℝ) * ∑ j ∈ range k0, (j.choose k : ℝ) * d ^ (j - k) * b j := by
  rw [mul_sum]
  apply sum_congr rfl
  intro j hj
  rw [diffRow_at k0 d k hk.le j (mem_range.1 hj), desc_choose]
  ring

/-- A polynomial around another point. -/
theorem shift (n : ℕ) (a : ℕ → ℝ) (v d : ℝ) : ∑ j ∈ range (n + 1), a j * (v + d) ^ j
    = ∑ k ∈ range (n + 1), (∑ j ∈ range (n + 1), (j.choose k : ℝ) * d ^ (j - k) * a j) * v ^ k := by
  have h1 : ∀ j ∈ range (n + 1), a j * (v + d) ^ j
      = ∑ k ∈ range (n + 1), (j.choose k : ℝ) * d ^ (j - k) * a j * v ^ k := by
    intro j hj
    rw [add_pow, mul_sum, ← sum_subset (range_subset_range.2 (show j + 1 ≤ n + 1 by
      have := mem_range.1 hj; omega))]
    · exact sum_congr rfl fun k _ => by ring
    · intro k _ hk
      have : j < k := by
        rw [mem_range] at hk
        omega
      rw [Nat.choose_eq_zero_of_lt this]
      simp
  rw [sum_congr rfl h1, sum_comm]
  exact sum_congr rfl fun k _ => by rw [sum_mul]

/-- Two pieces of which the derivatives agree at the knot. -/
def Joined (n : ℕ) (d : ℝ) (a b : ℕ → ℝ) : Prop :=
  ∀ k < n, ∑ j ∈ range (n + 1), (j.choose k : ℝ) * d ^ (j - k) * a j = b k

/-- They differ by a multiple of the highest power only. -/
theorem joined (n : ℕ) (d : ℝ) (a b : ℕ → ℝ) (h : Joined n d a b) (v : ℝ) :
    ∑ j ∈ range (n + 1), b j * v ^ j = ∑ j ∈ range (n + 1), a j * (v + d) ^ j + (b n - a n) * v ^ n := by
  rw [shift, sum_range_succ, sum_range_succ _ n]
  have h1 : ∑ k ∈ range n, b k * v ^ k
      = ∑ k ∈ range n, (∑ j ∈ range (n + 1), (j.choose k : ℝ) * d ^ (j - k) * a j) * v ^ k :=
    sum_congr rfl fun k hk => by rw [h k (mem_range.1 hk)]
  have h2 : ∑ j ∈ range (n + 1), (j.choose n : ℝ) * d ^ (j - n) * a j = a n := by
    rw [sum_range_succ, sum_eq_zero, zero_add]
    · simp
    · intro j hj
      rw [Nat.choose_eq_zero_of_lt (mem_range.1 hj)]
      simp
  rw [h1, h2]
  ring

/-! ## The solution -/

theorem inner_length (m : Spec) (len : ℕ) (dist : ℕ → ℝ) : (m.innerRows len dist).length = (len - 2) * m.order := by
  simp [Spec.innerRows, List.length_flatMap]

theorem count_rows (o len ne : ℕ) (h2 : 2 ≤ len) (hne : ne ≤ o) :
    (len - 1) * (o + 1) - 1 - (ne + (len - 2) * o) = len - 2 + o - ne ∧
    ne + (len - 2) * o + (len - 2 + o - ne) = (len - 1) * (o + 1) - 1 := by
  obtain ⟨l, rfl⟩ := Nat.exists_eq_add_of_le h2
  have e1 : (2 + l - 1) * (o + 1) = l * o + l + o + 1 := by
    rw [show 2 + l - 1 = l + 1 by omega]
    ring
  rw [e1, show 2 + l - 2 = l by omega]
  omega

/-- Every row of the matrix, but the last, times the solution is 0. -/
theorem rows_zero (solve : Solver) (hsolve : SolveSpec solve) (m : Spec) (len : ℕ) (h2 : 2 ≤ len) (dist : ℕ → ℝ)
    (kpar : ℕ) (p : ℕ → ℝ) (h : m.findParameters solve len dist kpar = some p) (row : ℕ → ℝ)
    (hr : row ∈ m.leftRows kpar ++ m.innerRows len dist
      ++ m.rightRows len dist (m.leftRows kpar ++ m.innerRows len dist).length) :
    ∑ c ∈ range ((len - 1) * (m.order + 1)), row c * p c = 0 := by
  have hne : m.ne1 kpar ≤ m.order := min_le_left _ _
  have hhead : (m.leftRows kpar ++ m.innerRows len dist).length = m.ne1 kpar + (len - 2) * m.order := by
    rw [List.length_append, inner_length]
    simp [Spec.leftRows]
  obtain ⟨hc1, hc2⟩ := count_rows m.order len (m.ne1 kpar) h2 hne
  have hlen : (m.leftRows kpar ++ m.innerRows len dist
      ++ m.rightRows len dist (m.leftRows kpar ++ m.innerRows len dist).length).length
      = (len - 1) * (m.order + 1) - 1 := by
    rw [List.length_append, hhead]
    simp only [Spec.rightRows, List.length_map, List.length_range]
    rw [hc1, hc2]
  obtain ⟨r, hr1, hr2⟩ := List.getElem_of_mem hr
  have hr' : r < (len - 1) * (m.order + 1) - 1 := by rw [← hlen]; exact hr1
  unfold Spec.findParameters at h
  dsimp only at h
  have key : ∀ (last : ℕ → ℝ) q, solve ((len - 1) * (m.order + 1)) (fun r c => if r = (len - 1) * (m.order + 1) - 1
      then last c else (m.leftRows kpar ++ m.innerRows len dist
      ++ m.rightRows len dist (m.leftRows kpar ++ m.innerRows len dist).length).getD r (fun _ => 0) c)
      (fun r => if r = (len - 1) * (m.order + 1) - 1 then 1 else 0) = some q →
      ∑ c ∈ range ((len - 1) * (m.order + 1)), row c * q c = 0 := by
    intro last q hq
    have := hsolve _ _ _ _ hq r (by omega)
    simp only [if_neg (show ¬ r = (len - 1) * (m.order + 1) - 1 by omega)] at this
    rw [List.getD_eq_getElem?_getD, List.getElem?_eq_getElem hr1, hr2] at this
    exact this
  split at h
  · obtain rfl := Option.some.inj h
    exact key _ _ ‹_›
  · exact key _ _ h

/-- What the solution satisfies. -/
theorem find_spec (solve : Solver) (hsolve : SolveSpec solve) (m : Spec) (len : ℕ) (h2 : 2 ≤ len) (dist : ℕ → ℝ)
    (kpar : ℕ) (p : ℕ → ℝ) (h : m.findParameters solve len dist kpar = some p) :
    (∀ k < m.ne1 kpar, p k = 0) ∧
    (∀ ks < len - 2, Joined m.order (dist ks) (fun j => p (ks * (m.order + 1) + j))
      (fun j => p ((ks + 1) * (m.order + 1) + j))) ∧
    (∀ k < len - 2 + m.order - m.ne1 kpar, k < m.order → ∑ j ∈ range (m.order + 1),
      (j.choose k : ℝ) * dist (len - 2) ^ (j - k) * p ((len - 2) * (m.order + 1) + j) = 0) := by
  have hrows := rows_zero solve hsolve m len h2 dist kpar p h
  have hne : m.ne1 kpar ≤ m.order := min_le_left _ _
  have hnp : (len - 1) * (m.order + 1) = (len - 2) * (m.order + 1) + (m.order + 1) := by
    obtain ⟨l, rfl⟩ := Nat.exists_eq_add_of_le h2
    rw [show 2 + l - 1 = l + 1 by omega, show 2 + l - 2 = l by omega]
    ring
  have hfac : ∀ k : ℕ, (k.factorial : ℝ) ≠ 0 := fun k => by exact_mod_cast k.factorial_ne_zero
  refine ⟨?_, ?_, ?_⟩
  · intro k hk
    have hko : k < m.order + 1 := by omega
    have := hrows _ (List.mem_append_left _ (List.mem_append_left _ (List.mem_map.2 ⟨k, List.mem_range.2 hk, rfl⟩)))
    rw [place_sum _ _ _ _ (by rw [diffRow_length _ _ _ hko.le, hnp]; omega), diffRow_length _ _ _ hko.le] at this
    simp only [zero_add] at this
    rw [row_zero _ _ hko] at this
    exact (mul_eq_zero.1 this).resolve_left (hfac k)
  · intro ks hks k hk
    have hko : k < m.order + 1 := by omega
    have hmem : place (ks * (m.order + 1) + (m.order + 1)) ((diffRow (m.order + 1) 0 k).map fun v => -v)
        (place (ks * (m.order + 1)) (diffRow (m.order + 1) (dist ks) k) fun _ => 0) ∈ m.innerRows len dist :=
      List.mem_flatMap.2 ⟨ks, List.mem_range.2 hks, List.mem_map.2 ⟨k, List.mem_range.2 hk, rfl⟩⟩
    have := hrows _ (List.mem_append_left _ (List.mem_append_right _ hmem))
    have hle : (ks + 1) * (m.order + 1) ≤ (len - 2) * (m.order + 1) := Nat.mul_le_mul_right _ hks
    have hle' : ks * (m.order + 1) + (m.order + 1) ≤ (len - 2) * (m.order + 1) := by
      rw [← Nat.succ_mul]; exact hle
    rw [place_two _ _ _ _ _ (diffRow_length _ _ _ hko.le) _ (by
      rw [List.length_map, diffRow_length _ _ _ hko.le, hnp]; omega), List.length_map,
      diffRow_length _ _ _ hko.le, diffRow_length _ _ _ hko.le,
      row_right _ _ hko _ (fun j => p (ks * (m.order + 1) + j))] at this
    have hneg : ∑ j ∈ range (m.order + 1), ((diffRow (m.order + 1) 0 k).map fun v => -v).getD j 0
        * p (ks * (m.order + 1) + (m.order + 1) + j)
        = - ((k.factorial : ℝ) * p ((ks + 1) * (m.order + 1) + k)) := by
      rw [← row_zero (m.order + 1) k hko (fun j => p ((ks + 1) * (m.order + 1) + j)), ← sum_neg_distrib]
      apply sum_congr rfl
      intro j hj
      have hj' : j < (diffRow (m.order + 1) 0 k).length := by
        rw [diffRow_length _ _ _ hko.le]; exact mem_range.1 hj
      rw [show ks * (m.order + 1) + (m.order + 1) = (ks + 1) * (m.order + 1) by ring]
      simp only [List.getD_eq_getElem?_getD, List.getElem?_map, List.getElem?_eq_getElem hj', Option.map_some,
        Option.getD_some]
      ring
    rw [hneg] at this
    apply mul_left_cancel₀ (hfac k)
    linarith
  · intro k hk hko'
    have hko : k < m.order + 1 := by omega
    have hhead : (m.leftRows kpar ++ m.innerRows len dist).length = m.ne1 kpar + (len - 2) * m.order := by
      rw [List.length_append, inner_length]
      simp [Spec.leftRows]
    obtain ⟨hc1, -⟩ := count_rows m.order len (m.ne1 kpar) h2 hne
    have hmem : place ((len - 2) * (m.order + 1)) (diffRow (m.order + 1) (dist (len - 2)) k) (fun _ => 0)
        ∈ m.rightRows len dist (m.leftRows kpar ++ m.innerRows len dist).length := by
      refine List.mem_map.2 ⟨k, List.mem_range.2 ?_, rfl⟩
      rw [hhead, hc1]
      exact hk
    have := hrows _ (List.mem_append_right _ hmem)
    rw [place_sum _ _ _ _ (by rw [diffRow_length _ _ _ hko.le, hnp]), diffRow_length _ _ _ hko.le,
      row_right _ _ hko _ (fun j => p ((len - 2) * (m.order + 1) + j))] at this
    exact (mul_eq_zero.1 this).resolve_left (hfac k)

/-! ## The basis -/

theorem window_eq (m : Spec) (hk : 2 ≤ m.knots.length) (k : ℕ) :
    m.window k = (k - m.order, min m.knots.length (k + 2)) := by
  induction k with
  | zero =>
    simp only [Spec.window]
    rw [if_neg (by omega), if_pos (by omega), Nat.zero_sub, min_eq_right (by omega)]
  | succ k ih =>
    simp only [Spec.window, ih]
    congr 1
    · split_ifs <;> omega
    · split_ifs <;> omega

/-- Piece `q` of blob `k`. -/
theorem raw_joined (solve : Solver) (hsolve : SolveSpec solve) (m : Spec) (h2 : 2 ≤ m.knots.length)
    (basis : ℕ → ℕ → ℕ → ℝ) (hb : m.rawBasis solve = some basis) (k : ℕ) (hk : k < m.npmax) (q : ℕ)
    (hq : q + 2 < m.knots.length) :
    Joined m.order (m.knots.getD (q + 1) 0 - m.knots.getD q 0) (fun j => basis q j k)
      (fun j => basis (q + 1) j k) := by
  unfold Spec.rawBasis at hb
  split_ifs at hb with hall
  obtain rfl := Option.some.inj hb
  have hsome := List.all_eq_true.1 hall k (List.mem_range.2 hk)
  obtain ⟨p, hp⟩ := Option.isSome_iff_exists.1 hsome
  have hnp : m.npmax = m.knots.length + m.order - 1 := rfl
  have hw := window_eq m h2 k
  simp only [hp, Option.getD_some]
  unfold Spec.blobPar at hp
  simp only [hw] at hp ⊢
  set lo := k - m.order with hlo
  set hi := min m.knots.length (k + 2) with hhi
  have hlen : 2 ≤ hi - lo := by omega
  obtain ⟨hL, hI, hR⟩ := find_spec solve hsolve m (hi - lo) hlen (m.dist lo) k p hp
  have hne : m.ne1 k = min m.order k := rfl
  intro i hi'
  dsimp only
  by_cases h1 : lo ≤ q ∧ q + 1 < hi
  · simp only [if_pos h1]
    by_cases h3 : q + 1 + 1 < hi
    · rw [if_pos ⟨by omega, h3⟩]
      have := hI (q - lo) (by omega) i hi'
      rw [show q + 1 - lo = q - lo + 1 by omega]
      simp only [Spec.dist, show lo + (q - lo) = q by omega] at this
      exact this
    · rw [if_neg (by omega)]
      have := hR i (by omega) hi'
      simp only [Spec.dist, show lo + (hi - lo - 2) = q by omega] at this
      rw [show q - lo = hi - lo - 2 by omega]
      exact this
  · simp only [if_neg h1, mul_zero, sum_const_zero]
    by_cases h3 : lo ≤ q + 1 ∧ q + 1 + 1 < hi
    · rw [if_pos h3, show q + 1 - lo = 0 by omega, zero_mul, zero_add]
      exact (hL i (by omega)).symm
    · rw [if_neg h3]

/-- The same after the normalization. -/
theorem basis_joined (solve : Solver) (hsolve : SolveSpec solve) (m : Spec) (h2 : 2 ≤ m.knots.length)
    (basis : ℕ → ℕ → ℕ → ℝ) (hb : m.makeBasis solve = some basis) (k : ℕ) (hk : k < m.npmax) (q : ℕ)
    (hq : q + 2 < m.knots.length) :
    Joined m.order (m.knots.getD (q + 1) 0 - m.knots.getD q 0) (fun j => basis q j k)
      (fun j => basis (q + 1) j k) := by
  unfold Spec.makeBasis at hb
  obtain ⟨raw, hraw, hn⟩ := Option.bind_eq_some_iff.1 hb
  unfold Spec.normalizeBasis at hn
  obtain ⟨bpar, -, rfl⟩ := Option.map_eq_some_iff.1 hn
  intro i hi
  have := raw_joined solve hsolve m h2 raw hraw k hk q hq i hi
  dsimp only at this ⊢
  rw [← this, sum_mul]
  exact sum_congr rfl fun j _ => by ring

/-! ## From pieces to splines -/

theorem count_sorted (x : ℝ) (l : List ℝ) (hs : l.Pairwise (· ≤ ·)) (n : ℕ) :
    ∃ c, l.foldl (fun ix kn => if x ≥ kn then ix + 1 else ix) n = n + c ∧ c ≤ l.length ∧
      ∀ i < l.length, l.getD i 0 ≤ x ↔ i < c := by
  induction l generalizing n with
  | nil => exact ⟨0, rfl, le_rfl, fun i hi => absurd hi (Nat.not_lt_zero i)⟩
  | cons a l ih =>
    rw [List.pairwise_cons] at hs
    by_cases ha : x ≥ a
    · obtain ⟨c, h1, h2, h3⟩ := ih hs.2 (n + 1)
      refine ⟨c + 1, by rw [List.foldl_cons, if_pos ha, h1]; omega, by simp; omega, ?_⟩
      intro i hi
      cases i with
      | zero => simpa using ha
      | succ i =>
        rw [List.getD_cons_succ, h3 i (by simpa using hi)]
        omega
    · obtain ⟨c, h1, h2, h3⟩ := ih hs.2 n
      have hc : c = 0 := by
        by_contra hc
        have h4 := (h3 0 (by omega)).2 (by omega)
        have h5 : l.getD 0 0 ∈ l := by
          rw [List.getD_eq_getElem?_getD, List.getElem?_eq_getElem (show 0 < l.length by omega)]
          exact List.getElem_mem _
        have := hs.1 _ h5
        exact ha (le_trans this h4)
      refine ⟨0, by rw [List.foldl_cons, if_neg ha, h1, hc], Nat.zero_le _, ?_⟩
      intro i hi
      cases i with
      | zero => simpa using ha
      | succ i =>
        rw [List.getD_cons_succ, h3 i (by simpa using hi), hc]
        omega

/-- The index says between which knots x is. -/
theorem knotIndex_spec (m : Spec) (h2 : 2 ≤ m.knots.length) (hs : m.knots.Pairwise (· ≤ ·)) (x : ℝ) :
    m.knotIndex x ≤ m.knots.length - 2 ∧
    ∀ i < m.knots.length - 2, m.knots.getD (i + 1) 0 ≤ x ↔ i < m.knotIndex x := by
  have hinner : m.knots.tail.dropLast.Pairwise (· ≤ ·) :=
    (hs.sublist ((List.dropLast_sublist _).trans (List.tail_sublist _)))
  have hlen : m.knots.tail.dropLast.length = m.knots.length - 2 := by simp; omega
  obtain ⟨c, h1, h3, h4⟩ := count_sorted x _ hinner 0
  have hidx : m.knotIndex x = c := by rw [Spec.knotIndex, h1, zero_add]
  rw [hidx]
  refine ⟨by omega, ?_⟩
  intro i hi
  rw [← h4 i (by omega)]
  have : m.knots.tail.dropLast.getD i 0 = m.knots.getD (i + 1) 0 := by
    rw [List.getD_eq_getElem?_getD, List.getElem?_dropLast, if_pos (by simp; omega)]
    simp [List.getD_eq_getElem?_getD]
  rw [this]

/-- A function given by pieces. -/
noncomputable def pieces (m : Spec) (a : ℕ → ℕ → ℝ) (x : ℝ) : ℝ :=
  ∑ j ∈ range (m.order + 1), a (m.knotIndex x) j * (x - m.knots.getD (m.knotIndex x) 0) ^ j

theorem piece_sum (m : Spec) (a : ℕ → ℕ → ℝ) (hj : ∀ q, q + 2 < m.knots.length →
      Joined m.order (m.knots.getD (q + 1) 0 - m.knots.getD q 0) (a q) (a (q + 1))) (x : ℝ) (q : ℕ)
    (hq : q + 1 < m.knots.length) :
    ∑ j ∈ range (m.order + 1), a q j * (x - m.knots.getD q 0) ^ j
      = ∑ j ∈ range (m.order + 1), a 0 j * (x - m.knots.getD 0 0) ^ j
        + ∑ i ∈ range q, (a (i + 1) m.order - a i m.order) * (x - m.knots.getD (i + 1) 0) ^ m.order := by
  induction q with
  | zero => simp
  | succ q ih =>
    have := joined _ _ _ _ (hj q (by omega)) (x - m.knots.getD (q + 1) 0)
    rw [this, sum_range_succ _ q, ← add_assoc, ← ih (by omega)]
    congr 1
    apply sum_congr rfl
    intro j _
    congr 2
    ring

/-- Pieces that are joined are a spline. -/
theorem pieces_spline (m : Spec) (h2 : 2 ≤ m.knots.length) (hs : m.knots.Pairwise (· ≤ ·)) (a : ℕ → ℕ → ℝ)
    (hj : ∀ q, q + 2 < m.knots.length →
      Joined m.order (m.knots.getD (q + 1) 0 - m.knots.getD q 0) (a q) (a (q + 1))) :
    IsSpline m.order m.knots (pieces m a) := by
  refine ⟨fun k => ∑ j ∈ range (m.order + 1), (j.choose k : ℝ) * (-m.knots.getD 0 0) ^ (j - k) * a 0 j,
    fun i => a (i + 1) m.order - a i m.order, ?_⟩
  intro x
  obtain ⟨h3, h4⟩ := knotIndex_spec m h2 hs x
  unfold pieces
  rw [piece_sum m a hj x _ (by omega), ← shift]
  congr 1
  rw [← sum_subset (range_subset_range.2 h3)]
  · apply sum_congr rfl
    intro i hi
    have hi' := mem_range.1 hi
    rw [trunc, if_pos ((h4 i (by omega)).2 hi')]
  · intro i hi hn
    rw [mem_range] at hi hn
    rw [trunc, if_neg (fun h => hn ((h4 i hi).1 h)), mul_zero]

theorem blob_pieces (m : Spec) (b : ℕ → ℕ → ℝ) (x : ℝ) : m.basicBlob m.order b x = pieces m b x := by
  unfold Spec.basicBlob pieces
  simp only
  split_ifs with h
  · symm
    apply sum_eq_zero
    intro j hj
    rw [h j (mem_range.1 hj), zero_mul]
  · rw [(C35_poly _ _ _).1]

theorem pieces_sum (m : Spec) (n : ℕ) (b : ℕ → ℕ → ℕ → ℝ) (p : ℕ → ℝ) (x : ℝ) :
    pieces m (fun q j => ∑ k ∈ range n, b q j k * p k) x
      = ∑ k ∈ range n, pieces m (fun q j => b q j k) x * p k := by
  unfold pieces
  simp only [sum_mul]
  rw [sum_comm]
  exact sum_congr rfl fun k _ => sum_congr rfl fun j _ => by ring

theorem result_blobs (m : Spec) (basis : ℕ → ℕ → ℕ → ℝ) (x : ℝ) (p : ℕ → ℝ) :
    m.result basis x p = ∑ k ∈ range m.npmax, m.basicBlob m.order (fun q j => basis q j k) x * p k := by
  simp only [blob_pieces]
  rw [← pieces_sum]
  unfold Spec.result pieces
  rw [(C35_poly _ _ _).1]

theorem joined_sum (n : ℕ) (d : ℝ) (N : ℕ) (a b : ℕ → ℕ → ℝ) (p : ℕ → ℝ)
    (h : ∀ k < N, Joined n d (fun j => a j k) (fun j => b j k)) :
    Joined n d (fun j => ∑ k ∈ range N, a j k * p k) (fun j => ∑ k ∈ range N, b j k * p k) := by
  intro i hi
  dsimp only
  simp only [mul_sum]
  rw [sum_comm]
  apply sum_congr rfl
  intro k hk
  have := h k (mem_range.1 hk) i hi
  dsimp only at this
  rw [← this, sum_mul]
  exact sum_congr rfl fun j _ => by ring

/-- C75: whatever the parameters are, the result is a spline: a polynomial plus truncated powers at the inner
knots. It holds for all orders and all knots in order, for any solver of linear equations that is right when it
returns something. -/
theorem C75_spline (solve : Solver) (hsolve : SolveSpec solve) (m : Spec) (h2 : 2 ≤ m.knots.length)
    (hs : m.knots.Pairwise (· ≤ ·)) (basis : ℕ → ℕ → ℕ → ℝ) (hb : m.makeBasis solve = some basis) (p : ℕ → ℝ) :
    IsSpline m.order m.knots (fun x => m.result basis x p) := by
  have : (fun x => m.result basis x p) = pieces m (fun q j => ∑ k ∈ range m.npmax, basis q j k * p k) := by
    funext x
    rw [result_blobs, pieces_sum]
    simp only [blob_pieces]
  rw [this]
  apply pieces_spline m h2 hs
  intro q hq
  exact joined_sum _ _ _ (fun j k => basis q j k) (fun j k => basis (q + 1) j k) p fun k hk =>
    basis_joined solve hsolve m h2 basis hb k hk q hq

theorem spline_smooth (n : ℕ) (knots : List ℝ) (f : ℝ → ℝ) (h : IsSpline (n + 1) knots f) : ContDiff ℝ n f := by
  obtain ⟨c, d, h⟩ := h
  rw [show f = _ from funext h]
  refine ContDiff.add ?_ ?_
  · exact ContDiff.sum fun i _ => contDiff_const.mul (contDiff_id.pow i)
  · exact ContDiff.sum fun j _ => contDiff_const.mul (trunc_smooth n _)

/-- C75: the result is continuous with all its derivatives up to the order minus one. -/
theorem C75_smooth (solve : Solver) (hsolve : SolveSpec solve) (n : ℕ) (knots : List ℝ) (h2 : 2 ≤ knots.length)
    (hs : knots.Pairwise (· ≤ ·)) (basis : ℕ → ℕ → ℕ → ℝ) (hb : Spec.makeBasis solve ⟨n + 1, knots⟩ = some basis)
    (p : ℕ → ℝ) : ContDiff ℝ n (fun x => Spec.result ⟨n + 1, knots⟩ basis x p) :=
  spline_smooth n knots _ (C75_spline solve hsolve ⟨n + 1, knots⟩ h2 hs basis hb p)

/-! ## Partials and derivative -/

/-- C75: the partials are the derivatives to the parameters, and the result is linear in them. -/
theorem C75_partial (m : Spec) (basis : ℕ → ℕ → ℕ → ℝ) (x : ℝ) (p : ℕ → ℝ) :
    m.result basis x p = linearResult p (m.partials basis x) ∧
    ∀ k < m.npmax, HasDerivAt (fun t => m.result basis x (Function.update p k t))
      ((m.partials basis x).getD k 0) (p k) := by
  have h1 : ∀ p, m.result basis x p = linearResult p (m.partials basis x) := by
    intro p
    rw [result_blobs, Spec.partials, linear_range]
    exact sum_congr rfl fun k _ => mul_comm _ _
  refine ⟨h1 p, ?_⟩
  intro k hk
  simp only [result_blobs]
  rw [Spec.partials, getD_map_range _ _ _ hk]
  have : (fun t => ∑ i ∈ range m.npmax, m.basicBlob m.order (fun q j => basis q j i) x * Function.update p k t i)
      = fun t => m.basicBlob m.order (fun q j => basis q j k) x * t
        + ∑ i ∈ (range m.npmax).erase k, m.basicBlob m.order (fun q j => basis q j i) x * p i := by
    funext t
    rw [← add_sum_erase _ _ (mem_range.2 hk)]
    congr 1
    · rw [Function.update_self]
    · exact sum_congr rfl fun i hi => by rw [Function.update_of_ne (ne_of_mem_erase hi)]
  rw [this]
  exact (((hasDerivAt_id' (p k)).const_mul _).add_const _).congr_deriv (mul_one _)

theorem trunc_deriv' (n : ℕ) (k x : ℝ) (h : 2 ≤ n ∨ x ≠ k) :
    HasDerivAt (trunc n k) (n * trunc (n - 1) k x) x := by
  by_cases hx : x = k
  · have h2 := h.resolve_right (fun hh => hh hx)
    obtain ⟨n, rfl⟩ := Nat.exists_eq_add_of_le h2
    have := trunc_deriv n k x
    rw [add_comm 2 n]
    refine this.congr_deriv ?_
    push_cast
    rfl
  · rcases lt_or_gt_of_ne hx with hlt | hgt
    · have e : trunc (n - 1) k x = 0 := by rw [trunc, if_neg (not_le.2 hlt)]
      rw [e, mul_zero]
      refine (hasDerivAt_const x (0 : ℝ)).congr_of_eventuallyEq ?_
      filter_upwards [Iio_mem_nhds hlt] with t ht
      rw [trunc, if_neg (not_le.2 ht)]
    · rw [trunc, if_pos hgt.le]
      have h1 : HasDerivAt (fun t => (t - k) ^ n) (n * (x - k) ^ (n - 1)) x :=
        (((hasDerivAt_id' x).sub_const k).fun_pow n).congr_deriv (by simp)
      refine h1.congr_of_eventuallyEq ?_
      filter_upwards [Ioi_mem_nhds hgt] with t ht
      rw [trunc, if_pos (le_of_lt ht)]

theorem power_deriv (n : ℕ) (a : ℕ → ℝ) (k x : ℝ) : HasDerivAt (fun t => ∑ j ∈ range (n + 1), a j * (t - k) ^ j)
    (∑ j ∈ range n, a (j + 1) * ((j + 1 : ℕ) : ℝ) * (x - k) ^ j) x := by
  have h1 : HasDerivAt (fun t => ∑ j ∈ range (n + 1), a j * (t - k) ^ j)
      (∑ j ∈ range (n + 1), a j * (j * (x - k) ^ (j - 1))) x := by
    apply HasDerivAt.fun_sum
    intro j _
    exact ((((hasDerivAt_id' x).sub_const k).fun_pow j).congr_deriv (by simp)).const_mul _
  refine h1.congr_deriv ?_
  rw [sum_range_succ']
  simp only [Nat.cast_zero, zero_mul, mul_zero, add_zero, Nat.add_sub_cancel]
  exact sum_congr rfl fun j _ => by ring

/-- The derivative of pieces that are joined. -/
theorem pieces_deriv (m : Spec) (h2 : 2 ≤ m.knots.length) (hs : m.knots.Pairwise (· ≤ ·)) (a : ℕ → ℕ → ℝ)
    (hj : ∀ q, q + 2 < m.knots.length →
      Joined m.order (m.knots.getD (q + 1) 0 - m.knots.getD q 0) (a q) (a (q + 1))) (x : ℝ)
    (hx : 2 ≤ m.order ∨ ∀ i < m.knots.length - 2, x ≠ m.knots.getD (i + 1) 0) :
    HasDerivAt (pieces m a) (∑ j ∈ range m.order,
      a (m.knotIndex x) (j + 1) * ((j + 1 : ℕ) : ℝ) * (x - m.knots.getD (m.knotIndex x) 0) ^ j) x := by
  obtain ⟨h3, h4⟩ := knotIndex_spec m h2 hs x
  set e : ℕ → ℝ := fun i => a (i + 1) m.order - a i m.order with he
  -- as a sum of truncated powers
  have hf : pieces m a = fun t => ∑ j ∈ range (m.order + 1), a 0 j * (t - m.knots.getD 0 0) ^ j
      + ∑ i ∈ range (m.knots.length - 2), e i * trunc m.order (m.knots.getD (i + 1) 0) t := by
    funext t
    obtain ⟨h5, h6⟩ := knotIndex_spec m h2 hs t
    unfold pieces
    rw [piece_sum m a hj t _ (by omega)]
    congr 1
    rw [← sum_subset (range_subset_range.2 h5)]
    · apply sum_congr rfl
      intro i hi
      have hi' := mem_range.1 hi
      rw [trunc, if_pos ((h6 i (by omega)).2 hi')]
    · intro i hi hn
      rw [mem_range] at hi hn
      rw [trunc, if_neg (fun h => hn ((h6 i hi).1 h)), mul_zero]
  have hd : HasDerivAt (pieces m a)
      (∑ j ∈ range m.order, a 0 (j + 1) * ((j + 1 : ℕ) : ℝ) * (x - m.knots.getD 0 0) ^ j
        + ∑ i ∈ range (m.knots.length - 2), e i * (m.order * trunc (m.order - 1) (m.knots.getD (i + 1) 0) x)) x := by
    rw [hf]
    refine (power_deriv m.order (a 0) _ x).add (HasDerivAt.fun_sum fun i hi => ?_)
    exact (trunc_deriv' m.order _ x (hx.imp id fun h => h i (mem_range.1 hi))).const_mul _
  -- the polynomial of this piece
  have hq : HasDerivAt (fun t => ∑ j ∈ range (m.order + 1), a (m.knotIndex x) j * (t - m.knots.getD (m.knotIndex x) 0) ^ j)
      (∑ j ∈ range m.order, a 0 (j + 1) * ((j + 1 : ℕ) : ℝ) * (x - m.knots.getD 0 0) ^ j
        + ∑ i ∈ range (m.knotIndex x), e i * (m.order * (x - m.knots.getD (i + 1) 0) ^ (m.order - 1))) x := by
    have : (fun t => ∑ j ∈ range (m.order + 1), a (m.knotIndex x) j * (t - m.knots.getD (m.knotIndex x) 0) ^ j)
        = fun t => ∑ j ∈ range (m.order + 1), a 0 j * (t - m.knots.getD 0 0) ^ j
        + ∑ i ∈ range (m.knotIndex x), e i * (t - m.knots.getD (i + 1) 0) ^ m.order := by
      funext t
      exact piece_sum m a hj t _ (by omega)
    rw [this]
    refine (power_deriv m.order (a 0) _ x).add (HasDerivAt.fun_sum fun i _ => ?_)
    exact ((((hasDerivAt_id' x).sub_const _).fun_pow m.order).congr_deriv (by simp)).const_mul _
  have huniq := hq.unique (power_deriv m.order (a (m.knotIndex x)) _ x)
  rw [← huniq]
  refine hd.congr_deriv ?_
  congr 1
  rw [← sum_subset (range_subset_range.2 h3)]
  · apply sum_congr rfl
    intro i hi
    have hi' := mem_range.1 hi
    rw [trunc, if_pos ((h4 i (by omega)).2 hi')]
  · intro i hi hn
    rw [mem_range] at hi hn
    rw [trunc, if_neg (fun h => hn ((h4 i hi).1 h)), mul_zero, mul_zero]

theorem foldl_sum (n : ℕ) (g : ℕ → ℝ) (a : ℝ) :
    (List.range n).foldl (fun s k => s + g k) a = a + ∑ k ∈ range n, g k := by
  induction n with
  | zero => simp
  | succ n ih => rw [List.range_succ, List.foldl_append, ih, sum_range_succ]; simp [add_assoc]

/-- C75: the derivative is that to x, everywhere for orders from 2 on; for the orders 0 and 1 except at the inner
knots, where the result has none. -/
theorem C75_derivative (solve : Solver) (hsolve : SolveSpec solve) (m : Spec) (h2 : 2 ≤ m.knots.length)
    (hs : m.knots.Pairwise (· ≤ ·)) (basis : ℕ → ℕ → ℕ → ℝ) (hb : m.makeBasis solve = some basis) (p : ℕ → ℝ)
    (x : ℝ) (hx : 2 ≤ m.order ∨ ∀ i < m.knots.length - 2, x ≠ m.knots.getD (i + 1) 0) :
    HasDerivAt (fun t => m.result basis t p) (m.derivative basis x p) x := by
  have hr : (fun x => m.result basis x p) = pieces m (fun q j => ∑ k ∈ range m.npmax, basis q j k * p k) := by
    funext x
    rw [result_blobs, pieces_sum]
    simp only [blob_pieces]
  rw [hr]
  refine (pieces_deriv m h2 hs _ (fun q hq => joined_sum _ _ _ (fun j k => basis q j k)
    (fun j k => basis (q + 1) j k) p fun k hk => basis_joined solve hsolve m h2 basis hb k hk q hq) x hx).congr_deriv ?_
  unfold Spec.derivative
  by_cases h0 : m.order = 0
  · rw [if_pos h0, h0]
    simp
  · rw [if_neg h0, foldl_sum, zero_add]
    have hblob : ∀ b : ℕ → ℕ → ℝ, m.basicBlob (m.order - 1) b x
        = ∑ j ∈ range m.order, b (m.knotIndex x) j * (x - m.knots.getD (m.knotIndex x) 0) ^ j := by
      intro b
      have e : m.order - 1 + 1 = m.order := by omega
      unfold Spec.basicBlob
      simp only [e]
      split_ifs with h
      · symm
        apply sum_eq_zero
        intro j hj
        rw [h j (mem_range.1 hj), zero_mul]
      · rw [(C35_poly _ _ _).1, e]
    simp only [hblob, sum_mul]
    rw [sum_comm]
    exact sum_congr rfl fun k _ => sum_congr rfl fun j _ => by ring

/-! ## Local influence -/

/-- C75: between two knots only `order + 1` of the parameters have influence; the first and the last of the pieces
reach to infinity. -/
theorem C75_local (solve : Solver) (m : Spec) (h2 : 2 ≤ m.knots.length)
    (hs : m.knots.Pairwise (· ≤ ·)) (basis : ℕ → ℕ → ℕ → ℝ) (hb : m.makeBasis solve = some basis) (q : ℕ) (x : ℝ)
    (hq : q + 1 < m.knots.length) (hlo : q = 0 ∨ m.knots.getD q 0 ≤ x)
    (hhi : q + 2 = m.knots.length ∨ x < m.knots.getD (q + 1) 0) (p p' : ℕ → ℝ)
    (hp : ∀ k, q ≤ k → k ≤ q + m.order → p k = p' k) : m.result basis x p = m.result basis x p' := by
  obtain ⟨h3, h4⟩ := knotIndex_spec m h2 hs x
  have hi : m.knotIndex x = q := by
    rcases lt_trichotomy (m.knotIndex x) q with h | h | h
    · exfalso
      rcases hlo with h0 | h0
      · omega
      · have := (h4 (q - 1) (by omega)).1 (by rw [show q - 1 + 1 = q by omega]; exact h0)
        omega
    · exact h
    · exfalso
      rcases hhi with h0 | h0
      · omega
      · have := (h4 q (by omega)).2 h
        linarith
  unfold Spec.result
  rw [hi]
  dsimp only
  congr 1
  funext j
  apply sum_congr rfl
  intro k _
  by_cases hk : q ≤ k ∧ k ≤ q + m.order
  · rw [hp k hk.1 hk.2]
  · have h0 : basis q j k = 0 := by
      unfold Spec.makeBasis at hb
      obtain ⟨raw, hraw, hn⟩ := Option.bind_eq_some_iff.1 hb
      unfold Spec.normalizeBasis at hn
      obtain ⟨bpar, _, rfl⟩ := Option.map_eq_some_iff.1 hn
      unfold Spec.rawBasis at hraw
      split_ifs at hraw
      cases hraw
      dsimp only
      rw [window_eq m h2 k, if_neg (by dsimp only; omega), zero_mul]
    rw [h0, zero_mul, zero_mul]

/-! ## The same functions as the splines model -/

/-- The functions of which splines are made. -/
noncomputable def gen (order : ℕ) (knots : List ℝ) (j : ℕ) (x : ℝ) : ℝ :=
  if j < order + 1 then x ^ j else trunc order (knots.getD (j - order) 0) x

theorem gen_sum (order : ℕ) (knots : List ℝ) (h2 : 2 ≤ knots.length) (c : ℕ → ℝ) (x : ℝ) :
    ∑ j ∈ range (knots.length + order - 1), c j * gen order knots j x
      = ∑ i ∈ range (order + 1), c i * x ^ i
        + ∑ j ∈ range (knots.length - 2), c (order + 1 + j) * trunc order (knots.getD (j + 1) 0) x := by
  rw [show knots.length + order - 1 = (order + 1) + (knots.length - 2) by omega, sum_range_add]
  congr 1
  · apply sum_congr rfl
    intro j hj
    rw [gen, if_pos (mem_range.1 hj)]
  · apply sum_congr rfl
    intro j _
    rw [gen, if_neg (by omega), show order + 1 + j - order = j + 1 by omega]

theorem spline_gen (order : ℕ) (knots : List ℝ) (h2 : 2 ≤ knots.length) (f : ℝ → ℝ) :
    IsSpline order knots f ↔
      ∃ c : ℕ → ℝ, ∀ x, f x = ∑ j ∈ range (knots.length + order - 1), c j * gen order knots j x := by
  constructor
  · rintro ⟨c, d, h⟩
    refine ⟨fun j => if j < order + 1 then c j else d (j - (order + 1)), fun x => ?_⟩
    rw [h, gen_sum order knots h2]
    congr 1
    · apply sum_congr rfl
      intro j hj
      rw [if_pos (mem_range.1 hj)]
    · apply sum_congr rfl
      intro j _
      rw [if_neg (by omega), show order + 1 + j - (order + 1) = j by omega]
  · rintro ⟨c, h⟩
    exact ⟨c, fun j => c (order + 1 + j), fun x => by rw [h, gen_sum order knots h2]⟩

/-- As many functions that are independent as there are generators give all. -/
theorem span_all (n : ℕ) (b φ : ℕ → ℝ → ℝ) (hb : ∀ k < n, ∃ c : ℕ → ℝ, ∀ x, b k x = ∑ j ∈ range n, c j * φ j x)
    (pt : ℕ → ℝ) (hreg : ∀ z : ℕ → ℝ, (∀ r < n, ∑ k ∈ range n, b k (pt r) * z k = 0) → ∀ k < n, z k = 0)
    (c : ℕ → ℝ) : ∃ z : ℕ → ℝ, ∀ x, ∑ k ∈ range n, b k x * z k = ∑ j ∈ range n, c j * φ j x := by
  choose! T hT using hb
  let L : (Fin n → ℝ) →ₗ[ℝ] (Fin n → ℝ) :=
    { toFun := fun z j => ∑ k : Fin n, z k * T k j
      map_add' := fun z w => by
        funext j
        simp only [Pi.add_apply, add_mul, sum_add_distrib]
      map_smul' := fun s z => by
        funext j
        simp only [Pi.smul_apply, smul_eq_mul, mul_sum, RingHom.id_apply, mul_assoc] }
  have hval : ∀ (z : Fin n → ℝ) (x : ℝ), ∑ k : Fin n, b k x * z k = ∑ j : Fin n, L z j * φ j x := by
    intro z x
    have h1 : ∀ k : Fin n, b k x * z k = ∑ j : Fin n, z k * T k j * φ j x := by
      intro k
      rw [hT k k.2 x, ← Fin.sum_univ_eq_sum_range (fun j => T k j * φ j x) n, sum_mul]
      exact sum_congr rfl fun j _ => by ring
    simp only [h1]
    rw [sum_comm]
    apply sum_congr rfl
    intro j _
    show _ = (∑ k : Fin n, z k * T k j) * φ j x
    rw [sum_mul]
  have hinj : Function.Injective L := by
    rw [injective_iff_map_eq_zero]
    intro z hz
    have h1 := hreg (fun k => if h : k < n then z ⟨k, h⟩ else 0) (by
      intro r _
      rw [← Fin.sum_univ_eq_sum_range (fun k => b k (pt r) * if h : k < n then z ⟨k, h⟩ else 0) n]
      have : ∑ k : Fin n, b k (pt r) * z k = 0 := by
        rw [hval, hz]
        simp
      rw [← this]
      exact sum_congr rfl fun k _ => by simp)
    funext k
    have := h1 k k.2
    simpa using this
  have hsurj := LinearMap.injective_iff_surjective.1 hinj
  obtain ⟨z, hz⟩ := hsurj fun j => c j
  refine ⟨fun k => if h : k < n then z ⟨k, h⟩ else 0, fun x => ?_⟩
  rw [← Fin.sum_univ_eq_sum_range (fun k => b k x * if h : k < n then z ⟨k, h⟩ else 0) n,
    ← Fin.sum_univ_eq_sum_range (fun j => c j * φ j x) n]
  have := hval z x
  rw [hz] at this
  rw [← this]
  exact sum_congr rfl fun k _ => by simp

/-- The blobs before the normalization. -/
theorem raw_all (solve : Solver) (hsolve : SolveSpec solve) (m : Spec) (h2 : 2 ≤ m.knots.length)
    (hs : m.knots.Pairwise (· ≤ ·)) (raw : ℕ → ℕ → ℕ → ℝ) (hraw : m.rawBasis solve = some raw)
    (hreg : ∀ z : ℕ → ℝ, (∀ r < m.npmax, ∑ k ∈ range m.npmax,
      m.basicBlob m.order (fun q j => raw q j k) (m.points r) * z k = 0) → ∀ k < m.npmax, z k = 0)
    (f : ℝ → ℝ) (hf : IsSpline m.order m.knots f) :
    ∃ z : ℕ → ℝ, ∀ x, ∑ k ∈ range m.npmax, m.basicBlob m.order (fun q j => raw q j k) x * z k = f x := by
  obtain ⟨c, hc⟩ := (spline_gen m.order m.knots h2 f).1 hf
  obtain ⟨z, hz⟩ := span_all m.npmax (fun k x => m.basicBlob m.order (fun q j => raw q j k) x)
    (gen m.order m.knots) (by
      intro k hk
      have : IsSpline m.order m.knots (fun x => m.basicBlob m.order (fun q j => raw q j k) x) := by
        have e : (fun x => m.basicBlob m.order (fun q j => raw q j k) x) = pieces m (fun q j => raw q j k) := by
          funext x
          rw [blob_pieces]
        rw [e]
        exact pieces_spline m h2 hs _ fun q hq => raw_joined solve hsolve m h2 raw hraw k hk q hq
      exact (spline_gen m.order m.knots h2 _).1 this) m.points hreg c
  exact ⟨z, fun x => by rw [hz x, hc x]; rfl⟩

/-- C76: with all parameters 1 the result is 1, everywhere. The code sees to that in as many points as there are
parameters only. -/
theorem C76_unity (solve : Solver) (hsolve : SolveSpec solve) (hregular : SolveRegular solve) (m : Spec)
    (h2 : 2 ≤ m.knots.length) (hs : m.knots.Pairwise (· ≤ ·)) (basis : ℕ → ℕ → ℕ → ℝ)
    (hb : m.makeBasis solve = some basis) (x : ℝ) : m.result basis x (fun _ => 1) = 1 := by
  unfold Spec.makeBasis at hb
  obtain ⟨raw, hraw, hn⟩ := Option.bind_eq_some_iff.1 hb
  unfold Spec.normalizeBasis at hn
  obtain ⟨bpar, hbpar, rfl⟩ := Option.map_eq_some_iff.1 hn
  have hreg := hregular _ _ _ _ hbpar
  have hone : IsSpline m.order m.knots (fun _ => 1) := by
    refine ⟨fun i => if i = 0 then 1 else 0, fun _ => 0, fun x => ?_⟩
    simp
  obtain ⟨z, hz⟩ := raw_all solve hsolve m h2 hs raw hraw hreg _ hone
  have hsol := hsolve _ _ _ _ hbpar
  have hzb : ∀ k < m.npmax, z k = bpar k := by
    intro k hk
    have := hreg (fun k => z k - bpar k) (by
      intro r hr
      simp only [mul_sub, sum_sub_distrib]
      rw [hz (m.points r), hsol r hr, sub_self]) k hk
    linarith
  rw [result_blobs]
  refine Eq.trans ?_ (hz x)
  apply sum_congr rfl
  intro k hk
  rw [hzb k (mem_range.1 hk), mul_one, blob_pieces, blob_pieces]
  unfold pieces
  rw [sum_mul]
  exact sum_congr rfl fun j _ => by ring

/-- Provided that each of the parameters has influence, every spline of that order over the knots is the result
for some parameters. -/
theorem all_influence (solve : Solver) (hsolve : SolveSpec solve) (hregular : SolveRegular solve) (m : Spec)
    (h2 : 2 ≤ m.knots.length) (hs : m.knots.Pairwise (· ≤ ·)) (basis : ℕ → ℕ → ℕ → ℝ)
    (hb : m.makeBasis solve = some basis)
    (hk : ∀ k < m.npmax, ∃ x, m.result basis x (fun n => if n = k then 1 else 0) ≠ 0)
    (f : ℝ → ℝ) (hf : IsSpline m.order m.knots f) : ∃ p : ℕ → ℝ, ∀ x, m.result basis x p = f x := by
  unfold Spec.makeBasis at hb
  obtain ⟨raw, hraw, hn⟩ := Option.bind_eq_some_iff.1 hb
  unfold Spec.normalizeBasis at hn
  obtain ⟨bpar, hbpar, rfl⟩ := Option.map_eq_some_iff.1 hn
  have hreg := hregular _ _ _ _ hbpar
  obtain ⟨z, hz⟩ := raw_all solve hsolve m h2 hs raw hraw hreg _ hf
  have hscale : ∀ k x, m.basicBlob m.order (fun q j => raw q j k * bpar k) x
      = m.basicBlob m.order (fun q j => raw q j k) x * bpar k := by
    intro k x
    rw [blob_pieces, blob_pieces]
    unfold pieces
    rw [sum_mul]
    exact sum_congr rfl fun j _ => by ring
  have hne : ∀ k < m.npmax, bpar k ≠ 0 := by
    intro k hkn h0
    obtain ⟨x, hx⟩ := hk k hkn
    apply hx
    rw [result_blobs]
    apply sum_eq_zero
    intro n _
    by_cases h : n = k
    · rw [if_pos h, h, hscale, h0]
      simp
    · rw [if_neg h, mul_zero]
  refine ⟨fun k => z k / bpar k, fun x => ?_⟩
  rw [result_blobs]
  refine Eq.trans ?_ (hz x)
  apply sum_congr rfl
  intro k hkn
  have := hne k (mem_range.1 hkn)
  rw [hscale]
  field_simp

theorem abel (n : ℕ) (q B : ℕ → ℝ) : ∑ j ∈ range (n + 1), q j * (B j - B (j + 1))
    = q 0 * B 0 + ∑ j ∈ range n, (q (j + 1) - q j) * B (j + 1) - q n * B (n + 1) := by
  induction n with
  | zero =>
    simp
    ring
  | succ n ih =>
    rw [sum_range_succ, ih, sum_range_succ _ n]
    ring

theorem bump_sum (order : ℕ) (knots : List ℝ) (h2 : 2 ≤ knots.length) (q : ℕ → ℝ) (x : ℝ) :
    ∑ j ∈ range (knots.length - 1), q j * (bump order knots j x - bump order knots (j + 1) x)
      = q 0 * x ^ order + ∑ j ∈ range (knots.length - 2), (q (j + 1) - q j) * trunc order (knots.getD (j + 1) 0) x := by
  obtain ⟨n, hn⟩ := Nat.exists_eq_add_of_le h2
  rw [show knots.length - 1 = n + 1 by omega, abel n q (fun j => bump order knots j x),
    show knots.length - 2 = n by omega]
  have h0 : bump order knots 0 x = x ^ order := by simp [bump]
  have hlast : bump order knots (n + 1) x = 0 := by
    rw [bump, if_neg (by omega), if_neg (by omega)]
  rw [h0, hlast, mul_zero, sub_zero]
  congr 1
  apply sum_congr rfl
  intro j hj
  have := mem_range.1 hj
  rw [bump, if_neg (by omega), if_pos (by omega)]

/-- The functions of a splines model are all splines, and no other ones. -/
theorem splines_all (order : ℕ) (knots : List ℝ) (h2 : 2 ≤ knots.length) (hs : knots.Pairwise (· ≤ ·)) (f : ℝ → ℝ) :
    (∃ p : ℕ → ℝ, ∀ x, splineResult order knots x p = some (f x)) ↔ IsSpline order knots f := by
  constructor
  · rintro ⟨p, hp⟩
    refine ⟨p, fun j => p (order + (j + 1)) - p (order + j), fun x => ?_⟩
    have := hp x
    rw [splineResult_sum order knots h2 hs, bump_sum order knots h2 (fun j => p (order + j))] at this
    rw [← Option.some.inj this, sum_range_succ, add_zero]
    ring
  · rintro ⟨c, d, h⟩
    refine ⟨fun i => if i < order then c i else c order + ∑ j ∈ range (i - order), d j, fun x => ?_⟩
    rw [splineResult_sum order knots h2 hs, bump_sum order knots h2
      (fun j => (fun i => if i < order then c i else c order + ∑ j ∈ range (i - order), d j) (order + j)), h x]
    congr 1
    simp only [add_zero, lt_self_iff_false, if_false, Nat.sub_self, range_zero, sum_empty]
    rw [sum_range_succ, add_assoc]
    congr 1
    · apply sum_congr rfl
      intro i hi
      rw [if_pos (mem_range.1 hi)]
    · congr 1
      apply sum_congr rfl
      intro j _
      rw [if_neg (by omega), if_neg (by omega), show order + (j + 1) - order = j + 1 by omega,
        show order + j - order = j by omega, sum_range_succ]
      ring

/-! ## An example -/

/-- A matrix without a kernel. -/
def Regular (n : ℕ) (A : ℕ → ℕ → ℝ) : Prop :=
  ∀ z : ℕ → ℝ, (∀ a < n, ∑ b ∈ range n, A a b * z b = 0) → ∀ b < n, z b = 0

open Classical in
/-- A solver that finds the solution whenever it is unique. -/
noncomputable def exactSolve : Solver := fun n A v =>
  if h : Regular n A ∧ ∃ z : ℕ → ℝ, (∀ a < n, ∑ b ∈ range n, A a b * z b = v a) ∧ ∀ b, n ≤ b → z b = 0 then
    some h.2.choose
  else none

theorem exact_spec : SolveSpec exactSolve := by
  intro n A v z h
  unfold exactSolve at h
  split_ifs at h with hr
  cases h
  exact hr.2.choose_spec.1

theorem exact_regular : SolveRegular exactSolve := by
  intro n A v z h
  unfold exactSolve at h
  split_ifs at h with hr
  exact hr.1

theorem exact_eq (n : ℕ) (A : ℕ → ℕ → ℝ) (v q : ℕ → ℝ) (hA : Regular n A)
    (hq : ∀ a < n, ∑ b ∈ range n, A a b * q b = v a) (h0 : ∀ b, n ≤ b → q b = 0) :
    exactSolve n A v = some q := by
  have h : Regular n A ∧ ∃ z : ℕ → ℝ, (∀ a < n, ∑ b ∈ range n, A a b * z b = v a) ∧ ∀ b, n ≤ b → z b = 0 :=
    ⟨hA, q, hq, h0⟩
  unfold exactSolve
  rw [dif_pos h]
  congr 1
  obtain ⟨h1, h2⟩ := h.2.choose_spec
  funext b
  by_cases hb : b < n
  · have := hA (fun b => h.2.choose b - q b) (by
      intro a ha
      simp only [mul_sub, sum_sub_distrib]
      rw [h1 a ha, hq a ha, sub_self]) b hb
    linarith
  · rw [h2 b (by omega), h0 b (by omega)]

/-- Splines of order 1 on three knots. -/
def three : Spec := { order := 1, knots := [0, 1, 2] }

/-- The matrix of `findParameters`. -/
noncomputable def matOf (m : Spec) (len : ℕ) (dist : ℕ → ℝ) (kpar : ℕ) : ℕ → ℕ → ℝ :=
  let head := m.leftRows kpar ++ m.innerRows len dist
  let rows := head ++ m.rightRows len dist head.length
  fun r c => if r = (len - 1) * (m.order + 1) - 1 then m.lastRow len dist kpar c else rows.getD r (fun _ => 0) c

theorem find_exact (m : Spec) (len : ℕ) (dist : ℕ → ℝ) (kpar : ℕ) (q : ℕ → ℝ)
    (hA : Regular ((len - 1) * (m.order + 1)) (matOf m len dist kpar))
    (hq : ∀ a < (len - 1) * (m.order + 1), ∑ b ∈ range ((len - 1) * (m.order + 1)), matOf m len dist kpar a b * q b
      = if a = (len - 1) * (m.order + 1) - 1 then 1 else 0)
    (h0 : ∀ b, (len - 1) * (m.order + 1) ≤ b → q b = 0) : m.findParameters exactSolve len dist kpar = some q := by
  have h := exact_eq _ _ _ q hA hq h0
  unfold matOf at h
  dsimp only at h
  unfold Spec.findParameters
  dsimp only
  rw [h]

theorem three_par0 : three.blobPar exactSolve 0 = some fun b => if b = 0 then 1 else if b = 1 then -1 else 0 := by
  apply find_exact
  · intro z hz b hb
    have h0 := hz 0 (by simp [three, Spec.window])
    have h1 := hz 1 (by simp [three, Spec.window])
    simp [matOf, sum_range_succ, three, Spec.window, Spec.leftRows, Spec.innerRows, Spec.rightRows, Spec.lastRow, Spec.ne1,
      place, diffRow, turn, power, mul, List.range_succ, Spec.dist] at h0 h1 hb
    interval_cases b <;> linarith
  · intro a ha
    simp [three, Spec.window] at ha
    interval_cases a <;> simp [matOf, sum_range_succ, three, Spec.window, Spec.leftRows, Spec.innerRows, Spec.rightRows,
      Spec.lastRow, Spec.ne1, place, diffRow, turn, power, mul, List.range_succ, Spec.dist]
  · intro b hb
    simp [three, Spec.window] at hb
    rw [if_neg (by omega), if_neg (by omega)]

theorem three_par1 : three.blobPar exactSolve 1
    = some fun b => if b = 1 then 1 / 2 else if b = 2 then 1 / 2 else if b = 3 then -1 / 2 else 0 := by
  apply find_exact
  · intro z hz b hb
    have h0 := hz 0 (by simp [three, Spec.window])
    have h1 := hz 1 (by simp [three, Spec.window])
    have h2 := hz 2 (by simp [three, Spec.window])
    have h3 := hz 3 (by simp [three, Spec.window])
    norm_num [matOf, sum_range_succ, three, Spec.window, Spec.leftRows, Spec.innerRows, Spec.rightRows, Spec.lastRow, Spec.ne1,
      place, diffRow, turn, power, mul, List.range_succ, Spec.dist] at h0 h1 h2 h3 hb
    interval_cases b <;> linarith
  · intro a ha
    simp [three, Spec.window] at ha
    interval_cases a <;> norm_num [matOf, sum_range_succ, three, Spec.window, Spec.leftRows, Spec.innerRows, Spec.rightRows,
      Spec.lastRow, Spec.ne1, place, diffRow, turn, power, mul, List.range_succ, Spec.dist]
  · intro b hb
    simp [three, Spec.window] at hb
    rw [if_neg (by omega), if_neg (by omega), if_neg (by omega)]

theorem three_par2 : three.blobPar exactSolve 2 = some fun b => if b = 1 then 1 else 0 := by
  apply find_exact
  · intro z hz b hb
    have h0 := hz 0 (by simp [three, Spec.window])
    have h1 := hz 1 (by simp [three, Spec.window])
    norm_num [matOf, sum_range_succ, three, Spec.window, Spec.leftRows, Spec.innerRows, Spec.rightRows, Spec.lastRow, Spec.ne1,
      place, diffRow, turn, power, mul, List.range_succ, Spec.dist] at h0 h1 hb
    interval_cases b <;> linarith
  · intro a ha
    simp [three, Spec.window] at ha
    interval_cases a <;> norm_num [matOf, sum_range_succ, three, Spec.window, Spec.leftRows, Spec.innerRows, Spec.rightRows,
      Spec.lastRow, Spec.ne1, place, diffRow, turn, power, mul, List.range_succ, Spec.dist]
  · intro b hb
    simp [three, Spec.window] at hb
    rw [if_neg (by omega)]

/-- The pieces before the normalization. -/
noncomputable def threeRaw (q j k : ℕ) : ℝ :=
  if k = 0 then (if q = 0 then (if j = 0 then 1 else if j = 1 then -1 else 0) else 0)
  else if k = 1 then (if q = 0 then (if j = 1 then 1 / 2 else 0) else if q = 1 then (if j = 0 then 1 / 2 else if j = 1 then -1 / 2 else 0) else 0)
  else if k = 2 then (if q = 1 then (if j = 1 then 1 else 0) else 0)
  else 0

theorem three_basis : ∃ basis, three.makeBasis exactSolve = some basis ∧ ∀ k < three.npmax, ∀ q < 2, ∀ j < 2,
    basis q j k = threeRaw q j k * if k = 1 then 2 else 1 := by
  have h : ∃ raw, three.rawBasis exactSolve = some raw ∧ ∀ k < three.npmax, ∀ q < 2, ∀ j < 2,
      raw q j k = threeRaw q j k := by
    unfold Spec.rawBasis
    have ha : ((List.range three.npmax).all fun k => (three.blobPar exactSolve k).isSome) = true := by
      rw [List.all_eq_true]
      intro k hk
      have : k < 3 := by simpa [three, Spec.npmax] using hk
      interval_cases k
      · rw [three_par0]; rfl
      · rw [three_par1]; rfl
      · rw [three_par2]; rfl
    rw [if_pos ha]
    refine ⟨_, rfl, ?_⟩
    intro k hk q hq j hj
    have : k < 3 := by simpa [three, Spec.npmax] using hk
    interval_cases k
    · rw [three_par0]
      interval_cases q <;> interval_cases j <;> simp [threeRaw, three, Spec.window]
    · rw [three_par1]
      interval_cases q <;> interval_cases j <;> simp [threeRaw, three, Spec.window]
    · rw [three_par2]
      interval_cases q <;> interval_cases j <;> simp [threeRaw, three, Spec.window]
  obtain ⟨raw, hraw, hval⟩ := h
  have hblob : ∀ k < 3, ∀ r < 3, three.basicBlob three.order (fun q j => raw q j k) (three.points r)
      = if k = r then (if k = 1 then 1 / 2 else 1) else 0 := by
    intro k hk r hr
    rw [blob_pieces]
    have v := fun q hq j hj => hval k hk q hq j hj
    have v00 := v 0 (by norm_num) 0 (by norm_num)
    have v01 := v 0 (by norm_num) 1 (by norm_num)
    have v10 := v 1 (by norm_num) 0 (by norm_num)
    have v11 := v 1 (by norm_num) 1 (by norm_num)
    interval_cases r <;> interval_cases k <;>
      norm_num [pieces, three, Spec.knotIndex, Spec.points, Spec.npmax, sum_range_succ, v00, v01, v10, v11, threeRaw]
  have hsolve := exact_eq 3 (fun r k => three.basicBlob three.order (fun q j => raw q j k) (three.points r)) (fun _ => 1)
    (fun k => if k = 0 then 1 else if k = 1 then 2 else if k = 2 then 1 else 0) (by
      intro z hz b hb
      have h := hz b hb
      interval_cases b <;> simpa [sum_range_succ, hblob] using h) (by
      intro a ha
      interval_cases a <;> norm_num [sum_range_succ, hblob]) (by
      intro b hb
      rw [if_neg (by omega), if_neg (by omega), if_neg (by omega)])
  refine ⟨fun q j k => raw q j k * (if k = 0 then 1 else if k = 1 then 2 else if k = 2 then 1 else 0), ?_, ?_⟩
  · unfold Spec.makeBasis
    rw [hraw, Option.bind_some]
    unfold Spec.normalizeBasis
    have : three.npmax = 3 := rfl
    dsimp only
    rw [this, hsolve]
    rfl
  · intro k hk q hq j hj
    dsimp only
    rw [hval k hk q hq j hj]
    have : k < 3 := by simpa [three, Spec.npmax] using hk
    interval_cases k <;> simp

/-- The hypotheses of C75 and C76 are met: the basis of order 1 on three knots is made by an exact solver and each of
the three parameters has influence. -/
example : ∃ basis, three.makeBasis exactSolve = some basis ∧ SolveSpec exactSolve ∧ SolveRegular exactSolve ∧
    2 ≤ three.knots.length ∧ three.knots.Pairwise (· ≤ ·) ∧
    ∀ k < three.npmax, ∃ x, three.result basis x (fun n => if n = k then 1 else 0) ≠ 0 := by
  obtain ⟨basis, hb, hval⟩ := three_basis
  refine ⟨basis, hb, exact_spec, exact_regular, by simp [three], by simp [three], ?_⟩
  intro k hk
  refine ⟨k, ?_⟩
  have : k < 3 := by simpa [three, Spec.npmax] using hk
  rw [result_blobs]
  simp only [blob_pieces]
  have v00 := hval k hk 0 (by norm_num) 0 (by norm_num)
  have v01 := hval k hk 0 (by norm_num) 1 (by norm_num)
  have v10 := hval k hk 1 (by norm_num) 0 (by norm_num)
  have v11 := hval k hk 1 (by norm_num) 1 (by norm_num)
  interval_cases k <;>
    norm_num [pieces, three, Spec.knotIndex, Spec.npmax, sum_range_succ, v00, v01, v10, v11, threeRaw]

end BF.BasicSplines
